import Verif.BeamMainSpec
import Verif.BeamProps
import Verif.MainProps
import Verif.OverflowLemmas

/-!
# C95, the program
-/

namespace Verif.Main

open Verif Verif.Text Verif.App.Spec Verif.Main.Spec Verif.Decoder Verif.Decoder.Beam

variable {F D G : Type}

/-- C95, the program.  Where `C68_program` applies, `rows` being the scores of the audio file: if some cheapest path of the
decoding graph (with the language model) over the rows never leaves the beam, then the line the program writes is the words
of a cheapest path, in spoken order; as long as no frame is refused, there are never more than 30000 tokens and no path has
a cost that is not a number.  Missing: the same as in `C95_cheapest_partial`. -/
theorem C95_program_partial (mach : Machine G F D) (w : App.World G) (conf bytes : Str) (defs : List (Str × Str))
    (m : App.Spec.Model G) (hf : w.file conf = some bytes) (hc : IsConf bytes defs) (hi : Installed w conf defs m)
    (ho : m.Ok w) (vm : List F → List (List F) → List F) (e wd : Nat) (hfit : Fits mach m vm e wd)
    (input : Str) (hw : IsWav input) (file data : List UInt8) (b : Nat) (hfile : w.file input = some file)
    (ha : IsAudio file b data) {fn : F → Bool} {dn : D → Bool} (hord : DOrder mach.ar) (hl : NanLaws mach.ar fn dn)
    (hm : MonoLaws mach.ar fn dn) :
    ∃ r, IsRec mach w m r ∧ ∀ (junk : Nat → Junk F) (out : List Out), main mach w junk [conf, input] = ⟨out, .ok ()⟩ →
      ∃ rows, Scores r vm b data rows ∧ ∀ s0 p x, StartState r.dec s0 → Alive r.dec rows → Few r.dec rows →
        NoNan r.dec fn s0 rows → NoNanEnd r.dec dn s0 rows true → Kept r.dec s0 rows true p x →
        r.dec.ar.dlt x r.dec.ar.inf = true → (∀ q y, Whole r.dec s0 rows true q y → r.dec.ar.dlt y x = false) →
        ∃ q ws, Cheapest r.dec s0 rows true q ∧ ws.length = (wordsOf q).length ∧
          (∀ (i : Nat) id word, (wordsOf q)[i]? = some id → ws[i]? = some word → Spells m.symbols id word) ∧
          out = [.line (join [32] ws)] := by
  obtain ⟨r, hr, h⟩ := C68_program mach w conf bytes defs m hf hc hi ho vm e wd hfit input hw file data b hfile ha
  refine ⟨r, hr, fun junk out hmain => ?_⟩
  obtain ⟨ids, ws, ⟨feats, rows, d0, d, weight, g1, g2, g3, g4, g5, g6⟩, h2, h3, h4⟩ := h junk out hmain
  refine ⟨rows, ⟨feats, g1, g2, g3⟩, fun s0 p x hs hal hfew hnn hne hk hx hmin => ?_⟩
  obtain ⟨bs, cs, hrun⟩ := Stt.decodeRows_run (.init g4) g5
  rw [List.nil_append] at hrun
  rw [← hr.ar] at hord hl hm
  obtain ⟨q, q1, q2⟩ := C95_cheapest_partial hord hl hm hrun (hal _ _ _ _ (List.prefix_refl _) hrun) hs hfew hnn hne
    (eos := true) g6 hk hx hmin
  rw [q2] at h3
  exact ⟨q, ws, q1, by rw [h2, ← q2, List.length_reverse], h3, h4⟩

/-! ## The small model directory, with an arithmetic for which the laws hold -/

namespace Ex

/-- Integers, of which all from 500000000 on are infinite: a sum with one is infinite, and none is below another. -/
def sat : Arith Int Int where
  fadd a b := if a < 500000000 ∧ b < 500000000 then a + b else 1000000000
  fmul := (· * ·)
  fneg := fun x => -x
  zero := 0
  flt a b := decide (a < b ∧ a < 500000000)
  fdiv := fun a b => (a / b : Nat)
  toD := id
  toF := id
  dadd a b := if a < 500000000 ∧ b < 500000000 then a + b else 1000000000
  dsub := (· - ·)
  dlt a b := decide (a < b ∧ a < 500000000)
  finite := fun x => decide (x < 500000000)
  inf := 1000000000
  isInf := fun x => decide (500000000 ≤ x)
  beam := 16
  beamDelta := 1

theorem sat_order : DOrder sat where
  trans {a b c} := by simp only [sat, decide_eq_true_eq]; omega
  irrefl a := by simp only [sat, decide_eq_false_iff_not]; omega
  inf_max {a} h b := by simp only [sat, decide_eq_true_eq, decide_eq_false_iff_not] at h ⊢; omega
  isInf_inf := rfl

theorem sat_nan : NanLaws sat (fun _ => false) (fun _ => false) :=
  ⟨nofun, nofun, nofun, nofun, nofun, nofun, nofun, nofun, nofun, nofun, nofun, nofun, rfl, rfl⟩

theorem sat_mono : MonoLaws sat (fun _ => false) (fun _ => false) where
  fasymm {a b} := by simp only [sat, decide_eq_true_eq, decide_eq_false_iff_not]; omega
  ftrans {a b c} := by simp only [sat, decide_eq_true_eq]; omega
  fle {a b c} _ := by simp only [sat, decide_eq_false_iff_not]; omega
  dasymm {a b} := by simp only [sat, decide_eq_true_eq, decide_eq_false_iff_not]; omega
  dtrans {a b c} := by simp only [sat, decide_eq_true_eq]; omega
  dle {a b c} _ := by simp only [sat, decide_eq_false_iff_not]; omega
  fadd {a b} c := by simp only [sat, decide_eq_false_iff_not]; split <;> split <;> omega
  dadd {a b} c := by simp only [sat, decide_eq_false_iff_not]; split <;> split <;> omega
  toD h := h
  toF h := h

/-- The machine. -/
def mach' : Machine Unit Int Int := { mach with ar := sat }

/-- The recogniser the stages see. -/
def rec' : Stt.Rec Int Int := { rec with dec := ⟨sat, Stt.toyGraph, none, [0, 0], 1⟩ }

theorem recogniser_self' : mach'.recogniser self = some rec' := by
  have : mach'.amOf ⟨⟨1, 0, layers.map Ser.Spec.full⟩, List.replicate 80 0, 1, 0, 2, 1, [0, 0]⟩ = Stt.toyRec.am := by
    unfold Machine.amOf
    congr 1
  unfold Machine.recogniser self rec' rec
  simp only [Machine.lmOf]
  rw [this]
  rfl

theorem rec_sound' : Stt.Sound rec' Nnet.toyVecMat 80 1 0 2 80 :=
  { Stt.toyRec_sound with }

/-- The program writes "hi". -/
theorem run_hi' (junk : Nat → Junk Int) :
    main mach' world junk [[100, 47, 99], [97, 46, 119, 97, 118]] = ⟨[.line [104, 105]], .ok ()⟩ := by
  obtain ⟨h, c, hx⟩ := loaded
  have hw : IsWav [97, 46, 119, 97, 118] := isWav_of [97] rfl
  rw [main_wav mach' hx hw, recogniser_self', say_iff]
  have h : (do
      let d0 ← Decoder.initDecoder rec'.dec rec'.fuel Decoder.fresh
      let back ← (List.replicate 2 Stt.flatRow).foldlM (Stt.backStep rec') ⟨Am.Inst.new, d0, [0], 0⟩
      let v ← Stt.finish rec' (fun _ => 1) ⟨⟨true, Stt.toyFormat, []⟩, [], back⟩
      .ok v.back.hyp) = (.ok [104, 105, 0] : Exec Str) := by decide +kernel
  obtain ⟨d0, h0, h⟩ := bind_ok h
  obtain ⟨back, h1, h⟩ := bind_ok h
  obtain ⟨v, h2, h⟩ := bind_ok h
  have hcs : ∀ p ∈ [(Stt.toyMem 1 1, List.replicate 560 (3 : UInt8))], p.2 ≠ [] ∧ p.2.length < 536870500 := by
    decide +kernel
  obtain ⟨u, h3, h4⟩ := Stt.recognise_ok rec_sound' (fmt := Stt.toyFormat) rfl (b := 1) .w8 (fun _ => 1)
    [(Stt.toyMem 1 1, List.replicate 560 3)] hcs h0 (Stt.toy_features 1 _ (by decide +kernel)) h1 h2
  injection h with h
  exact ⟨[], [104, 105], (processAudio_iff rec_sound' (file := header 48 2 ++ List.replicate 560 3) rfl
    (header_ok 48 2 (List.replicate 560 3)) (junk 0)
    (fun _ => 1) [(Stt.toyMem 1 1, List.replicate 560 3)] hcs (by decide +kernel) [] [104, 105]).mpr
    ⟨rfl, u, .none, h3, by rw [h4, h]; exact fromC_hyp (s := [104, 105]) (by decide)⟩, rfl⟩

/-- The scores of either frame of `a.wav`. -/
def hiRow : List Int := Stt.flatRow ++ Stt.flatRow

theorem hi_scores_of {r : Stt.Rec Int Int} (hconv : r.conv = mach'.conv) (hfb : r.fb = mach'.fb) (hnn : r.nn = mach'.nn)
    (hls : r.am.layers = model.layers.map (valueLayer fun x => mach'.word (some x)))
    (hpr : r.am.logPrior = model.prior.map fun x => mach'.word (some (world.log x))) {rows : List (List Int)}
    (h : Scores r Nnet.toyVecMat 1 (List.replicate 560 3) rows) : rows = [hiRow, hiRow] := by
  obtain ⟨feats, h1, h2, h3⟩ := h
  rw [hconv] at h1 h2
  rw [hfb] at h1
  have h4 := Stt.toy_features 1 (List.replicate 560 3) List.length_replicate
  rw [show (Pcm.Spec.samples 1 (List.replicate 560 3)).map mach'.conv =
    (Pcm.Spec.samples 1 (List.replicate 560 3)).map id from rfl] at h1
  have h1 : feats = List.replicate (1 + 1) Stt.flatRow := Except.ok.inj (h1.symm.trans h4)
  clear h4
  subst h1
  rw [hnn, hls, hpr] at h3
  have h2 : rows.length = 2 := h2.trans (by decide +kernel)
  match rows, h2 with
  | [x, y], _ =>
    have g1 := h3 0 (by simp)
    have g2 := h3 1 (by simp)
    have e1 : ∀ t ∈ ([0, 1] : List Nat), List.zipWith (fun x y => mach'.nn.add x (mach'.nn.mul mach'.nn.negOne y))
        (Nnet.Spec.series mach'.nn Nnet.toyVecMat (model.layers.map (valueLayer fun x => mach'.word (some x)))
          (Nnet.Spec.edge (List.replicate (1 + 1) Stt.flatRow)) (t : Int))
        (model.prior.map fun x => mach'.word (some (world.log x))) = hiRow := by decide +kernel
    rw [e1 0 (by decide)] at g1
    rw [e1 1 (by decide)] at g2
    cases g1
    cases g2
    rfl

theorem hi_scores {r : Stt.Rec Int Int} (hr : IsRec mach' world model r) {rows : List (List Int)}
    (h : Scores r Nnet.toyVecMat 1 (List.replicate 560 3) rows) : rows = [hiRow, hiRow] :=
  hi_scores_of hr.conv hr.fb hr.nn hr.layers hr.prior h

theorem hi_env {r : Stt.Rec Int Int} (hr : IsRec mach' world model r) : r.dec = rec'.dec := by
  have h1 := hr.ar
  have h2 := hr.graph
  have h3 := hr.pdf
  have h4 := hr.amScale
  have h5 := hr.lm
  generalize r.dec = e at *
  cases e
  simp only at h1 h2 h3 h4 h5
  subst h1 h2 h3 h4
  rw [show model.lm = none from rfl] at h5
  simp only at h5
  subst h5
  rfl

/-- The paths over the two frames. -/
theorem hi_paths {p : List (GArc Int)} {s : State} {c : Int} (h : PathTo rec'.dec (0, 0) [hiRow, hiRow] p s c) :
    (p = [] ∧ s = (0, 0) ∧ c = 0) ∨ (p = [⟨1, 1, 3, 1⟩] ∧ s = (1, 0) ∧ c = -3) ∨
    (p = [⟨1, 1, 3, 1⟩, ⟨1, 0, 0, 2⟩] ∧ s = (2, 0) ∧ c = -9) := by
  have noLm : ∀ {s l s' : Int} {k : Int → Int}, LmMove rec'.dec s l s' k → s' = s ∧ k = id := by
    intro s l s' k h
    cases h with
    | off => exact ⟨rfl, rfl⟩
    | silent h => cases h
    | word h => cases h
    | unknown h => cases h
  have score : ∀ {n : Nat} {f : List Int} {v : Int}, [hiRow, hiRow][n]? = some f → IsScore rec'.dec f 1 v → v = 6 := by
    rintro n f v hf ⟨ti, pi, lp, h1, h2, h3, rfl⟩
    have : ti = 1 := by omega
    subst this
    have : pi = 0 := by
      have : some (0 : Int) = some (pi : Int) := h2
      injection this with this
      omega
    subst this
    have hf' : f = hiRow := by
      match n, hf with
      | 0, hf => exact (Option.some.inj hf).symm
      | 1, hf => exact (Option.some.inj hf).symm
      | n + 2, hf => simp at hf
    subst hf'
    cases Option.some.inj h3
    rfl
  induction h with
  | nil => exact .inl ⟨rfl, rfl, rfl⟩
  | @eps p s c a l k _ h2 h3 h4 ih =>
    exfalso
    rcases ih with ⟨_, rfl, _⟩ | ⟨_, rfl, _⟩ | ⟨_, rfl, _⟩ <;>
      (cases List.mem_singleton.1 h2; cases h3)
  | @emit p s c v a l k f _ h2 h3 h4 h5 h6 ih =>
    obtain ⟨rfl, rfl⟩ := noLm h6
    rcases ih with ⟨rfl, rfl, rfl⟩ | ⟨rfl, rfl, rfl⟩ | ⟨rfl, rfl, rfl⟩
    · cases List.mem_singleton.1 h2
      cases score h4 h5
      exact .inr (.inl ⟨rfl, rfl, rfl⟩)
    · cases List.mem_singleton.1 h2
      cases score h4 h5
      exact .inr (.inr ⟨rfl, rfl, rfl⟩)
    · cases h4

theorem hi_start : StartState rec'.dec (0, 0) := ⟨rfl, .inl ⟨rfl, rfl⟩⟩

/-- The only path never leaves the beam. -/
theorem hi_kept : Kept rec'.dec (0, 0) [hiRow, hiRow] true [⟨1, 1, 3, 1⟩, ⟨1, 0, 0, 2⟩] (-7) := by
  have reached : ∀ n o, Reached rec'.dec (0, 0) [hiRow, hiRow] n o → (n = 0 ∧ o = -3) ∨ (n = 1 ∧ o = -9) := by
    rintro n o ⟨p, s, c, a, f, v, h1, rfl, h2, h3, h4, h5, rfl⟩
    rcases hi_paths (.emit (l := s.2) (k := id) h1 h2 h3 h4 h5 (.off rfl)) with ⟨h, _⟩ | ⟨h, _, g⟩ | ⟨h, _, g⟩
    · simp at h
    · have : p = [] := by
        have := congrArg List.length h
        simpa using this
      subst this
      exact .inl ⟨rfl, g⟩
    · obtain ⟨rfl, h⟩ := List.append_inj (t₂ := ([⟨1, 0, 0, 2⟩] : List (GArc Int)))
        (s₂ := [⟨1, 1, 3, 1⟩]) h (by
        have := congrArg List.length h
        simpa using this)
      exact .inr ⟨rfl, g⟩
  have h0 : InBeam rec'.dec (0, 0) [hiRow, hiRow] [] (0, 0) 0 := .nil
  have h1 := InBeam.emit (e := rec'.dec) (s := (0, 0)) (a := ⟨1, 1, 3, 1⟩) (v := 6) (l := 0) (k := id) h0
    (List.mem_singleton_self _) Int.one_ne_zero rfl ⟨1, 0, 6, rfl, rfl, rfl, rfl⟩ (.off rfl)
    (fun q t c' hq hn => by
      rcases hi_paths hq with ⟨_, _, rfl⟩ | ⟨rfl, _, _⟩ | ⟨rfl, _, _⟩
      · decide
      · cases hn
      · cases hn)
    (fun o ho => by
      rcases reached _ o ho with ⟨_, rfl⟩ | ⟨h, _⟩
      · decide
      · cases h)
  have h2 := InBeam.emit (e := rec'.dec) (s := (1, 0)) (a := ⟨1, 0, 0, 2⟩) (v := 6) (l := 0) (k := id) h1
    (List.mem_singleton_self _) Int.one_ne_zero rfl ⟨1, 0, 6, rfl, rfl, rfl, rfl⟩ (.off rfl)
    (fun q t c' hq hn => by
      rcases hi_paths hq with ⟨rfl, _, _⟩ | ⟨_, _, rfl⟩ | ⟨rfl, _, _⟩
      · cases hn
      · decide
      · cases hn)
    (fun o ho => by
      rcases reached _ o ho with ⟨h, _⟩ | ⟨_, rfl⟩
      · cases h
      · decide)
  exact ⟨_, _, h2, rfl, .inr (.inl ⟨rfl, rfl, rfl⟩)⟩

theorem hi_few : Few rec'.dec [hiRow, hiRow] := C95_few hi_start [(0, 0), (1, 0), (2, 0)] (by decide) fun p s c h => by
  rcases hi_paths h with ⟨_, rfl, _⟩ | ⟨_, rfl, _⟩ | ⟨_, rfl, _⟩ <;> decide

theorem hi_whole : ∀ q y, Whole rec'.dec (0, 0) [hiRow, hiRow] true q y → q = [⟨1, 1, 3, 1⟩, ⟨1, 0, 0, 2⟩] ∧ y = -7 := by
  rintro q y ⟨s, c, h1, h2, h3⟩
  rcases hi_paths h1 with ⟨rfl, _, _⟩ | ⟨rfl, _, _⟩ | ⟨rfl, rfl, rfl⟩
  · cases h2
  · cases h2
  · rcases h3 with ⟨h3, _⟩ | ⟨_, _, rfl⟩ | ⟨_, _, _, h3, _⟩
    · cases h3
    · exact ⟨rfl, rfl⟩
    · cases h3

theorem hi_alive : Alive rec'.dec [hiRow, hiRow] := by
  have g0 : initDecoder rec'.dec 5 fresh = .ok ⟨[⟨(0, 0), 0, []⟩], [], [((0, 0), 0)], 0, false, 1⟩ := by decide +kernel
  have g1 : process rec'.dec 5 hiRow ⟨[⟨(0, 0), 0, []⟩], [], [((0, 0), 0)], 0, false, 1⟩ =
    .ok (true, some ⟨16, 13⟩, ⟨[⟨(1, 0), -3, [1]⟩], [], [((1, 0), 0)], 1, false, 1⟩) := by decide +kernel
  have g2 : process rec'.dec 5 hiRow ⟨[⟨(1, 0), -3, [1]⟩], [], [((1, 0), 0)], 1, false, 1⟩ =
    .ok (true, some ⟨13, 7⟩, ⟨[⟨(2, 0), -9, [1]⟩], [], [((2, 0), 0)], 2, false, 1⟩) := by decide +kernel
  exact alive_of (.frame (.frame (.init g0) g1) g2) (by decide)

-- for `a.wav` all that is asked for holds, so that the line is the words of a cheapest path
example : ∃ (q : List (GArc Int)) (ws : List Str), wordsOf q = [1] ∧ join [32] ws = [104, 105] := by
  obtain ⟨r, hr, h⟩ := C95_program_partial mach' world [100, 47, 99] (App.Ex.confOf defs) defs model conf_file conf_ok
    installed model_ok Nnet.toyVecMat 80 80 { fits with } [97, 46, 119, 97, 118] (isWav_of [97] rfl)
    (header 48 2 ++ List.replicate 560 3) (List.replicate 560 3) 1 rfl (header_ok _ _ _) sat_order sat_nan sat_mono
  obtain ⟨rows, hrows, h⟩ := h junk _ (run_hi' junk)
  cases hi_scores hr hrows
  have hd := hi_env hr
  rw [hd] at h
  obtain ⟨q, ws, ⟨_, hq, _, _⟩, _, _, h3⟩ := h (0, 0) _ _ hi_start hi_alive hi_few (fun _ _ _ _ => rfl) (fun _ _ _ => rfl) hi_kept
    (by decide) (fun q y hy => by rw [(hi_whole q y hy).2]; decide)
  refine ⟨q, ws, ?_, ?_⟩
  · rw [(hi_whole _ _ hq).1]; rfl
  · injection h3 with h3
    injection h3 with h3
    exact h3.symm

end Ex

end Verif.Main
