import Verif.IeeeEndProps
import Verif.TotalProps
import Verif.MdecProps

/-!
# C101 for scripts, and C102: small models

Cases that meet all hypotheses are in `IeeeTotalExample.lean`.
-/

namespace Verif.Ieee

open Verif Verif.Text Verif.App.Spec Verif.Decoder Verif.Decoder.Beam Verif.Ieee.Spec Verif.Main Verif.Main.Spec

/-- C101, scripts.  With a model as in `C101_program` and a script whose lines name audio files that are not too long, the
program runs to its end and writes one line for each line of the script, in their order: the name and what was recognised. -/
theorem C101_script {G : Type} {lib : Lib} {nlib : NnLib} {vm : List F32 → List (List F32) → List F32} (hl : LibLaws lib)
    (hnl : NnLaws nlib vm) (mach : Machine G F32 F64) (har : mach.ar = machine) (hfb : Fbank.make (fbank lib) = .ok mach.fb)
    (hcv : mach.conv = fun n : ℤ => fit binary32 (n : ℚ)) (hnn : mach.nn = nnet nlib) (w : App.World G) (conf bytes : Str)
    (defs : List (Str × Str)) (m : App.Spec.Model G) (hf : w.file conf = some bytes) (hc : IsConf bytes defs)
    (hi : Installed w conf defs m) (ho : m.Ok w) (e wd : Nat) (hfit : Fits mach m vm e wd) {a d : ℕ}
    (hg : Robust (m.layers.map (valueLayer fun x => mach.word (some x))) 7 a)
    (hp : ∀ x ∈ m.prior, AtMost d (mach.word (some (w.log x)))) (had : max a d + 1 ≤ 126) :
    ∃ r, IsRec mach w m r ∧ ∀ (P : Int → Prop) (N k : Nat) (W q : Rat), Sturdy r.dec P e N k → Lively r.dec.g → 0 ≤ W →
      Modest r.dec P W → Is mach.amScale q →
      (∀ s, ∀ a ∈ r.dec.g.arcs s, a.olabel ≠ 0 → ∃ v, Spells m.symbols a.olabel v) →
      2 ^ 62 * (N + 1) ^ k ≤ mach.fuel →
      ∀ (scp : Str) (es : List ScriptEntry), 4 ≤ scp.length → ¬ IsWav scp →
      w.file scp = some (es.map fun x => x.line ++ x.eol).flatten →
      (∀ x ∈ es, x.Ok ∧ ∃ file data b n, w.file x.wav = some file ∧ IsAudio file b data ∧
        n = Fbank.Spec.numFrames (data.length / b) * (k + 1) + k ∧ n < 100000 ∧
        ((n + 1 : Nat) : Rat) * (2 * W + |q| * 2 ^ (max a d + 1)) ≤ 2 ^ 100) →
      ∀ junk : Nat → Junk F32, ∃ ts, ts.length = es.length ∧
        main mach w junk [conf, scp] = ⟨List.zipWith (fun x t => Out.line (x.name ++ [32] ++ t)) es ts, .ok ()⟩ := by
  obtain ⟨r, hir, key⟩ := C101_program hl hnl mach har hfb hcv hnn w conf bytes defs m hf hc hi ho e wd hfit hg hp had
  obtain ⟨s, h', hx, hh⟩ := App.C65_load w conf bytes defs m ⟨0, []⟩ hf hc hi ho
  refine ⟨r, hir, fun P N k W q hst hv hW hm hq hw hfu scp es h4 hnw hscp hes junk => ?_⟩
  have each : ∀ (i : Nat) x, es[i]? = some x → ∃ t, main mach w (fun _ => junk i) [conf, x.wav] = ⟨[.line t], .ok ()⟩ := by
    intro i x hx
    obtain ⟨o, file, data, b, n, n1, n2, n3, n4, n5⟩ := hes x (List.mem_of_getElem? hx)
    obtain ⟨t, -, ht⟩ := key P N k W q hst hv hW hm hq hw hfu x.wav file data b n o.isWav n1 n2 n3 n4 n5 fun _ => junk i
    exact ⟨t, ht⟩
  have all : ∀ (j : Nat) (xs : List ScriptEntry), es.drop j = xs → ∃ ts : List Str, ts.length = xs.length ∧
      ∀ (i : Nat) x t, (xs.zip ts)[i]? = some (x, t) →
        main mach w (fun _ => junk (j + i)) [conf, x.wav] = ⟨[.line t], .ok ()⟩ := by
    intro j xs
    induction xs generalizing j with
    | nil => exact fun _ => ⟨[], rfl, fun i x t h => by simp at h⟩
    | cons x xs ih =>
      intro hj
      obtain ⟨t, ht⟩ := each j x (by rw [← Nat.add_zero j, ← List.getElem?_drop, hj]; rfl)
      obtain ⟨ts, h1, h2⟩ := ih (j + 1) (by rw [← List.drop_drop, hj]; rfl)
      refine ⟨t :: ts, by rw [List.length_cons, List.length_cons, h1], fun i y u h => ?_⟩
      cases i with
      | zero => cases h; exact ht
      | succ i =>
        rw [List.zip_cons_cons, List.getElem?_cons_succ] at h
        rw [show j + (i + 1) = j + 1 + i by omega]
        exact h2 i y u h
  obtain ⟨ts, t1, t2⟩ := all 0 es rfl
  refine ⟨ts, t1, ?_⟩
  have hfst : (es.zip ts).map Prod.fst = es := List.map_fst_zip (by omega)
  have hfile : w.file scp = some (((es.zip ts).map fun p => p.1.line ++ p.1.eol).flatten) := by
    rw [hscp, show (fun p : ScriptEntry × Str => p.1.line ++ p.1.eol) = (fun x : ScriptEntry => x.line ++ x.eol) ∘ Prod.fst from rfl,
      ← List.map_map, hfst]
  rw [C69_script_partial mach w conf scp _ s h' none hx h4 hnw junk (es.zip ts) hfile fun i x t h => by
    refine ⟨(hes x ?_).1, by have := t2 i x t h; rwa [Nat.zero_add] at this⟩
    rw [← hfst]
    exact List.mem_map.2 ⟨_, List.mem_of_getElem? h, rfl⟩]
  rw [List.zip, List.map_zipWith]

/-- C102, the program.  A model as in `C101_program` with no more than 30000 pairs of a state of the graph and one of the
language model, and audio whose costs are small enough for the margin: the program runs to its end, and the line it writes is
the words of a path which, without rounding, costs at most `2 * (n + 1) * B / 2 ^ 20` more than any path that stays inside the
beam less the margin, if there is one. -/
theorem C102_program {G : Type} {lib : Lib} {nlib : NnLib} {vm : List F32 → List (List F32) → List F32} (hl : LibLaws lib)
    (hnl : NnLaws nlib vm) (mach : Machine G F32 F64) (har : mach.ar = machine) (hfb : Fbank.make (fbank lib) = .ok mach.fb)
    (hcv : mach.conv = fun n : ℤ => fit binary32 (n : ℚ)) (hnn : mach.nn = nnet nlib) (w : App.World G) (conf bytes : Str)
    (defs : List (Str × Str)) (m : App.Spec.Model G) (hf : w.file conf = some bytes) (hc : IsConf bytes defs)
    (hi : Installed w conf defs m) (ho : m.Ok w) (e wd : Nat) (hfit : Fits mach m vm e wd) {a d : ℕ}
    (hg : Robust (m.layers.map (valueLayer fun x => mach.word (some x))) 7 a)
    (hp : ∀ x ∈ m.prior, AtMost d (mach.word (some (w.log x)))) (had : max a d + 1 ≤ 126)
    (input : Str) (file data : List UInt8) (b : Nat) (hwav : IsWav input) (hfile : w.file input = some file)
    (ha : IsAudio file b data) :
    ∃ r rows, IsRec mach w m r ∧ Scores r vm b data rows ∧
      ∀ (s0 : State) (P : Int → Prop) (N k K M : Nat) (W q B : Rat) (n : Nat), StartState r.dec s0 → Sturdy r.dec P e N k → Lively r.dec.g → 0 ≤ W →
      Modest r.dec P W → Is mach.amScale q →
      (∀ s, ∀ a ∈ r.dec.g.arcs s, a.olabel ≠ 0 → ∃ v, Spells m.symbols a.olabel v) →
      2 ^ 62 * (N + 1) ^ k ≤ mach.fuel → Compact r.dec P K M → K * M ≤ 30000 →
      n = rows.length * (k + 1) + k → n < 100000 →
      ((n + 1 : Nat) : Rat) * (2 * W + |q| * 2 ^ (max a d + 1)) ≤ B → 16 ≤ B → B ≤ 2 ^ 100 →
      ∀ width : Rat, width + (2 * n + 4) * (B / 2 ^ 20) ≤ 16 →
      ∀ junk : Nat → Junk F32, ∃ t, main mach w junk [conf, input] = ⟨[.line t], .ok ()⟩ ∧
        ((∃ p x, Stays r.dec s0 rows true B width p x) → ∃ p y ws, Total r.dec s0 rows true B p y ∧
          (∀ p' x, Stays r.dec s0 rows true B width p' x → y ≤ x + 2 * (n + 1) * (B / 2 ^ 20)) ∧
          ws.length = (wordsOf p).length ∧
          (∀ (i : Nat) id word, (wordsOf p)[i]? = some id → ws[i]? = some word → Spells m.symbols id word) ∧
          t = join [32] ws) := by
  obtain ⟨s, h', hx, hh⟩ := App.C65_load w conf bytes defs m ⟨0, []⟩ hf hc hi ho
  obtain ⟨r, hr, hir⟩ := recogniser_holds mach hh ho
  have S := sound_of_fits hir hfit
  obtain ⟨rows, hsc, hat⟩ := C100_all hl hnl (r := r) (by rw [hir.fb]; exact hfb) (by rw [hir.conv]; exact hcv)
    (by rw [hir.nn]; exact hnn) S.hb (by
      have h1 := S.hsize
      have h2 : 1 * wd ≤ (m.chunk + m.left + m.right + m.right) * wd := Nat.mul_le_mul_right _ (by have := S.hc; omega)
      omega) (by rw [hir.layers]; exact hg)
    (by
      rw [hir.prior]
      intro v hv
      obtain ⟨x, hx, rfl⟩ := List.mem_map.1 hv
      exact hp x hx) had ha.1 data
  refine ⟨r, rows, hir, hsc, fun s0 P N k K M W q B n hs hst hv hW hm hq hw hfu hK hKM hn hn1 hB hB1 hB2 width hwd junk => ?_⟩
  have hq0 : 0 ≤ |q| * 2 ^ (max a d + 1) := mul_nonneg (abs_nonneg q) (by positivity)
  have hcalm : Calm r.dec (|q| * 2 ^ (max a d + 1)) rows := by
    refine ⟨q, by rw [hir.amScale]; exact hq, fun f hf lp hlp => ?_⟩
    obtain ⟨x, hx, hx'⟩ := hat f hf lp hlp
    exact ⟨x, hx, by rw [abs_mul]; exact mul_le_mul_of_nonneg_left hx' (abs_nonneg q)⟩
  obtain ⟨ds, d1, d2⟩ := cut_exists ((junk 0).piece 0) data
  have hn1' := hn1
  have hB' := hB.trans hB2
  rw [hn] at hn1' hB'
  obtain ⟨u, hu⟩ := C101_utterance S (hir.ar.trans har) hst hv hW hq0 hm
    (fun s a ha h0 => (hw s a ha h0).imp fun v hv => (hir.words _ v).2 hv) (by
      rw [recogniser_fuel hr]; exact hfu) ha.1 data rows hsc hcalm hn1' hB' (fun _ => 0) ds d1 d2
  obtain ⟨feats, rows', d0, d', u', words, weight, g1, g2, g3, g4, g5, g6, g7, g8, g9, g10⟩ :=
    Stt.C29_end_to_end_partial S ⟨1, 16000, 8 * b⟩ b rfl (fun _ => 0) ds d1 _ _ hu
  rw [d2] at g1 g2
  obtain rfl : rows = rows' := scores_unique hsc ⟨feats, g1, g2, g3⟩
  obtain ⟨ws, w1, w2, w3⟩ := storeHypText_ok g10
  cases g6
  refine ⟨join [32] ws, ?_, fun hp => ?_⟩
  · rw [main_wav mach hx hwav, hr, say_iff]
    refine ⟨[], _, (processAudio_iff S hfile ha (junk 0) (fun _ => 0) ds d1 d2 [] _).mpr ⟨rfl, u, .none, hu, ?_⟩, rfl⟩
    rw [w2]
    exact fromC_hyp w3
  · obtain ⟨bs, cs, hrun⟩ := Stt.decodeRows_run (.init g4) g5
    rw [List.nil_append] at hrun
    have hmild : Mild r.dec s0 rows true B n := modest_mild hst hW hq0 hm hcalm hs (by omega) (by exact_mod_cast hB) true
    obtain ⟨_, p, y, q1, q2, q3⟩ := C98_answer (hir.ar.trans har) hB1 hB2 (by omega) hrun hs (C102_few hst hK hKM rows) hmild
      (eos := true) g9 hwd hp
    refine ⟨p, y, ws, q1, q3, ?_, fun i id word hid hword => ?_, rfl⟩
    · have := congrArg List.length w1
      rw [← q2]
      simpa using this.symm
    · rw [← q2] at hid
      have := congrArg (·[i]?) w1
      simp only [List.getElem?_map, hid, hword, Option.map_some, Option.some.injEq] at this
      exact (hir.words id word).mp this

theorem run_of_fold {e : Env F32 F64} {fuel : Nat} : ∀ (xs : List (List F32)) {gs : List (List F32)} {bs bs' : List Bool}
    {cs : List (Option (Cutoffs F32 F64))} {d d' : Dec F32}, Run e gs bs cs d →
    xs.foldlM (fun (x : Dec F32 × List Bool) f => (do
        let (b, _, d) ← process e fuel f x.1
        .ok (d, x.2 ++ [b]) : Exec (Dec F32 × List Bool))) (d, bs) = .ok (d', bs') → ∃ cs', Run e (gs ++ xs) bs' cs' d'
  | [], gs, bs, bs', cs, d, d', hr, h => by
    cases h
    rw [List.append_nil]
    exact ⟨cs, hr⟩
  | f :: xs, gs, bs, bs', cs, d, d', hr, h => by
    rw [List.foldlM_cons] at h
    cases hp : process e fuel f d with
    | error x => rw [hp] at h; cases h
    | ok x =>
      obtain ⟨b, c, d1⟩ := x
      rw [hp] at h
      obtain ⟨cs', h'⟩ := run_of_fold xs (.frame hr hp) h
      exact ⟨cs', by rwa [List.append_assoc] at h'⟩

/-- C102, the memory of the decoder.  Where `C101_decoder` applies, the language model answers with the label it is asked for,
all numbers are small enough for the hash functions and there are no more than 46338 pairs of states: unless a collection of
word histories starts with a stale mark, which none does in the first twenty frames, the decoder with its memory takes every
frame, refuses none, and has an answer at the end: that of the decoder with values. -/
theorem C102_memory {e : Env F32 F64} (he : e.ar = machine) {P : Int → Prop} {width N k : Nat} (h : Sturdy e P width N k)
    (hv : Lively e.g) {W S : Rat} (hW : 0 ≤ W) (hS : 0 ≤ S) (hm : Modest e P W) (rows : List (List F32)) (hc : Calm e S rows)
    (hl : ∀ f ∈ rows, f.length = width) (hn : rows.length * (k + 1) + k < 100000)
    (hB : ((rows.length * (k + 1) + k + 1 : Nat) : Rat) * (2 * W + S) ≤ 2 ^ 100) {K M : Nat} (hK : Compact e P K M)
    (hKM : K * M ≤ 46338) (hll : Mdec.LmLabels e) (hsm : Mdec.Small e) :
    (Mdec.Stale e rows ∨ ∃ m bs cs, Mdec.MRun e Mdec.NoStale rows bs cs m ∧ bs.length = rows.length ∧ (∀ b ∈ bs, b = true) ∧
      ∃ ws w, Mdec.bestPath e { m with eos := true } = .ok (ws, w)) ∧
    (rows.length ≤ 20 → ¬ Mdec.Stale e rows) := by
  have hns : rows.length ≤ 20 → ¬ Mdec.Stale e rows := fun h20 =>
    (Mdec.C71_no_stale_mark hll 0 (by omega) fun i bs cs d _ h1 h2 => by omega).1
  refine ⟨?_, hns⟩
  obtain ⟨d0, d, bs, i1, i2, i3, i4, ws, w, i5⟩ := C101_decoder he h hv hW hS hm rows hc hl hn hB (le_refl (2 ^ 62 * (N + 1) ^ k))
  obtain ⟨cs, hr⟩ := run_of_fold rows (.init i1) i2
  rw [List.nil_append] at hr
  have hlen : rows.length ≤ 2147483647 := by
    have : rows.length * 1 ≤ rows.length * (k + 1) := Nat.mul_le_mul_left _ (by omega)
    omega
  rcases Mdec.C71_completes_partial hll hsm hr (C102_few_memory h hK hKM rows) hlen with hst | ⟨m, m1, m2, m3⟩
  · exact .inl hst
  · refine .inr ⟨m, bs, cs, m1, i3, i4, ws, w, ?_⟩
    obtain ⟨d2, r2, _, r3, _⟩ := Mdec.C71_same_answers_partial hll m1
    obtain ⟨_, _, rfl⟩ := Decoder.run_unique hr r2
    exact (r3 true _).mpr i5

end Verif.Ieee
