import Verif.IeeeMainProps
import Verif.MainExample

/-!
# C98, the program: an example

The small model directory of C68 on a machine with the arithmetic of IEEE 754.  Only the functions of the C library and the
Fourier transform are stand-ins.
-/

namespace Verif.Ieee.Ex

open Verif Verif.Text Verif.App.Spec Verif.Main Verif.Main.Spec Verif.Main.Ex Verif.Decoder Verif.Decoder.Beam
open Verif.Ieee.Spec

/-- A row times a matrix, summed from the left. -/
def vecMat (x : List F32) (B : List (List F32)) : List F32 :=
  (List.range (Nnet.numCols B)).map fun j => (List.zipWith (fun a r => mul a (r.getD j none')) x B).foldl add none'

/-- The network in `float`; `exp`, `log` and the root are stand-ins. -/
def nn : Nnet.Ops F32 where
  zero := none'
  negOne := fit _ (-1)
  add := add
  sub := sub
  mul := mul
  div := div
  lt := lt
  ofInt n := fit _ n
  expf := fun x => add (mul x x) one
  exp := fun x => add (mul x x) one
  log := id
  rootOf := div
  gemm := fun A B => A.map fun x => vecMat x B

/-- The features in `float`; `log` and the Fourier transform are stand-ins: every window has the same spectrum. -/
def fb : Fbank.Ops F32 where
  zero := none'
  add := add
  sub := sub
  mul := mul
  div := div
  ofInt n := fit _ n
  preemph x y := sub x (mul (fit _ (97 / 100)) y)
  lt := lt
  nonneg x := !lt x none'
  eps := one
  log := id
  window := List.replicate 400 one
  bins := (List.range 40).map fun i => (3 * i, [one, tenth])
  fft := fun _ b => .ok (List.replicate 512 one, b)

/-- The fork of C98: 0 and 1 with the word 2, a tenth and a tenth with the word 1. -/
def graph : Graph F32 := (fork none' one tenth tenth tenth).g

/-- The machine. -/
def cpu : Machine Unit F32 F64 where
  graph _ := graph
  word o := fit _ (o.getD 0 : Nat)
  conv n := fit _ n
  fb := fb
  nn := nn
  ar := machine
  lm := ⟨add, sub, isNum, .inf false⟩
  amScale := tenth
  perFrame x n := div x (ofNat n)
  zero := none'
  fuel := 10
  lmFuel := 10

/-- The network. -/
def net : List (Nnet.Layer F32) := [.splice [-1, 0], .narrow 1 0, .relu]

/-- The recogniser the stages see. -/
def hears : Stt.Rec F32 F64 where
  conv n := fit _ n
  fb := fb
  nn := nn
  am := ⟨net, List.replicate 80 none', 1, 0, 2⟩
  dec := ⟨machine, graph, none, [0, 0], tenth⟩
  fuel := 10
  syms := table.words
  perFrame x n := div x (ofNat n)
  zero := none'

theorem rowWise : Nnet.Spec.RowWise nn vecMat where
  gemm := fun _ _ _ => rfl
  size := fun x B n _ h0 hB => by
    unfold vecMat
    rw [List.length_map, List.length_range, Nnet.numCols_of h0 hB]

theorem net_built : Nnet.Spec.Built net 40 80 1 0 80 := by
  refine .context (l := 1) (r := 0) (L := 0) (R := 0) (by decide) (by decide) (by decide) (by decide)
    (by decide) (.inr (by decide)) (.inl rfl) ?_
  refine .row (e := 80) (by decide) (by decide) .relu ?_
  exact .nil (by decide) (by decide)

theorem fb_tables : Fbank.Spec.Tables fb := by
  refine ⟨List.length_replicate, by decide, ?_⟩
  intro b hb
  obtain ⟨i, hi, rfl⟩ := List.mem_map.mp hb
  have := List.mem_range.mp hi
  simp only [List.length_cons, List.length_nil]
  omega

theorem fb_scratch : Fbank.Spec.ScratchOnly fb where
  indep := fun _ _ _ _ _ _ => rfl
  size := fun w b w' b' _ hb h => by
    have h : (Except.ok (List.replicate 512 one, b) : Exec (List F32 × List F32)) = .ok (w', b') := h
    cases h
    exact ⟨List.length_replicate, hb⟩

theorem hears_sound : Stt.Sound hears vecMat 80 1 0 2 80 where
  hvm := rowWise
  hb := net_built
  hprior := List.length_replicate
  hleft := rfl
  hright := rfl
  hchunk := rfl
  hc := by decide
  hsize := by decide
  hbig := by decide
  tables := fb_tables
  scratch := fb_scratch

theorem recogniser_cpu : cpu.recogniser self = some hears := by
  have : cpu.amOf ⟨⟨1, 0, layers.map Ser.Spec.full⟩, List.replicate 80 0, 1, 0, 2, 1, [0, 0]⟩ = hears.am := by
    unfold Machine.amOf
    congr 1
  unfold Machine.recogniser self hears
  simp only [Machine.lmOf]
  rw [this]
  rfl

theorem cpu_fits : Fits cpu model vecMat 80 80 where
  rows := rowWise
  net := net_built
  prior := List.length_replicate
  chunk := by decide
  size := by decide
  big := by decide
  tables := fb_tables
  scratch := fb_scratch

/-- The features of every frame. -/
def feat : List F32 := match Fbank.Spec.row fb [] with
  | .ok x => x
  | .error _ => []

theorem fb_row (x : List F32) : Fbank.Spec.row fb x = .ok feat := by
  have h : Fbank.Spec.row fb x = Fbank.Spec.row fb [] := rfl
  rw [h]
  decide +kernel

theorem fb_rows : ∀ xs : List (List F32), xs.mapM (Fbank.Spec.row fb) = .ok (List.replicate xs.length feat)
  | [] => rfl
  | x :: xs => by
    rw [List.mapM_cons, fb_row, fb_rows xs]
    rfl

theorem features (n : Nat) (bs : List UInt8) (h : bs.length = 400 + 160 * n) :
    (Fbank.Spec.frames ((Pcm.Spec.samples 1 bs).map cpu.conv)).mapM (Fbank.Spec.row fb) =
      .ok (List.replicate (n + 1) feat) := by
  rw [fb_rows]
  congr 2
  unfold Fbank.Spec.frames
  rw [List.length_map, List.length_range, List.length_map]
  unfold Pcm.Spec.samples
  rw [List.length_map, List.length_range, Nat.div_one, h]
  unfold Fbank.Spec.numFrames
  rw [if_neg (by omega)]
  omega

/-- The scores of either frame of `a.wav`, but the first. -/
def rest : List F32 := feat.tail ++ feat

/-- The first of them. -/
def score : F32 := fit _ (5033165 / 4194304)

theorem score_is : Is score (5033165 / 4194304) := by
  have : Rep binary32 (5033165 / 4194304) :=
    ⟨⟨5033165, -22, by decide, by decide, by decide +kernel⟩, by decide +kernel⟩
  exact ⟨this, fit_eq this (by decide +kernel)⟩

theorem scores_of {r : Stt.Rec F32 F64} (hr : IsRec cpu world model r) {rows : List (List F32)}
    (h : Scores r vecMat 1 (List.replicate 560 3) rows) : rows = two score rest := by
  obtain ⟨feats, h1, h2, h3⟩ := h
  rw [hr.conv] at h1 h2
  rw [hr.fb] at h1
  have h1 : feats = List.replicate (1 + 1) feat :=
    Except.ok.inj (h1.symm.trans (features 1 (List.replicate 560 3) List.length_replicate))
  subst h1
  rw [hr.nn, hr.layers, hr.prior] at h3
  have h2 : rows.length = 2 := h2.trans (by
    unfold Fbank.Spec.numFrames Pcm.Spec.samples
    rw [List.length_map, List.length_map, List.length_range, List.length_replicate]
    decide)
  match rows, h2 with
  | [x, y], _ =>
    have g1 := h3 0 (by simp)
    have g2 := h3 1 (by simp)
    have e1 : ∀ t ∈ ([0, 1] : List Nat), List.zipWith (fun x y => cpu.nn.add x (cpu.nn.mul cpu.nn.negOne y))
        (Nnet.Spec.series cpu.nn vecMat (model.layers.map (valueLayer fun x => cpu.word (some x)))
          (Nnet.Spec.edge (List.replicate (1 + 1) feat)) (t : Int))
        (model.prior.map fun x => cpu.word (some (world.log x))) = score :: rest := by decide +kernel
    rw [e1 0 (by decide)] at g1
    rw [e1 1 (by decide)] at g2
    cases g1
    cases g2
    rfl

theorem env_of {r : Stt.Rec F32 F64} (hr : IsRec cpu world model r) : r.dec = fork none' one tenth tenth tenth := by
  have h1 := hr.ar
  have h2 := hr.graph
  have h3 := hr.pdf
  have h4 := hr.amScale
  have h5 := hr.lm
  generalize r.dec = e at *
  cases e
  simp only at h1 h2 h3 h4 h5
  subst h1 h2 h3 h4
  rw [show model.lm = none from rfl] at h5
  simp only at h5
  subst h5
  rfl

/-- The program writes "hi". -/
theorem run_cpu (junk : Nat → Junk F32) :
    main cpu world junk [[100, 47, 99], [97, 46, 119, 97, 118]] = ⟨[.line [104, 105]], .ok ()⟩ := by
  obtain ⟨h, c, hx⟩ := loaded
  have hw : IsWav [97, 46, 119, 97, 118] := isWav_of [97] rfl
  rw [main_wav cpu hx hw, recogniser_cpu, say_iff]
  have h : (do
      let d0 ← Decoder.initDecoder hears.dec hears.fuel Decoder.fresh
      let back ← (List.replicate 2 feat).foldlM (Stt.backStep hears) ⟨Am.Inst.new, d0, [0], none'⟩
      let v ← Stt.finish hears (fun _ => 1) ⟨⟨true, Stt.toyFormat, []⟩, [], back⟩
      .ok v.back.hyp) = (.ok [104, 105, 0] : Exec Str) := by decide +kernel
  obtain ⟨d0, h0, h⟩ := bind_ok h
  obtain ⟨back, h1, h⟩ := bind_ok h
  obtain ⟨v, h2, h⟩ := bind_ok h
  have hcs : ∀ p ∈ [((junk 0).piece 0, List.replicate 560 (3 : UInt8))], p.2 ≠ [] ∧ p.2.length < 536870500 := by
    intro p hp
    cases List.mem_singleton.1 hp
    exact ⟨List.cons_ne_nil _ _, by rw [List.length_replicate]; decide⟩
  have hd : ([((junk 0).piece 0, List.replicate 560 (3 : UInt8))].map Prod.snd).flatten = List.replicate 560 3 :=
    List.append_nil _
  have hl : ([((junk 0).piece 0, List.replicate 560 (3 : UInt8))].map Prod.snd).flatten.length = 400 + 160 * 1 := by
    rw [hd, List.length_replicate]
  obtain ⟨u, h3, h4⟩ := Stt.recognise_ok hears_sound (fmt := Stt.toyFormat) rfl (b := 1) .w8 (fun _ => 1)
    [((junk 0).piece 0, List.replicate 560 3)] hcs h0 (features 1 _ hl) h1 h2
  injection h with h
  exact ⟨[], [104, 105], (processAudio_iff hears_sound (file := header 48 2 ++ List.replicate 560 3) rfl
    (header_ok 48 2 (List.replicate 560 3)) (junk 0)
    (fun _ => 1) [((junk 0).piece 0, List.replicate 560 3)] hcs hd [] [104, 105]).mpr
    ⟨rfl, u, .none, h3, by rw [h4, h]; exact fromC_hyp (s := [104, 105]) (by decide)⟩, rfl⟩

theorem small : Small 0 1 (13421773 / 134217728) (13421773 / 134217728)
    (13421773 / 134217728 * (5033165 / 4194304)) 16 := by
  constructor <;> norm_num [abs_le]

-- for `a.wav` all that is asked for holds; of the two ways only the second is near enough to the best
example (junk : Nat → Junk F32) : ∃ (q : List (GArc F32)) (ws : List Str), wordsOf q = [1] ∧
    join [32] ws = [104, 105] := by
  obtain ⟨r, hr, h⟩ := C98_program_partial cpu rfl world [100, 47, 99] (App.Ex.confOf defs) defs model conf_file conf_ok
    installed model_ok vecMat 80 80 cpu_fits [97, 46, 119, 97, 118] (isWav_of [97] rfl)
    (header 48 2 ++ List.replicate 560 3) (List.replicate 560 3) 1 rfl (header_ok _ _ _)
  obtain ⟨rows, hrows, h⟩ := h junk _ (run_cpu junk)
  cases scores_of hr hrows
  rw [env_of hr] at h
  have hst : Stays (fork none' one tenth tenth tenth) (0, 0) (two score rest) true 16 15
      [⟨1, 1, tenth, 2⟩, ⟨1, 0, tenth, 3⟩] _ :=
    ⟨fork_total_second tenth_is tenth_is tenth_is score_is small, _, _,
      fork_inside none_is one_is tenth_is tenth_is tenth_is score_is small (by norm_num) (by norm_num)
        (by norm_num) (by norm_num) (by norm_num [abs_of_pos])⟩
  obtain ⟨q, y, ws, h1, h2, _, _, h3⟩ := h (0, 0) 16 15 2 (by norm_num) (by norm_num) (by norm_num) (by norm_num)
    fork_start fork_few (fork_mild none_is one_is tenth_is tenth_is tenth_is score_is small) ⟨_, _, hst⟩
  refine ⟨q, ws, ?_, ?_⟩
  · have := h2 _ _ hst
    rcases fork_total none_is one_is tenth_is tenth_is tenth_is score_is h1 with ⟨_, rfl⟩ | ⟨rfl, _⟩
    · norm_num at this
    · rfl
  · injection h3 with h3
    injection h3 with h3
    exact h3.symm

end Verif.Ieee.Ex
