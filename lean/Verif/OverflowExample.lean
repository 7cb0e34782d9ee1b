import Verif.OverflowLemmas
import Verif.DecoderExamples

/-!
# A recogniser whose acoustic model overflows, for the examples of C86

Integers with both infinities and NaN.
-/

namespace Verif.Stt

open Verif Verif.Nnet.Spec Verif.Fbank.Spec Verif.Decoder

/-- An integer, an infinity or NaN. -/
inductive X where
  | nan
  | ninf
  | num (n : Int)
  | pinf
deriving DecidableEq

instance : DecidableEq (Dec X) := inferInstance

instance : DecidableEq (Option (Cutoffs X X)) := inferInstance

/-- Addition. -/
def X.add : X → X → X
  | .num a, .num b => .num (a + b)
  | .nan, _ => .nan
  | _, .nan => .nan
  | .ninf, .pinf => .nan
  | .pinf, .ninf => .nan
  | .ninf, _ => .ninf
  | _, .ninf => .ninf
  | .pinf, _ => .pinf
  | _, .pinf => .pinf

/-- Change of sign. -/
def X.neg : X → X
  | .nan => .nan
  | .ninf => .pinf
  | .num n => .num (-n)
  | .pinf => .ninf

/-- Infinity with the sign of a number. -/
def X.signed (n : Int) (x : X) : X := if n = 0 then .nan else if n < 0 then x.neg else x

/-- Multiplication. -/
def X.mul : X → X → X
  | .num a, .num b => .num (a * b)
  | .nan, _ => .nan
  | _, .nan => .nan
  | .num a, x => x.signed a
  | x, .num a => x.signed a
  | .ninf, x => x.neg
  | .pinf, x => x

/-- Comparison. -/
def X.lt : X → X → Bool
  | .num a, .num b => decide (a < b)
  | .ninf, .num _ => true
  | .ninf, .pinf => true
  | .num _, .pinf => true
  | _, _ => false

/-- A kind of exponential function that overflows from 89 on. -/
def X.exp : X → X
  | .nan => .nan
  | .ninf => .num 0
  | .num n => if 89 ≤ n then .pinf else .num 1
  | .pinf => .pinf

/-- The operations of the acoustic model. -/
def xnn : Nnet.Ops X where
  zero := .num 0
  negOne := .num (-1)
  add := X.add
  sub a b := a.add b.neg
  mul := X.mul
  div a _ := a
  lt := X.lt
  ofInt := .num
  expf := X.exp
  exp := X.exp
  log := id
  rootOf a _ := a
  gemm A B := A.map fun _ => List.replicate (Nnet.numCols B) (.num 0)

/-- The operations of the feature extraction; the "spectrum" is the first sample of the window. -/
def xfb : Fbank.Ops X where
  zero := .num 0
  add := X.add
  sub a b := a.add b.neg
  mul := X.mul
  div a b := match a, b with
    | .num a, .num b => .num (a.tdiv b)
    | _, _ => .nan
  ofInt := .num
  preemph a _ := a
  lt := X.lt
  nonneg a := !(X.lt a (.num 0))
  eps := .num 1
  log := id
  window := List.replicate 400 (.num 1)
  bins := (List.range 40).map fun i => (3 * i, [.num 1, .num 2])
  fft w b := .ok (List.replicate 512 (w.headD .nan), b)

/-- The arithmetic of the decoder. -/
def xar : Arith X X where
  fadd := X.add
  fmul := X.mul
  fneg := X.neg
  zero := .num 0
  flt := X.lt
  fdiv a b := .num (a / b : Nat)
  toD := id
  toF := id
  dadd := X.add
  dsub a b := a.add b.neg
  dlt := X.lt
  finite x := X.lt .ninf x && X.lt x .pinf
  inf := .pinf
  isInf x := x == .pinf
  beam := .num 16
  beamDelta := .num 1

/-- One word on the first frame, then a loop. -/
def xgraph : Graph X where
  start := 0
  arcs s := if s = 0 then [⟨1, 1, .num 0, 1⟩] else [⟨1, 0, .num 0, 1⟩]
  final _ := .num 0

/-- A network of a single log-softmax layer, batches of two; one word besides the empty one. -/
def xrec : Rec X X where
  conv := .num
  fb := xfb
  nn := xnn
  am := ⟨[.logSoftmax], List.replicate 40 (.num 0), 0, 0, 2⟩
  dec := ⟨xar, xgraph, none, [0, 0], .num 1⟩
  fuel := 10
  syms := [[45], [104, 105]]
  perFrame w _ := w
  zero := .num 0

theorem xrec_sound : Sound xrec (fun _ B => List.replicate (Nnet.numCols B) (.num 0)) 40 0 0 2 40 where
  hvm := ⟨fun _ _ _ => rfl, fun x B n _ h0 hB => by rw [List.length_replicate, Nnet.numCols_of h0 hB]⟩
  hb := .row (e := 40) (by decide) (by decide) .logSoftmax (.nil (by decide) (by decide))
  hprior := List.length_replicate
  hleft := rfl
  hright := rfl
  hchunk := rfl
  hc := by decide
  hsize := by decide
  hbig := by decide
  tables := by
    refine ⟨List.length_replicate, by decide, ?_⟩
    intro b hb
    obtain ⟨i, hi, rfl⟩ := List.mem_map.mp hb
    have := List.mem_range.mp hi
    simp only [List.length_cons, List.length_nil]
    omega
  scratch := by
    refine ⟨fun _ _ _ _ _ _ => rfl, fun w b w' b' _ hb h => ?_⟩
    have h : (Except.ok (List.replicate 512 (w.headD X.nan), b) : Exec (List X × List X)) = .ok (w', b') := h
    cases h
    exact ⟨List.length_replicate, hb⟩

/-- Scores that leave no hope. -/
def xlost : X → Bool
  | .nan => true
  | .ninf => true
  | _ => false

/-- Costs that leave no hope. -/
def xcost : X → Bool
  | .nan => true
  | .pinf => true
  | _ => false

theorem xrec_lost : LostLaws xrec.dec xlost xcost xcost where
  score {x} h := by cases x <;> first | rfl | cases h
  addl {a} b h := by cases a <;> cases b <;> first | rfl | cases h
  addr a {b} h := by cases a <;> cases b <;> first | rfl | cases h
  toD h := h
  toF h := h
  daddl {a} b h := by cases a <;> cases b <;> first | rfl | cases h
  dltl {a} b h := by cases a <;> cases b <;> first | rfl | cases h
  inf := rfl
  inf_round := rfl

theorem xrec_overflow : OverflowLaws xrec.nn (fun x => ∃ n, x = .num n) (fun x => ∃ n, 0 ≤ n ∧ x = .num n)
    (fun x => ∃ n, 89 ≤ n ∧ x = .num n) (fun x => xlost x = true) .pinf where
  zero := ⟨0, by decide, rfl⟩
  exp := by
    rintro _ ⟨n, rfl⟩
    by_cases h : 89 ≤ n
    · exact .inr (if_pos h)
    · exact .inl ⟨1, by decide, if_neg h⟩
  exp_big := by
    rintro _ ⟨n, h, rfl⟩
    exact if_pos h
  add := by
    rintro _ _ ⟨n, h, rfl⟩ ⟨m, g, rfl⟩
    exact .inl ⟨n + m, by omega, rfl⟩
  add_infl := by rintro _ ⟨n, _, rfl⟩; rfl
  add_infr := by rintro _ ⟨n, _, rfl⟩; rfl
  add_inf := rfl
  log_inf := rfl
  sub_inf := by rintro _ ⟨n, rfl⟩; rfl
  lost_add {x} y h := by cases x <;> cases y <;> first | rfl | cases h

/-- Indeterminate memory. -/
def xmem : Mem X :=
  ⟨⟨List.replicate 512 .nan, List.replicate 512 .nan, List.length_replicate, List.length_replicate⟩, fun _ => 7⟩

/-- A recording of four frames in two pieces: silence but for the sample with the number 160, the first of the second
frame. -/
def xcut (v : UInt8) : List (Mem X × List UInt8) :=
  [(xmem, List.replicate 160 0), (xmem, v :: List.replicate 719 0)]

/-- Samples of one byte. -/
theorem samples_one (bs : List UInt8) : Pcm.Spec.samples 1 bs = bs.map fun b => Pcm.Spec.signed 1 [b] := by
  unfold Pcm.Spec.samples
  apply List.ext_getElem
  · simp
  · intro i h1 h2
    rw [List.length_map] at h2
    simp only [List.getElem_map, List.getElem_range, Nat.one_mul]
    rw [← List.getElem_cons_drop h2]
    rfl

/-- The features of the four frames. -/
def xfeats : List (List X) :=
  [List.replicate 40 (.num 1), .num 500 :: List.replicate 39 (.num 600), List.replicate 40 (.num 1),
   List.replicate 40 (.num 1)]

theorem xcut_feats : (frames ((Pcm.Spec.samples 1 ((xcut 10).map Prod.snd).flatten).map xrec.conv)).mapM (row xrec.fb) =
    .ok xfeats := by
  rw [samples_one]
  decide +kernel

theorem xcut_pieces : ∀ p ∈ xcut 10, p.2 ≠ [] ∧ p.2.length < 536870500 := by decide +kernel

/-- The stages behind the features, for silence. -/
theorem xquiet : (do
    let d0 ← initDecoder xrec.dec xrec.fuel fresh
    let back ← (List.replicate 4 (List.replicate 40 (X.num 1))).foldlM (backStep xrec) ⟨Am.Inst.new, d0, [0], .num 0⟩
    let v ← finish xrec (fun _ => 1) ⟨⟨true, toyFormat, []⟩, [], back⟩
    .ok v.back.hyp) = .ok [104, 105, 0] := by decide +kernel

theorem xcut_quiet : ∃ u, recognise xrec toyFormat (fun _ => 1) (xcut 0) = .ok (.ready xrec u, .none) ∧
    u.back.hyp = [104, 105, 0] := by
  have hf : (frames ((Pcm.Spec.samples 1 ((xcut 0).map Prod.snd).flatten).map xrec.conv)).mapM (row xrec.fb) =
      .ok (List.replicate 4 (List.replicate 40 (X.num 1))) := by
    rw [samples_one]
    decide +kernel
  have h := xquiet
  obtain ⟨d0, h0, h⟩ := bind_ok h
  obtain ⟨back, h1, h⟩ := bind_ok h
  obtain ⟨v, h2, h⟩ := bind_ok h
  obtain ⟨u, h3, h4⟩ := recognise_ok xrec_sound (fmt := toyFormat) rfl (b := 1) .w8 (fun _ => 1) (xcut 0)
    (by decide +kernel) h0 hf h1 h2
  exact ⟨u, h3, by rw [h4]; exact Except.ok.inj h⟩

/-- The same with the loud sample at the beginning of the fourth frame. -/
def xlate : List (Mem X × List UInt8) := [(xmem, List.replicate 480 0), (xmem, 10 :: List.replicate 399 0)]

theorem xlate_feats : (frames ((Pcm.Spec.samples 1 (xlate.map Prod.snd).flatten).map xrec.conv)).mapM (row xrec.fb) =
    .ok (List.replicate 3 (List.replicate 40 (X.num 1)) ++ [X.num 500 :: List.replicate 39 (X.num 600)]) := by
  rw [samples_one]
  decide +kernel

theorem xlate_stages : (do
    let d0 ← initDecoder xrec.dec xrec.fuel fresh
    let back ← (List.replicate 3 (List.replicate 40 (X.num 1)) ++ [X.num 500 :: List.replicate 39 (X.num 600)]).foldlM
      (backStep xrec) ⟨Am.Inst.new, d0, [0], .num 0⟩
    let v ← finish xrec (fun _ => 1) ⟨⟨true, toyFormat, []⟩, [], back⟩
    .ok v.back.dec.frames) = .ok 3 := by decide +kernel

theorem xlate_run : ∃ u, recognise xrec toyFormat (fun _ => 1) xlate = .ok (.ready xrec u, .none) := by
  have h := xlate_stages
  obtain ⟨d0, h0, h⟩ := bind_ok h
  obtain ⟨back, h1, h⟩ := bind_ok h
  obtain ⟨v, h2, h⟩ := bind_ok h
  obtain ⟨u, h3, _⟩ := recognise_ok xrec_sound (fmt := toyFormat) rfl (b := 1) .w8 (fun _ => 1) xlate
    (by decide +kernel) h0 xlate_feats h1 h2
  exact ⟨u, h3⟩

end Verif.Stt
