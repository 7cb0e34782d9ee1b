import Verif.OverflowSpec
import Verif.SoftmaxProps
import Verif.SttLemmas

/-!
# Real numbers that overflow: the laws of C86 hold

`Big` and `bigOps` are those of C50: a `float` of 2^128 or more is infinite, otherwise arithmetic is exact.
-/

namespace Verif.Nnet

open Verif Verif.Decoder Verif.Nnet.Spec

/-- Addition of `double`s, without overflow. -/
noncomputable def Big.dadd : Big → Big → Big
  | .num a, .num b => .num (a + b)
  | a, b => Big.add a b

/-- Conversion from `double` to `float`. -/
noncomputable def Big.round : Big → Big
  | .num a => .fit a
  | x => x

/-- Is it a number? -/
def Big.isNum : Big → Bool
  | .num _ => true
  | _ => false

/-- Is it plus infinity? -/
def Big.isPinf : Big → Bool
  | .inf false => true
  | _ => false

/-- The arithmetic of the decoder. -/
noncomputable def bigArith : Arith Big Big where
  fadd := Big.add
  fmul := Big.mul
  fneg := Big.neg
  zero := .num 0
  flt := Big.lt
  fdiv a b := .num (a / b)
  toD := id
  toF := Big.round
  dadd := Big.dadd
  dsub a b := Big.dadd a b.neg
  dlt := Big.lt
  finite := Big.isNum
  inf := .inf false
  isInf := Big.isPinf
  beam := .num 16
  beamDelta := .num (1 / 2)

/-- Scores that leave no hope: minus infinity and NaN. -/
def Big.lostScore : Big → Bool
  | .nan => true
  | .inf s => s
  | .num _ => false

/-- Costs that leave no hope: plus infinity and NaN. -/
def Big.lostCost : Big → Bool
  | .nan => true
  | .inf s => !s
  | .num _ => false

theorem add_lostCost {a b : Big} (h : a.lostCost = true ∨ b.lostCost = true) : (Big.add a b).lostCost = true := by
  cases a with
  | nan => rfl
  | num a =>
    cases b with
    | nan => rfl
    | num b => simp [Big.lostCost] at h
    | inf t =>
      rcases h with h | h
      · cases h
      · exact h
  | inf s =>
    cases b with
    | nan => rfl
    | num b =>
      rcases h with h | h
      · exact h
      · cases h
    | inf t => cases s <;> cases t <;> simp_all [Big.add, Big.lostCost]

/-- The decoder with a positive scale, 0.1 in the code, over these numbers. -/
theorem big_lostLaws (e : Env Big Big) (har : e.ar = bigArith) {a : ℝ} (ha : 0 < a) (hs : e.amScale = .num a) :
    LostLaws e Big.lostScore Big.lostCost Big.lostCost where
  score {x} h := by
    rw [har, hs]
    cases x with
    | nan => rfl
    | num x => cases h
    | inf s =>
      have h : s = true := h
      subst h
      show (Big.neg (if a = 0 then Big.nan else Big.inf (xor true (decide (a < 0))))).lostCost = true
      rw [if_neg (ne_of_gt ha), decide_eq_false (not_lt.mpr ha.le)]
      rfl
  addl b h := by rw [har]; exact add_lostCost (.inl h)
  addr a b h := by rw [har]; exact add_lostCost (.inr h)
  toD h := by rw [har]; exact h
  toF {a} h := by
    rw [har]
    cases a with
    | num a => cases h
    | nan => rfl
    | inf s => exact h
  daddl {a} b h := by
    rw [har]
    cases a with
    | num a => cases h
    | nan =>
      show (Big.add .nan b).lostCost = true
      exact add_lostCost (.inl rfl)
    | inf s => exact add_lostCost (.inl h)
  dltl {a} b h := by
    rw [har]
    cases a with
    | num a => cases h
    | nan => rfl
    | inf s =>
      cases s with
      | true => cases h
      | false => cases b <;> rfl
  inf := by rw [har]; rfl
  inf_round := by rw [har]; rfl

theorem fit_pos {x : ℝ} (h : 0 ≤ x) : (∃ a : ℝ, 0 ≤ a ∧ Big.fit x = .num a) ∨ Big.fit x = .inf false := by
  unfold Big.fit
  by_cases hf : |x| < 2 ^ 128
  · exact .inl ⟨x, h, if_pos hf⟩
  · right
    rw [if_neg hf, decide_eq_false (not_lt.mpr h)]

/-- Exponentials of 89 or more overflow. -/
theorem big_overflowLaws (g : List (List Big) → List (List Big) → List (List Big)) :
    OverflowLaws (bigOps g) (fun x => ∃ a : ℝ, x = .num a) (fun x => ∃ a : ℝ, 0 ≤ a ∧ x = .num a)
      (fun x => ∃ a : ℝ, 89 ≤ a ∧ x = .num a) (fun x => x.lostScore = true) (.inf false) where
  zero := ⟨0, le_rfl, rfl⟩
  exp := by
    rintro _ ⟨a, rfl⟩
    exact fit_pos (Real.exp_pos a).le
  exp_big := by
    rintro _ ⟨a, h, rfl⟩
    exact exp_big h
  add := by
    rintro _ _ ⟨a, ha, rfl⟩ ⟨b, hb, rfl⟩
    exact fit_pos (add_nonneg ha hb)
  add_infl := by rintro _ ⟨a, _, rfl⟩; rfl
  add_infr := by rintro _ ⟨a, _, rfl⟩; rfl
  add_inf := rfl
  log_inf := rfl
  sub_inf := by rintro _ ⟨a, rfl⟩; rfl
  lost_add {x} y h := by
    cases x with
    | num x => cases h
    | nan => rfl
    | inf s =>
      have h : s = true := h
      subst h
      cases y with
      | nan => rfl
      | num y => rfl
      | inf t => cases t <;> rfl

/-! ## A recogniser for the example -/

/-- Feature extraction over these numbers, with a "spectrum" of zeros. -/
noncomputable def bigFb : Fbank.Ops Big where
  zero := .num 0
  add := Big.add
  sub a b := Big.add a b.neg
  mul := Big.mul
  div := Big.div
  ofInt n := .num n
  preemph a _ := a
  lt := Big.lt
  nonneg a := !(Big.lt a (.num 0))
  eps := .num 1
  log := Big.log
  window := List.replicate 400 (.num 1)
  bins := List.replicate 40 (0, [.num 1])
  fft _ b := .ok (List.replicate 512 (.num 0), b)

/-- A product that gives zeros. -/
noncomputable def bigVm (_ : List Big) (B : List (List Big)) : List Big := List.replicate (numCols B) (.num 0)

/-- A network that gives 90 for its only pdf, whatever it is given. -/
noncomputable def bigRec : Stt.Rec Big Big where
  conv n := .num n
  fb := bigFb
  nn := bigOps fun A B => A.map fun x => bigVm x B
  am := ⟨[.linear (List.replicate 40 [.num 0]) [.num 90], .logSoftmax], [.num 0], 0, 0, 2⟩
  dec := ⟨bigArith, ⟨0, fun _ => [⟨1, 0, .num 0, 0⟩], fun _ => .num 0⟩, none, [0, 0], .num (1 / 10)⟩
  fuel := 10
  syms := []
  perFrame w _ := w
  zero := .num 0

theorem bigRec_sound : Stt.Sound bigRec bigVm 1 0 0 2 40 where
  hvm := ⟨fun _ _ _ => rfl, fun x B n _ h0 hB => by
    show (List.replicate (numCols B) (Big.num 0)).length = n
    rw [List.length_replicate, Nnet.numCols_of h0 hB]⟩
  hb := by
    refine .row (e := 1) (by decide) (by decide) (.linear ?_ List.length_replicate ?_ rfl)
      (.row (e := 1) (by decide) (by decide) .logSoftmax (.nil (by decide) (by decide)))
    · rw [List.replicate_succ]; exact List.cons_ne_nil _ _
    · intro y hy
      rw [List.eq_of_mem_replicate hy]
      rfl
  hprior := rfl
  hleft := rfl
  hright := rfl
  hchunk := rfl
  hc := by decide
  hsize := by decide
  hbig := by decide
  tables := by
    refine ⟨List.length_replicate, List.length_replicate, ?_⟩
    intro b hb
    rw [List.eq_of_mem_replicate hb]
    decide
  scratch := by
    refine ⟨fun _ _ _ _ _ _ => rfl, fun w b w' b' _ hb h => ?_⟩
    have h : (Except.ok (List.replicate 512 (Big.num 0), b) : Exec (List Big × List Big)) = .ok (w', b') := h
    cases h
    exact ⟨List.length_replicate, hb⟩

theorem bigFb_row (x : List Big) : Fbank.Spec.row bigFb x = .ok (List.replicate 40 (Big.log (.num 1))) := by
  have h0 : Big.fit 0 = .num 0 := by
    unfold Big.fit
    rw [if_pos (by norm_num)]
  have hm : ∀ a : ℝ, Big.mul (.num a) (.num 0) = .num 0 := fun a => by
    show Big.fit (a * 0) = _
    rw [mul_zero]; exact h0
  have ha : Big.add (.num 0) (.num 0) = .num 0 := by
    show Big.fit (0 + 0) = _
    rw [add_zero]; exact h0
  have he : Fbank.Spec.energy bigFb (List.replicate 512 (.num 0)) (0, [.num 1]) = .num 0 := by
    show Big.add (.num 0) (Big.mul (.num 1) (Big.mul (.num 0) (.num 0))) = _
    rw [hm, hm, ha]
  have hlt : Big.lt (.num 0) (.num 1) = true := by
    unfold Big.lt
    exact decide_eq_true (by norm_num)
  have hnn : bigFb.nonneg (.num 1) = true := by
    show (!(Big.lt (.num 1) (.num 0))) = true
    have : Big.lt (.num 1) (.num 0) = false := by
      unfold Big.lt
      exact decide_eq_false (by norm_num)
    rw [this]
    rfl
  have hf : Fbank.Spec.feature bigFb (List.replicate 512 (.num 0)) (0, [.num 1]) = Big.log (.num 1) := by
    unfold Fbank.Spec.feature
    simp only [he]
    show Big.log (if Big.lt (.num 0) (.num 1) = true then (.num 1) else (.num 0)) = _
    rw [if_pos hlt]
  have hl : Fbank.Spec.loggable bigFb (List.replicate 512 (.num 0)) = true := by
    unfold Fbank.Spec.loggable
    rw [List.all_eq_true]
    intro b hb
    rw [show bigFb.bins = List.replicate 40 (0, [Big.num 1]) from rfl] at hb
    rw [List.eq_of_mem_replicate hb, he]
    show bigFb.nonneg (if Big.lt (.num 0) (.num 1) = true then (.num 1) else (.num 0)) = true
    rw [if_pos hlt]
    exact hnn
  show (if Fbank.Spec.loggable bigFb (List.replicate 512 (.num 0)) = true then
    Except.ok ((List.replicate 40 (0, [Big.num 1])).map (Fbank.Spec.feature bigFb (List.replicate 512 (.num 0)))) else
    .error Fault.assert) = _
  rw [if_pos hl, List.map_replicate, hf]

theorem bigFb_rows : ∀ xs : List (List Big),
    xs.mapM (Fbank.Spec.row bigRec.fb) = .ok (List.replicate xs.length (List.replicate 40 (Big.log (.num 1))))
  | [] => rfl
  | x :: xs => by
    rw [List.mapM_cons, show Fbank.Spec.row bigRec.fb x = _ from bigFb_row x, bigFb_rows xs]
    rfl

/-- The input of the last layer. -/
theorem bigRec_ninety (x : Int → List Big) (t : Int) :
    series bigRec.nn bigVm [.linear (List.replicate 40 [.num 0]) [.num 90]] x t = [.num 90] := by
  show [Big.fit (0 + 90)] = _
  unfold Big.fit
  rw [zero_add, if_pos (by rw [abs_of_pos (by norm_num)]; norm_num)]

end Verif.Nnet
