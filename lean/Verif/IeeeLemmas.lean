import Verif.IeeeModel
import Verif.DecoderSpec

/-!
# The arithmetic of the machine: lemmas
-/

namespace Verif.Ieee

open Verif Verif.Decoder

variable {f g : Format} [Good f] [Good g]

set_option linter.unusedSectionVars false

theorem round_pos_of {q : Rat} (h : 0 < round f q) : 0 < q := by
  by_contra hc
  have := round_mono f (Good.prec) (not_lt.1 hc)
  rw [round_zero] at this
  linarith

theorem round_neg_of {q : Rat} (h : round f q < 0) : q < 0 := by
  by_contra hc
  have := round_mono f (Good.prec) (not_lt.1 hc)
  rw [round_zero] at this
  linarith

theorem fit_cases (q : Rat) :
    (∃ h : Rep f (round f q), fit f q = .num (round f q) h) ∨
    (fit f q = .inf false ∧ pow2 f.top ≤ round f q) ∨
    (fit f q = .inf true ∧ round f q ≤ -pow2 f.top) := by
  unfold fit
  split
  · rename_i h
    exact .inl ⟨⟨round_grid f Good.prec q, h⟩, rfl⟩
  · rename_i h
    have ht := pow2_pos f.top
    rcases le_abs.1 (not_lt.1 h) with h1 | h1
    · refine .inr (.inl ⟨?_, h1⟩)
      have : ¬ q < 0 := not_lt.2 (round_pos_of (f := f) (by linarith)).le
      simp [this]
    · refine .inr (.inr ⟨?_, by linarith⟩)
      have : q < 0 := round_neg_of (f := f) (by linarith)
      simp [this]

theorem fit_rep {q : Rat} (h : Rep f q) : fit f q = .num q h := by
  have e := round_self Good.prec h.1
  unfold fit
  rw [dif_pos (by rw [e]; exact h.2)]
  simp [e]

theorem fit_mono {a b : Rat} (h : a ≤ b) : lt (fit f b) (fit f a) = false := by
  have hr := round_mono f Good.prec h
  have ht := pow2_pos f.top
  rcases fit_cases (f := f) a with ⟨h1, e1⟩ | ⟨e1, h1⟩ | ⟨e1, h1⟩ <;>
    rcases fit_cases (f := f) b with ⟨h2, e2⟩ | ⟨e2, h2⟩ | ⟨e2, h2⟩ <;> rw [e1, e2] <;> try rfl
  · exact decide_eq_false (not_lt.2 hr)
  · have := (abs_lt.1 (show |round f a| < pow2 f.top from h1.2)).1
    linarith
  · have := (abs_lt.1 (show |round f b| < pow2 f.top from h2.2)).2
    linarith
  · linarith

theorem fit_nan (q : Rat) : isNan (fit f q) = false := by
  rcases fit_cases (f := f) q with ⟨h1, e1⟩ | ⟨e1, h1⟩ | ⟨e1, h1⟩ <;> rw [e1] <;> rfl

theorem lt_irrefl' (a : Fl f) : lt a a = false := by
  rcases a with ⟨_, _⟩ | s | _ <;> simp [lt]

theorem lt_asymm' {a b : Fl f} (h : lt a b = true) : lt b a = false := by
  rcases a with ⟨a, _⟩ | s | _ <;> rcases b with ⟨b, _⟩ | t | _ <;> simp_all [lt]
  exact le_of_lt h

theorem lt_trans' {a b c : Fl f} (h : lt a b = true) (h' : lt b c = true) : lt a c = true := by
  rcases a with ⟨a, _⟩ | s | _ <;> rcases b with ⟨b, _⟩ | t | _ <;> rcases c with ⟨c, _⟩ | t | _ <;> simp_all [lt]
  exact _root_.lt_trans h h'

theorem le_trans' {a b c : Fl f} (hb : isNan b = false) (h : lt b a = false) (h' : lt c b = false) : lt c a = false := by
  rcases a with ⟨a, _⟩ | s | _ <;> rcases b with ⟨b, _⟩ | t | _ <;> rcases c with ⟨c, _⟩ | u | _ <;> simp_all [lt, isNan]
  exact le_trans h h'

theorem lt_nan (a : Fl f) : lt a .nan = false := by rcases a with ⟨_, _⟩ | s | _ <;> rfl

theorem nan_lt (a : Fl f) : lt .nan a = false := by rcases a with ⟨_, _⟩ | s | _ <;> rfl

theorem top_lt (a : Fl f) : lt (.inf false) a = false := by rcases a with ⟨_, _⟩ | s | _ <;> rfl

theorem lt_bot (a : Fl f) : lt a (.inf true) = false := by rcases a with ⟨_, _⟩ | s | _ <;> simp [lt]

theorem add_nan (a : Fl f) : add a .nan = .nan := by rcases a with ⟨_, _⟩ | s | _ <;> rfl

theorem nan_add (a : Fl f) : add .nan a = .nan := by rcases a with ⟨_, _⟩ | s | _ <;> rfl

theorem add_mono {a b : Fl f} (c : Fl f) (h : lt b a = false) : lt (add b c) (add a c) = false := by
  rcases c with ⟨c, hc⟩ | u | _
  · rcases a with ⟨a, ha⟩ | s | _
    · rcases b with ⟨b, hb⟩ | t | _
      · exact fit_mono (by simpa [lt] using h)
      · cases t
        · exact top_lt _
        · simp [lt] at h
      · exact nan_lt _
    · rcases b with ⟨b, hb⟩ | t | _
      · cases s
        · simp [lt] at h
        · exact lt_bot _
      · exact h
      · exact nan_lt _
    · exact lt_nan _
  · rcases a with ⟨a, ha⟩ | s | _
    · rcases b with ⟨b, hb⟩ | t | _
      · exact lt_irrefl' _
      · cases u <;> cases t <;> simp_all [lt, add]
      · exact nan_lt _
    · rcases b with ⟨b, hb⟩ | t | _
      · cases u <;> cases s <;> simp_all [lt, add]
      · cases u <;> cases s <;> cases t <;> simp_all [lt, add]
      · exact nan_lt _
    · exact lt_nan _
  · rw [add_nan]; exact nan_lt _

theorem conv_mono {a b : Fl f} (h : lt b a = false) : lt (conv (g := g) b) (conv a) = false := by
  rcases a with ⟨a, ha⟩ | s | _
  · rcases b with ⟨b, hb⟩ | t | _
    · exact fit_mono (by simpa [lt] using h)
    · cases t
      · exact top_lt _
      · simp [lt] at h
    · exact nan_lt _
  · rcases b with ⟨b, hb⟩ | t | _
    · cases s
      · simp [lt] at h
      · exact lt_bot _
    · exact h
    · exact nan_lt _
  · exact lt_nan _

/-- Every `float` is a `double`. -/
theorem rep_widen {q : Rat} (h : Rep binary32 q) : Rep binary64 q := by
  obtain ⟨⟨m, k, h1, h2, h3⟩, h4⟩ := h
  refine ⟨⟨m, k, lt_of_lt_of_le h1 (by decide), le_trans (by decide) h2, h3⟩, lt_of_lt_of_le h4 (pow2_le (by decide))⟩

theorem widen_num {q : Rat} (h : Rep binary32 q) :
    conv (g := binary64) (.num q h : F32) = .num q (rep_widen h) := fit_rep (rep_widen h)

theorem narrow_widen (c : F32) : conv (g := binary32) (conv (g := binary64) c) = c := by
  rcases c with ⟨c, h⟩ | s | _
  · rw [widen_num h]; exact fit_rep h
  · rfl
  · rfl

theorem rep_nat {n k : Nat} {j : Int} (hn : n < 2 ^ f.prec) (h : j = k) (hj : f.low ≤ j) (ht : (f.prec : Int) + k ≤ f.top) :
    Rep f ((n * 2 ^ k : Nat) : Rat) := by
  subst h
  refine ⟨⟨n, k, ?_, hj, ?_⟩, ?_⟩
  · rw [abs_of_nonneg (by positivity)]; exact_mod_cast hn
  · rw [pow2_nat]; push_cast; rfl
  · rw [abs_of_nonneg (by positivity)]
    refine lt_of_lt_of_le ?_ (pow2_le ht)
    rw [pow2_add, pow2_nat, pow2_nat]
    push_cast
    have : ((n : Nat) : Rat) < 2 ^ f.prec := by exact_mod_cast hn
    exact mul_lt_mul_of_pos_right this (by positivity)

theorem rep_zero : Rep f 0 := ⟨⟨0, f.low, by simp, le_refl _, by simp⟩, by simpa using pow2_pos _⟩

theorem rep16 : Rep binary32 16 := by
  have := rep_nat (f := binary32) (n := 16) (k := 0) (j := 0) (by decide) rfl (by decide) (by decide)
  simpa using this

theorem beam_eq : machine.toD machine.beam = (.num 16 (rep_widen rep16) : F64) := by
  show conv (fit binary32 16) = _
  rw [fit_rep rep16, widen_num rep16]

theorem zero_eq : machine.zero = (.num 0 rep_zero : F32) := fit_rep (f := binary32) rep_zero

theorem toD_eq (a : F32) : machine.toD a = conv a := rfl

theorem toD_zero : machine.toD machine.zero = (.num 0 (rep_widen rep_zero) : F64) := by
  rw [toD_eq, zero_eq, widen_num]

theorem machine_order : DOrder machine where
  trans := lt_trans'
  irrefl := lt_irrefl'
  inf_max {a} h b := by
    obtain rfl : a = .inf false := of_decide_eq_true h
    rcases b with ⟨b, hb⟩ | t | _ <;> rfl
  isInf_inf := rfl

theorem nan_eq {a : Fl f} (h : isNan a = true) : a = .nan := by
  rcases a with ⟨a, _⟩ | s | _
  · cases h
  · cases h
  · rfl

theorem mul_nan (a : Fl f) : mul a .nan = .nan := by rcases a with ⟨_, _⟩ | s | _ <;> rfl

theorem machine_nan : NanLaws machine isNan isNan where
  addl {a} b h := by cases nan_eq h; exact congrArg isNan (nan_add (f := binary32) b)
  addr a {b} h := by cases nan_eq h; exact congrArg isNan (add_nan (f := binary32) a)
  mul a {b} h := by cases nan_eq h; exact congrArg isNan (mul_nan (f := binary32) a)
  neg {a} h := by cases nan_eq h; rfl
  toD {a} h := by cases nan_eq h; rfl
  toF {a} h := by cases nan_eq h; rfl
  daddl {a} b h := by cases nan_eq h; exact congrArg isNan (nan_add (f := binary64) b)
  daddr a {b} h := by cases nan_eq h; exact congrArg isNan (add_nan (f := binary64) a)
  fltl {a} b h := by cases nan_eq h; exact nan_lt (f := binary32) b
  fltr a {b} h := by cases nan_eq h; exact lt_nan (f := binary32) a
  dltl {a} b h := by cases nan_eq h; exact nan_lt (f := binary64) b
  dltr a {b} h := by cases nan_eq h; exact lt_nan (f := binary64) a
  inf := rfl
  inf_round := rfl

theorem machine_mono : MonoLaws machine isNan isNan where
  fasymm := lt_asymm'
  ftrans := lt_trans'
  fle := le_trans'
  dasymm := lt_asymm'
  dtrans := lt_trans'
  dle := le_trans'
  fadd := add_mono
  dadd := add_mono
  toD := conv_mono
  toF := conv_mono

theorem machine_round : RoundLaws machine where
  toF_ge {d c} h := by
    have := conv_mono (g := binary32) h
    rwa [show conv (machine.toD c) = c from narrow_widen c] at this
  beam_pos d := by
    rw [beam_eq]
    rcases d with ⟨d, hd⟩ | s | _
    · have := fit_mono (f := binary64) (show d ≤ d + 16 by linarith)
      rwa [fit_rep (show Rep binary64 d from hd)] at this
    · cases s <;> rfl
    · rfl

end Verif.Ieee
