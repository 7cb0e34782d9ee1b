import Verif.IeeeFftTable
import Verif.SrfftSize

/-!
# The recursion of the FFT in machine numbers, beside that in exact arithmetic
-/

namespace Verif.Ieee

open Verif Verif.Srfft Verif.Ieee.Spec Complex

/-- Two runs that end with related values. -/
def Rel {α β : Type} (x : Exec α) (y : Exec β) (R : α → β → Prop) : Prop := ∃ a b, x = .ok a ∧ y = .ok b ∧ R a b

section
variable {α β γ δ : Type} {x : Exec α} {y : Exec β} {R : α → β → Prop}

theorem Rel.bind {f : α → Exec γ} {g : β → Exec δ} {S : γ → δ → Prop} (h : Rel x y R)
    (k : ∀ a b, R a b → Rel (f a) (g b) S) : Rel (x >>= f) (y >>= g) S := by
  obtain ⟨a, b, rfl, rfl, hr⟩ := h
  exact k a b hr

theorem Rel.imp {S : α → β → Prop} (h : Rel x y R) (k : ∀ a b, R a b → S a b) : Rel x y S := by
  obtain ⟨a, b, rfl, rfl, hr⟩ := h
  exact ⟨a, b, rfl, rfl, k a b hr⟩

theorem Rel.done {a : α} {b : β} (h : R a b) : Rel (.ok a) (.ok b) R := ⟨a, b, rfl, rfl, h⟩

end

theorem rel_forN {σ τ : Type} {f : ℕ → σ → Exec σ} {g : ℕ → τ → Exec τ} (R : ℕ → σ → τ → Prop) : ∀ (n : ℕ),
    (∀ i s t, i < n → R i s t → Rel (f i s) (g i t) (R (i + 1))) → ∀ s t, R 0 s t → Rel (forN n f s) (forN n g t) (R n)
  | 0, _, s, t, h => ⟨s, t, rfl, rfl, h⟩
  | n + 1, h, s, t, h0 => by
    obtain ⟨s1, t1, e1, e2, h1⟩ := rel_forN R n (fun i s t hi => h i s t (by omega)) s t h0
    obtain ⟨s2, t2, e3, e4, h2⟩ := h n s1 t1 (by omega) h1
    refine ⟨s2, t2, ?_, ?_, h2⟩
    · unfold forN at e1 ⊢
      rw [List.range_succ, List.foldlM_append, e1, ok_bind, List.foldlM_cons, e3, ok_bind]
      rfl
    · unfold forN at e2 ⊢
      rw [List.range_succ, List.foldlM_append, e2, ok_bind, List.foldlM_cons, e4, ok_bind]
      rfl

/-- Two arrays of machine numbers near those of exact numbers, with a size and an error for each index. -/
def Nr (A : ℝ) (L : ℕ) (α β : ℕ → ℕ) (s : Cx F32) (e : Cx ℝ) : Prop :=
  ∃ X Y Z, s = (vec L X, vec L Y) ∧ e = cx L Z ∧ ∀ i, i < L → Cn (A * 2 ^ α i) (β i) (Z i) (X i) (Y i)

/-- The sizes of data for which the estimates hold. -/
structure Sized (A : ℝ) : Prop where
  low : 1 / 2 ^ 60 ≤ A
  high : A ≤ 2 ^ 60

theorem Sized.pos {A : ℝ} (h : Sized A) : 0 < A := lt_of_lt_of_le (by positivity) h.low

theorem Sized.fair {A : ℝ} (h : Sized A) {a b : ℕ} (ha : a ≤ 40) (hb : b ≤ 2 ^ 18) : Fair (A * 2 ^ a) b := by
  have hp : (1 : ℝ) ≤ 2 ^ a := one_le_pow₀ (by norm_num)
  have hq : (2 : ℝ) ^ a ≤ 2 ^ 40 := pow_le_pow_right₀ (by norm_num) ha
  refine ⟨?_, ?_, hb⟩
  · calc (1 : ℝ) / 2 ^ 60 ≤ A * 1 := by rw [mul_one]; exact h.low
      _ ≤ _ := mul_le_mul_of_nonneg_left hp h.pos.le
  · calc A * 2 ^ a ≤ 2 ^ 60 * 2 ^ 40 := mul_le_mul h.high hq (by positivity) (by positivity)
      _ ≤ 2 ^ 108 := by norm_num

section
variable {A : ℝ} {L : ℕ} {α β α' β' : ℕ → ℕ} {s : Cx F32} {e : Cx ℝ} {lib : Lib}

theorem cn_up (hA : Sized A) {a b a' b' : ℕ} {z : ℂ} {x y : F32} (h : Cn (A * 2 ^ a) b z x y) (h1 : a ≤ a') (h2 : b ≤ b') :
    Cn (A * 2 ^ a') b' z x y :=
  h.mono (mul_le_mul_of_nonneg_left (pow_le_pow_right₀ (by norm_num) h1) hA.pos.le) h2

theorem Nr.weaken (hA : Sized A) (h : Nr A L α β s e) (h1 : ∀ i, i < L → α i ≤ α' i) (h2 : ∀ i, i < L → β i ≤ β' i) :
    Nr A L α' β' s e := by
  obtain ⟨X, Y, Z, e1, e2, hc⟩ := h
  exact ⟨X, Y, Z, e1, e2, fun i hi => cn_up hA (hc i hi) (h1 i hi) (h2 i hi)⟩

theorem two_double (A : ℝ) (a : ℕ) : 2 * (A * 2 ^ a) = A * 2 ^ (a + 1) := by ring

theorem butterfly_near (hA : Sized A) {p q a b : ℕ} (hp : p < L) (hq : q < L) (hpq : p ≠ q) (h : Nr A L α β s e)
    (h1 : α p ≤ a) (h2 : α q ≤ a) (h3 : β p ≤ b) (h4 : β q ≤ b) (ha : a ≤ 40) (hb : b ≤ 2 ^ 18) :
    Rel (butterfly (fftOps lib) p q s) (butterfly realOps p q e)
      (Nr A L (fun i => if i = p ∨ i = q then a + 1 else α i) (fun i => if i = p ∨ i = q then b + 3 else β i)) := by
  obtain ⟨X, Y, Z, rfl, rfl, hc⟩ := h
  rw [butterfly_ok hp hq hpq]
  have run : butterfly (fftOps lib) p q (vec L X, vec L Y) =
      .ok (vec L (fun k => if k = p then add (X p) (X q) else if k = q then sub (X p) (X q) else X k),
        vec L (fun k => if k = p then add (Y p) (Y q) else if k = q then sub (Y p) (Y q) else Y k)) := by
    unfold butterfly
    simp only
    rw [aget_vec _ hp, ok_bind, aget_vec _ hq, ok_bind, aset_vec _ hq, ok_bind, aset_vec _ hp, ok_bind, aget_vec _ hp, ok_bind,
      aget_vec _ hq, ok_bind, aset_vec _ hq, ok_bind, aset_vec _ hp, ok_bind]
    rfl
  rw [run]
  refine .done ⟨_, _, _, rfl, rfl, fun i hi => ?_⟩
  have cp := cn_up hA (hc p hp) h1 h3
  have cq := cn_up hA (hc q hq) h2 h4
  have hf := hA.fair ha hb
  unfold upd2
  beta_reduce
  by_cases hip : i = p
  · rw [if_pos (Or.inl hip), if_pos (Or.inl hip), if_pos hip, if_pos hip, if_pos hip, ← two_double]
    exact cn_add hf cp cq
  · rw [if_neg hip, if_neg hip, if_neg hip]
    by_cases hiq : i = q
    · rw [if_pos (Or.inr hiq), if_pos (Or.inr hiq), if_pos hiq, if_pos hiq, if_pos hiq, ← two_double]
      exact cn_sub hf cp cq
    · rw [if_neg (by omega), if_neg (by omega), if_neg hiq, if_neg hiq, if_neg hiq]
      exact hc i hi

theorem cross_near (hA : Sized A) {p q a b : ℕ} (hp : p < L) (hq : q < L) (hpq : p ≠ q) (h : Nr A L α β s e)
    (h1 : α p ≤ a) (h2 : α q ≤ a) (h3 : β p ≤ b) (h4 : β q ≤ b) (ha : a ≤ 40) (hb : b ≤ 2 ^ 18) :
    Rel (cross (fftOps lib) p q s) (cross realOps p q e)
      (Nr A L (fun i => if i = p ∨ i = q then a + 1 else α i) (fun i => if i = p ∨ i = q then b + 3 else β i)) := by
  obtain ⟨X, Y, Z, rfl, rfl, hc⟩ := h
  rw [cross_ok hp hq hpq]
  have run : cross (fftOps lib) p q (vec L X, vec L Y) =
      .ok (vec L (fun k => if k = p then add (X p) (Y q) else if k = q then sub (X p) (Y q) else X k),
        vec L (fun k => if k = q then add (Y p) (X q) else if k = p then sub (Y p) (X q) else Y k)) := by
    unfold cross
    simp only
    rw [aget_vec _ hp, ok_bind, aget_vec _ hq, ok_bind, aget_vec _ hp, ok_bind, aget_vec _ hq, ok_bind, aset_vec _ hp, ok_bind,
      aset_vec _ hq, ok_bind, aset_vec _ hp, ok_bind, aset_vec _ hq, ok_bind]
    rfl
  rw [run]
  refine .done ⟨_, _, _, rfl, rfl, fun i hi => ?_⟩
  have cp := cn_up hA (hc p hp) h1 h3
  have cq := cn_up hA (hc q hq) h2 h4
  have hf := hA.fair ha hb
  unfold upd2
  beta_reduce
  by_cases hip : i = p
  · rw [if_pos (Or.inl hip), if_pos (Or.inl hip), if_pos hip, if_pos hip, if_pos hip, if_neg (by omega), ← two_double]
    exact cn_subI hf cp cq
  · rw [if_neg hip, if_neg hip, if_neg hip]
    by_cases hiq : i = q
    · rw [if_pos (Or.inr hiq), if_pos (Or.inr hiq), if_pos hiq, if_pos hiq, if_pos hiq, ← two_double]
      exact cn_addI hf cp cq
    · rw [if_neg (by omega), if_neg (by omega), if_neg hiq, if_neg hiq, if_neg hiq]
      exact hc i hi

theorem turn8_near (hA : Sized A) {p q a b : ℕ} (hp : p < L) (hq : q < L) (hpq : p ≠ q) (h : Nr A L α β s e)
    (h1 : α p ≤ a) (h2 : α q ≤ a) (h3 : β p ≤ b) (h4 : β q ≤ b) (ha : a ≤ 40) (hb : b ≤ 2 ^ 18) :
    Rel (turn8 (fftOps lib) p q s) (turn8 realOps p q e)
      (Nr A L (fun i => if i = p ∨ i = q then a else α i) (fun i => if i = p ∨ i = q then b + 125 else β i)) := by
  obtain ⟨X, Y, Z, rfl, rfl, hc⟩ := h
  rw [turn8_ok (a := 1) (by norm_num) hp hq hpq, root_eighth (by norm_num), root_three_eighth (by norm_num)]
  have run : turn8 (fftOps lib) p q (vec L X, vec L Y) =
      .ok (vec L (fun k => if k = q then mul (fftOps lib).sqhalf (sub (Y q) (X q)) else
          if k = p then mul (fftOps lib).sqhalf (add (X p) (Y p)) else X k),
        vec L (fun k => if k = q then mul (neg (fftOps lib).sqhalf) (add (X q) (Y q)) else
          if k = p then mul (fftOps lib).sqhalf (sub (Y p) (X p)) else Y k)) := by
    unfold turn8
    simp only
    rw [aget_vec _ hp, ok_bind, aget_vec _ hp, ok_bind, aset_vec _ hp, ok_bind, aset_vec _ hp, ok_bind, aget_vec _ hq, ok_bind,
      aget_vec _ hq, ok_bind, aset_vec _ hq, ok_bind, aset_vec _ hq, ok_bind, if_neg (Ne.symm hpq), if_neg (Ne.symm hpq)]
    rfl
  rw [run]
  refine .done ⟨_, _, _, rfl, rfl, fun i hi => ?_⟩
  have cp := cn_up hA (hc p hp) h1 h3
  have cq := cn_up hA (hc q hq) h2 h4
  have hf := hA.fair ha hb
  have hs : (1 / Real.sqrt 2) ^ 2 = 1 / 2 := by
    rw [div_pow, Real.sq_sqrt (by norm_num)]
    norm_num
  unfold upd2
  beta_reduce
  by_cases hip : i = p
  · rw [if_pos (Or.inl hip), if_pos (Or.inl hip), if_pos hip, if_pos hip, if_pos hip, if_neg (by omega), if_neg (by omega)]
    exact (cn_turn8 hf cp (sqhalf_worth lib) hs).1
  · rw [if_neg hip, if_neg hip, if_neg hip]
    by_cases hiq : i = q
    · rw [if_pos (Or.inr hiq), if_pos (Or.inr hiq), if_pos hiq, if_pos hiq, if_pos hiq]
      exact (cn_turn8 hf cq (sqhalf_worth lib) hs).2
    · rw [if_neg (by omega), if_neg (by omega), if_neg hiq, if_neg hiq, if_neg hiq]
      exact hc i hi

theorem turn_near (hl : TrigLaws lib) (hA : Sized A) {m n : ℕ} (hn : 0 < n) (hm : m ≤ 2 ^ 30) (hnm : 4 * n ≤ m) {p q a b : ℕ}
    (hp : p < L) (hq : q < L) (hpq : p ≠ q) (h : Nr A L α β s e)
    (h1 : α p ≤ a) (h2 : α q ≤ a) (h3 : β p ≤ b) (h4 : β q ≤ b) (ha : a ≤ 40) (hb : b ≤ 2 ^ 18) :
    Rel (turn (fftOps lib) (entry (fftOps lib) m n) p q s) (turn realOps (entry realOps m n) p q e)
      (Nr A L (fun i => if i = p ∨ i = q then a else α i) (fun i => if i = p ∨ i = q then b + 125 else β i)) := by
  obtain ⟨X, Y, Z, rfl, rfl, hc⟩ := h
  rw [turn_ok hp hq hpq]
  have hE := entry_near hl hn hm hnm
  generalize entry (fftOps lib) m n = E at hE ⊢
  have run : turn (fftOps lib) E p q (vec L X, vec L Y) =
      .ok (vec L (fun k => if k = q then add (mul E.smc3 (Y q)) (mul E.c3 (add (X q) (Y q))) else
          if k = p then add (mul E.smc (Y p)) (mul E.c (add (X p) (Y p))) else X k),
        vec L (fun k => if k = q then add (mul E.spc3 (X q)) (mul E.c3 (add (X q) (Y q))) else
          if k = p then add (mul E.spc (X p)) (mul E.c (add (X p) (Y p))) else Y k)) := by
    unfold turn
    simp only
    rw [aget_vec _ hp, ok_bind, aget_vec _ hp, ok_bind, aset_vec _ hp, ok_bind, aset_vec _ hp, ok_bind, aget_vec _ hq, ok_bind,
      aget_vec _ hq, ok_bind, aset_vec _ hq, ok_bind, aset_vec _ hq, ok_bind, if_neg (Ne.symm hpq), if_neg (Ne.symm hpq)]
    rfl
  rw [run]
  refine .done ⟨_, _, _, rfl, rfl, fun i hi => ?_⟩
  have cp := cn_up hA (hc p hp) h1 h3
  have cq := cn_up hA (hc q hq) h2 h4
  have hf := hA.fair ha hb
  have er : ∀ j, root m j = ⟨Real.cos (j * (2 * Real.pi) / m), -Real.sin (j * (2 * Real.pi) / m)⟩ := fun j =>
    Complex.ext (root_re m j) (root_im m j)
  rw [er, er]
  unfold upd2
  beta_reduce
  by_cases hip : i = p
  · rw [if_pos (Or.inl hip), if_pos (Or.inl hip), if_pos hip, if_pos hip, if_pos hip, if_neg (by omega), if_neg (by omega)]
    exact cn_turn hf cp (Real.cos_sq_add_sin_sq _) hE.hc hE.hspc hE.hsmc
  · rw [if_neg hip, if_neg hip, if_neg hip]
    by_cases hiq : i = q
    · rw [if_pos (Or.inr hiq), if_pos (Or.inr hiq), if_pos hiq, if_pos hiq, if_pos hiq]
      exact cn_turn hf cq (Real.cos_sq_add_sin_sq _) hE.hc3 hE.hspc3 hE.hsmc3
    · rw [if_neg (by omega), if_neg (by omega), if_neg hiq, if_neg hiq, if_neg hiq]
      exact hc i hi

theorem twiddle_near (hl : TrigLaws lib) (hA : Sized A) {logn l c a b : ℕ} (hlo : l + 3 ≤ logn) (hlog : logn ≤ 30)
    (hL : c + 8 * 2 ^ l ≤ L) (h : Nr A L α β s e) (h1 : ∀ i, c + 4 * 2 ^ l ≤ i → i < c + 8 * 2 ^ l → α i ≤ a ∧ β i ≤ b)
    (ha : a ≤ 40) (hb : b ≤ 2 ^ 18) :
    ∃ row row', rowFor (table (fftOps lib) logn) (l + 3) = .ok row ∧ rowFor (table realOps logn) (l + 3) = .ok row' ∧
      Rel (forN (8 * 2 ^ l / 4 - 1) (twiddleStep (fftOps lib) row (8 * 2 ^ l) c) (s, 0))
        (forN (8 * 2 ^ l / 4 - 1) (twiddleStep realOps row' (8 * 2 ^ l) c) (e, 0)) (fun r r' =>
          Nr A L (fun i => if c + 4 * 2 ^ l ≤ i ∧ i < c + 8 * 2 ^ l then a else α i)
            (fun i => if c + 4 * 2 ^ l ≤ i ∧ i < c + 8 * 2 ^ l then b + 125 else β i) r.1 r'.1) := by
  have ha1 : 1 ≤ 2 ^ l := Nat.pow_pos (by omega)
  have hm : 8 * 2 ^ l ≤ 2 ^ 30 := by
    calc 8 * 2 ^ l = 2 ^ (l + 3) := by rw [Nat.pow_add]; omega
      _ ≤ 2 ^ 30 := Nat.pow_le_pow_right (by omega) (by omega)
  have rows : ∀ {F : Type} (o : Ops F), ∃ row, rowFor (table o logn) (l + 3) = .ok row ∧
      ∀ i, i < 2 * 2 ^ l - 1 → i + 1 ≠ 2 ^ l →
        row[if i < 2 ^ l then i else i - 1]? = some (entry o (8 * 2 ^ l) (i + 1)) := by
    intro F o
    rcases Nat.eq_zero_or_pos l with rfl | h
    · exact ⟨[], rfl, fun i hi hne => by rw [Nat.pow_zero] at hi hne; omega⟩
    · exact ⟨_, table_get o hlo h, fun i hi hne => tableRow_get o ha1 hi hne⟩
  obtain ⟨row, hrow, hget⟩ := rows (fftOps lib)
  obtain ⟨row', hrow', hget'⟩ := rows realOps
  refine ⟨row, row', hrow, hrow', ?_⟩
  clear rows hrow hrow'
  generalize 2 ^ l = d at *
  have step := rel_forN (f := twiddleStep (fftOps lib) row (8 * d) c) (g := twiddleStep realOps row' (8 * d) c)
    (fun i (s : Cx F32 × ℕ) (e : Cx ℝ × ℕ) =>
      Nr A L (fun j => if (c + 4 * d < j ∧ j ≤ c + 4 * d + i) ∨ (c + 6 * d < j ∧ j ≤ c + 6 * d + i) then a else α j)
        (fun j => if (c + 4 * d < j ∧ j ≤ c + 4 * d + i) ∨ (c + 6 * d < j ∧ j ≤ c + 6 * d + i) then b + 125 else β j) s.1 e.1 ∧
      (s.2 = if i < d then i else i - 1) ∧ e.2 = s.2) (8 * d / 4 - 1) ?_ (s, 0) (e, 0) ⟨?_, ?_, rfl⟩
  · refine step.imp fun r r' hr => hr.1.weaken hA (fun j _ => ?_) (fun j _ => ?_)
    · have := h1 j
      split_ifs <;> omega
    · have := h1 j
      split_ifs <;> omega
  · rintro i ⟨s, t⟩ ⟨e, t'⟩ hi ⟨k1, k2, k3⟩
    have k2 : t = if i < d then i else i - 1 := k2
    have k3 : t' = t := k3
    subst k3
    unfold twiddleStep
    rw [show 8 * d / 8 = d by omega, show 8 * d / 2 = 4 * d by omega, show 8 * d / 4 = 2 * d by omega]
    have g : ∀ p, p = c + 4 * d + (i + 1) ∨ p = c + 4 * d + 2 * d + (i + 1) →
        ¬ ((c + 4 * d < p ∧ p ≤ c + 4 * d + i) ∨ (c + 6 * d < p ∧ p ≤ c + 6 * d + i)) ∧ α p ≤ a ∧ β p ≤ b := by
      intro p hp
      exact ⟨by omega, h1 p (by omega) (by omega)⟩
    obtain ⟨n1, a1, b1⟩ := g _ (Or.inl rfl)
    obtain ⟨n2, a2, b2⟩ := g _ (Or.inr rfl)
    by_cases hia : i + 1 = d
    · rw [if_pos hia, if_pos hia]
      refine (turn8_near hA (p := c + 4 * d + (i + 1)) (q := c + 4 * d + 2 * d + (i + 1)) (a := a) (b := b) (by omega) (by omega)
        (by omega) k1 (by rw [if_neg n1]; exact a1) (by rw [if_neg n2]; exact a2) (by rw [if_neg n1]; exact b1)
        (by rw [if_neg n2]; exact b2) ha hb).bind fun x x' hx => .done ⟨hx.weaken hA ?_ ?_, ?_, rfl⟩
      · intro j _
        split_ifs <;> omega
      · intro j _
        split_ifs <;> omega
      · show t' = _
        rw [k2]
        split_ifs <;> omega
    · rw [if_neg hia, if_neg hia]
      simp only
      rw [k2, aget_nat (hget i (by omega) hia), ok_bind, aget_nat (hget' i (by omega) hia), ok_bind]
      refine (turn_near hl hA (m := 8 * d) (n := i + 1) (by omega) hm (by omega) (p := c + 4 * d + (i + 1))
        (q := c + 4 * d + 2 * d + (i + 1)) (a := a) (b := b) (by omega) (by omega)
        (by omega) k1 (by rw [if_neg n1]; exact a1) (by rw [if_neg n2]; exact a2) (by rw [if_neg n1]; exact b1)
        (by rw [if_neg n2]; exact b2) ha hb).bind fun x x' hx => .done ⟨hx.weaken hA ?_ ?_, ?_, rfl⟩
      · intro j _
        split_ifs <;> omega
      · intro j _
        split_ifs <;> omega
      · show _ + 1 = _
        split_ifs <;> omega
  · refine h.weaken hA (fun j _ => ?_) (fun j _ => ?_) <;> rw [if_neg (by omega)]
  · show 0 = _
    split_ifs <;> rfl

/-- The errors of the recursion: 66 units for every doubling. -/
theorem fftRec_near (hl : TrigLaws lib) (hA : Sized A) {logn : ℕ} (hlog : logn ≤ 30) (l : ℕ) :
    ∀ (c a b : ℕ) (α β : ℕ → ℕ) (s : Cx F32) (e : Cx ℝ), l ≤ logn → c + 2 ^ l ≤ L → Nr A L α β s e →
    (∀ i, c ≤ i → i < c + 2 ^ l → α i ≤ a ∧ β i ≤ b) → a + l ≤ 40 → b + 66 * l ≤ 2 ^ 18 →
    Rel (fftRec (fftOps lib) (table (fftOps lib) logn) l c s) (fftRec realOps (table realOps logn) l c e)
      (Nr A L (fun i => if c ≤ i ∧ i < c + 2 ^ l then a + l else α i)
        (fun i => if c ≤ i ∧ i < c + 2 ^ l then b + 66 * l else β i)) := by
  induction l using Nat.strong_induction_on with
  | _ l ih =>
    intro c a b α β s e hlo hL h h1 ha hb
    match l, ih, hlo, hL, h1, ha, hb with
    | 0, _, _, _, h1, _, _ =>
      refine .done (h.weaken hA (fun i _ => ?_) (fun i _ => ?_)) <;> have := h1 i <;> split_ifs <;> omega
    | 1, _, _, hL, h1, ha, hb =>
      have h1 : ∀ i, c ≤ i → i < c + 2 → α i ≤ a ∧ β i ≤ b := h1
      have hL : c + 2 ≤ L := hL
      refine (butterfly_near hA (a := a) (b := b) (by omega) (by omega) (by omega) h (h1 c (by omega) (by omega)).1
        (h1 (c + 1) (by omega) (by omega)).1 (h1 c (by omega) (by omega)).2
        (h1 (c + 1) (by omega) (by omega)).2 (by omega) (by omega)).imp
        fun s e h => h.weaken hA (fun i _ => ?_) (fun i _ => ?_) <;> split_ifs <;> omega
    | 2, _, _, hL, h1, ha, hb =>
      have hL : c + 4 ≤ L := hL
      have h1 : ∀ i, c ≤ i → i < c + 4 → α i ≤ a ∧ β i ≤ b := h1
      have p0 := h1 c (by omega) (by omega)
      have p1 := h1 (c + 1) (by omega) (by omega)
      have p2 := h1 (c + 2) (by omega) (by omega)
      have p3 := h1 (c + 3) (by omega) (by omega)
      unfold fftRec
      refine (butterfly_near hA (a := a) (b := b) (by omega) (by omega) (by omega) h p0.1 p2.1 p0.2 p2.2 (by omega)
        (by omega)).bind fun s e h => ?_
      refine (butterfly_near hA (p := c + 1) (q := c + 3) (a := a) (b := b) (by omega) (by omega) (by omega) h
        (by rw [if_neg (by omega)]; exact p1.1) (by rw [if_neg (by omega)]; exact p3.1)
        (by rw [if_neg (by omega)]; exact p1.2) (by rw [if_neg (by omega)]; exact p3.2) (by omega) (by omega)).bind fun s e h => ?_
      refine (butterfly_near hA (p := c) (q := c + 1) (a := a + 1) (b := b + 3) (by omega) (by omega) (by omega) h
        (by split_ifs <;> omega) (by split_ifs <;> omega) (by split_ifs <;> omega) (by split_ifs <;> omega)
        (by omega) (by omega)).bind fun s e h => ?_
      refine (cross_near hA (p := c + 2) (q := c + 3) (a := a + 1) (b := b + 3) (by omega) (by omega) (by omega) h
        (by split_ifs <;> omega) (by split_ifs <;> omega) (by split_ifs <;> omega) (by split_ifs <;> omega)
        (by omega) (by omega)).imp fun s e h => h.weaken hA (fun i _ => ?_) (fun i _ => ?_)
      · split_ifs <;> omega
      · split_ifs <;> omega
    | l + 3, ih, hlo, hL, h1, ha, hb =>
      unfold fftRec
      have e3 : 2 ^ (l + 3) = 8 * 2 ^ l := by rw [Nat.pow_add]; omega
      have e2 : 2 ^ (l + 2) = 4 * 2 ^ l := by rw [Nat.pow_add]; omega
      have e1 : 2 ^ (l + 1) = 2 * 2 ^ l := by rw [Nat.pow_add]; omega
      simp only
      rw [e3] at hL h1 ⊢
      have i1 := ih (l + 2) (by omega)
      have i2 := ih (l + 1) (by omega)
      rw [e2] at i1
      rw [e1] at i2
      clear e1 e2 e3
      have tw := fun {α β : ℕ → ℕ} {a b : ℕ} {s : Cx F32} {e : Cx ℝ} =>
        twiddle_near (L := L) (α := α) (β := β) hl hA (c := c) (a := a) (b := b) (s := s) (e := e) hlo hlog hL
      generalize 2 ^ l = d at *
      rw [show 8 * d / 2 = 4 * d by omega, show 8 * d / 4 = 2 * d by omega] at *
      refine (rel_forN (fun n => Nr A L
        (fun i => if (c ≤ i ∧ i < c + n) ∨ (c + 4 * d ≤ i ∧ i < c + 4 * d + n) then a + 1 else α i)
        (fun i => if (c ≤ i ∧ i < c + n) ∨ (c + 4 * d ≤ i ∧ i < c + 4 * d + n) then b + 3 else β i))
        _ (fun n s e hn h => ?_) s e (h.weaken hA (fun i _ => ?_) (fun i _ => ?_))).bind fun s e h => ?_
      · have p1 := h1 (c + n) (by omega) (by omega)
        have p2 := h1 (c + 4 * d + n) (by omega) (by omega)
        refine (butterfly_near hA (p := c + n) (q := c + 4 * d + n) (a := a) (b := b) (by omega) (by omega) (by omega) h
          (by rw [if_neg (by omega)]; exact p1.1) (by rw [if_neg (by omega)]; exact p2.1)
          (by rw [if_neg (by omega)]; exact p1.2) (by rw [if_neg (by omega)]; exact p2.2) (by omega) (by omega)).imp
          fun s e h => h.weaken hA (fun i _ => ?_) (fun i _ => ?_)
        · split_ifs <;> omega
        · split_ifs <;> omega
      · rw [if_neg (by omega)]
      · rw [if_neg (by omega)]
      refine (rel_forN (fun n => Nr A L
        (fun i => if (c + 4 * d ≤ i ∧ i < c + 4 * d + n) ∨ (c + 6 * d ≤ i ∧ i < c + 6 * d + n) then a + 2 else
          if c ≤ i ∧ i < c + 8 * d then a + 1 else α i)
        (fun i => if (c + 4 * d ≤ i ∧ i < c + 4 * d + n) ∨ (c + 6 * d ≤ i ∧ i < c + 6 * d + n) then b + 6 else
          if c ≤ i ∧ i < c + 8 * d then b + 3 else β i))
        _ (fun n s e hn h => ?_) s e (h.weaken hA (fun i _ => ?_) (fun i _ => ?_))).bind fun s e h => ?_
      · refine (cross_near hA (p := c + 4 * d + n) (q := c + 4 * d + 2 * d + n) (a := a + 1) (b := b + 3) (by omega) (by omega)
          (by omega) h (by split_ifs <;> omega) (by split_ifs <;> omega) (by split_ifs <;> omega) (by split_ifs <;> omega)
          (by omega) (by omega)).imp fun s e h => h.weaken hA (fun i _ => ?_) (fun i _ => ?_)
        · split_ifs <;> omega
        · split_ifs <;> omega
      · split_ifs <;> omega
      · split_ifs <;> omega
      obtain ⟨row, row', er, er', hr⟩ := tw (a := a + 2) (b := b + 6) h (fun i _ _ => by constructor <;> split_ifs <;> omega)
        (by omega) (by omega)
      rw [er, ok_bind, er', ok_bind]
      refine hr.bind fun r r' h => ?_
      refine (i1 c (a + 1) (b + 3) _ _ _ _ (by omega) (by omega) h (fun i _ _ => by constructor <;> split_ifs <;> omega)
        (by omega) (by omega)).bind fun s e h => ?_
      refine (i2 (c + 4 * d) (a + 2) (b + 131) _ _ _ _ (by omega) (by omega) h
        (fun i _ _ => by constructor <;> split_ifs <;> omega) (by omega) (by omega)).bind fun s e h => ?_
      refine (i2 (c + 3 * (2 * d)) (a + 2) (b + 131) _ _ _ _ (by omega) (by omega) h
        (fun i _ _ => by constructor <;> split_ifs <;> omega) (by omega) (by omega)).imp
        fun s e h => h.weaken hA (fun i _ => ?_) (fun i _ => ?_)
      · split_ifs <;> omega
      · split_ifs <;> omega

end

end Verif.Ieee
