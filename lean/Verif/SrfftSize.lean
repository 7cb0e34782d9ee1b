import Verif.SrfftShape

/-!
# How large numbers become in the FFT

Sizes are exponents: `P a x` stands for "`x` is a number of at most `2 ^ a`".  Every array has a bound for each index.
-/

namespace Verif.Srfft

variable {F : Type}

/-- What an arithmetic does to sizes, as long as these are at most `T`. -/
structure Sizes (o : Ops F) (P : Nat → F → Prop) (T : Nat) : Prop where
  mono : ∀ {a b : Nat} {x : F}, a ≤ b → P a x → P b x
  add : ∀ {a : Nat} {x y : F}, a + 1 ≤ T → P a x → P a y → P (a + 1) (o.add x y)
  sub : ∀ {a : Nat} {x y : F}, a + 1 ≤ T → P a x → P a y → P (a + 1) (o.sub x y)
  mul : ∀ {a b : Nat} {x y : F}, a + b ≤ T → P a x → P b y → P (a + b) (o.mul x y)
  neg : ∀ {a : Nat} {x : F}, P a x → P a (o.neg x)
  half : ∀ {a : Nat} {x : F}, P (a + 1) x → P a (o.half x)
  sqhalf : P 0 o.sqhalf
  cos : ∀ {n m : Nat}, 0 < m → m ≤ 2 ^ 30 → n ≤ 3 * m → P 0 (o.cos (o.ang n m))
  sin : ∀ {n m : Nat}, 0 < m → m ≤ 2 ^ 30 → n ≤ 3 * m → P 0 (o.sin (o.ang n m))

/-- An array of `L` numbers with a bound for each. -/
def Ar (P : Nat → F → Prop) (L : Nat) (β : Nat → Nat) (x : List F) : Prop :=
  x.length = L ∧ ∀ i v, x[i]? = some v → P (β i) v

/-- Two such arrays. -/
def Bd (P : Nat → F → Prop) (L : Nat) (β : Nat → Nat) (s : Cx F) : Prop := Ar P L β s.1 ∧ Ar P L β s.2

variable {P : Nat → F → Prop} {o : Ops F} {T L : Nat} {β γ : Nat → Nat}

theorem Ar.weaken (hS : Sizes o P T) {x : List F} (h : Ar P L β x) (hg : ∀ i, i < L → β i ≤ γ i) : Ar P L γ x :=
  ⟨h.1, fun i v hv => hS.mono (hg i (by have := (List.getElem?_eq_some_iff.mp hv).1; rw [h.1] at this; exact this)) (h.2 i v hv)⟩

theorem Bd.weaken (hS : Sizes o P T) {s : Cx F} (h : Bd P L β s) (hg : ∀ i, i < L → β i ≤ γ i) : Bd P L γ s :=
  ⟨h.1.weaken hS hg, h.2.weaken hS hg⟩

theorem ar_get {x : List F} (h : Ar P L β x) {i : Nat} (hi : i < L) : Safe (aget x (i : Int)) (P (β i)) := by
  have hi' : i < x.length := by rw [h.1]; exact hi
  exact ⟨x[i], aget_nat (List.getElem?_eq_getElem hi'), h.2 i _ (List.getElem?_eq_getElem hi')⟩

theorem ar_set {x : List F} (h : Ar P L β x) {i c : Nat} (hi : i < L) {v : F} (hv : P c v) :
    Safe (aset x (i : Int) v) (Ar P L (fun j => if j = i then c else β j)) := by
  refine ⟨_, aset_nat (by rw [h.1]; exact hi), by rw [List.length_set]; exact h.1, fun j w hw => ?_⟩
  by_cases hj : j = i
  · subst hj
    rw [List.getElem?_set_self (by rw [h.1]; exact hi)] at hw
    cases hw
    show P (if _ then _ else _) _
    rw [if_pos rfl]
    exact hv
  · rw [List.getElem?_set_ne (Ne.symm hj)] at hw
    show P (if _ then _ else _) _
    rw [if_neg hj]
    exact h.2 j w hw

theorem Safe.imp {α : Type} {x : Exec α} {P Q : α → Prop} (h : Safe x P) (g : ∀ a, P a → Q a) : Safe x Q := by
  obtain ⟨a, e, ha⟩ := h
  exact ⟨a, e, g a ha⟩

theorem butterfly_size (hS : Sizes o P T) {p q a : Nat} (hp : p < L) (hq : q < L) (hpq : p ≠ q) {s : Cx F} (h : Bd P L β s)
    (h1 : β p ≤ a) (h2 : β q ≤ a) (ha : a + 1 ≤ T) :
    Safe (butterfly o p q s) (Bd P L (fun i => if i = p ∨ i = q then a + 1 else β i)) := by
  unfold butterfly
  refine (ar_get h.1 hp).bind fun xp e1 => (ar_get h.1 hq).bind fun xq e2 => ?_
  have e1 := hS.mono h1 e1
  have e2 := hS.mono h2 e2
  refine (ar_set h.1 hq (hS.sub ha e1 e2)).bind fun x1 e3 => (ar_set e3 hp (hS.add ha e1 e2)).bind fun x2 e4 => ?_
  refine (ar_get h.2 hp).bind fun yp f1 => (ar_get h.2 hq).bind fun yq f2 => ?_
  have f1 := hS.mono h1 f1
  have f2 := hS.mono h2 f2
  refine (ar_set h.2 hq (hS.sub ha f1 f2)).bind fun y1 f3 => (ar_set f3 hp (hS.add ha f1 f2)).bind fun y2 f4 => .done ?_
  refine ⟨e4.weaken hS fun i _ => ?_, f4.weaken hS fun i _ => ?_⟩ <;> split_ifs <;> omega

theorem cross_size (hS : Sizes o P T) {p q a : Nat} (hp : p < L) (hq : q < L) (hpq : p ≠ q) {s : Cx F} (h : Bd P L β s)
    (h1 : β p ≤ a) (h2 : β q ≤ a) (ha : a + 1 ≤ T) :
    Safe (cross o p q s) (Bd P L (fun i => if i = p ∨ i = q then a + 1 else β i)) := by
  unfold cross
  refine (ar_get h.1 hp).bind fun xp e1 => (ar_get h.1 hq).bind fun xq e2 => (ar_get h.2 hp).bind fun yp f1 =>
    (ar_get h.2 hq).bind fun yq f2 => ?_
  have e1 := hS.mono h1 e1
  have e2 := hS.mono h2 e2
  have f1 := hS.mono h1 f1
  have f2 := hS.mono h2 f2
  refine (ar_set h.2 hp (hS.sub ha f1 e2)).bind fun x1 e3 => (ar_set h.1 hq (hS.sub ha e1 f2)).bind fun x2 e4 =>
    (ar_set e4 hp (hS.add ha e1 f2)).bind fun x3 e5 => (ar_set e3 hq (hS.add ha f1 e2)).bind fun x4 e6 => .done ?_
  refine ⟨e5.weaken hS fun i _ => ?_, e6.weaken hS fun i _ => ?_⟩ <;> split_ifs <;> omega

theorem turn8_size (hS : Sizes o P T) {p q a : Nat} (hp : p < L) (hq : q < L) (hpq : p ≠ q) {s : Cx F} (h : Bd P L β s)
    (h1 : β p ≤ a) (h2 : β q ≤ a) (ha : a + 2 ≤ T) :
    Safe (turn8 o p q s) (Bd P L (fun i => if i = p ∨ i = q then a + 2 else β i)) := by
  have mul : ∀ {c x : F}, P 0 c → P (a + 1) x → P (a + 2) (o.mul c x) := fun hc hx =>
    hS.mono (by omega) (hS.mul (by omega) hc hx)
  unfold turn8
  refine (ar_get h.1 hp).bind fun xp e1 => (ar_get h.2 hp).bind fun yp f1 => ?_
  have e1 := hS.mono h1 e1
  have f1 := hS.mono h1 f1
  refine (ar_set h.2 hp (mul hS.sqhalf (hS.sub (by omega) f1 e1))).bind fun y1 f3 =>
    (ar_set h.1 hp (mul hS.sqhalf (hS.add (by omega) e1 f1))).bind fun x1 e3 => ?_
  refine (ar_get e3 hq).bind fun xq e2 => (ar_get f3 hq).bind fun yq f2 => ?_
  rw [if_neg (Ne.symm hpq)] at e2 f2
  have e2 := hS.mono h2 e2
  have f2 := hS.mono h2 f2
  refine (ar_set f3 hq (mul (hS.neg hS.sqhalf) (hS.add (by omega) e2 f2))).bind fun y2 f4 =>
    (ar_set e3 hq (mul hS.sqhalf (hS.sub (by omega) f2 e2))).bind fun x2 e4 => .done ?_
  refine ⟨e4.weaken hS fun i _ => ?_, f4.weaken hS fun i _ => ?_⟩ <;> split_ifs <;> omega

/-- The bounds for an element of the tables. -/
structure SixOk (P : Nat → F → Prop) (e : Six F) : Prop where
  c : P 0 e.c
  spc : P 1 e.spc
  smc : P 1 e.smc
  c3 : P 0 e.c3
  spc3 : P 1 e.spc3
  smc3 : P 1 e.smc3

theorem entry_size (hS : Sizes o P T) (hT : 1 ≤ T) {m n : Nat} (hm : 0 < m) (hm' : m ≤ 2 ^ 30) (hn : n ≤ m) :
    SixOk P (entry o m n) where
  c := hS.cos hm hm' (by omega)
  spc := hS.neg (hS.add hT (hS.sin hm hm' (by omega)) (hS.cos hm hm' (by omega)))
  smc := hS.sub hT (hS.sin hm hm' (by omega)) (hS.cos hm hm' (by omega))
  c3 := hS.cos hm hm' (by omega)
  spc3 := hS.neg (hS.add hT (hS.sin hm hm' (by omega)) (hS.cos hm hm' (by omega)))
  smc3 := hS.sub hT (hS.sin hm hm' (by omega)) (hS.cos hm hm' (by omega))

theorem turn_size (hS : Sizes o P T) {e : Six F} (he : SixOk P e) {p q a : Nat} (hp : p < L) (hq : q < L) (hpq : p ≠ q)
    {s : Cx F} (h : Bd P L β s) (h1 : β p ≤ a) (h2 : β q ≤ a) (ha : a + 2 ≤ T) :
    Safe (turn o e p q s) (Bd P L (fun i => if i = p ∨ i = q then a + 2 else β i)) := by
  have mul : ∀ {c x : F}, P 0 c → P (a + 1) x → P (a + 1) (o.mul c x) := fun hc hx =>
    hS.mono (by omega) (hS.mul (by omega) hc hx)
  have mul1 : ∀ {c x : F}, P 1 c → P a x → P (a + 1) (o.mul c x) := fun hc hx =>
    hS.mono (by omega) (hS.mul (by omega) hc hx)
  have add : ∀ {x y : F}, P (a + 1) x → P (a + 1) y → P (a + 2) (o.add x y) := fun hx hy => hS.add (by omega) hx hy
  unfold turn
  refine (ar_get h.1 hp).bind fun xp e1 => (ar_get h.2 hp).bind fun yp f1 => ?_
  have e1 := hS.mono h1 e1
  have f1 := hS.mono h1 f1
  have t := mul he.c (hS.add (by omega) e1 f1)
  refine (ar_set h.1 hp (add (mul1 he.smc f1) t)).bind fun x1 e3 =>
    (ar_set h.2 hp (add (mul1 he.spc e1) t)).bind fun y1 f3 => ?_
  refine (ar_get e3 hq).bind fun xq e2 => (ar_get f3 hq).bind fun yq f2 => ?_
  rw [if_neg (Ne.symm hpq)] at e2 f2
  have e2 := hS.mono h2 e2
  have f2 := hS.mono h2 f2
  have t := mul he.c3 (hS.add (by omega) e2 f2)
  refine (ar_set e3 hq (add (mul1 he.smc3 f2) t)).bind fun x2 e4 =>
    (ar_set f3 hq (add (mul1 he.spc3 e2) t)).bind fun y2 f4 => .done ?_
  refine ⟨e4.weaken hS fun i _ => ?_, f4.weaken hS fun i _ => ?_⟩ <;> split_ifs <;> omega

theorem twiddle_size (hS : Sizes o P T) {logn l b a : Nat} (hl : l + 3 ≤ logn) (hlog : logn ≤ 30) (hb : b + 8 * 2 ^ l ≤ L)
    {s : Cx F} (h : Bd P L β s) (hβ : ∀ i, b + 4 * 2 ^ l ≤ i → i < b + 8 * 2 ^ l → β i ≤ a) (ha : a + 2 ≤ T) :
    ∃ row, rowFor (table o logn) (l + 3) = .ok row ∧
      Safe (forN (8 * 2 ^ l / 4 - 1) (twiddleStep o row (8 * 2 ^ l) b) (s, 0))
        (fun r => Bd P L (fun i => if b + 4 * 2 ^ l ≤ i ∧ i < b + 8 * 2 ^ l then a + 2 else β i) r.1) := by
  have ha1 : 1 ≤ 2 ^ l := Nat.pow_pos (by omega)
  have hm : 8 * 2 ^ l ≤ 2 ^ 30 := by
    calc 8 * 2 ^ l = 2 ^ (l + 3) := by rw [Nat.pow_add]; omega
      _ ≤ 2 ^ 30 := Nat.pow_le_pow_right (by omega) (by omega)
  obtain ⟨row, hrow, hget⟩ : ∃ row, rowFor (table o logn) (l + 3) = .ok row ∧
      ∀ i, i < 2 * 2 ^ l - 1 → i + 1 ≠ 2 ^ l →
        row[if i < 2 ^ l then i else i - 1]? = some (entry o (8 * 2 ^ l) (i + 1)) := by
    rcases Nat.eq_zero_or_pos l with rfl | h
    · exact ⟨[], rfl, fun i hi hne => by rw [Nat.pow_zero] at hi hne; omega⟩
    · exact ⟨_, table_get o hl h, fun i hi hne => tableRow_get o ha1 hi hne⟩
  refine ⟨row, hrow, ?_⟩
  obtain ⟨c, ec⟩ : ∃ c, 2 ^ l = c := ⟨_, rfl⟩
  rw [ec] at ha1 hb hget hβ hm ⊢
  have step : ∀ (i : Nat) (s : Cx F × Nat), i < 8 * c / 4 - 1 →
      (Bd P L (fun j => if (b + 4 * c ≤ j ∧ j ≤ b + 4 * c + i) ∨ (b + 6 * c ≤ j ∧ j ≤ b + 6 * c + i) then a + 2 else β j) s.1 ∧
        s.2 = if i < c then i else i - 1) →
      Safe (twiddleStep o row (8 * c) b i s) (fun s =>
        Bd P L (fun j => if (b + 4 * c ≤ j ∧ j ≤ b + 4 * c + (i + 1)) ∨ (b + 6 * c ≤ j ∧ j ≤ b + 6 * c + (i + 1)) then a + 2
          else β j) s.1 ∧ s.2 = if i + 1 < c then i + 1 else i + 1 - 1) := by
    rintro i ⟨s, t⟩ hi ⟨h1, h2⟩
    have h2 : t = if i < c then i else i - 1 := h2
    unfold twiddleStep
    rw [show 8 * c / 8 = c by omega, show 8 * c / 2 = 4 * c by omega, show 8 * c / 4 = 2 * c by omega]
    have g1 : (if (b + 4 * c ≤ b + 4 * c + (i + 1) ∧ b + 4 * c + (i + 1) ≤ b + 4 * c + i) ∨
        (b + 6 * c ≤ b + 4 * c + (i + 1) ∧ b + 4 * c + (i + 1) ≤ b + 6 * c + i) then a + 2 else β (b + 4 * c + (i + 1))) ≤ a := by
      rw [if_neg (by omega)]
      exact hβ _ (by omega) (by omega)
    have g2 : (if (b + 4 * c ≤ b + 4 * c + 2 * c + (i + 1) ∧ b + 4 * c + 2 * c + (i + 1) ≤ b + 4 * c + i) ∨
        (b + 6 * c ≤ b + 4 * c + 2 * c + (i + 1) ∧ b + 4 * c + 2 * c + (i + 1) ≤ b + 6 * c + i) then a + 2
        else β (b + 4 * c + 2 * c + (i + 1))) ≤ a := by
      rw [if_neg (by omega)]
      exact hβ _ (by omega) (by omega)
    by_cases hia : i + 1 = c
    · rw [if_pos hia]
      refine (turn8_size hS (by omega) (by omega) (by omega) h1 g1 g2 ha).bind fun x hx => .done ⟨hx.weaken hS ?_, ?_⟩
      · intro j _
        split_ifs <;> omega
      · show t = _
        rw [h2]
        split_ifs <;> omega
    · rw [if_neg hia]
      simp only
      rw [h2, aget_nat (hget i (by omega) hia), ok_bind]
      refine (turn_size hS (entry_size hS (by omega) (by omega) hm (by omega)) (by omega) (by omega) (by omega) h1 g1 g2
        ha).bind fun x hx => .done ⟨hx.weaken hS ?_, ?_⟩
      · intro j _
        split_ifs <;> omega
      · show _ + 1 = _
        split_ifs <;> omega
  obtain ⟨r, e1, e2⟩ := safe_forN (fun i (s : Cx F × Nat) =>
    Bd P L (fun j => if (b + 4 * c ≤ j ∧ j ≤ b + 4 * c + i) ∨ (b + 6 * c ≤ j ∧ j ≤ b + 6 * c + i) then a + 2 else β j) s.1 ∧
        s.2 = if i < c then i else i - 1) _ step (s, 0)
    ⟨h.weaken hS fun j _ => by
      split_ifs with hj
      · have := hβ j (by omega) (by omega)
        omega
      · exact Nat.le_refl _, by show 0 = _; split_ifs <;> rfl⟩
  refine ⟨r, e1, e2.1.weaken hS fun j _ => ?_⟩
  split_ifs <;> omega

/-- Two steps of the recursion make a number at most sixteen times as large. -/
theorem fftRec_size (hS : Sizes o P T) {logn : Nat} (hlog : logn ≤ 30) (l : Nat) : ∀ (b a : Nat) (β : Nat → Nat) (s : Cx F),
    l ≤ logn → b + 2 ^ l ≤ L → Bd P L β s → (∀ i, b ≤ i → i < b + 2 ^ l → β i ≤ a) → a + 2 * l ≤ T →
    Safe (fftRec o (table o logn) l b s) (Bd P L (fun i => if b ≤ i ∧ i < b + 2 ^ l then a + 2 * l else β i)) := by
  induction l using Nat.strong_induction_on with
  | _ l ih =>
    intro b a β s hl hb h hβ ha
    match l, ih, hl, hb, hβ, ha with
    | 0, _, _, _, hβ, _ =>
      exact .done (h.weaken hS fun i _ => by
        split_ifs with hi
        · exact hβ i hi.1 hi.2
        · exact Nat.le_refl _)
    | 1, _, _, hb, hβ, ha =>
      refine (butterfly_size hS (by omega) (by omega) (by omega) h (hβ b (by omega) (by omega))
        (hβ (b + 1) (by omega) (by omega)) (by omega)).imp fun s h => h.weaken hS fun i _ => ?_
      split_ifs <;> omega
    | 2, _, _, hb, hβ, ha =>
      have hb : b + 4 ≤ L := hb
      have hβ : ∀ i, b ≤ i → i < b + 4 → β i ≤ a := hβ
      unfold fftRec
      refine (butterfly_size hS (by omega) (by omega) (by omega) h (hβ b (by omega) (by omega))
        (hβ (b + 2) (by omega) (by omega)) (by omega)).bind fun s h => ?_
      refine (butterfly_size hS (p := b + 1) (q := b + 3) (a := a) (by omega) (by omega) (by omega) h
        (by rw [if_neg (by omega)]; exact hβ _ (by omega) (by omega))
        (by rw [if_neg (by omega)]; exact hβ _ (by omega) (by omega)) (by omega)).bind fun s h => ?_
      refine (butterfly_size hS (p := b) (q := b + 1) (a := a + 1) (by omega) (by omega) (by omega) h
        (by rw [if_neg (by omega), if_pos (by omega)])
        (by rw [if_pos (by omega)]) (by omega)).bind fun s h => ?_
      refine (cross_size hS (p := b + 2) (q := b + 3) (a := a + 1) (by omega) (by omega) (by omega) h
        (by rw [if_neg (by omega), if_neg (by omega), if_pos (by omega)])
        (by rw [if_neg (by omega), if_pos (by omega)]) (by omega)).imp fun s h => h.weaken hS fun i _ => ?_
      split_ifs <;> omega
    | l + 3, ih, hl, hb, hβ, ha =>
      unfold fftRec
      have e3 : 2 ^ (l + 3) = 8 * 2 ^ l := by rw [Nat.pow_add]; omega
      have e2 : 2 ^ (l + 2) = 4 * 2 ^ l := by rw [Nat.pow_add]; omega
      have e1 : 2 ^ (l + 1) = 2 * 2 ^ l := by rw [Nat.pow_add]; omega
      simp only
      rw [e3] at hb hβ ⊢
      have i1 := ih (l + 2) (by omega)
      have i2 := ih (l + 1) (by omega)
      rw [e2] at i1
      rw [e1] at i2
      obtain ⟨row0, er0, _⟩ := twiddle_safe o hl hb (s := s) ⟨h.1.1, h.2.1⟩
      clear e1 e2 e3
      have tw := fun {β : Nat → Nat} {a : Nat} {s : Cx F} => twiddle_size (L := L) (β := β) hS (b := b) (a := a) (s := s) hl hlog hb
      generalize 2 ^ l = c at *
      rw [show 8 * c / 2 = 4 * c by omega, show 8 * c / 4 = 2 * c by omega] at *
      refine (safe_forN (fun n => Bd P L (fun i => if (b ≤ i ∧ i < b + n) ∨ (b + 4 * c ≤ i ∧ i < b + 4 * c + n) then a + 1
        else β i)) _ (fun n s hn h => ?_) s (h.weaken hS fun i _ => ?_)).bind fun s h => ?_
      · refine (butterfly_size hS (p := b + n) (q := b + 4 * c + n) (a := a) (by omega) (by omega) (by omega) h
          (by rw [if_neg (by omega)]; exact hβ _ (by omega) (by omega))
          (by rw [if_neg (by omega)]; exact hβ _ (by omega) (by omega)) (by omega)).imp fun s h => h.weaken hS fun i _ => ?_
        split_ifs <;> omega
      · split_ifs <;> omega
      refine (safe_forN (fun n => Bd P L (fun i => if (b + 4 * c ≤ i ∧ i < b + 4 * c + n) ∨
        (b + 6 * c ≤ i ∧ i < b + 6 * c + n) then a + 2 else if b ≤ i ∧ i < b + 8 * c then a + 1
        else β i)) _ (fun n s hn h => ?_) s (h.weaken hS fun i _ => ?_)).bind fun s h => ?_
      · refine (cross_size hS (p := b + 4 * c + n) (q := b + 4 * c + 2 * c + n) (a := a + 1) (by omega) (by omega) (by omega) h
          (by split_ifs <;> omega) (by split_ifs <;> omega) (by omega)).imp fun s h => h.weaken hS fun i _ => ?_
        split_ifs <;> omega
      · split_ifs <;> omega
      obtain ⟨row, er, hr⟩ := tw (a := a + 2) h (fun i _ _ => by split_ifs <;> omega) (by omega)
      rw [er, ok_bind]
      refine hr.bind fun r h => ?_
      refine (i1 b (a + 1) _ _ (by omega) (by omega) h (fun i _ _ => by split_ifs <;> omega) (by omega)).bind fun s h => ?_
      refine (i2 (b + 4 * c) (a + 4) _ _ (by omega) (by omega) h (fun i _ _ => by split_ifs <;> omega) (by omega)).bind
        fun s h => ?_
      refine (i2 (b + 3 * (2 * c)) (a + 4) _ _ (by omega) (by omega) h (fun i _ _ => by split_ifs <;> omega) (by omega)).imp
        fun s h => h.weaken hS fun i _ => ?_
      split_ifs <;> omega

/-! ## The whole transform -/

theorem ar_all {a : Nat} {x : List F} : Ar P L (fun _ => a) x ↔ x.length = L ∧ ∀ v ∈ x, P a v := by
  refine ⟨fun h => ⟨h.1, fun v hv => ?_⟩, fun h => ⟨h.1, fun i v hv => h.2 v (List.mem_of_getElem? hv)⟩⟩
  obtain ⟨i, hi⟩ := List.mem_iff_getElem?.mp hv
  exact h.2 i v hi

theorem mem_vec {n : Nat} {X : Nat → F} {v : F} : v ∈ vec n X ↔ ∃ i, i < n ∧ X i = v := by
  simp [vec]

theorem bitReverse_size {k a : Nat} {x : List F} (h : Ar P (2 ^ k) (fun _ => a) x) :
    Safe (bitReverse (vec (2 ^ (k - k / 2)) (fun i => some (rev (k - k / 2) i))) k x) (Ar P (2 ^ k) (fun _ => a)) := by
  rw [ar_all] at h
  obtain ⟨X, e⟩ := self_vec (x := x) (by rw [h.1]; exact Nat.pow_pos (by omega))
  rw [h.1] at e
  rw [e, bitReverse_ok]
  refine .done (ar_all.mpr ⟨vec_length _ _, fun v hv => ?_⟩)
  obtain ⟨i, hi, rfl⟩ := mem_vec.mp hv
  exact h.2 _ (by rw [e]; exact mem_vec.mpr ⟨_, rev_lt _ _, rfl⟩)

theorem complex2_size (hS : Sizes o P T) {k a : Nat} (hk : k ≤ 30) (ha : a + 2 * k ≤ T) {s : Cx F}
    (h : Bd P (2 ^ k) (fun _ => a) s) :
    Safe (complex2 o (made o k) true s) (Bd P (2 ^ k) (fun _ => a + 2 * k)) := by
  unfold complex2
  refine (fftRec_size hS hk k 0 a _ _ (Nat.le_refl k) (by omega) h (fun _ _ _ => Nat.le_refl _) ha).bind fun s h => ?_
  have h : Bd P (2 ^ k) (fun _ => a + 2 * k) s := h.weaken hS fun i hi => by rw [if_pos (by omega)]
  refine Safe.bind (P := Bd P (2 ^ k) (fun _ => a + 2 * k)) ?_ fun s h => .done h
  unfold unshuffle
  split_ifs
  · exact (bitReverse_size h.1).bind fun xr h1 => (bitReverse_size h.2).bind fun xi h2 => .done ⟨h1, h2⟩
  · exact .done h

theorem onHalves_size (hS : Sizes o P T) {k a : Nat} (hk : k ≤ 30) (ha : a + 2 * k ≤ T) {x : List F}
    (h : Ar P (2 * 2 ^ k) (fun _ => a) x) :
    Safe (onHalves o (made o k) true x) (Ar P (2 * 2 ^ k) (fun _ => a + 2 * k)) := by
  rw [ar_all] at h
  unfold onHalves
  rw [show (made o k).n = 2 ^ k from rfl]
  refine (complex2_size hS hk ha ⟨ar_all.mpr ⟨?_, ?_⟩, ar_all.mpr ⟨?_, ?_⟩⟩).bind fun s hs => .done (ar_all.mpr ⟨?_, ?_⟩)
  · rw [List.length_take]; omega
  · exact fun v hv => h.2 v (List.mem_of_mem_take hv)
  · rw [List.length_take, List.length_drop]; omega
  · exact fun v hv => h.2 v (List.mem_of_mem_drop (List.mem_of_mem_take hv))
  · rw [List.length_append, List.length_append, hs.1.1, hs.2.1, List.length_drop]; omega
  · have e : List.drop (2 ^ k + 2 ^ k) x = [] := by rw [List.drop_eq_nil_iff]; omega
    rw [e, List.append_nil]
    intro v hv
    rcases List.mem_append.mp hv with hv | hv
    · exact (ar_all.mp hs.1).2 v hv
    · exact (ar_all.mp hs.2).2 v hv

theorem complexFFT_size (hS : Sizes o P T) {k a : Nat} (hk : k ≤ 30) (ha : a + 2 * k ≤ T) {x : List F}
    (h : Ar P (2 * 2 ^ k) (fun _ => a) x) {size : Int} (hs : size = ((2 ^ k : Nat) : Int) * 2) {buffer : List F}
    {bufSize : Int} (hb : ((2 ^ k : Nat) : Int) ≤ bufSize) (hM : 2 ^ k ≤ buffer.length) :
    Safe (complexFFT o (made o k) x size true buffer bufSize) (fun r => Ar P (2 * 2 ^ k) (fun _ => a + 2 * k) r.1) := by
  have hp : 0 < 2 ^ k := Nat.pow_pos (by omega)
  have oh := fun (x : List F) => onHalves_size hS hk ha (x := x)
  obtain ⟨n, en⟩ : ∃ n, 2 ^ k = n := ⟨_, rfl⟩
  rw [ar_all] at h
  obtain ⟨X, eX⟩ := self_vec (x := x) (by omega)
  rw [h.1, en] at eX
  have hX : ∀ i, i < 2 * n → P a (X i) := fun i hi => h.2 _ (by rw [eX]; exact mem_vec.mpr ⟨i, hi, rfl⟩)
  obtain ⟨B, eB⟩ := self_vec (x := buffer) (by omega)
  obtain ⟨M, eM⟩ : ∃ M, buffer.length = M := ⟨_, rfl⟩
  rw [eM] at eB hM
  unfold complexFFT
  rw [show (made o k).n = 2 ^ k from rfl]
  rw [en] at hs hb hM hp oh ⊢
  rw [decide_eq_true hs, cassert_true, ok_bind, decide_eq_true hb, cassert_true, ok_bind, eX, eB,
    split_any (by omega) hM, ok_bind]
  simp only
  rw [copyInto_ok (by omega) (by omega), ok_bind]
  refine (oh _ (ar_all.mpr ⟨vec_length _ _, fun v hv => ?_⟩)).bind fun z hz => ?_
  · obtain ⟨i, hi, rfl⟩ := mem_vec.mp hv
    split_ifs
    · exact hX _ (by omega)
    · omega
    · exact hX _ (by omega)
    · exact hX _ (by omega)
  rw [ar_all] at hz
  obtain ⟨Z, eZ⟩ := self_vec (x := z) (by omega)
  rw [hz.1] at eZ
  have hZ : ∀ i, i < 2 * n → P (a + 2 * k) (Z i) := fun i hi => hz.2 _ (by rw [eZ]; exact mem_vec.mpr ⟨i, hi, rfl⟩)
  rw [eZ, copyInto_ok (by omega) (by omega), ok_bind, merge_ok (by omega) (by omega) _ _ hp, ok_bind]
  rw [show (0 : Int) = ((0 : Nat) : Int) from rfl, aget_vec _ (by omega), ok_bind, show (1 : Int) = ((1 : Nat) : Int) from rfl,
    aset_vec _ (by omega), ok_bind]
  refine .done (ar_all.mpr ⟨vec_length _ _, fun v hv => ?_⟩)
  obtain ⟨i, hi, rfl⟩ := mem_vec.mp hv
  split_ifs <;> first | omega | exact hZ _ (by omega)

theorem addProduct_size (hS : Sizes o P T) {p a : Nat} {ar ai br bi : F} {x : List F} (h : Ar P L β x) (hp : p + 1 < L)
    (h1 : P a ar) (h2 : P a ai) (h3 : P 4 br) (h4 : P 4 bi) (ha : a + 6 ≤ T) (hb : β p ≤ a) (hb' : β (p + 1) ≤ a) :
    Safe (addProduct o ar ai br bi p x) (Ar P L (fun i => if i = p ∨ i = p + 1 then a + 6 else β i)) := by
  have mul : ∀ {x y : F}, P 4 x → P a y → P (a + 4) (o.mul x y) := fun hx hy =>
    hS.mono (by omega) (hS.mul (by omega) hx hy)
  unfold addProduct
  refine (ar_get h (by omega)).bind fun cr e1 => ?_
  refine (ar_set h (by omega) (hS.add (a := a + 5) (by omega) (hS.mono (by omega) e1)
    (hS.sub (a := a + 4) (by omega) (mul h3 h1) (mul h4 h2)))).bind fun x e2 => ?_
  refine (ar_get e2 hp).bind fun ci e3 => ?_
  rw [if_neg (by omega)] at e3
  refine (ar_set e2 hp (hS.add (a := a + 5) (by omega) (hS.mono (by omega) e3)
    (hS.add (a := a + 4) (by omega) (mul h3 h2) (mul h4 h1)))).imp fun x e4 => e4.weaken hS fun i _ => ?_
  split_ifs <;> omega

theorem dashStep_size (hS : Sizes o P T) {n k a : Nat} (hk : 1 ≤ k) (hkn : k ≤ n / 2) (ha : a + 6 ≤ T)
    {cr ci dr di kr ki : F} (h1 : P a cr) (h2 : P a ci) (h3 : P a dr) (h4 : P a di) (h5 : P 4 kr) (h6 : P 4 ki) {x : List F}
    (h : Ar P (2 * n) β x) :
    Safe (dashStep o n k cr ci dr di kr ki x)
      (Ar P (2 * n) (fun i => if n - k ≠ k ∧ (i = 2 * (n - k) ∨ i = 2 * (n - k) + 1) then a + 6 else β i)) := by
  unfold dashStep
  split_ifs with hd
  · refine (ar_set h (by omega) h1).bind fun x e1 => (ar_set e1 (by omega) (hS.neg h2)).bind fun x e2 => ?_
    refine (addProduct_size hS e2 (by omega) h3 (hS.neg h4) (hS.neg h5) h6 ha ?_ ?_).imp fun x e => e.weaken hS fun i _ => ?_
    all_goals split_ifs <;> omega
  · exact .done (h.weaken hS fun i _ => by split_ifs <;> omega)

theorem realStep_size (hS : Sizes o P T) {n i a : Nat} {rr ri : F} (hi : i < n / 2) (ha : a + 6 ≤ T) {s : List F × F × F}
    (h1 : P 4 (complexMul o rr ri s.2.1 s.2.2).1) (h2 : P 4 (complexMul o rr ri s.2.1 s.2.2).2)
    (h : Ar P (2 * n) (fun j => if (2 ≤ j ∧ j < 2 * (i + 1)) ∨ 2 * n - 2 * i ≤ j then a + 6 else a) s.1) :
    Safe (realStep o n rr ri i s) (fun r =>
      Ar P (2 * n) (fun j => if (2 ≤ j ∧ j < 2 * (i + 1 + 1)) ∨ 2 * n - 2 * (i + 1) ≤ j then a + 6 else a) r.1 ∧
        r.2 = complexMul o rr ri s.2.1 s.2.2) := by
  have half : ∀ {x y : F}, P a x → P a y → P a (o.half (o.add x y)) := fun hx hy => hS.half (hS.add (by omega) hx hy)
  have half' : ∀ {x y : F}, P a x → P a y → P a (o.half (o.sub x y)) := fun hx hy => hS.half (hS.sub (by omega) hx hy)
  unfold realStep
  refine (ar_get h (by omega)).bind fun a' e1 => (ar_get h (by omega)).bind fun b e2 =>
    (ar_get h (by omega)).bind fun c e3 => (ar_get h (by omega)).bind fun d e4 => ?_
  rw [if_neg (by omega)] at e1 e2 e3 e4
  refine (ar_set h (by omega) (half e1 e2)).bind fun x f1 => (ar_set f1 (by omega) (half' e3 e4)).bind fun x f2 => ?_
  refine (addProduct_size hS f2 (by omega) (half e3 e4) (hS.neg (half' e1 e2)) h1 h2 ha (by split_ifs <;> omega)
    (by split_ifs <;> omega)).bind fun x f3 => ?_
  refine (dashStep_size hS (by omega) (by omega) ha (half e1 e2) (half' e3 e4) (half e3 e4) (hS.neg (half' e1 e2)) h1 h2
    f3).bind fun x f4 => .done ⟨f4.weaken hS fun j _ => ?_, rfl⟩
  split_ifs <;> omega

/-- `kN` after `i` steps. -/
def turns (o : Ops F) (rr ri : F) : Nat → F × F
  | 0 => (o.ofInt 1, o.ofInt 0)
  | i + 1 => complexMul o rr ri (turns o rr ri i).1 (turns o rr ri i).2

theorem zeroStep_size (hS : Sizes o P T) {a : Nat} {x : List F} (h : Ar P L β x) (hL : 2 ≤ L) (h0 : β 0 ≤ a) (h1 : β 1 ≤ a)
    (ha : a + 1 ≤ T) : Safe (zeroStep o true x) (Ar P L (fun i => if i < 2 then a + 1 else β i)) := by
  unfold zeroStep
  refine (ar_get (i := 0) h (by omega)).bind fun u e1 => (ar_get (i := 1) h (by omega)).bind fun v e2 => ?_
  have e1 := hS.mono h0 e1
  have e2 := hS.mono h1 e2
  simp only [if_true]
  refine (ar_set (i := 0) h (by omega) (hS.add ha e1 e2)).bind fun x f1 => ?_
  refine (ar_set (i := 1) f1 (by omega) (hS.sub ha e1 e2)).imp fun x f2 => f2.weaken hS fun i _ => ?_
  split_ifs <;> omega

theorem middle_size (hS : Sizes o P T) {k a : Nat} (ha : a + 6 ≤ T)
    (hw : ∀ i, i ≤ 2 ^ k / 2 → P 4 (turns o (o.cos (o.rootAng (2 ^ k * 2) (-1))) (o.sin (o.rootAng (2 ^ k * 2) (-1))) i).1 ∧
      P 4 (turns o (o.cos (o.rootAng (2 ^ k * 2) (-1))) (o.sin (o.rootAng (2 ^ k * 2) (-1))) i).2) {x : List F}
    (h : Ar P (2 * 2 ^ k) (fun _ => a) x) :
    Safe (middle o (made o k) true x) (Ar P (2 * 2 ^ k) (fun _ => a + 6)) := by
  have hp : 0 < 2 ^ k := Nat.pow_pos (by omega)
  unfold middle
  rw [show (made o k).n = 2 ^ k from rfl]
  simp only [if_true]
  generalize o.cos (o.rootAng (2 ^ k * 2) (-1)) = rr at *
  generalize o.sin (o.rootAng (2 ^ k * 2) (-1)) = ri at *
  generalize 2 ^ k = n at *
  refine Safe.bind (safe_forN (fun i (s : List F × F × F) =>
    Ar P (2 * n) (fun j => if (2 ≤ j ∧ j < 2 * (i + 1)) ∨ 2 * n - 2 * i ≤ j then a + 6 else a) s.1 ∧
      s.2 = turns o rr ri i) (n / 2) ?_ _ ⟨?_, rfl⟩) fun r hr => ?_
  · rintro i ⟨x, w⟩ hi ⟨h1, h2⟩
    have h2 : w = turns o rr ri i := h2
    subst h2
    exact realStep_size hS hi ha (hw (i + 1) (by omega)).1 (hw (i + 1) (by omega)).2 h1
  · exact h.weaken hS fun j _ => by split_ifs <;> omega
  · refine (zeroStep_size hS hr.1 (a := a) (by omega) (by rw [if_neg (by omega)]) (by rw [if_neg (by omega)]) (by omega)).imp
      fun x h => h.weaken hS fun i _ => ?_
    split_ifs <;> omega

/-- The whole transform. -/
theorem compute_size (hS : Sizes o P T) {k a : Nat} (hk : k ≤ 30) (ha : a + 2 * k + 6 ≤ T)
    (hw : ∀ i, i ≤ 2 ^ k / 2 → P 4 (turns o (o.cos (o.rootAng (2 ^ k * 2) (-1))) (o.sin (o.rootAng (2 ^ k * 2) (-1))) i).1 ∧
      P 4 (turns o (o.cos (o.rootAng (2 ^ k * 2) (-1))) (o.sin (o.rootAng (2 ^ k * 2) (-1))) i).2) {x : List F}
    (h : Ar P (2 * 2 ^ k) (fun _ => a) x) {size : Int} (hs : size = ((2 ^ k : Nat) : Int) * 2) {buffer : List F}
    {bufSize : Int} (hb : ((2 ^ k : Nat) : Int) ≤ bufSize) (hM : 2 ^ k ≤ buffer.length) :
    Safe (compute o (made o k) x size true buffer bufSize) (fun r => Ar P (2 * 2 ^ k) (fun _ => a + 2 * k + 6) r.1) := by
  unfold compute
  rw [if_pos rfl]
  refine (complexFFT_size hS hk (by omega) h hs hb hM).bind fun r hr => ?_
  exact (middle_size hS ha hw hr).bind fun x hx => .done hx

end Verif.Srfft
