import Verif.SrfftReal

/-!
# The transform with any arithmetic: no fault, sizes kept, the buffer only scratch space
-/

namespace Verif.Srfft

variable {F : Type}

/-- A run that ends with a value satisfying `P`. -/
def Safe {α : Type} (x : Exec α) (P : α → Prop) : Prop := ∃ a, x = .ok a ∧ P a

theorem Safe.bind {α β : Type} {x : Exec α} {P : α → Prop} {f : α → Exec β} {Q : β → Prop} (h : Safe x P)
    (g : ∀ a, P a → Safe (f a) Q) : Safe (x >>= f) Q := by
  obtain ⟨a, rfl, ha⟩ := h
  exact g a ha

theorem Safe.done {α : Type} {a : α} {P : α → Prop} (h : P a) : Safe (.ok a) P := ⟨a, rfl, h⟩

theorem safe_get {x : List F} {i : Nat} (h : i < x.length) : Safe (aget x (i : Int)) (fun _ => True) :=
  ⟨x[i], aget_nat (List.getElem?_eq_getElem h), trivial⟩

theorem safe_set {x : List F} {i : Nat} (h : i < x.length) (v : F) :
    Safe (aset x (i : Int) v) (fun y => y.length = x.length) :=
  ⟨_, aset_nat h, List.length_set⟩

theorem safe_forN {σ : Type} {f : Nat → σ → Exec σ} (P : Nat → σ → Prop) : ∀ (n : Nat),
    (∀ i s, i < n → P i s → Safe (f i s) (P (i + 1))) → ∀ s, P 0 s → Safe (forN n f s) (P n)
  | 0, _, s, hs => ⟨s, rfl, hs⟩
  | n + 1, h, s, hs => by
    obtain ⟨s1, e1, h1⟩ := safe_forN P n (fun i s hi => h i s (by omega)) s hs
    obtain ⟨s2, e2, h2⟩ := h n s1 (by omega) h1
    refine ⟨s2, ?_, h2⟩
    unfold forN at e1 ⊢
    rw [List.range_succ, List.foldlM_append, e1, ok_bind, List.foldlM_cons, e2, ok_bind]
    rfl

/-- Both parts have length `L`. -/
def Both (L : Nat) (s : Cx F) : Prop := s.1.length = L ∧ s.2.length = L

theorem butterfly_safe (o : Ops F) {L p q : Nat} (hp : p < L) (hq : q < L) {s : Cx F} (h : Both L s) :
    Safe (butterfly o p q s) (Both L) := by
  obtain ⟨h1, h2⟩ := h
  unfold butterfly
  refine (safe_get (by omega)).bind fun _ _ => (safe_get (by omega)).bind fun _ _ => (safe_set (by omega) _).bind fun _ e1 =>
    (safe_set (by omega) _).bind fun _ e2 => (safe_get (by omega)).bind fun _ _ => (safe_get (by omega)).bind fun _ _ =>
    (safe_set (by omega) _).bind fun _ e3 => (safe_set (by omega) _).bind fun _ e4 => .done ⟨?_, ?_⟩
  · exact e2.trans (e1.trans h1)
  · exact e4.trans (e3.trans h2)

theorem cross_safe (o : Ops F) {L p q : Nat} (hp : p < L) (hq : q < L) {s : Cx F} (h : Both L s) :
    Safe (cross o p q s) (Both L) := by
  obtain ⟨h1, h2⟩ := h
  unfold cross
  refine (safe_get (by omega)).bind fun _ _ => (safe_get (by omega)).bind fun _ _ => (safe_get (by omega)).bind fun _ _ =>
    (safe_get (by omega)).bind fun _ _ => (safe_set (by omega) _).bind fun _ e1 =>
    (safe_set (by omega) _).bind fun _ e2 => (safe_set (by omega) _).bind fun _ e3 =>
    (safe_set (by omega) _).bind fun _ e4 => .done ⟨?_, ?_⟩
  · exact e3.trans (e2.trans h1)
  · exact e4.trans (e1.trans h2)

theorem turn8_safe (o : Ops F) {L p q : Nat} (hp : p < L) (hq : q < L) {s : Cx F} (h : Both L s) :
    Safe (turn8 o p q s) (Both L) := by
  obtain ⟨h1, h2⟩ := h
  unfold turn8
  refine (safe_get (by omega)).bind fun _ _ => (safe_get (by omega)).bind fun _ _ => (safe_set (by omega) _).bind fun _ e1 =>
    (safe_set (by omega) _).bind fun _ e2 => (safe_get (by omega)).bind fun _ _ => (safe_get (by omega)).bind fun _ _ =>
    (safe_set (by omega) _).bind fun _ e3 => (safe_set (by omega) _).bind fun _ e4 => .done ⟨?_, ?_⟩
  · exact e4.trans (e2.trans h1)
  · exact e3.trans (e1.trans h2)

theorem turn_safe (o : Ops F) (e : Six F) {L p q : Nat} (hp : p < L) (hq : q < L) {s : Cx F} (h : Both L s) :
    Safe (turn o e p q s) (Both L) := by
  obtain ⟨h1, h2⟩ := h
  unfold turn
  refine (safe_get (by omega)).bind fun _ _ => (safe_get (by omega)).bind fun _ _ => (safe_set (by omega) _).bind fun _ e1 =>
    (safe_set (by omega) _).bind fun _ e2 => (safe_get (by omega)).bind fun _ _ => (safe_get (by omega)).bind fun _ _ =>
    (safe_set (by omega) _).bind fun _ e3 => (safe_set (by omega) _).bind fun _ e4 => .done ⟨?_, ?_⟩
  · exact e3.trans (e1.trans h1)
  · exact e4.trans (e2.trans h2)

theorem twiddle_safe (o : Ops F) {L logn l b : Nat} (hl : l + 3 ≤ logn) (hb : b + 8 * 2 ^ l ≤ L) {s : Cx F}
    (h : Both L s) :
    ∃ row, rowFor (table o logn) (l + 3) = .ok row ∧
      Safe (forN (8 * 2 ^ l / 4 - 1) (twiddleStep o row (8 * 2 ^ l) b) (s, 0)) (fun r => Both L r.1) := by
  have ha : 1 ≤ 2 ^ l := Nat.pow_pos (by omega)
  obtain ⟨row, hrow, hget⟩ : ∃ row, rowFor (table o logn) (l + 3) = .ok row ∧
      ∀ i, i < 2 * 2 ^ l - 1 → i + 1 ≠ 2 ^ l →
        row[if i < 2 ^ l then i else i - 1]? = some (entry o (8 * 2 ^ l) (i + 1)) := by
    rcases Nat.eq_zero_or_pos l with rfl | h
    · exact ⟨[], rfl, fun i hi hne => by rw [Nat.pow_zero] at hi hne; omega⟩
    · exact ⟨_, table_get o hl h, fun i hi hne => tableRow_get o ha hi hne⟩
  refine ⟨row, hrow, ?_⟩
  obtain ⟨a, ea⟩ : ∃ a, 2 ^ l = a := ⟨_, rfl⟩
  rw [ea] at ha hb hget ⊢
  have step : ∀ (i : Nat) (s : Cx F × Nat), i < 8 * a / 4 - 1 → (Both L s.1 ∧ s.2 = if i < a then i else i - 1) →
      Safe (twiddleStep o row (8 * a) b i s) (fun s => Both L s.1 ∧ s.2 = if i + 1 < a then i + 1 else i + 1 - 1) := by
    rintro i ⟨s, c⟩ hi ⟨h1, h2⟩
    have h2 : c = if i < a then i else i - 1 := h2
    unfold twiddleStep
    rw [show 8 * a / 8 = a by omega]
    by_cases hia : i + 1 = a
    · rw [if_pos hia]
      refine (turn8_safe o (by omega) (by omega) h1).bind fun x hx => .done ⟨hx, ?_⟩
      show c = _
      rw [h2]
      split_ifs <;> omega
    · rw [if_neg hia]
      simp only
      rw [h2, aget_nat (hget i (by omega) hia), ok_bind]
      refine (turn_safe o _ (by omega) (by omega) h1).bind fun x hx => .done ⟨hx, ?_⟩
      show _ + 1 = _
      split_ifs <;> omega
  obtain ⟨r, e1, e2⟩ := safe_forN (fun i (s : Cx F × Nat) => Both L s.1 ∧ s.2 = if i < a then i else i - 1) _ step (s, 0)
    ⟨h, by show 0 = _; split_ifs <;> rfl⟩
  exact ⟨r, e1, e2.1⟩

theorem fftRec_safe (o : Ops F) {L logn : Nat} (l : Nat) : ∀ (b : Nat) (s : Cx F), l ≤ logn → b + 2 ^ l ≤ L → Both L s →
    Safe (fftRec o (table o logn) l b s) (Both L) := by
  induction l using Nat.strong_induction_on with
  | _ l ih =>
    intro b s hl hb h
    match l, ih, hl, hb with
    | 0, _, _, _ => exact .done h
    | 1, _, _, hb => exact butterfly_safe o (by omega) (by omega) h
    | 2, _, _, hb =>
      unfold fftRec
      exact (butterfly_safe o (by omega) (by omega) h).bind fun s h =>
        (butterfly_safe o (by omega) (by omega) h).bind fun s h =>
        (butterfly_safe o (by omega) (by omega) h).bind fun s h => cross_safe o (by omega) (by omega) h
    | l + 3, ih, hl, hb =>
      unfold fftRec
      have e3 : 2 ^ (l + 3) = 8 * 2 ^ l := by rw [Nat.pow_add]; omega
      have e2 : 2 ^ (l + 2) = 4 * 2 ^ l := by rw [Nat.pow_add]; omega
      have e1 : 2 ^ (l + 1) = 2 * 2 ^ l := by rw [Nat.pow_add]; omega
      simp only
      rw [e3] at hb ⊢
      refine (safe_forN (fun _ => Both L) _ (fun i s hi h => butterfly_safe o (by omega) (by omega) h) s h).bind fun s h => ?_
      refine (safe_forN (fun _ => Both L) _ (fun i s hi h => cross_safe o (by omega) (by omega) h) s h).bind fun s h => ?_
      obtain ⟨row, er, hr⟩ := twiddle_safe o hl hb h
      rw [er, ok_bind]
      refine hr.bind fun r h => ?_
      refine (ih (l + 2) (by omega) b _ (by omega) (by rw [e2]; omega) h).bind fun s h => ?_
      refine (ih (l + 1) (by omega) _ _ (by omega) (by rw [e1]; omega) h).bind fun s h => ?_
      exact ih (l + 1) (by omega) _ _ (by omega) (by rw [e1]; omega) h

theorem self_vec {x : List F} (h : 0 < x.length) : ∃ X : Nat → F, x = vec x.length X := by
  cases x with
  | nil => exact absurd h (Nat.lt_irrefl 0)
  | cons a l =>
    refine ⟨fun i => (a :: l).getD i a, eq_vec rfl fun i hi => ?_⟩
    rw [List.getD_eq_getElem?_getD, List.getElem?_eq_getElem hi]
    rfl

theorem bitReverse_safe {k : Nat} {x : List F} (h : x.length = 2 ^ k) :
    Safe (bitReverse (vec (2 ^ (k - k / 2)) (fun i => some (rev (k - k / 2) i))) k x) (fun y => y.length = 2 ^ k) := by
  obtain ⟨X, e⟩ := self_vec (x := x) (by rw [h]; exact Nat.pow_pos (by omega))
  rw [e, h, bitReverse_ok]
  exact .done (vec_length _ _)

theorem unshuffle_safe (o : Ops F) {k : Nat} {s : Cx F} (h : Both (2 ^ k) s) :
    Safe (unshuffle (made o k) s) (Both (2 ^ k)) := by
  unfold unshuffle
  split_ifs
  · exact (bitReverse_safe h.1).bind fun xr h1 => (bitReverse_safe h.2).bind fun xi h2 => .done ⟨h1, h2⟩
  · exact .done h

theorem Both.swap {L : Nat} {s : Cx F} (h : Both L s) : Both L (s.2, s.1) := ⟨h.2, h.1⟩

theorem complex2_safe (o : Ops F) {k : Nat} (forward : Bool) {s : Cx F} (h : Both (2 ^ k) s) :
    Safe (complex2 o (made o k) forward s) (Both (2 ^ k)) := by
  unfold complex2
  refine (fftRec_safe o k 0 _ (Nat.le_refl k) (by omega) ?_).bind fun s h => (unshuffle_safe o h).bind fun s h => .done ?_
  · split_ifs
    · exact h
    · exact h.swap
  · split_ifs
    · exact h
    · exact h.swap

theorem onHalves_safe (o : Ops F) {k : Nat} (forward : Bool) {x : List F} (h : 2 * 2 ^ k ≤ x.length) :
    Safe (onHalves o (made o k) forward x) (fun y => y.length = x.length) := by
  unfold onHalves
  rw [show (made o k).n = 2 ^ k from rfl]
  refine (complex2_safe o forward ⟨?_, ?_⟩).bind fun s hs => .done ?_
  · rw [List.length_take]; omega
  · rw [List.length_take, List.length_drop]; omega
  · rw [List.length_append, List.length_append, hs.1, hs.2, List.length_drop]; omega

theorem split_any {L M n : Nat} (hL : 2 * n ≤ L) (hM : n ≤ M) (X B : Nat → F) :
    forN n splitStep (vec L X, vec M B) =
      .ok (vec L (fun k => if k < n then X (2 * k) else X k), vec M (fun k => if k < n then X (2 * k + 1) else B k)) := by
  have := forN_trace (n := n) (f := splitStep) (fun i => (vec L (fun k => if k < i then X (2 * k) else X k),
    vec M (fun k => if k < i then X (2 * k + 1) else B k))) ?_
  · have e : (vec L (fun k => if k < 0 then X (2 * k) else X k), vec M (fun k => if k < 0 then X (2 * k + 1) else B k)) =
        (vec L X, vec M B) := by simp
    rw [← e]
    exact this
  · intro i hi
    unfold splitStep
    simp only
    rw [aget_vec _ (by omega), ok_bind, aset_vec _ (by omega), ok_bind, aget_vec _ (by omega), ok_bind, aset_vec _ (by omega),
      ok_bind]
    congr 2
    · apply vec_congr
      intro k _
      rw [if_neg (show ¬ i * 2 < i by omega)]
      by_cases h : k = i
      · rw [if_pos h, if_pos (by omega), h, Nat.mul_comm]
      · rw [if_neg h]
        split_ifs <;> first | rfl | omega
    · apply vec_congr
      intro k _
      rw [if_neg (show ¬ i * 2 + 1 = i by omega), if_neg (show ¬ i * 2 + 1 < i by omega)]
      by_cases h : k = i
      · rw [if_pos h, if_pos (by omega), h, Nat.mul_comm]
      · rw [if_neg h]
        split_ifs <;> first | rfl | omega

/-- The data after the complex transform depend on the data before it only. -/
theorem complexFFT_any (o : Ops F) {k : Nat} {size : Int} (hs : size = ((2 ^ k : Nat) : Int) * 2) (forward : Bool)
    {x : List F} (hL : 2 * 2 ^ k ≤ x.length) :
    ∃ y, y.length = x.length ∧ ∀ (buffer : List F) (bufSize : Int), ((2 ^ k : Nat) : Int) ≤ bufSize → 2 ^ k ≤ buffer.length →
      ∃ b, complexFFT o (made o k) x size forward buffer bufSize = .ok (y, b) ∧ b.length = buffer.length := by
  have hp : 0 < 2 ^ k := Nat.pow_pos (by omega)
  obtain ⟨n, en⟩ : ∃ n, 2 ^ k = n := ⟨_, rfl⟩
  obtain ⟨X, eX⟩ := self_vec (x := x) (by omega)
  obtain ⟨L, eL⟩ : ∃ L, x.length = L := ⟨_, rfl⟩
  rw [eL] at eX hL
  obtain ⟨z, ez, hz⟩ := onHalves_safe o (k := k) forward
    (x := vec L (fun k => if n ≤ k ∧ k < n + n then X (2 * (k - n) + 1) else if k < n then X (2 * k) else X k))
    (by rw [vec_length]; omega)
  rw [vec_length] at hz
  obtain ⟨Z, eZ⟩ := self_vec (x := z) (by omega)
  rw [hz] at eZ
  refine ⟨vec L (fun q => if q = 1 then Z n else if 2 ≤ q ∧ q < 2 * n then (if q % 2 = 0 then Z (q / 2) else Z (n + q / 2))
    else Z q), by rw [vec_length, eL], ?_⟩
  intro buffer bufSize hb hM
  obtain ⟨B, eB⟩ := self_vec (x := buffer) (by omega)
  obtain ⟨M, eM⟩ : ∃ M, buffer.length = M := ⟨_, rfl⟩
  rw [eM] at eB hM
  refine ⟨vec M (fun q => if 0 ≤ q ∧ q < 0 + n then Z (n + (q - 0)) else if q < n then X (2 * q + 1) else B q), ?_,
    by rw [vec_length, eM]⟩
  unfold complexFFT
  rw [show (made o k).n = 2 ^ k from rfl]
  rw [en] at hs hb hL hM hp ⊢
  rw [decide_eq_true hs, cassert_true, ok_bind, decide_eq_true hb, cassert_true, ok_bind, eX, eB,
    split_any (by omega) hM, ok_bind]
  simp only
  rw [copyInto_ok (by omega) (by omega), ok_bind]
  have e1 : vec L (fun k => if n ≤ k ∧ k < n + n then
      (if 0 + (k - n) < n then X (2 * (0 + (k - n)) + 1) else B (0 + (k - n))) else if k < n then X (2 * k) else X k) =
      vec L (fun k => if n ≤ k ∧ k < n + n then X (2 * (k - n) + 1) else if k < n then X (2 * k) else X k) := by
    apply vec_congr
    intro q _
    by_cases h : n ≤ q ∧ q < n + n
    · rw [if_pos h, if_pos h, if_pos (by omega), Nat.zero_add]
    · rw [if_neg h, if_neg h]
  rw [e1, ez, ok_bind, eZ, copyInto_ok (by omega) (by omega), ok_bind, merge_ok (by omega) (by omega) _ _ hp, ok_bind]
  rw [show (0 : Int) = ((0 : Nat) : Int) from rfl, aget_vec _ (by omega), ok_bind, show (1 : Int) = ((1 : Nat) : Int) from rfl,
    aset_vec _ (by omega), ok_bind]
  congr 2
  apply vec_congr
  intro q _
  by_cases h1 : q = 1
  · rw [if_pos h1, if_pos h1, if_pos (by omega)]
    rfl
  · rw [if_neg h1, if_neg h1]
    by_cases h2 : 2 ≤ q ∧ q < 2 * n
    · rw [if_pos h2, if_pos h2, if_pos (show 0 ≤ q / 2 ∧ q / 2 < 0 + n by omega)]
      rfl
    · rw [if_neg h2, if_neg h2]

theorem addProduct_safe (o : Ops F) (a b c d : F) {p : Nat} {x : List F} (h : p + 1 < x.length) :
    Safe (addProduct o a b c d p x) (fun y => y.length = x.length) := by
  unfold addProduct
  refine (safe_get (by omega)).bind fun _ _ => (safe_set (by omega) _).bind fun y e1 =>
    (safe_get (by omega)).bind fun _ _ => ?_
  obtain ⟨z, e2, h2⟩ := safe_set (x := y) (i := p + 1) (by omega) (o.add ‹F› (o.add (o.mul c b) (o.mul d a)))
  exact ⟨z, e2, h2.trans e1⟩

theorem dashStep_safe (o : Ops F) {n k : Nat} (cr ci dr di kr ki : F) {x : List F} (hk : 1 ≤ k) (hn : k ≤ n)
    (h : 2 * n ≤ x.length) :
    Safe (dashStep o n k cr ci dr di kr ki x) (fun y => y.length = x.length) := by
  unfold dashStep
  split_ifs
  · refine (safe_set (by omega) _).bind fun y e1 => (safe_set (by omega) _).bind fun z e2 => ?_
    obtain ⟨w, e3, h3⟩ := addProduct_safe o dr (o.neg di) (o.neg kr) ki (p := 2 * (n - k)) (x := z) (by omega)
    exact ⟨w, e3, by omega⟩
  · exact .done rfl

theorem realStep_safe (o : Ops F) {n i : Nat} (rr ri : F) {s : List F × F × F} (hi : i < n / 2) (h : 2 * n ≤ s.1.length) :
    Safe (realStep o n rr ri i s) (fun r => r.1.length = s.1.length) := by
  unfold realStep
  simp only
  refine (safe_get (by omega)).bind fun a _ => (safe_get (by omega)).bind fun b _ => (safe_get (by omega)).bind fun c _ =>
    (safe_get (by omega)).bind fun d _ => (safe_set (by omega) _).bind fun x1 e1 => (safe_set (by omega) _).bind fun x2 e2 => ?_
  refine (addProduct_safe o _ _ _ _ (by omega)).bind fun x3 e3 => ?_
  refine (dashStep_safe o _ _ _ _ _ _ (by omega) (by omega) (by omega)).bind fun x4 e4 => .done ?_
  show x4.length = _
  omega

theorem middle_safe (o : Ops F) {k : Nat} (forward : Bool) {x : List F} (h : 2 * 2 ^ k ≤ x.length) :
    Safe (middle o (made o k) forward x) (fun y => y.length = x.length) := by
  have hp : 0 < 2 ^ k := Nat.pow_pos (by omega)
  unfold middle
  simp only [show (made o k).n = 2 ^ k from rfl]
  refine (safe_forN (fun _ (r : List F × F × F) => r.1.length = x.length) _ ?_ _ rfl).bind fun r hr => ?_
  · rintro i s hi hs
    obtain ⟨r, e1, h1⟩ := realStep_safe o _ _ hi (s := s) (by omega)
    exact ⟨r, e1, by omega⟩
  · unfold zeroStep
    refine (safe_get (i := 0) (by omega)).bind fun a _ => (safe_get (i := 1) (by omega)).bind fun b _ =>
      (safe_set (i := 0) (by omega) _).bind fun y e1 => ?_
    obtain ⟨z, e2, h2⟩ := safe_set (x := y) (i := 1) (by omega) (if forward then o.sub a b else o.div2 (o.sub a b))
    exact ⟨z, e2, by omega⟩

theorem doubleAll_safe (o : Ops F) {n : Nat} {x : List F} (h : n ≤ x.length) :
    Safe (doubleAll o n x) (fun y => y.length = x.length) := by
  unfold doubleAll
  refine safe_forN (fun _ (y : List F) => y.length = x.length) n (fun i s hi hs => ?_) x rfl
  refine (safe_get (by omega)).bind fun v _ => ?_
  obtain ⟨z, e2, h2⟩ := safe_set (x := s) (i := i) (by omega) (o.twice v)
  exact ⟨z, e2, by omega⟩

/-- The data after the transform depend on the data before it only. -/
theorem compute_any (o : Ops F) {k : Nat} {size : Int} (hs : size = ((2 ^ k : Nat) : Int) * 2) (forward : Bool)
    {x : List F} (hL : 2 * 2 ^ k ≤ x.length) :
    ∃ y, y.length = x.length ∧ ∀ (buffer : List F) (bufSize : Int), ((2 ^ k : Nat) : Int) ≤ bufSize → 2 ^ k ≤ buffer.length →
      ∃ b, compute o (made o k) x size forward buffer bufSize = .ok (y, b) ∧ b.length = buffer.length := by
  cases forward with
  | true =>
    obtain ⟨y, hy, h⟩ := complexFFT_any o hs true hL
    obtain ⟨z, ez, hz⟩ := middle_safe o (k := k) true (x := y) (by omega)
    refine ⟨z, by omega, fun buffer bufSize h1 h2 => ?_⟩
    obtain ⟨b, eb, hb⟩ := h buffer bufSize h1 h2
    refine ⟨b, ?_, hb⟩
    unfold compute
    rw [if_pos rfl, eb, ok_bind]
    simp only
    rw [ez]
    rfl
  | false =>
    obtain ⟨y, ey, hy⟩ := middle_safe o (k := k) false hL
    obtain ⟨z, hz, h⟩ := complexFFT_any o hs false (x := y) (by omega)
    obtain ⟨w, ew, hw⟩ := doubleAll_safe o (n := (made o k).n * 2) (x := z)
      (by show 2 ^ k * 2 ≤ _; omega)
    refine ⟨w, by omega, fun buffer bufSize h1 h2 => ?_⟩
    obtain ⟨b, eb, hb⟩ := h buffer bufSize h1 h2
    refine ⟨b, ?_, hb⟩
    unfold compute
    rw [if_neg (by decide), ey, ok_bind, eb, ok_bind]
    simp only
    rw [ew]
    rfl

end Verif.Srfft
