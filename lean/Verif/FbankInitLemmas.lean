import Verif.FbankInit
import Verif.FbankLemmas
import Verif.SrfftShape

/-!
# Lemmas about the constructors of the feature extraction
-/

namespace Verif.Fbank

open Srfft (forN vec vec_length vec_get vec_congr aset_vec forN_trace safe_forN Safe made)

variable {F : Type}

theorem fill_ok (z : F) (f : Nat → F) (n : Nat) :
    forN n (fun i w => aset w (i : Int) (f i)) (List.replicate n z) = .ok (vec n f) := by
  have e0 : List.replicate n z = vec n (fun k => if k < 0 then f k else z) := by
    apply Srfft.eq_vec List.length_replicate
    intro i hi
    rw [if_neg (by omega), List.getElem?_replicate, if_pos hi]
  rw [e0]
  have := forN_trace (n := n) (f := fun i w => aset w (i : Int) (f i)) (fun i => vec n (fun k => if k < i then f k else z)) ?_
  · refine this.trans ?_
    congr 1
    apply vec_congr
    intro i hi
    rw [if_pos hi]
  · intro i hi
    rw [aset_vec _ hi]
    congr 1
    apply vec_congr
    intro k _
    by_cases h : k = i
    · rw [if_pos h, if_pos (by omega), h]
    · rw [if_neg h]
      split_ifs <;> first | rfl | omega

/-- The window. -/
theorem hammingInit_ok (a : Arith F) :
    hammingInit a = .ok (vec 400 (fun i => a.hamm (a.mul (a.hammAngle 399) (a.ofInt i)))) := by
  unfold hammingInit
  rw [vecInit_ok (by decide) (by decide), ok_bind]
  exact fill_ok a.zero (fun i => a.hamm (a.mul (a.hammAngle 399) (a.ofInt i))) 400

/-! ## Filters -/

/-- The index lies inside the filter. -/
def inside (a : Arith F) (width left right : F) (i : Nat) : Bool :=
  a.lt left (a.melScale (a.mul width (a.ofInt i))) && a.lt (a.melScale (a.mul width (a.ofInt i))) right

/-- What the loop over the FFT bins has found after `n` of `num` steps: `first` and `last` are the first and the last index
inside the filter. -/
structure Scanned (c : Nat → Bool) (w : Nat → F) (zero : F) (num n : Nat) (s : BinState F) : Prop where
  row : s.row = vec num (fun k => if k < n ∧ c k = true then w k else zero)
  none_ : s.first = -1 → s.last = -1 ∧ ∀ i, i < n → c i = false
  some_ : s.first ≠ -1 → ∃ f l : Nat, s.first = f ∧ s.last = l ∧ f ≤ l ∧ l < n ∧ c f = true ∧ c l = true ∧
    ∀ i, i < n → c i = true → f ≤ i ∧ i ≤ l

theorem scan_ok (a : Arith F) (num : Nat) (width left center right : F) :
    Safe (forN num (binStep a width left center right) ⟨List.replicate num a.zero, -1, -1⟩)
      (Scanned (inside a width left right)
        (fun i => binWeight a left center right (a.melScale (a.mul width (a.ofInt i)))) a.zero num num) := by
  refine safe_forN (fun n => Scanned (inside a width left right)
    (fun i => binWeight a left center right (a.melScale (a.mul width (a.ofInt i)))) a.zero num n) num ?_ _ ?_
  · intro i s hi hs
    have hstep : binStep a width left center right i s = if inside a width left right i = true then (do
        let row ← aset s.row i (binWeight a left center right (a.melScale (a.mul width (a.ofInt i))))
        .ok ⟨row, if s.first = -1 then i else s.first, i⟩) else .ok s := rfl
    rw [hstep]
    by_cases hc : inside a width left right i = true
    · rw [if_pos hc, hs.row, aset_vec _ hi, ok_bind]
      refine .done ⟨?_, ?_, ?_⟩
      · apply vec_congr
        intro k _
        by_cases h : k = i
        · rw [if_pos h, h, if_pos ⟨by omega, hc⟩]
        · rw [if_neg h]
          by_cases h2 : k < i ∧ inside a width left right k = true
          · rw [if_pos h2, if_pos ⟨by omega, h2.2⟩]
          · rw [if_neg h2, if_neg (fun h3 => h2 ⟨by omega, h3.2⟩)]
      · intro h
        exfalso
        simp only at h
        split_ifs at h <;> omega
      · intro _
        by_cases h1 : s.first = -1
        · refine ⟨i, i, ?_, rfl, Nat.le_refl i, by omega, hc, hc, ?_⟩
          · simp only; rw [if_pos h1]
          · intro j hj hcj
            by_cases hji : j = i
            · omega
            · rw [(hs.none_ h1).2 j (by omega)] at hcj
              cases hcj
        · obtain ⟨f, l, e1, e2, h2, h3, h4, h5, h6⟩ := hs.some_ h1
          refine ⟨f, i, ?_, rfl, by omega, by omega, h4, hc, ?_⟩
          · simp only; rw [if_neg h1, e1]
          · intro j hj hcj
            by_cases hji : j = i
            · omega
            · have := h6 j (by omega) hcj
              omega
    · have hc' : inside a width left right i = false := by
        cases h : inside a width left right i with
        | true => exact absurd h hc
        | false => rfl
      rw [if_neg hc]
      refine .done ⟨?_, ?_, ?_⟩
      · rw [hs.row]
        apply vec_congr
        intro k _
        by_cases h : k = i
        · rw [h, if_neg (by omega), if_neg (fun h => hc h.2)]
        · by_cases h2 : k < i ∧ inside a width left right k = true
          · rw [if_pos h2, if_pos ⟨by omega, h2.2⟩]
          · rw [if_neg h2, if_neg (fun h3 => h2 ⟨by omega, h3.2⟩)]
      · intro h
        refine ⟨(hs.none_ h).1, fun j hj => ?_⟩
        by_cases hji : j = i
        · rw [hji, hc']
        · exact (hs.none_ h).2 j (by omega)
      · intro h1
        obtain ⟨f, l, e1, e2, h2, h3, h4, h5, h6⟩ := hs.some_ h1
        refine ⟨f, l, e1, e2, h2, by omega, h4, h5, ?_⟩
        intro j hj hcj
        by_cases hji : j = i
        · rw [hji, hc'] at hcj; cases hcj
        · exact h6 j (by omega) hcj
  · refine ⟨?_, fun _ => ⟨rfl, fun i hi => absurd hi (Nat.not_lt_zero i)⟩, fun h => absurd rfl h⟩
    apply Srfft.eq_vec List.length_replicate
    intro i hi
    rw [if_neg (fun h => Nat.not_lt_zero i h.1), List.getElem?_replicate, if_pos hi]

/-- The frequency of an FFT bin on the mel scale. -/
def melAt (a : Arith F) (width : F) (i : Nat) : F := a.melScale (a.mul width (a.ofInt i))

/-- A filter: either at least two bins lie inside it, and it consists of the bins from the first to the last of them, or
the program aborts. -/
theorem melFilter_ok (a : Arith F) {num : Nat} (hn : num ≤ 536870911) (width low delta : F) (idx : Nat)
    {c : Nat → Bool} (hc : c = inside a width (a.add low (a.mul (a.ofInt idx) delta)) (a.add low (a.mul (a.ofInt (idx + 2)) delta)))
    {w : Nat → F} (hw : w = fun i => binWeight a (a.add low (a.mul (a.ofInt idx) delta)) (a.add low (a.mul (a.ofInt (idx + 1)) delta))
      (a.add low (a.mul (a.ofInt (idx + 2)) delta)) (melAt a width i)) :
    (∃ f l : Nat, f < l ∧ l < num ∧ c f = true ∧ c l = true ∧ (∀ i, i < num → c i = true → f ≤ i ∧ i ≤ l) ∧
      melFilter a num width low delta idx =
        .ok (f, vec (l + 1 - f) (fun k => if c (f + k) = true then w (f + k) else a.zero))) ∨
    ((∀ i j, i < num → j < num → c i = true → c j = true → i = j) ∧
      melFilter a num width low delta idx = .error .assert) := by
  obtain ⟨s, es, hs⟩ := scan_ok a num width (a.add low (a.mul (a.ofInt idx) delta)) (a.add low (a.mul (a.ofInt (idx + 1)) delta))
    (a.add low (a.mul (a.ofInt (idx + 2)) delta))
  rw [← hc, show (fun i : Nat => binWeight a (a.add low (a.mul (a.ofInt idx) delta)) (a.add low (a.mul (a.ofInt (idx + 1)) delta))
    (a.add low (a.mul (a.ofInt (idx + 2)) delta)) (a.melScale (a.mul width (a.ofInt i)))) = w from hw.symm] at hs
  unfold melFilter
  simp only
  rw [es, ok_bind]
  by_cases h1 : s.first = -1
  · refine .inr ⟨fun i j hi hj hci _ => ?_, ?_⟩
    · rw [(hs.none_ h1).2 i hi] at hci; cases hci
    · rw [decide_eq_false (fun h => h.1 h1)]
      rfl
  · obtain ⟨f, l, e1, e2, h2, h3, h4, h5, h6⟩ := hs.some_ h1
    by_cases hfl : f < l
    · refine .inl ⟨f, l, hfl, h3, h4, h5, h6, ?_⟩
      rw [decide_eq_true ⟨h1, by omega⟩, cassert_true, ok_bind, vecInit_ok (by omega) (by omega), ok_bind, hs.row, vec_length,
        decide_eq_true (by omega), cassert_true, ok_bind, e1, e2, if_pos (Int.natCast_nonneg f), Int.toNat_natCast,
        show ((l : Int) + 1 - f).toNat = l + 1 - f by omega, Srfft.vec_drop, Srfft.vec_take (by omega)]
      congr 2
      apply vec_congr
      intro k hk
      by_cases h : c (f + k) = true
      · rw [if_pos ⟨by omega, h⟩, if_pos h]
      · rw [if_neg (fun h' => h h'.2), if_neg h]
    · refine .inr ⟨fun i j hi hj hci hcj => ?_, ?_⟩
      · have := h6 i hi hci
        have := h6 j hj hcj
        omega
      · rw [decide_eq_false (fun h => hfl (by have := h.2; omega))]
        rfl

theorem mapM_inv {α β : Type} {f : α → Exec β} : ∀ {l : List α} {r : List β}, l.mapM f = .ok r →
    r.length = l.length ∧ ∀ y ∈ r, ∃ x ∈ l, f x = .ok y
  | [], r, h => by
    rw [List.mapM_nil] at h
    cases h
    exact ⟨rfl, fun y hy => absurd hy List.not_mem_nil⟩
  | x :: l, r, h => by
    rw [List.mapM_cons] at h
    obtain ⟨y, e1, h⟩ := bind_ok h
    obtain ⟨ys, e2, h⟩ := bind_ok h
    cases h
    obtain ⟨h1, h2⟩ := mapM_inv e2
    refine ⟨by rw [List.length_cons, List.length_cons, h1], fun z hz => ?_⟩
    rcases List.mem_cons.mp hz with rfl | hz
    · exact ⟨x, List.mem_cons_self, e1⟩
    · obtain ⟨x', hx', e⟩ := h2 z hz
      exact ⟨x', List.mem_cons_of_mem _ hx', e⟩

/-- Whatever the arithmetic: an object that can be made has tables of the right sizes, and an FFT that uses its buffer as
scratch space only. -/
theorem make_ok {a : Arith F} {o : Ops F} (h : make a = .ok o) : Spec.Tables o ∧ Spec.ScratchOnly o := by
  unfold make at h
  rw [show roundUp frameLength = .ok 512 from by decide +kernel, ok_bind] at h
  obtain ⟨bins, e1, h⟩ := bind_ok h
  rw [Srfft.new_pow (k := 8) a.fft (by omega) rfl, ok_bind, hammingInit_ok, ok_bind] at h
  cases h
  refine ⟨⟨vec_length _ _, ?_, ?_⟩, ⟨?_, ?_⟩⟩
  · unfold melInit at e1
    obtain ⟨u, -, e1⟩ := bind_ok e1
    simp only at e1
    obtain ⟨u, -, e1⟩ := bind_ok e1
    exact (mapM_inv e1).1
  · unfold melInit at e1
    obtain ⟨u, -, e1⟩ := bind_ok e1
    simp only at e1
    obtain ⟨u, -, e1⟩ := bind_ok e1
    intro b hb
    obtain ⟨idx, -, e2⟩ := (mapM_inv e1).2 b hb
    rcases melFilter_ok a (num := (512 : Int).tdiv 2 |>.toNat) (by decide) _ _ _ idx rfl rfl with
      ⟨f, l, h1, h2, -, -, -, e3⟩ | ⟨-, e3⟩
    · rw [e3] at e2
      cases e2
      simp only
      rw [vec_length]
      have : ((512 : Int).tdiv 2).toNat = 256 := by decide
      omega
    · rw [e3] at e2
      cases e2
  · intro w b b' hw hb hb'
    obtain ⟨y, -, hy⟩ := Srfft.compute_any a.fft (k := 8) (size := w.length) (by rw [hw]; rfl) true (x := w)
      (by rw [hw]; decide)
    obtain ⟨c, ec, -⟩ := hy b b.length (by rw [hb]; decide) (by rw [hb]; decide)
    obtain ⟨c', ec', -⟩ := hy b' b'.length (by rw [hb']; decide) (by rw [hb']; decide)
    simp only
    rw [ec, ec']
    rfl
  · intro w b w' b' hw hb h
    obtain ⟨y, hl, hy⟩ := Srfft.compute_any a.fft (k := 8) (size := w.length) (by rw [hw]; rfl) true (x := w)
      (by rw [hw]; decide)
    obtain ⟨c, ec, hc⟩ := hy b b.length (by rw [hb]; decide) (by rw [hb]; decide)
    rw [show Srfft.compute a.fft (made a.fft 8) w w.length true b b.length = .ok (w', b') from h] at ec
    cases ec
    exact ⟨by omega, by omega⟩

end Verif.Fbank
