import Verif.SrfftModel
import Verif.SrfftShape

/-!
# Properties C60 and C64: the transform with any arithmetic
-/

namespace Verif.Srfft

variable {F : Type}

/-- C60: whatever the arithmetic (rounding, infinities, NaN), for every object the constructor makes: given an array of at
least as many elements as announced (twice the number of points) and a buffer of at least half as many, both directions
finish without touching anything outside the two arrays.  The sizes do not change, and the result is determined by the data
alone: it does not depend on what the buffer contains or how long it is. -/
theorem C60_safe (o : Ops F) {points : Int} {t : State F} (ht : new o points = .ok t) (data : List F)
    (hd : 2 * t.n ≤ data.length) (forward : Bool) :
    ∃ out, out.length = data.length ∧
      ∀ (buffer : List F) (bufSize : Int), (t.n : Int) ≤ bufSize → t.n ≤ buffer.length →
        ∃ buf, compute o t data (2 * t.n : Nat) forward buffer bufSize = .ok (out, buf) ∧ buf.length = buffer.length := by
  obtain ⟨k, hk, -, rfl⟩ := new_inv o ht
  exact compute_any o (by show ((2 * 2 ^ k : Nat) : Int) = _; omega) forward hd

/-- C64, forward direction only: a wrong size, or too small a buffer, stops the forward transform before anything is read. -/
theorem C64_forward_partial (o : Ops F) {points : Int} {t : State F} (_ht : new o points = .ok t) (data buffer : List F)
    (size bufSize : Int) (h : size ≠ (2 * t.n : Nat) ∨ bufSize < t.n) :
    compute o t data size true buffer bufSize = .error .assert := by
  unfold compute complexFFT
  rw [if_pos rfl]
  by_cases h1 : size = (t.n : Int) * 2
  · rw [decide_eq_true h1, cassert_true, ok_bind, decide_eq_false (by omega)]
    rfl
  · rw [decide_eq_false h1]
    rfl

/-- C64 is false of the backward direction, which works on the data before it checks the size: an array that is too short is read past its end,
whatever size the caller announces. -/
theorem C64_backward_fails (o : Ops F) {points : Int} {t : State F} (ht : new o points = .ok t) (data buffer : List F)
    (size bufSize : Int) (h : data.length < 2 * t.n) :
    compute o t data size false buffer bufSize = .error .ub := by
  obtain ⟨k, hk, -, rfl⟩ := new_inv o ht
  have hp : 2 ≤ 2 ^ k := by
    calc 2 = 2 ^ 1 := rfl
      _ ≤ 2 ^ k := Nat.pow_le_pow_right (by omega) hk
  have h : data.length < 2 * 2 ^ k := h
  have stop : ∀ {i : Nat}, data.length ≤ i → aget data (i : Int) = .error .ub := by
    intro i hi
    unfold aget
    rw [if_neg (by omega), List.getElem?_eq_none (by omega)]
  have step : ∀ (rr ri : F) (w : F × F), realStep o (2 ^ k) rr ri 0 (data, w) = .error .ub := by
    intro rr ri w
    unfold realStep
    simp only
    by_cases h1 : 2 * (0 + 1) < data.length
    · obtain ⟨a, e1, -⟩ := safe_get (x := data) h1
      rw [e1, ok_bind]
      by_cases h2 : 2 * 2 ^ k - 2 * (0 + 1) < data.length
      · obtain ⟨b, e2, -⟩ := safe_get (x := data) h2
        rw [e2, ok_bind]
        by_cases h3 : 2 * (0 + 1) + 1 < data.length
        · obtain ⟨c, e3, -⟩ := safe_get (x := data) h3
          rw [e3, ok_bind, stop (by omega)]
          rfl
        · rw [stop (by omega)]
          rfl
      · rw [stop (by omega)]
        rfl
    · rw [stop (by omega)]
      rfl
  unfold compute middle
  rw [if_neg (by decide)]
  simp only [show (made o k).n = 2 ^ k from rfl]
  unfold forN
  obtain ⟨m, em⟩ : ∃ m, 2 ^ k / 2 = m + 1 := ⟨2 ^ k / 2 - 1, by omega⟩
  rw [em, List.range_succ_eq_map, List.foldlM_cons, step]
  rfl

/-! ## Instances -/

/-- Arithmetic modulo 17 that has nothing to do with real numbers. -/
def oddOps : Ops Nat where
  ofInt := fun x => x.toNat
  add := fun x y => (x + y) % 17
  sub := fun x y => (x + 2 * y) % 17
  mul := fun x y => (3 * x * y + 1) % 17
  neg := fun x => (x + 5) % 17
  half := fun x => x / 2
  twice := fun x => (2 * x) % 17
  div2 := fun x => x / 2
  sqhalf := 4
  ang := fun n m => (n + 3 * m) % 17
  rootAng := fun n _ => n % 17
  cos := fun x => (x * x) % 17
  sin := fun x => (x * x + 1) % 17

/-- 16 points: object, data of the right length, and buffers with different contents. -/
example : ∃ t, new oddOps 16 = .ok t ∧ 2 * t.n ≤ (List.range 16).length ∧
    (compute oddOps t (List.range 16) (2 * t.n : Nat) true (List.replicate 8 0) 8).map Prod.fst =
      (compute oddOps t (List.range 16) (2 * t.n : Nat) true (List.replicate 9 7) 9).map Prod.fst ∧
    compute oddOps t (List.range 16) 15 true [] 8 = .error .assert ∧
    compute oddOps t (List.range 15) 15 false (List.replicate 8 0) 8 = .error .ub := by
  refine ⟨_, new_pow (k := 3) oddOps (by omega) rfl, ?_, ?_, ?_, ?_⟩ <;> decide +kernel

end Verif.Srfft
