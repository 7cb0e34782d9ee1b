import Verif.HashTableModel
import Mathlib.Data.Nat.Prime.Basic
import Mathlib.Data.Nat.Sqrt

/-!
# The bucket counts of the hash table are prime
-/

namespace Verif.HashTable

/-! ## Primality of the table sizes, by trial division -/

/-- No number in `[a, a + 2^n)` divides `p`, checked by binary splitting. -/
def noDiv (p : Nat) : Nat → Nat → Bool
  | 0, a => p % a != 0
  | n + 1, a => noDiv p n a && noDiv p n (a + 2 ^ n)

theorem noDiv_spec {p : Nat} : ∀ (n a : Nat), noDiv p n a = true →
    ∀ d, a ≤ d → d < a + 2 ^ n → ¬ d ∣ p
  | 0, a, h, d, h1, h2 => by
    have : d = a := by simp at h2; omega
    subst this
    simp only [noDiv, bne_iff_ne, ne_eq] at h
    intro hd
    exact h (Nat.mod_eq_zero_of_dvd hd)
  | n + 1, a, h, d, h1, h2 => by
    simp only [noDiv, Bool.and_eq_true] at h
    have e : 2 ^ (n + 1) = 2 ^ n + 2 ^ n := by rw [Nat.pow_succ]; omega
    by_cases hd : d < a + 2 ^ n
    · exact noDiv_spec n a h.1 d h1 hd
    · exact noDiv_spec n _ h.2 d (by omega) (by omega)

theorem prime_of_noDiv {p n : Nat} (h2 : 2 ≤ p) (hp : p < (2 + 2 ^ n) * (2 + 2 ^ n))
    (h : noDiv p n 2 = true) : p.Prime := by
  rw [Nat.prime_def_le_sqrt]
  refine ⟨h2, fun m hm hs => noDiv_spec n 2 h m hm ?_⟩
  have : m * m ≤ p := Nat.le_sqrt.mp hs
  by_contra hc
  have : (2 + 2 ^ n) * (2 + 2 ^ n) ≤ m * m := Nat.mul_le_mul (by omega) (by omega)
  omega

theorem primes_length : primes.length = 32 := by decide

/-- Every table size except 2 is an odd prime. -/
theorem primes_prime {j : Int} {p : Int} (h : aget primes j = .ok p) (h5 : 5 ≤ p) :
    p.toNat.Prime ∧ p.toNat % 2 = 1 := by
  obtain ⟨j0, j1, hj⟩ := aget_ok h
  rw [primes_length] at j1
  generalize j.toNat = k at j1 hj
  have : p ∈ primes := List.mem_of_getElem? hj
  simp only [primes, List.mem_cons, List.not_mem_nil, or_false] at this
  rcases this with e | e | e | e | e | e | e | e | e | e | e | e | e | e | e | e | e | e | e | e |
    e | e | e | e | e | e | e | e | e | e | e | e <;> subst e
  · omega
  · omega
  · exact ⟨prime_of_noDiv (n := 0) (by decide) (by decide) (by decide +kernel), by decide⟩
  · exact ⟨prime_of_noDiv (n := 1) (by decide) (by decide) (by decide +kernel), by decide⟩
  · exact ⟨prime_of_noDiv (n := 2) (by decide) (by decide) (by decide +kernel), by decide⟩
  · exact ⟨prime_of_noDiv (n := 3) (by decide) (by decide) (by decide +kernel), by decide⟩
  · exact ⟨prime_of_noDiv (n := 3) (by decide) (by decide) (by decide +kernel), by decide⟩
  · exact ⟨prime_of_noDiv (n := 4) (by decide) (by decide) (by decide +kernel), by decide⟩
  · exact ⟨prime_of_noDiv (n := 4) (by decide) (by decide) (by decide +kernel), by decide⟩
  · exact ⟨prime_of_noDiv (n := 5) (by decide) (by decide) (by decide +kernel), by decide⟩
  · exact ⟨prime_of_noDiv (n := 5) (by decide) (by decide) (by decide +kernel), by decide⟩
  · exact ⟨prime_of_noDiv (n := 6) (by decide) (by decide) (by decide +kernel), by decide⟩
  · exact ⟨prime_of_noDiv (n := 6) (by decide) (by decide) (by decide +kernel), by decide⟩
  · exact ⟨prime_of_noDiv (n := 7) (by decide) (by decide) (by decide +kernel), by decide⟩
  · exact ⟨prime_of_noDiv (n := 7) (by decide) (by decide) (by decide +kernel), by decide⟩
  · exact ⟨prime_of_noDiv (n := 8) (by decide) (by decide) (by decide +kernel), by decide⟩
  · exact ⟨prime_of_noDiv (n := 8) (by decide) (by decide) (by decide +kernel), by decide⟩
  · exact ⟨prime_of_noDiv (n := 9) (by decide) (by decide) (by decide +kernel), by decide⟩
  · exact ⟨prime_of_noDiv (n := 9) (by decide) (by decide) (by decide +kernel), by decide⟩
  · exact ⟨prime_of_noDiv (n := 10) (by decide) (by decide) (by decide +kernel), by decide⟩
  · exact ⟨prime_of_noDiv (n := 10) (by decide) (by decide) (by decide +kernel), by decide⟩
  · exact ⟨prime_of_noDiv (n := 11) (by decide) (by decide) (by decide +kernel), by decide⟩
  · exact ⟨prime_of_noDiv (n := 11) (by decide) (by decide) (by decide +kernel), by decide⟩
  · exact ⟨prime_of_noDiv (n := 12) (by decide) (by decide) (by decide +kernel), by decide⟩
  · exact ⟨prime_of_noDiv (n := 12) (by decide) (by decide) (by decide +kernel), by decide⟩
  · exact ⟨prime_of_noDiv (n := 13) (by decide) (by decide) (by decide +kernel), by decide⟩
  · exact ⟨prime_of_noDiv (n := 13) (by decide) (by decide) (by decide +kernel), by decide⟩
  · exact ⟨prime_of_noDiv (n := 14) (by decide) (by decide) (by decide +kernel), by decide⟩
  · exact ⟨prime_of_noDiv (n := 14) (by decide) (by decide) (by decide +kernel), by decide⟩
  · exact ⟨prime_of_noDiv (n := 15) (by decide) (by decide) (by decide +kernel), by decide⟩
  · exact ⟨prime_of_noDiv (n := 15) (by decide) (by decide) (by decide +kernel), by decide⟩
  · exact ⟨prime_of_noDiv (n := 16) (by decide) (by decide) (by decide +kernel), by decide⟩

end Verif.HashTable
