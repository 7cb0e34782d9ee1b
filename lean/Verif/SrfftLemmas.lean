import Verif.SrfftModel
import Mathlib.Tactic.SplitIfs

/-!
# Arrays, loops and bit reversal
-/

namespace Verif.Srfft

variable {F : Type}

/-! ## Arrays given by their elements -/

/-- The array of length `n` with elements `f`. -/
def vec (n : Nat) (f : Nat → F) : List F := (List.range n).map f

theorem vec_length (n : Nat) (f : Nat → F) : (vec n f).length = n := by simp [vec]

theorem vec_get {n : Nat} (f : Nat → F) {i : Nat} (h : i < n) : (vec n f)[i]? = some (f i) := by
  simp [vec, h]

theorem eq_vec {l : List F} {n : Nat} {f : Nat → F} (hl : l.length = n) (h : ∀ i, i < n → l[i]? = some (f i)) :
    l = vec n f := by
  apply List.ext_getElem?
  intro i
  by_cases hi : i < n
  · rw [h i hi, vec_get f hi]
  · rw [List.getElem?_eq_none (by omega), List.getElem?_eq_none (by rw [vec_length]; omega)]

theorem vec_congr {n : Nat} {f g : Nat → F} (h : ∀ i, i < n → f i = g i) : vec n f = vec n g :=
  eq_vec (vec_length n f) (fun i hi => by rw [vec_get f hi, h i hi])

theorem aget_vec {n : Nat} (f : Nat → F) {i : Nat} (h : i < n) : aget (vec n f) (i : Int) = .ok (f i) :=
  aget_nat (vec_get f h)

theorem aset_vec {n : Nat} (f : Nat → F) {i : Nat} (h : i < n) (v : F) :
    aset (vec n f) (i : Int) v = .ok (vec n (fun k => if k = i then v else f k)) := by
  rw [aset_nat (by rw [vec_length]; exact h)]
  congr 1
  apply eq_vec (by rw [List.length_set, vec_length])
  intro k hk
  by_cases hki : k = i
  · rw [if_pos hki, hki, List.getElem?_set_self (by rw [vec_length]; exact h)]
  · rw [if_neg hki, List.getElem?_set_ne (fun e => hki e.symm), vec_get f hk]

/-! ## Loops -/

/-- A loop that goes through the states `S 0`, `S 1`, ... -/
theorem forN_trace {σ : Type} {n : Nat} {f : Nat → σ → Exec σ} (S : Nat → σ)
    (h : ∀ i, i < n → f i (S i) = .ok (S (i + 1))) : forN n f (S 0) = .ok (S n) := by
  induction n with
  | zero => rfl
  | succ n ih =>
    have := ih (fun i hi => h i (by omega))
    unfold forN at this ⊢
    rw [List.range_succ, List.foldlM_append, this, ok_bind, List.foldlM_cons, h n (by omega), ok_bind]
    rfl

/-! ## Bit reversal -/

/-- The last `l` bits of `i` in reverse order. -/
def rev : Nat → Nat → Nat
  | 0, _ => 0
  | l + 1, i => (i % 2) * 2 ^ l + rev l (i / 2)

theorem rev_lt (l i : Nat) : rev l i < 2 ^ l := by
  induction l generalizing i with
  | zero => show 0 < 1; omega
  | succ l ih =>
    have h1 := ih (i / 2)
    have h2 : i % 2 = 0 ∨ i % 2 = 1 := by omega
    show (i % 2) * 2 ^ l + rev l (i / 2) < 2 ^ l * 2
    rcases h2 with h | h <;> rw [h] <;> omega

theorem rev_split (a b h l : Nat) (hl : l < 2 ^ b) :
    rev (a + b) (h * 2 ^ b + l) = rev b l * 2 ^ a + rev a h := by
  induction b generalizing l with
  | zero =>
    have : l = 0 := by rw [Nat.pow_zero] at hl; omega
    subst this
    show rev a (h * 1 + 0) = 0 * 2 ^ a + rev a h
    rw [Nat.mul_one, Nat.add_zero, Nat.zero_mul, Nat.zero_add]
  | succ b ih =>
    have e : h * 2 ^ (b + 1) = 2 * (h * 2 ^ b) := by rw [Nat.pow_succ]; ac_rfl
    have hp : 2 ^ (b + 1) = 2 * 2 ^ b := by rw [Nat.pow_succ]; omega
    show ((h * 2 ^ (b + 1) + l) % 2) * 2 ^ (a + b) + rev (a + b) ((h * 2 ^ (b + 1) + l) / 2) =
      ((l % 2) * 2 ^ b + rev b (l / 2)) * 2 ^ a + rev a h
    rw [e, show (2 * (h * 2 ^ b) + l) % 2 = l % 2 by omega, show (2 * (h * 2 ^ b) + l) / 2 = h * 2 ^ b + l / 2 by omega,
      ih (l / 2) (by omega), Nat.add_mul, Nat.pow_add, Nat.add_assoc]
    congr 1
    ac_rfl

theorem rev_low (l i : Nat) (h : i < 2 ^ l) : rev (l + 1) i = 2 * rev l i := by
  have := rev_split 1 l 0 i h
  rw [Nat.zero_mul, Nat.zero_add, Nat.add_comm 1 l] at this
  rw [this]
  show rev l i * 2 ^ 1 + ((0 % 2) * 2 ^ 0 + 0) = _
  omega

theorem rev_high (l i : Nat) (h : i < 2 ^ l) : rev (l + 1) (i + 2 ^ l) = 2 * rev l i + 1 := by
  have := rev_split 1 l 1 i h
  rw [Nat.one_mul, Nat.add_comm 1 l, Nat.add_comm (2 ^ l) i] at this
  rw [this]
  show rev l i * 2 ^ 1 + ((1 % 2) * 2 ^ 0 + 0) = _
  omega

theorem rev_rev (l i : Nat) (h : i < 2 ^ l) : rev l (rev l i) = i := by
  induction l generalizing i with
  | zero => rw [Nat.pow_zero] at h; show 0 = i; omega
  | succ l ih =>
    have hp : 2 ^ (l + 1) = 2 * 2 ^ l := by rw [Nat.pow_succ]; omega
    have := rev_split 1 l (i % 2) (rev l (i / 2)) (rev_lt l _)
    show rev (l + 1) ((i % 2) * 2 ^ l + rev l (i / 2)) = i
    rw [Nat.add_comm l 1, this, ih (i / 2) (by omega)]
    show i / 2 * 2 ^ 1 + ((i % 2 % 2) * 2 ^ 0 + 0) = i
    omega

theorem rev_zero (l : Nat) : rev l 0 = 0 := by
  induction l with
  | zero => rfl
  | succ l ih => show (0 % 2) * 2 ^ l + rev l (0 / 2) = 0; rw [show 0 / 2 = 0 from rfl, ih]; omega

/-- The bits. -/
theorem rev_testBit (l i b : Nat) (h : b < l) : (rev l i).testBit b = i.testBit (l - 1 - b) := by
  induction l generalizing i b with
  | zero => omega
  | succ l ih =>
    show ((i % 2) * 2 ^ l + rev l (i / 2)).testBit b = _
    rw [Nat.mul_comm, Nat.testBit_two_pow_mul_add _ (rev_lt l _)]
    by_cases hb : b < l
    · rw [if_pos hb, ih (i / 2) b hb, Nat.testBit_div_two]
      congr 1
      omega
    · rw [if_neg hb, show b = l by omega, Nat.sub_self, show l + 1 - 1 - l = 0 by omega, Nat.testBit_zero, Nat.testBit_zero]
      congr 1
      rw [Nat.mod_mod]

/-- The number with these bits. -/
theorem rev_unique {l i j : Nat} (hj : j < 2 ^ l) (h : ∀ b, b < l → j.testBit b = i.testBit (l - 1 - b)) : j = rev l i := by
  apply Nat.eq_of_testBit_eq
  intro b
  by_cases hb : b < l
  · rw [h b hb, rev_testBit l i b hb]
  · have hp : 2 ^ l ≤ 2 ^ b := Nat.pow_le_pow_right (by omega) (by omega)
    rw [Nat.testBit_lt_two_pow (by omega), Nat.testBit_lt_two_pow (by have := rev_lt l i; omega)]

/-! ## The seed table -/

/-- One iteration. -/
theorem seedStep_ok {L : Nat} {G : Nat → Option Nat} {imax i v : Nat} (h1 : i + imax < L) (h2 : G i = some v) :
    seedStep imax i (vec L G) =
      .ok (vec L (fun k => if k = i + imax then some (v * 2 + 1) else if k = i then some (v * 2) else G k)) := by
  unfold seedStep
  rw [aget_vec G (by omega), ok_bind, h2]
  simp only
  rw [aset_vec _ (by omega), ok_bind, aset_vec _ h1]

/-- The table holds the reversed numbers. -/
theorem seedTable_ok (logn : Nat) (h : 1 ≤ logn) :
    seedTable logn = .ok (vec (2 ^ (logn - logn / 2)) (fun i => some (rev (logn - logn / 2) i))) := by
  have e : logn / 2 + logn % 2 = logn - logn / 2 := by omega
  generalize hc : logn - logn / 2 = c at *
  have hc1 : 1 ≤ c := by omega
  unfold seedTable
  simp only
  rw [e]
  have hp : 2 ^ c = 2 * 2 ^ (c - 1) := by
    rw [← Nat.pow_succ']
    congr 1
    omega
  have hpos : 0 < 2 ^ (c - 1) := Nat.pow_pos (by omega)
  have e0 : (List.replicate (2 ^ c) none : List (Option Nat)) = vec (2 ^ c) (fun _ => none) :=
    eq_vec (by rw [List.length_replicate]) (fun i hi => by rw [List.getElem?_replicate, if_pos hi])
  rw [e0, show (0 : Int) = ((0 : Nat) : Int) from rfl, aset_vec _ (by omega), ok_bind,
    show (1 : Int) = ((1 : Nat) : Int) from rfl, aset_vec _ (by omega), ok_bind]
  let S : Nat → List (Option Nat) := fun j => vec (2 ^ c) (fun i => if i < 2 ^ (j + 1) then some (rev (j + 1) i) else none)
  have hS0 : vec (2 ^ c) (fun k => if k = 1 then some 1 else if k = 0 then some 0 else none) = S 0 := by
    apply vec_congr
    intro i _
    by_cases h1 : i = 1
    · rw [if_pos h1, if_pos (by rw [h1]; decide), h1]; rfl
    · rw [if_neg h1]
      by_cases h0 : i = 0
      · rw [if_pos h0, if_pos (by rw [h0]; decide), h0]; rfl
      · rw [if_neg h0, if_neg (by rw [Nat.zero_add, Nat.pow_one]; omega)]
  rw [hS0, forN_trace S]
  · congr 1
    apply vec_congr
    intro i hi
    rw [show c - 1 + 1 = c by omega, if_pos hi]
  · intro j hj
    let T : Nat → List (Option Nat) := fun i => vec (2 ^ c) (fun k => if k < i then some (rev (j + 2) k) else
      if k < 2 ^ (j + 1) then some (rev (j + 1) k) else if k < 2 ^ (j + 1) + i then some (rev (j + 2) k) else none)
    have hle : 2 ^ (j + 2) ≤ 2 ^ c := Nat.pow_le_pow_right (by omega) (by omega)
    have hdbl : 2 ^ (j + 2) = 2 * 2 ^ (j + 1) := by rw [Nat.pow_succ 2 (j + 1)]; omega
    have hT0 : S j = T 0 := by
      apply vec_congr
      intro k _
      simp only [Nat.add_zero]
      split_ifs <;> first | rfl | omega
    rw [hT0, forN_trace T]
    · congr 1
      apply vec_congr
      intro k _
      show _ = if k < 2 ^ (j + 2) then some (rev (j + 2) k) else none
      by_cases h1 : k < 2 ^ (j + 1)
      · rw [if_pos h1, if_pos (by omega)]
      · rw [if_neg h1, if_neg h1]
        by_cases h2 : k < 2 ^ (j + 2)
        · rw [if_pos (by omega), if_pos h2]
        · rw [if_neg (by omega), if_neg h2]
    · intro i hi
      rw [seedStep_ok (v := rev (j + 1) i) (by omega) (by rw [if_neg (by omega), if_pos hi])]
      congr 1
      apply vec_congr
      intro k _
      generalize hq : 2 ^ (j + 1) = q at *
      by_cases h1 : k = i + q
      · have e1 : rev (j + 2) k = 2 * rev (j + 1) i + 1 := by rw [h1, ← hq]; exact rev_high _ _ (by omega)
        rw [e1, Nat.mul_comm 2]
        split_ifs <;> first | rfl | omega
      · by_cases h2 : k = i
        · have e1 : rev (j + 2) k = 2 * rev (j + 1) i := by rw [h2]; exact rev_low _ _ (by omega)
          rw [e1, Nat.mul_comm 2]
          split_ifs <;> first | rfl | omega
        · split_ifs <;> first | rfl | omega

/-! ## The permutation -/

/-- The array after the pairs of the elements in `Q` have been exchanged. -/
def swapped (logn : Nat) (Q : Nat → Bool) (G : Nat → F) (i : Nat) : F :=
  if Q i || Q (rev logn i) then G (rev logn i) else G i

/-- One exchange. -/
theorem swap_step {logn : Nat} {Q Q' : Nat → Bool} {G : Nat → F} {i : Nat} (hi : i < 2 ^ logn) (h1 : Q i = false)
    (h2 : Q (rev logn i) = false) (hQ : ∀ k, Q' k = (Q k || decide (k = i))) :
    swapAt i (rev logn i) (vec (2 ^ logn) (swapped logn Q G)) = .ok (vec (2 ^ logn) (swapped logn Q' G)) := by
  have hr := rev_lt logn i
  have hrr := rev_rev logn i hi
  have e1 : swapped logn Q G i = G i := by
    unfold swapped
    rw [h1, h2]
    rfl
  have e2 : swapped logn Q G (rev logn i) = G (rev logn i) := by
    unfold swapped
    rw [hrr, h1, h2]
    rfl
  unfold swapAt
  rw [aget_vec _ hi, ok_bind, aget_vec _ hr, ok_bind, aset_vec _ hi, ok_bind, aset_vec _ hr, e1, e2]
  congr 1
  apply vec_congr
  intro k hk
  have hkr : rev logn k = i ↔ k = rev logn i := by
    constructor
    · intro e; rw [← e, rev_rev logn k hk]
    · intro e; rw [e, hrr]
  by_cases c1 : k = rev logn i
  · rw [if_pos c1]
    unfold swapped
    rw [if_pos (by rw [hQ (rev logn k), hkr.mpr c1]; simp), hkr.mpr c1]
  · rw [if_neg c1]
    by_cases c2 : k = i
    · rw [if_pos c2]
      unfold swapped
      rw [if_pos (by rw [hQ k, c2]; simp), c2]
    · rw [if_neg c2]
      unfold swapped
      rw [hQ k, hQ (rev logn k), decide_eq_false c2, decide_eq_false (fun e => c1 (hkr.mp e)), Bool.or_false, Bool.or_false]

/-- The elements at which an exchange takes place: the column is less than the reversed row. -/
def driver (f c i : Nat) : Bool := decide (i / 2 ^ f < rev c (i % 2 ^ f))

/-- Of two partners exactly one is such an element, unless they are the same. -/
theorem driver_pair {f c i : Nat} (hc : c = f ∨ c = f + 1) (hi : i < 2 ^ (c + f)) :
    (driver f c i = true → driver f c (rev (c + f) i) = false) ∧
    (driver f c i = false → driver f c (rev (c + f) i) = false → rev (c + f) i = i) := by
  have hn : 0 < 2 ^ f := Nat.pow_pos (by omega)
  have hl : i % 2 ^ f < 2 ^ f := Nat.mod_lt _ hn
  have hh : i / 2 ^ f < 2 ^ c := Nat.div_lt_of_lt_mul (by rw [← Nat.pow_add, Nat.add_comm]; exact hi)
  have hdm : i / 2 ^ f * 2 ^ f + i % 2 ^ f = i := by
    rw [Nat.mul_comm]
    exact Nat.div_add_mod i (2 ^ f)
  have hsplit := rev_split c f (i / 2 ^ f) (i % 2 ^ f) hl
  rw [hdm] at hsplit
  obtain ⟨h, eh⟩ : ∃ h, i / 2 ^ f = h := ⟨_, rfl⟩
  obtain ⟨l, el⟩ : ∃ l, i % 2 ^ f = l := ⟨_, rfl⟩
  rw [el] at hl hdm hsplit
  rw [eh] at hh hdm hsplit
  have hrl := rev_lt f l
  have hll := rev_rev f l hl
  rcases hc with rfl | rfl
  · have hrh := rev_lt c h
    have e1 : rev (c + c) i / 2 ^ c = rev c l := by
      rw [hsplit, Nat.mul_comm, Nat.mul_add_div hn, Nat.div_eq_of_lt hrh, Nat.add_zero]
    have e2 : rev (c + c) i % 2 ^ c = rev c h := by
      rw [hsplit, Nat.mul_comm, Nat.mul_add_mod, Nat.mod_eq_of_lt hrh]
    unfold driver
    rw [e1, e2, rev_rev c h hh, eh, el]
    refine ⟨?_, ?_⟩
    · intro a
      have := of_decide_eq_true a
      exact decide_eq_false (by omega)
    · intro a b
      have a' := of_decide_eq_false a
      have b' := of_decide_eq_false b
      have hE : h = rev c l := by omega
      rw [hsplit, ← hdm, hE, hll]
  · have hq : h / 2 < 2 ^ f := by rw [Nat.pow_succ] at hh; omega
    have hrq := rev_lt f (h / 2)
    have hqq := rev_rev f (h / 2) hq
    have hsp : rev (f + 1 + f) i = (rev f l * 2 + h % 2) * 2 ^ f + rev f (h / 2) := by
      rw [hsplit]
      show rev f l * 2 ^ (f + 1) + ((h % 2) * 2 ^ f + rev f (h / 2)) = _
      rw [Nat.add_mul, Nat.pow_succ, Nat.mul_assoc, Nat.mul_comm 2 (2 ^ f), Nat.add_assoc]
    have e1 : rev (f + 1 + f) i / 2 ^ f = rev f l * 2 + h % 2 := by
      rw [hsp, Nat.mul_comm _ (2 ^ f), Nat.mul_add_div hn, Nat.div_eq_of_lt hrq, Nat.add_zero]
    have e2 : rev (f + 1 + f) i % 2 ^ f = rev f (h / 2) := by
      rw [hsp, Nat.mul_comm _ (2 ^ f), Nat.mul_add_mod, Nat.mod_eq_of_lt hrq]
    unfold driver
    rw [e1, e2, rev_low f _ hrq, eh, el, rev_low f l hl, hqq]
    refine ⟨?_, ?_⟩
    · intro a
      have := of_decide_eq_true a
      exact decide_eq_false (by omega)
    · intro a b
      have a' := of_decide_eq_false a
      have b' := of_decide_eq_false b
      have hE : h / 2 = rev f l := by omega
      have hE2 : rev f l * 2 + h % 2 = h := by omega
      rw [hsp, hE2, hE, hll, hdm]

/-- An element of the seed table. -/
theorem seedAt_vec {L : Nat} (G : Nat → Option Nat) {i v : Nat} (h : i < L) (hv : G i = some v) :
    seedAt (vec L G) i = .ok v := by
  unfold seedAt
  rw [aget_vec G h, ok_bind, hv]

/-- The permutation. -/
theorem bitReverse_ok (logn : Nat) (G : Nat → F) :
    bitReverse (vec (2 ^ (logn - logn / 2)) (fun i => some (rev (logn - logn / 2) i))) logn (vec (2 ^ logn) G) =
      .ok (vec (2 ^ logn) (fun i => G (rev logn i))) := by
  have hcf : logn - logn / 2 = logn / 2 ∨ logn - logn / 2 = logn / 2 + 1 := by omega
  have hsum : logn - logn / 2 + logn / 2 = logn := by omega
  unfold bitReverse
  generalize logn - logn / 2 = c at *
  generalize logn / 2 = f at *
  subst hsum
  have hn : 0 < 2 ^ f := Nat.pow_pos (by omega)
  have hfc : 2 ^ f ≤ 2 ^ c := Nat.pow_le_pow_right (by omega) (by omega)
  -- what is exchanged in which order
  let Q : Nat → Nat → Nat → Bool := fun k g i =>
    driver f c i && (decide (i % 2 ^ f ≤ k) || (decide (i % 2 ^ f = k + 1) && decide (i / 2 ^ f < g)))
  have hQ0 : ∀ i, Q 0 0 i = false := by
    intro i
    by_cases hd : driver f c i = true
    · have h1 := of_decide_eq_true hd
      have : ¬ i % 2 ^ f ≤ 0 := by
        intro h0
        rw [show i % 2 ^ f = 0 by omega, rev_zero] at h1
        exact absurd h1 (Nat.not_lt_zero _)
      show (driver f c i && (decide (i % 2 ^ f ≤ 0) || (decide (i % 2 ^ f = 0 + 1) && decide (i / 2 ^ f < 0)))) = false
      rw [decide_eq_false this, decide_eq_false (Nat.not_lt_zero _), Bool.and_false, Bool.or_false, Bool.and_false]
    · show (driver f c i && _) = false
      rw [Bool.eq_false_iff.mpr hd, Bool.false_and]
  have hstart : vec (2 ^ (c + f)) G = vec (2 ^ (c + f)) (swapped (c + f) (Q 0 0) G) := by
    apply vec_congr
    intro i _
    unfold swapped
    rw [hQ0, hQ0]
    rfl
  rw [hstart, forN_trace (fun k => vec (2 ^ (c + f)) (swapped (c + f) (Q k 0) G))]
  · congr 1
    apply vec_congr
    intro i hi
    have full : ∀ j, Q (2 ^ f - 1) 0 j = driver f c j := by
      intro j
      have : j % 2 ^ f < 2 ^ f := Nat.mod_lt _ hn
      show (driver f c j && (decide (j % 2 ^ f ≤ 2 ^ f - 1) || _)) = driver f c j
      rw [decide_eq_true (by omega), Bool.true_or, Bool.and_true]
    unfold swapped
    rw [full, full]
    by_cases h1 : driver f c i = true
    · rw [if_pos (by rw [h1]; rfl)]
    · by_cases h2 : driver f c (rev (c + f) i) = true
      · rw [if_pos (by rw [h2, Bool.or_true])]
      · rw [(driver_pair hcf hi).2 (Bool.eq_false_iff.mpr h1) (Bool.eq_false_iff.mpr h2), ite_self]
  · intro k hk
    have hoff : k + 1 < 2 ^ f := by omega
    -- the partners
    have part : ∀ g, rev (c + f) (k + 1 + g * 2 ^ f) = 2 ^ f * rev c (k + 1) + rev c g := by
      intro g
      rw [Nat.add_comm (k + 1), rev_split c f g (k + 1) hoff]
      congr 1
      rcases hcf with rfl | rfl
      · rw [Nat.mul_comm]
      · rw [rev_low f _ hoff, Nat.pow_succ]
        ac_rfl
    have hs := rev_lt c (k + 1)
    have bound : ∀ g, g < 2 ^ c → k + 1 + g * 2 ^ f < 2 ^ (c + f) := by
      intro g hg
      have : (g + 1) * 2 ^ f ≤ 2 ^ c * 2 ^ f := Nat.mul_le_mul_right _ hg
      rw [Nat.add_mul, Nat.one_mul] at this
      rw [Nat.pow_add]
      omega
    have hmod : ∀ g, (k + 1 + g * 2 ^ f) % 2 ^ f = k + 1 := by
      intro g
      rw [Nat.add_mul_mod_self_right, Nat.mod_eq_of_lt hoff]
    have hdiv : ∀ g, (k + 1 + g * 2 ^ f) / 2 ^ f = g := by
      intro g
      rw [Nat.add_mul_div_right _ _ hn, Nat.div_eq_of_lt hoff, Nat.zero_add]
    have one : ∀ g, g < rev c (k + 1) →
        swapAt (k + 1 + g * 2 ^ f) (2 ^ f * rev c (k + 1) + rev c g) (vec (2 ^ (c + f)) (swapped (c + f) (Q k g) G)) =
          .ok (vec (2 ^ (c + f)) (swapped (c + f) (Q k (g + 1)) G)) := by
      intro g hg
      have hd : driver f c (k + 1 + g * 2 ^ f) = true := by
        unfold driver
        rw [hmod, hdiv]
        exact decide_eq_true hg
      have hb := bound g (by omega)
      rw [← part g]
      apply swap_step hb
      · show (_ && (decide (_ ≤ k) || (decide _ && decide _))) = false
        rw [hmod, hdiv, decide_eq_false (by omega : ¬ k + 1 ≤ k), decide_eq_false (Nat.lt_irrefl g), Bool.and_false,
          Bool.or_false, Bool.and_false]
      · show (driver f c _ && _) = false
        rw [(driver_pair hcf hb).1 hd, Bool.false_and]
      · intro j
        have hj : j = k + 1 + g * 2 ^ f ↔ j % 2 ^ f = k + 1 ∧ j / 2 ^ f = g := by
          constructor
          · rintro rfl; exact ⟨hmod g, hdiv g⟩
          · rintro ⟨a, b⟩
            rw [← a, ← b, Nat.mul_comm]
            exact (Nat.mod_add_div j (2 ^ f)).symm
        show (driver f c j && (decide (j % 2 ^ f ≤ k) || (decide (j % 2 ^ f = k + 1) && decide (j / 2 ^ f < g + 1)))) =
          (driver f c j && (decide (j % 2 ^ f ≤ k) || (decide (j % 2 ^ f = k + 1) && decide (j / 2 ^ f < g))) ||
            decide (j = k + 1 + g * 2 ^ f))
        by_cases hjj : j = k + 1 + g * 2 ^ f
        · rw [decide_eq_true hjj, Bool.or_true, hjj, hd, hmod, hdiv, decide_eq_true (by omega : g < g + 1),
            decide_eq_true rfl, Bool.and_true, Bool.or_true, Bool.and_true]
        · rw [decide_eq_false hjj, Bool.or_false]
          by_cases h1 : j % 2 ^ f = k + 1
          · have h2 : j / 2 ^ f ≠ g := fun e => hjj (hj.mpr ⟨h1, e⟩)
            rw [show decide (j / 2 ^ f < g + 1) = decide (j / 2 ^ f < g) by
              rw [decide_eq_decide]; omega]
          · rw [decide_eq_false h1, Bool.false_and, Bool.false_and]
    unfold reverseStep
    rw [seedAt_vec (fun i => some (rev c i)) (by omega) rfl, ok_bind]
    have hspos : 0 < rev c (k + 1) := by
      rcases Nat.eq_zero_or_pos (rev c (k + 1)) with h0 | h0
      · exfalso
        have := rev_rev c (k + 1) (by omega)
        rw [h0, rev_zero] at this
        omega
      · exact h0
    have first := one 0 hspos
    simp only [rev_zero, Nat.zero_mul, Nat.add_zero] at first
    rw [first, ok_bind, forN_trace (fun g => vec (2 ^ (c + f)) (swapped (c + f) (Q k (g + 1)) G))]
    · congr 1
      have hfin : ∀ j, Q k (rev c (k + 1) - 1 + 1) j = Q (k + 1) 0 j := by
        intro j
        rw [show rev c (k + 1) - 1 + 1 = rev c (k + 1) by omega]
        show (driver f c j && (decide (j % 2 ^ f ≤ k) || (decide (j % 2 ^ f = k + 1) && decide (j / 2 ^ f < rev c (k + 1))))) =
          (driver f c j && (decide (j % 2 ^ f ≤ k + 1) || (decide (j % 2 ^ f = k + 1 + 1) && decide (j / 2 ^ f < 0))))
        rw [decide_eq_false (Nat.not_lt_zero (j / 2 ^ f)), Bool.and_false, Bool.or_false]
        by_cases hd : driver f c j = true
        · rw [hd, Bool.true_and, Bool.true_and]
          have hd' := of_decide_eq_true hd
          by_cases h1 : j % 2 ^ f = k + 1
          · rw [h1] at hd' ⊢
            rw [decide_eq_true hd', decide_eq_true rfl, decide_eq_true (by omega : k + 1 ≤ k + 1), Bool.and_true, Bool.or_true]
          · rw [decide_eq_false h1, Bool.false_and, Bool.or_false, decide_eq_decide]
            omega
        · rw [Bool.eq_false_iff.mpr hd, Bool.false_and, Bool.false_and]
      apply vec_congr
      intro j _
      unfold swapped
      rw [hfin, hfin]
    · intro g hg
      show (seedAt _ (g + 1) >>= fun t => _) = _
      rw [seedAt_vec (fun i => some (rev c i)) (by omega) rfl, ok_bind]
      exact one (g + 1) (by omega)

/-! ## The constructor -/

/-- The test for powers of two. -/
theorem pow_of_and (n : Nat) (h0 : 0 < n) (h : n &&& (n - 1) = 0) : ∃ k, n = 2 ^ k := by
  induction n using Nat.strongRecOn with
  | ind n ih =>
    have hd : (n / 2) &&& ((n - 1) / 2) = 0 := by rw [← Nat.and_div_two, h]
    rcases Nat.mod_two_eq_zero_or_one n with he | ho
    · have e : (n - 1) / 2 = n / 2 - 1 := by omega
      rw [e] at hd
      obtain ⟨k, hk⟩ := ih (n / 2) (by omega) (by omega) hd
      exact ⟨k + 1, by rw [Nat.pow_succ]; omega⟩
    · have e : (n - 1) / 2 = n / 2 := by omega
      rw [e, Nat.and_self] at hd
      exact ⟨0, by omega⟩

theorem and_of_pow (k : Nat) : 2 ^ k &&& (2 ^ k - 1) = 0 := by
  rw [Nat.and_two_pow_sub_one_eq_mod, Nat.mod_self]

theorem logOf_pow (k fuel : Nat) (h : k < fuel) : logOf fuel (2 ^ k) = k := by
  induction k generalizing fuel with
  | zero =>
    obtain ⟨f, rfl⟩ : ∃ f, fuel = f + 1 := ⟨fuel - 1, by omega⟩
    rfl
  | succ k ih =>
    obtain ⟨f, rfl⟩ : ∃ f, fuel = f + 1 := ⟨fuel - 1, by omega⟩
    have hp : 0 < 2 ^ k := Nat.pow_pos (by omega)
    unfold logOf
    rw [if_pos (by rw [Nat.pow_succ]; omega), show 2 ^ (k + 1) / 2 = 2 ^ k by rw [Nat.pow_succ]; omega, ih f (by omega)]

/-- What the constructor makes. -/
def made (o : Ops F) (k : Nat) : State F :=
  ⟨2 ^ k, k, vec (2 ^ (k - k / 2)) (fun i => some (rev (k - k / 2) i)), table o k⟩

theorem new_pow (o : Ops F) {points : Int} {k : Nat} (hk : 1 ≤ k) (h : points.tdiv 2 = ((2 ^ k : Nat) : Int)) :
    new o points = .ok (made o k) := by
  have hp : 2 ≤ 2 ^ k := by
    calc 2 = 2 ^ 1 := rfl
      _ ≤ 2 ^ k := Nat.pow_le_pow_right (by omega) hk
  unfold new
  simp only
  rw [h, Int.toNat_natCast, decide_eq_true (show (1 : Int) < ((2 ^ k : Nat) : Int) by omega), cassert_true, ok_bind,
    decide_eq_true (and_of_pow k), cassert_true, ok_bind, logOf_pow k _ Nat.lt_two_pow_self, seedTable_ok k hk, ok_bind]
  rfl

theorem new_inv (o : Ops F) {points : Int} {t : State F} (h : new o points = .ok t) :
    ∃ k, 1 ≤ k ∧ points.tdiv 2 = ((2 ^ k : Nat) : Int) ∧ t = made o k := by
  have h' := h
  unfold new at h'
  simp only at h'
  by_cases h1 : 1 < points.tdiv 2
  · rw [decide_eq_true h1, cassert_true, ok_bind] at h'
    by_cases h2 : (points.tdiv 2).toNat &&& ((points.tdiv 2).toNat - 1) = 0
    · obtain ⟨k, hk⟩ := pow_of_and _ (by omega) h2
      have hk1 : 1 ≤ k := by
        rcases Nat.eq_zero_or_pos k with rfl | h
        · rw [Nat.pow_zero] at hk; omega
        · exact h
      have e : points.tdiv 2 = ((2 ^ k : Nat) : Int) := by omega
      refine ⟨k, hk1, e, ?_⟩
      rw [new_pow o hk1 e] at h
      exact (Except.ok.inj h).symm
    · rw [decide_eq_false h2] at h'
      cases h'
  · rw [decide_eq_false h1] at h'
    cases h'

end Verif.Srfft
