import Verif.HashTableLemmas
import Verif.HashTablePrimes
import Mathlib.Data.Nat.Prime.Basic
import Mathlib.RingTheory.Int.Basic
import Mathlib.Data.Nat.Sqrt
import Mathlib.Data.List.Nodup
import Mathlib.Data.List.Range
import Mathlib.Tactic.IntervalCases
import Mathlib.Tactic.Linarith
import Mathlib.Tactic.Ring

/-!
# Helper lemmas for the hash table: lookups terminate below the load bound
-/

namespace Verif.HashTable

set_option linter.unusedSectionVars false

variable {K V : Type} [DecidableEq K]

/-! ## Position of a probe -/

theorem tmod_fix (a p : Int) (hp : 0 < p) :
    (if a.tmod p < 0 then a.tmod p + p else a.tmod p) = a % p := by
  rcases Int.le_total 0 a with h | h
  · have h1 : a.tmod p = a % p := Int.tmod_eq_emod_of_nonneg h
    have h2 := Int.emod_nonneg a (by omega : p ≠ 0)
    rw [h1, if_neg (by omega)]
  · have h1 : a.tmod p = -((-a) % p) := by
      have : a.tmod p = -((-a).tmod p) := by rw [Int.neg_tmod]; omega
      rw [this, Int.tmod_eq_emod_of_nonneg (by omega)]
    have h2 := Int.emod_nonneg (-a) (by omega : p ≠ 0)
    have h3 := Int.emod_lt_of_pos (-a) hp
    have h4 := Int.emod_nonneg a (by omega : p ≠ 0)
    have h5 := Int.emod_lt_of_pos a hp
    have h6 := Int.emod_add_mul_ediv a p
    have h7 := Int.emod_add_mul_ediv (-a) p
    have h8 : p * (a / p + (-a) / p) = - (a % p + (-a) % p) := by
      rw [Int.mul_add]; omega
    generalize hq : a / p + (-a) / p = q at h8
    have h9 : q = 0 ∨ q = -1 := by
      have : -2 < q := by
        by_contra hc
        have : p * q ≤ p * (-2) := Int.mul_le_mul_of_nonneg_left (by omega) (by omega)
        omega
      have : q < 1 := by
        by_contra hc
        have : p * 1 ≤ p * q := Int.mul_le_mul_of_nonneg_left (by omega) (by omega)
        omega
      omega
    rw [h1]
    rcases h9 with e | e <;> subst e
    · rw [if_neg (by omega)]; omega
    · split <;> omega

theorem tmod_bound (h p : Int) (hp : 0 < p) : -p < h.tmod p ∧ h.tmod p < p := by
  exact ⟨Int.lt_tmod_of_pos h hp, Int.tmod_lt_of_pos h hp⟩

/-- Where no overflow occurs the probe index is a residue. -/
theorem probeIdx_eq {hv p i : Int} {neg : Bool} (hp : 0 < p) (hv1 : -p < hv) (hv2 : hv < p)
    (hi : i * i + p ≤ 2147483647) :
    probeIdx hv p i neg = .ok ((if neg then hv - i * i else hv + i * i) % p) := by
  have hsq : 0 ≤ i * i := mul_self_nonneg i
  unfold probeIdx
  rw [i32_of (show InI32 (i * i) by constructor <;> omega), ok_bind]
  have e : (if neg = true then hv + -(i * i) else hv + i * i) =
      (if neg = true then hv - i * i else hv + i * i) := by split <;> omega
  rw [e, i32_of (show InI32 _ by constructor <;> split <;> omega), ok_bind]
  simp only
  rw [tmod_fix _ _ hp]

/-! ## Occupied buckets -/

/-- Number of occupied buckets. -/
def occ (slots : List (Option (K × V))) : Nat := slots.countP Option.isSome

theorem occ_ge_of_nodup : ∀ (slots : List (Option (K × V))) (L : List Nat), L.Nodup →
    (∀ j ∈ L, ∃ kv, slots[j]? = some (some kv)) → L.length ≤ occ slots
  | [], L, _, h => by
    cases L with
    | nil => simp
    | cons a L => obtain ⟨kv, hkv⟩ := h a (by simp); simp at hkv
  | o :: slots, L, hn, h => by
    have h1 : ((L.filter (· ≠ 0)).map (· - 1)).Nodup := by
      refine List.Nodup.map_on ?_ (hn.filter _)
      intro x hx y hy e
      simp only [ne_eq, decide_not, List.mem_filter, Bool.not_eq_eq_eq_not, Bool.not_true,
        decide_eq_false_iff_not] at hx hy
      omega
    have h2 := occ_ge_of_nodup slots _ h1 (by
      intro j hj
      simp only [ne_eq, decide_not, List.mem_map, List.mem_filter, Bool.not_eq_eq_eq_not,
        Bool.not_true, decide_eq_false_iff_not] at hj
      obtain ⟨a, ⟨ha, ha0⟩, rfl⟩ := hj
      obtain ⟨kv, hkv⟩ := h a ha
      obtain ⟨b, rfl⟩ : ∃ b, a = b + 1 := ⟨a - 1, by omega⟩
      exact ⟨kv, by simpa using hkv⟩)
    rw [List.length_map] at h2
    have h3 : L.length ≤ (L.filter (· ≠ 0)).length + (if 0 ∈ L then 1 else 0) := by
      have e1 := List.length_eq_countP_add_countP (p := fun x : Nat => decide (x ≠ 0)) (l := L)
      have e0 : List.countP (fun x : Nat => decide (x ≠ 0)) L = (L.filter (· ≠ 0)).length :=
        List.countP_eq_length_filter
      have e2 : List.countP (fun a => decide (¬ decide (a ≠ 0) = true)) L = L.count 0 := by
        unfold List.count
        apply List.countP_congr
        intro x _
        simp
      rw [e2] at e1
      have e3 : L.count 0 ≤ if 0 ∈ L then 1 else 0 := by
        split
        · exact List.nodup_iff_count_le_one.mp hn 0
        · rw [List.count_eq_zero_of_not_mem (by assumption)]
      omega
    have h4 : occ (o :: slots) = occ slots + (if o.isSome then 1 else 0) := by
      simp [occ, List.countP_cons]
    rw [h4]
    by_cases h0 : 0 ∈ L
    · obtain ⟨kv, hkv⟩ := h 0 h0
      simp at hkv
      subst hkv
      rw [if_pos h0] at h3
      simp only [Option.isSome_some, if_true]
      omega
    · simp only [h0, if_false] at h3
      omega

theorem occ_set_none {slots : List (Option (K × V))} {j : Nat} {kv : K × V}
    (h : slots[j]? = some none) : occ (slots.set j (some kv)) = occ slots + 1 := by
  obtain ⟨hj, e⟩ := List.getElem?_eq_some_iff.mp h
  unfold occ
  rw [List.countP_set hj, e]
  simp

theorem occ_set_some {slots : List (Option (K × V))} {j : Nat} {kv kv' : K × V}
    (h : slots[j]? = some (some kv')) : occ (slots.set j (some kv)) = occ slots := by
  obtain ⟨hj, e⟩ := List.getElem?_eq_some_iff.mp h
  unfold occ
  rw [List.countP_set hj, e]
  have : 0 < List.countP Option.isSome slots :=
    List.countP_pos_iff.mpr ⟨_, List.mem_of_getElem? h, rfl⟩
  simp
  omega

theorem occ_create {n : Int} : occ (createBuckets n : List (Option (K × V))) = 0 := by
  simp [occ, createBuckets, List.countP_replicate]

/-! ## Lookups come to an end -/

theorem lookupLoop_progress {slots : List (Option (K × V))} {p hv : Int} {key : K} {M : Int}
    (hp : 0 < p) (hlen : slots.length = p.toNat) (hv1 : -p < hv) (hv2 : hv < p)
    (hM : M * M + p ≤ 2147483647) (hM2 : M < 65536) :
    ∀ (fuel : Nat) (i0 : Int), 1 ≤ i0 → M < i0 + fuel →
      (∃ j, lookupLoop slots p hv key fuel i0 = .ok j) ∨
      ∀ i, i0 ≤ i → i ≤ M → ∃ kv, slots[((hv - i * i) % p).toNat]? = some (some kv)
  | 0, i0, _, h => Or.inr (fun i h1 h2 => by omega)
  | fuel + 1, i0, h1, h => by
    by_cases hle : i0 ≤ M
    · have hsq : i0 * i0 + p ≤ 2147483647 := by nlinarith
      unfold lookupLoop
      have : cassert (decide (i0 < 65536)) = .ok () := by
        rw [show decide (i0 < 65536) = true by simp; omega]; rfl
      rw [this, ok_bind, probeIdx_eq hp hv1 hv2 hsq, ok_bind]
      have inb : ∀ x : Int, ∃ o, slots[(x % p).toNat]? = some o := by
        intro x
        have a := Int.emod_nonneg x (by omega : p ≠ 0)
        have b := Int.emod_lt_of_pos x hp
        exact ⟨_, List.getElem?_eq_getElem (by omega)⟩
      obtain ⟨oa, hoa⟩ := inb (if true = true then hv - i0 * i0 else hv + i0 * i0)
      rw [stopAt_of (Int.emod_nonneg _ (by omega)) hoa, ok_bind]
      split
      · exact Or.inl ⟨_, rfl⟩
      · rename_i hs
        rw [probeIdx_eq hp hv1 hv2 hsq, ok_bind]
        obtain ⟨ob, hob⟩ := inb (if false = true then hv - i0 * i0 else hv + i0 * i0)
        rw [stopAt_of (Int.emod_nonneg _ (by omega)) hob, ok_bind]
        split
        · exact Or.inl ⟨_, rfl⟩
        · rcases lookupLoop_progress hp hlen hv1 hv2 hM hM2 fuel (i0 + 1) (by omega)
            (by push_cast at h; omega) with h' | h'
          · exact Or.inl h'
          · refine Or.inr (fun i a b => ?_)
            by_cases e : i = i0
            · subst e
              cases oa with
              | none => simp [stopB] at hs
              | some kv => exact ⟨kv, by simpa using hoa⟩
            · exact h' i (by omega) b
    · exact Or.inr (fun i a b => by omega)

theorem lookup_progress {hash : K → Exec Int} {slots : List (Option (K × V))} {p : Int} {key : K}
    {h : Int} {M : Int} (hh : hash key = .ok h)
    (hp : 0 < p) (hlen : slots.length = p.toNat)
    (hM : M * M + p ≤ 2147483647) (hM2 : M < 65536) :
    (∃ j, lookup hash slots p key = .ok j) ∨
      ∀ i, 1 ≤ i → i ≤ M → ∃ kv, slots[((h.tmod p - i * i) % p).toNat]? = some (some kv) := by
  unfold lookup
  rw [hh, ok_bind]
  obtain ⟨a, b⟩ := tmod_bound h p hp
  exact lookupLoop_progress hp hlen a b hM hM2 65536 1 (by omega) (by omega)

/-- Two probes `i < i'` hit the same bucket only if `p` divides `i' - i` or `i' + i`. -/
theorem probe_collision {p : Nat} (hpp : p.Prime) {hv : Int} {i i' : Nat}
    (h : ((hv - (i : Int) * i) % p).toNat = ((hv - (i' : Int) * i') % p).toNat) :
    p ∣ i' + i ∨ (p : Int) ∣ (i' : Int) - i := by
  have hp : (0 : Int) < p := by exact_mod_cast hpp.pos
  have a := Int.emod_nonneg (hv - (i : Int) * i) (by omega : (p : Int) ≠ 0)
  have b := Int.emod_nonneg (hv - (i' : Int) * i') (by omega : (p : Int) ≠ 0)
  have e : (hv - (i : Int) * i) % p = (hv - (i' : Int) * i') % p := by omega
  have d : (p : Int) ∣ (hv - (i : Int) * i) - (hv - (i' : Int) * i') :=
    Int.dvd_of_emod_eq_zero (Int.emod_eq_emod_iff_emod_sub_eq_zero.mp e)
  have d2 : (p : Int) ∣ ((i' : Int) + i) * ((i' : Int) - i) := by
    have : (hv - (i : Int) * i) - (hv - (i' : Int) * i') = ((i' : Int) + i) * ((i' : Int) - i) := by
      ring
    rwa [this] at d
  rcases Int.Prime.dvd_mul' hpp d2 with q | q
  · left; exact_mod_cast q
  · right; exact q

/-- Guaranteed number of different buckets visited by the probe sequence before it can overflow. -/
def probeBound (p : Nat) : Nat :=
  if p ≤ 32771 then (p + 1) / 2 else min ((p - 1) / 2) (Nat.sqrt (2147483647 - p))

theorem nodup_probes {p : Nat} (hpp : p.Prime) {hv : Int} {L : List Nat} (hL : L.Nodup)
    (hsep : ∀ i ∈ L, ∀ i' ∈ L, i < i' → ¬ p ∣ i' + i ∧ ¬ (p : Int) ∣ (i' : Int) - i) :
    (L.map (fun i : Nat => ((hv - (i : Int) * i) % p).toNat)).Nodup := by
  refine List.Nodup.map_on ?_ hL
  intro x hx y hy e
  rcases Nat.lt_trichotomy x y with h | h | h
  · obtain ⟨a, b⟩ := hsep x hx y hy h
    rcases probe_collision hpp e with q | q
    · exact absurd q a
    · exact absurd q b
  · exact h
  · obtain ⟨a, b⟩ := hsep y hy x hx h
    rcases probe_collision hpp e.symm with q | q
    · exact absurd q a
    · exact absurd q b

theorem not_dvd_of_pos_lt {p : Nat} {x : Int} (h0 : 0 < x) (h1 : x < p) : ¬ (p : Int) ∣ x := by
  intro h
  have := Int.le_of_dvd h0 h
  omega

/-- Below the bound a lookup succeeds, whatever the hash. -/
theorem lookup_total {hash : K → Exec Int} {slots : List (Option (K × V))} {p : Nat} {key : K}
    {h : Int} (hh : hash key = .ok h) (hpp : p.Prime) (hodd : p % 2 = 1)
    (hp31 : p ≤ 2147483647) (hlen : slots.length = p)
    (hocc : occ slots < probeBound p) :
    ∃ j, lookup hash slots p key = .ok j := by
  have hp : (0 : Int) < p := by exact_mod_cast hpp.pos
  have h2 := hpp.two_le
  unfold probeBound at hocc
  split at hocc
  · -- small tables: probes 1 .. (p-1)/2 and p
    rename_i hsmall
    have hM : (p : Int) * p + p ≤ 2147483647 := by
      have : (p : Int) ≤ 32771 := by exact_mod_cast hsmall
      nlinarith
    rcases lookup_progress (slots := slots) (key := key) (M := (p : Int)) hh hp (by simpa using hlen)
      hM (by omega) with h1 | h1
    · exact h1
    · exfalso
      let L : List Nat := p :: (List.range ((p - 1) / 2)).map (· + 1)
      have hmem : ∀ i ∈ L, i = p ∨ (1 ≤ i ∧ i ≤ (p - 1) / 2) := by
        intro i hi
        simp only [L, List.mem_cons, List.mem_map, List.mem_range] at hi
        rcases hi with hi | ⟨a, ha, rfl⟩
        · exact Or.inl hi
        · exact Or.inr ⟨by omega, by omega⟩
      have hL : L.Nodup := by
        refine List.nodup_cons.mpr ⟨?_, ?_⟩
        · simp only [List.mem_map, List.mem_range, not_exists, not_and]
          intro x hx
          omega
        · refine List.Nodup.map_on (fun x _ y _ e => by omega) List.nodup_range
      have := occ_ge_of_nodup slots _ (nodup_probes (hv := h.tmod p) hpp hL (by
        intro i hi i' hi' hlt
        have a := hmem i hi
        have b := hmem i' hi'
        rcases b with b | b
        · subst b
          rcases a with a | a
          · omega
          · constructor
            · intro hd
              have : i' ∣ i := (Nat.dvd_add_right (Nat.dvd_refl i')).mp hd
              have := Nat.le_of_dvd (by omega) this
              omega
            · exact not_dvd_of_pos_lt (by omega) (by omega)
        · constructor
          · intro hd
            have := Nat.le_of_dvd (by omega) hd
            omega
          · exact not_dvd_of_pos_lt (by omega) (by omega))) (by
        intro j hj
        obtain ⟨i, hi, rfl⟩ := List.mem_map.mp hj
        have a := hmem i hi
        exact h1 i (by omega) (by omega))
      simp only [L, List.length_map, List.length_cons, List.length_range] at this
      omega
  · rename_i hbig
    -- large tables: probes 1 .. m
    generalize hm : min ((p - 1) / 2) (Nat.sqrt (2147483647 - p)) = m at hocc
    have hm1 : m ≤ (p - 1) / 2 := by omega
    have hm2 : m * m ≤ 2147483647 - p := by
      have : m ≤ Nat.sqrt (2147483647 - p) := by omega
      exact le_trans (Nat.mul_le_mul this this) (Nat.sqrt_le _)
    have hm3 : m < 65536 := by
      by_contra hc
      have : 65536 * 65536 ≤ m * m := Nat.mul_le_mul (by omega) (by omega)
      omega
    have hM : (m : Int) * m + p ≤ 2147483647 := by
      have : m * m + p ≤ 2147483647 := by omega
      exact_mod_cast this
    rcases lookup_progress (slots := slots) (key := key) (M := (m : Int)) hh hp (by simpa using hlen)
      hM (by omega) with h1 | h1
    · exact h1
    · exfalso
      let L : List Nat := (List.range m).map (· + 1)
      have hmem : ∀ i ∈ L, 1 ≤ i ∧ i ≤ m := by
        intro i hi
        simp only [L, List.mem_map, List.mem_range] at hi
        obtain ⟨a, ha, rfl⟩ := hi
        exact ⟨by omega, by omega⟩
      have hL : L.Nodup := List.Nodup.map_on (fun x _ y _ e => by omega) List.nodup_range
      have := occ_ge_of_nodup slots _ (nodup_probes (hv := h.tmod p) hpp hL (by
        intro i hi i' hi' hlt
        have a := hmem i hi
        have b := hmem i' hi'
        constructor
        · intro hd
          have := Nat.le_of_dvd (by omega) hd
          omega
        · exact not_dvd_of_pos_lt (by omega) (by omega))) (by
        intro j hj
        obtain ⟨i, hi, rfl⟩ := List.mem_map.mp hj
        have a := hmem i hi
        exact h1 i (by omega) (by omega))
      simp only [L, List.length_map, List.length_range] at this
      omega

/-! ## Well-formed tables and total operations -/

/-- The invariant of a table: bucket count from the prime table, item count, findability. -/
structure WF (hash : K → Exec Int) (t : Table K V) : Prop where
  prime : aget primes t.primeIdx = .ok t.bucketSize
  len : t.slots.length = t.bucketSize.toNat
  size : t.size = occ t.slots
  load : 2 * t.size ≤ t.bucketSize + 1
  findable : Findable hash t.slots t.bucketSize

theorem primes_le {j p : Int} (h : aget primes j = .ok p) : 2 ≤ p ∧ p ≤ 2147483647 := by
  obtain ⟨_, _, hj⟩ := aget_ok h
  have : p ∈ primes := List.mem_of_getElem? hj
  have all : ∀ q ∈ primes, (2 : Int) ≤ q ∧ q ≤ 2147483647 := by decide
  exact all p this

theorem moveAll_total {hash : K → Exec Int} {p : Nat} (hpp : p.Prime) (hodd : p % 2 = 1)
    (hp31 : p ≤ 2147483647) :
    ∀ (items acc : List (Option (K × V))), acc.length = p → Findable hash acc p →
      occ acc + occ items ≤ probeBound p →
      (∀ kv, some kv ∈ items → ∃ h, hash kv.1 = .ok h) →
      (∀ (i j : Nat) (k : K) (v w : V), items[i]? = some (some (k, v)) →
        items[j]? = some (some (k, w)) → i = j) →
      (∀ (i j : Nat) (k : K) (v w : V), items[i]? = some (some (k, v)) →
        acc[j]? ≠ some (some (k, w))) →
      ∃ out, moveAll hash p acc items = .ok out ∧ occ out = occ acc + occ items
  | [], acc, _, _, _, _, _, _ => ⟨acc, rfl, by simp [occ]⟩
  | none :: rest, acc, hl, hF, hb, hh, hu, hd => by
    have e : occ ((none : Option (K × V)) :: rest) = occ rest := by simp [occ]
    obtain ⟨out, h1, h2⟩ := moveAll_total hpp hodd hp31 rest acc hl hF (by omega)
      (fun kv hkv => hh kv (by simp [hkv]))
      (fun i j k v w hi hj => by
        have := hu (i + 1) (j + 1) k v w (by simpa using hi) (by simpa using hj)
        omega)
      (fun i j k v w hi => hd (i + 1) j k v w (by simpa using hi))
    refine ⟨out, ?_, by omega⟩
    unfold moveAll
    exact h1
  | some kv :: rest, acc, hl, hF, hb, hh, hu, hd => by
    have e : occ (some kv :: rest) = occ rest + 1 := by simp [occ]
    obtain ⟨h, hhk⟩ := hh kv (by simp)
    obtain ⟨j, hj⟩ := lookup_total (slots := acc) hhk hpp hodd hp31 hl (by omega)
    obtain ⟨j0, j1, o, ho, hst⟩ := lookup_stop hj
    have hon : o = none := by
      cases o with
      | none => rfl
      | some kv' =>
        exfalso
        have hk := hst kv' rfl
        refine hd 0 j.toNat kv.1 kv.2 kv'.2 (by simp) ?_
        rw [ho, ← hk]
    subst hon
    have hF' := findable_set (v := kv.2) hF hj
    have ho' := occ_set_none (kv := (kv.1, kv.2)) ho
    obtain ⟨out, h1, h2⟩ := moveAll_total hpp hodd hp31 rest
      (acc.set j.toNat (some (kv.1, kv.2))) (by simpa using hl) hF' (by omega)
      (fun kv' hkv => hh kv' (by simp [hkv]))
      (fun i j k v w hi hj => by
        have := hu (i + 1) (j + 1) k v w (by simpa using hi) (by simpa using hj)
        omega)
      (fun i j' k v w hi hc => by
        by_cases hjj : j' = j.toNat
        · subst hjj
          rw [List.getElem?_set_self j1] at hc
          cases hc
          have := hu (i + 1) 0 kv.1 v kv.2 (by simpa using hi) (by simp)
          omega
        · rw [List.getElem?_set_ne (fun e => hjj e.symm)] at hc
          exact hd (i + 1) j' k v w (by simpa using hi) hc)
    refine ⟨out, ?_, by omega⟩
    unfold moveAll moveItem
    simp only
    rw [hj, ok_bind, aget_of j0 ho, ok_bind]
    simp only [Option.isNone_none, cassert_true, ok_bind]
    rw [aset_of j0 j1, ok_bind]
    exact h1

/-- Decision procedure for `primes_next`. -/
def nextOk (k : Nat) : Bool :=
  match primes[k]?, primes[k + 1]? with
  | some p, some q => decide (5 ≤ p → p ≤ 65536 → p + 1 ≤ q ∧ q ≤ 65537)
  | some p, none => decide (65536 < p)
  | none, _ => true

/-- Consecutive entries of the prime table, up to 65537. -/
theorem primes_next {j p : Int} (h : aget primes j = .ok p) (h5 : 5 ≤ p) (hle : p ≤ 65536) :
    ∃ q, aget primes (j + 1) = .ok q ∧ p + 1 ≤ q ∧ q ≤ 65537 := by
  obtain ⟨j0, j1, hj⟩ := aget_ok h
  rw [primes_length] at j1
  have all : ∀ k < 32, nextOk k = true := by decide
  have a := all _ j1
  unfold nextOk at a
  rw [hj] at a
  cases hq : primes[j.toNat + 1]? with
  | none =>
    rw [hq] at a
    simp at a
    omega
  | some q =>
    rw [hq] at a
    simp only [decide_eq_true_eq] at a
    obtain ⟨b, c⟩ := a h5 hle
    exact ⟨q, aget_of (by omega) (by rw [show (j + 1).toNat = j.toNat + 1 by omega]; exact hq), b, c⟩

theorem probeBound_ge {p : Nat} (h : 65536 < p) (h2 : p ≤ 536870923) : 32768 ≤ probeBound p := by
  unfold probeBound
  rw [if_neg (by omega)]
  have : 32768 ≤ Nat.sqrt (2147483647 - p) := Nat.le_sqrt.mpr (by omega)
  omega

theorem probeBound_small {p : Nat} (h : p ≤ 32771) : probeBound p = (p + 1) / 2 := by
  unfold probeBound; rw [if_pos h]

/-- No entry of the prime table lies strictly between 32771 and 65537. -/
theorem primes_gap {j p : Int} (h : aget primes j = .ok p) : p ≤ 32771 ∨ 65536 < p := by
  obtain ⟨_, _, hj⟩ := aget_ok h
  have : p ∈ primes := List.mem_of_getElem? hj
  have all : ∀ q ∈ primes, q ≤ (32771 : Int) ∨ 65536 < q := by decide
  exact all p this

/-- Growth of a table with at most 32767 items never faults. -/
theorem extend_total {hash : K → Exec Int} {t : Table K V} (w : WF hash t) (h5 : 5 ≤ t.bucketSize)
    (hN : t.size ≤ 32767) (hload : 2 * t.size > t.bucketSize)
    (hh : ∀ kv, some kv ∈ t.slots → ∃ h, hash kv.1 = .ok h) :
    ∃ t', extend hash t = .ok t' ∧ WF hash t' ∧ t'.size = t.size ∧ 2 * t'.size ≤ t'.bucketSize ∧
      5 ≤ t'.bucketSize ∧ t'.bucketSize ≤ 65537 := by
  obtain ⟨q, hq, hpq, hq2⟩ := primes_next w.prime h5 (by omega)
  obtain ⟨hqp, hqo⟩ := primes_prime hq (by omega)
  have hqn : ((q.toNat : Nat) : Int) = q := by omega
  have hpb : t.size ≤ probeBound q.toNat := by
    rcases primes_gap hq with g | g
    · rw [probeBound_small (by omega)]
      have := w.load
      omega
    · have := probeBound_ge (p := q.toNat) (by omega) (by omega)
      omega
  obtain ⟨out, h1, h2⟩ := moveAll_total (hash := hash) hqp hqo (by omega) t.slots
    (createBuckets q) createBuckets_length
    (by rw [hqn]; exact findable_create)
    (by rw [occ_create]; have := w.size; omega) hh
    (fun i j k v w' hi hj => findable_unique w.findable hi hj)
    (fun i j k v w' hi hc => by cases createBuckets_get hc)
  rw [hqn] at h1
  have hE : extend hash t = .ok (Table.mk out q (t.primeIdx + 1) t.size) := by
    unfold extend
    rw [hq, ok_bind, h1, ok_bind]
  obtain ⟨m, hm⟩ : ∃ m : K → Option V, Stores t.slots m := by
    classical
    refine ⟨fun k => if h : ∃ v, ∃ j : Nat, t.slots[j]? = some (some (k, v)) then
      some h.choose else none, ?_⟩
    intro k v
    constructor
    · intro h
      simp only at h
      split at h
      · rename_i hx
        cases h
        exact hx.choose_spec
      · cases h
    · rintro ⟨j, hj⟩
      have hx : ∃ v, ∃ j : Nat, t.slots[j]? = some (some (k, v)) := ⟨v, j, hj⟩
      simp only [dif_pos hx]
      obtain ⟨j', hj'⟩ := hx.choose_spec
      have := findable_unique w.findable hj hj'
      subst this
      rw [hj] at hj'
      simp only [Option.some.injEq, Prod.mk.injEq, true_and] at hj'
      rw [← hj']
  obtain ⟨a, b, c, d, e, f⟩ := extend_ok w.findable hm hE
  refine ⟨_, hE, ⟨c, f, ?_, ?_, a⟩, rfl, ?_, ?_, hq2⟩
  · simp only
    rw [h2, occ_create, w.size]
    simp
  · have := w.load; simp only; omega
  · have := w.load; simp only; omega
  · simp only; omega

/-- `Insert` on a well-formed table with few items never faults and keeps the invariant. -/
theorem insert_total {hash : K → Exec Int} {t : Table K V} (w : WF hash t) (h5 : 5 ≤ t.bucketSize)
    (hmax : t.bucketSize ≤ 536870923)
    (hN : t.size ≤ 32767) {key : K} {v : V}
    (hh : ∀ kv, some kv ∈ t.slots → ∃ h, hash kv.1 = .ok h) (hk : ∃ h, hash key = .ok h) :
    ∃ t', insert hash t key v = .ok t' ∧ WF hash t' ∧ 5 ≤ t'.bucketSize ∧
      t'.bucketSize ≤ 536870923 := by
  have grown : ∃ t1, growIfLoaded hash t = .ok t1 ∧ WF hash t1 ∧ t1.size = t.size ∧
      2 * t1.size ≤ t1.bucketSize ∧ 5 ≤ t1.bucketSize ∧ t1.bucketSize ≤ 536870923 := by
    unfold growIfLoaded
    split
    · obtain ⟨t', a, b, c, d, e, f⟩ := extend_total w h5 hN (by assumption) hh
      exact ⟨t', a, b, c, d, e, by omega⟩
    · exact ⟨t, rfl, w, rfl, by omega, h5, hmax⟩
  obtain ⟨t1, g1, w1, s1, l1, b1, b2⟩ := grown
  obtain ⟨hpp, hodd⟩ := primes_prime w1.prime b1
  have hpn : ((t1.bucketSize.toNat : Nat) : Int) = t1.bucketSize := by omega
  have hocc : occ t1.slots < probeBound t1.bucketSize.toNat := by
    have h1 := w1.size
    rcases primes_gap w1.prime with g | g
    · rw [probeBound_small (by omega)]
      omega
    · have := probeBound_ge (p := t1.bucketSize.toNat) (by omega) (by omega)
      omega
  obtain ⟨h, hhk⟩ := hk
  obtain ⟨j, hj⟩ := lookup_total (slots := t1.slots) hhk hpp hodd (by omega) w1.len hocc
  rw [hpn] at hj
  obtain ⟨j0, j1, o, ho, hst⟩ := lookup_stop hj
  unfold insert
  rw [g1, ok_bind, hj, ok_bind, aget_of j0 ho, ok_bind]
  cases o with
  | none =>
    simp only
    rw [aset_of j0 j1, ok_bind]
    refine ⟨_, rfl, ⟨w1.prime, ?_, ?_, ?_, findable_set w1.findable hj⟩, b1, b2⟩
    · simpa using w1.len
    · simp only [occ_set_none ho]; have := w1.size; push_cast; omega
    · simp only; omega
  | some kv =>
    have hke := hst kv rfl
    simp only [hke, decide_true, cassert_true, ok_bind]
    rw [aset_of j0 j1, ok_bind]
    refine ⟨_, rfl, ⟨w1.prime, ?_, ?_, ?_, findable_set w1.findable hj⟩, b1, b2⟩
    · simpa using w1.len
    · simp only [occ_set_some ho]; exact w1.size
    · exact w1.load

theorem findable_find {hash : K → Exec Int} {t : Table K V}
    (hF : Findable hash t.slots t.bucketSize) {j : Nat} {k : K} {v d : V}
    (hj : t.slots[j]? = some (some (k, v))) : find hash t k d = .ok v := by
  unfold find
  have := hF j _ hj
  simp only at this
  rw [this, ok_bind, aget_of (by omega) (by simpa using hj), ok_bind]
  simp

end Verif.HashTable
