import Verif.HashTableModel

/-!
# Helper lemmas for the hash table: partial correctness of lookup, growth, insertion
-/

namespace Verif.HashTable

set_option linter.unusedSectionVars false

variable {K V : Type} [DecidableEq K]

/-- A bucket at which `Lookup` stops for `key`. -/
def Stops (o : Option (K × V)) (key : K) : Prop := ∀ kv, o = some kv → kv.1 = key

theorem stopAt_ok {slots : List (Option (K × V))} {idx : Int} {key : K} {b : Bool}
    (h : stopAt slots idx key = .ok b) :
    0 ≤ idx ∧ idx.toNat < slots.length ∧
      ∃ o, slots[idx.toNat]? = some o ∧ (b = true ↔ Stops o key) := by
  unfold stopAt at h
  obtain ⟨o, ho, h⟩ := bind_ok h
  obtain ⟨h0, h1, h2⟩ := aget_ok ho
  refine ⟨h0, h1, o, h2, ?_⟩
  cases o with
  | none =>
    cases h
    simp [Stops]
  | some kv =>
    cases h
    simp [Stops]

/-- The answer of `stopAt` for a bucket content. -/
def stopB (o : Option (K × V)) (key : K) : Bool :=
  match o with
  | none => true
  | some kv => decide (kv.1 = key)

/-- `stopAt` evaluates without fault on an index inside the table. -/
theorem stopAt_of {slots : List (Option (K × V))} {idx : Int} {key : K}
    {o : Option (K × V)} (h0 : 0 ≤ idx) (h : slots[idx.toNat]? = some o) :
    stopAt slots idx key = .ok (stopB o key) := by
  unfold stopAt
  rw [aget_of h0 h]
  cases o <;> rfl

/-- Result of a successful lookup loop: an in-range stopping bucket. -/
theorem lookupLoop_stop {slots : List (Option (K × V))} {p hv : Int} {key : K} :
    ∀ (fuel : Nat) (i j : Int), lookupLoop slots p hv key fuel i = .ok j →
      0 ≤ j ∧ j.toNat < slots.length ∧ ∃ o, slots[j.toNat]? = some o ∧ Stops o key
  | 0, i, j, h => by cases h
  | fuel + 1, i, j, h => by
    unfold lookupLoop at h
    obtain ⟨_, _, h⟩ := bind_ok h
    obtain ⟨a, _, h⟩ := bind_ok h
    obtain ⟨sa, hsa, h⟩ := bind_ok h
    obtain ⟨a0, a1, oa, ha, hsta⟩ := stopAt_ok hsa
    split at h
    · rename_i hs
      cases h
      exact ⟨a0, a1, oa, ha, hsta.mp hs⟩
    · obtain ⟨b, _, h⟩ := bind_ok h
      obtain ⟨sb, hsb, h⟩ := bind_ok h
      obtain ⟨b0, b1, ob, hb, hstb⟩ := stopAt_ok hsb
      split at h
      · rename_i hs
        cases h
        exact ⟨b0, b1, ob, hb, hstb.mp hs⟩
      · exact lookupLoop_stop fuel (i + 1) j h

theorem lookup_stop {hash : K → Exec Int} {slots : List (Option (K × V))} {p : Int} {key : K}
    {j : Int} (h : lookup hash slots p key = .ok j) :
    0 ≤ j ∧ j.toNat < slots.length ∧ ∃ o, slots[j.toNat]? = some o ∧ Stops o key := by
  unfold lookup at h
  obtain ⟨_, _, h⟩ := bind_ok h
  exact lookupLoop_stop _ _ _ h

/-- `stopAt` after overwriting one bucket `m` by an item. -/
theorem stopAt_set {slots : List (Option (K × V))} {idx : Int} {key : K} {m : Nat}
    {kv : K × V} (hne : idx.toNat ≠ m) :
    stopAt (slots.set m (some kv)) idx key = stopAt slots idx key := by
  unfold stopAt aget
  split
  · rfl
  · rw [List.getElem?_set_ne (fun h => hne h.symm)]

/-- A lookup that ends at `j` does not notice that another bucket, empty or holding the same key as
before, is overwritten. -/
theorem lookupLoop_set_ne {slots : List (Option (K × V))} {p hv : Int} {key : K}
    {m : Nat} {kv : K × V} (hm : ∀ kv', slots[m]? = some (some kv') → kv'.1 = kv.1) :
    ∀ (fuel : Nat) (i j : Int), lookupLoop slots p hv key fuel i = .ok j → j.toNat ≠ m →
      lookupLoop (slots.set m (some kv)) p hv key fuel i = .ok j
  | 0, i, j, h, _ => by cases h
  | fuel + 1, i, j, h, hj => by
    unfold lookupLoop at h ⊢
    obtain ⟨u, hu, h⟩ := bind_ok h
    rw [hu, ok_bind]
    obtain ⟨a, ha, h⟩ := bind_ok h
    rw [ha, ok_bind]
    obtain ⟨sa, hsa, h⟩ := bind_ok h
    have key_step : ∀ (x : Int) (s : Bool), stopAt slots x key = .ok s →
        (s = true → x = j) → stopAt (slots.set m (some kv)) x key = .ok s := by
      intro x s hs hsj
      by_cases hx : x.toNat = m
      · obtain ⟨x0, x1, o, ho, hst⟩ := stopAt_ok hs
        cases s with
        | true => exact absurd (hsj rfl ▸ hx) hj
        | false =>
          have hns : ¬ Stops o key := fun hh => absurd (hst.mpr hh) (by simp)
          cases o with
          | none => exact absurd (by intro kv h; cases h) hns
          | some kv' =>
            have hk := hm kv' (hx ▸ ho)
            have hne : kv'.1 ≠ key := fun he => hns (by intro q hq; cases hq; exact he)
            rw [stopAt_of x0 (o := some kv)]
            · simp [stopB, ← hk, hne]
            · subst hx
              rw [List.getElem?_set_self x1]
      · rw [stopAt_set hx, hs]
    split at h
    · rename_i hs
      cases h
      subst hs
      rw [key_step j true hsa (fun _ => rfl), ok_bind]
      simp
    · rename_i hs
      have hs' : sa = false := by simpa using hs
      subst hs'
      rw [key_step a false hsa (by simp), ok_bind]
      obtain ⟨b, hb, h⟩ := bind_ok h
      obtain ⟨sb, hsb, h⟩ := bind_ok h
      simp only [Bool.false_eq_true, if_false]
      rw [hb, ok_bind]
      split at h
      · rename_i hs
        cases h
        subst hs
        rw [key_step j true hsb (fun _ => rfl), ok_bind]
        simp
      · rename_i hs
        have hs' : sb = false := by simpa using hs
        subst hs'
        rw [key_step b false hsb (by simp), ok_bind]
        simp only [Bool.false_eq_true, if_false]
        exact lookupLoop_set_ne hm fuel (i + 1) j h hj

/-- Storing an item with `key` in the bucket found for `key` keeps it findable there. -/
theorem lookupLoop_set_self {slots : List (Option (K × V))} {p hv : Int} {key : K} {v : V} :
    ∀ (fuel : Nat) (i j : Int), lookupLoop slots p hv key fuel i = .ok j →
      lookupLoop (slots.set j.toNat (some (key, v))) p hv key fuel i = .ok j
  | 0, i, j, h => by cases h
  | fuel + 1, i, j, h => by
    have hstop := lookupLoop_stop _ _ _ h
    unfold lookupLoop at h ⊢
    obtain ⟨u, hu, h⟩ := bind_ok h
    rw [hu, ok_bind]
    obtain ⟨a, ha, h⟩ := bind_ok h
    rw [ha, ok_bind]
    obtain ⟨sa, hsa, h⟩ := bind_ok h
    obtain ⟨j0, j1, oj, hoj, hsj⟩ := hstop
    have same : stopAt (slots.set j.toNat (some (key, v))) j key = .ok true := by
      rw [stopAt_of j0 (o := some (key, v)) (by rw [List.getElem?_set_self j1])]
      simp [stopB]
    have other : ∀ x s, stopAt slots x key = .ok s → s = false → x.toNat ≠ j.toNat := by
      intro x s hs hf he
      obtain ⟨x0, x1, o, ho, hst⟩ := stopAt_ok hs
      rw [he] at ho
      rw [hoj] at ho
      cases ho
      rw [hst.mpr hsj] at hf
      cases hf
    split at h
    · cases h
      rw [same, ok_bind]; simp
    · rename_i hs
      have hs' : sa = false := by simpa using hs
      subst hs'
      rw [stopAt_set (other a _ hsa rfl), hsa, ok_bind]
      simp only [Bool.false_eq_true, if_false]
      obtain ⟨b, hb, h⟩ := bind_ok h
      rw [hb, ok_bind]
      obtain ⟨sb, hsb, h⟩ := bind_ok h
      split at h
      · cases h
        rw [same, ok_bind]; simp
      · rename_i hs
        have hs' : sb = false := by simpa using hs
        subst hs'
        rw [stopAt_set (other b _ hsb rfl), hsb, ok_bind]
        simp only [Bool.false_eq_true, if_false]
        exact lookupLoop_set_self fuel (i + 1) j h

/-! ## The representation invariant -/

/-- Every stored item is found again by `Lookup` in its own bucket. -/
def Findable (hash : K → Exec Int) (slots : List (Option (K × V))) (p : Int) : Prop :=
  ∀ (j : Nat) (kv : K × V), slots[j]? = some (some kv) → lookup hash slots p kv.1 = .ok (j : Int)

/-- The buckets store exactly the bindings of `m`. -/
def Stores (slots : List (Option (K × V))) (m : K → Option V) : Prop :=
  ∀ k v, m k = some v ↔ ∃ j : Nat, slots[j]? = some (some (k, v))

theorem lookup_set_ne {hash : K → Exec Int} {slots : List (Option (K × V))} {p : Int} {key : K}
    {m : Nat} {kv : K × V} (hm : ∀ kv', slots[m]? = some (some kv') → kv'.1 = kv.1)
    {j : Int} (h : lookup hash slots p key = .ok j) (hj : j.toNat ≠ m) :
    lookup hash (slots.set m (some kv)) p key = .ok j := by
  unfold lookup at h ⊢
  obtain ⟨x, hx, h⟩ := bind_ok h
  rw [hx, ok_bind]
  exact lookupLoop_set_ne hm _ _ _ h hj

theorem lookup_set_self {hash : K → Exec Int} {slots : List (Option (K × V))} {p : Int} {key : K}
    {v : V} {j : Int} (h : lookup hash slots p key = .ok j) :
    lookup hash (slots.set j.toNat (some (key, v))) p key = .ok j := by
  unfold lookup at h ⊢
  obtain ⟨x, hx, h⟩ := bind_ok h
  rw [hx, ok_bind]
  exact lookupLoop_set_self _ _ _ h

/-- Writing a binding for `key` into the bucket found for `key` keeps all items findable. -/
theorem findable_set {hash : K → Exec Int} {slots : List (Option (K × V))} {p : Int} {key : K}
    {v : V} {j : Int} (hF : Findable hash slots p) (h : lookup hash slots p key = .ok j) :
    Findable hash (slots.set j.toNat (some (key, v))) p := by
  obtain ⟨j0, j1, oj, hoj, hsj⟩ := lookup_stop h
  intro i kv hi
  by_cases hij : i = j.toNat
  · subst hij
    rw [List.getElem?_set_self j1] at hi
    cases hi
    rw [lookup_set_self h]
    congr 1
    omega
  · rw [List.getElem?_set_ne (fun e => hij e.symm)] at hi
    have := hF i kv hi
    apply lookup_set_ne _ this (by simpa using hij)
    intro kv' hkv'
    rw [hoj] at hkv'
    cases hkv'
    exact hsj _ rfl

/-- Stored bindings after writing `(key, v)` into the bucket found for `key`. -/
theorem stores_set {hash : K → Exec Int} {slots : List (Option (K × V))} {p : Int} {key : K}
    {v : V} {j : Int} {m : K → Option V} (hF : Findable hash slots p) (hS : Stores slots m)
    (h : lookup hash slots p key = .ok j) :
    Stores (slots.set j.toNat (some (key, v))) (fun k => if k = key then some v else m k) := by
  obtain ⟨j0, j1, oj, hoj, hsj⟩ := lookup_stop h
  intro k w
  by_cases hk : k = key
  · subst hk
    simp only [if_true]
    constructor
    · intro e
      cases e
      exact ⟨j.toNat, by rw [List.getElem?_set_self j1]⟩
    · rintro ⟨i, hi⟩
      by_cases hij : i = j.toNat
      · subst hij
        rw [List.getElem?_set_self j1] at hi
        cases hi; rfl
      · rw [List.getElem?_set_ne (fun e => hij e.symm)] at hi
        have := hF i _ hi
        rw [h] at this
        cases this
        exact absurd (by simp) hij
  · simp only [if_neg hk]
    rw [hS k w]
    constructor
    · rintro ⟨i, hi⟩
      refine ⟨i, ?_⟩
      by_cases hij : i = j.toNat
      · subst hij
        rw [hoj] at hi
        cases hi
        exact absurd (hsj _ rfl) hk
      · rw [List.getElem?_set_ne (fun e => hij e.symm)]; exact hi
    · rintro ⟨i, hi⟩
      by_cases hij : i = j.toNat
      · subst hij
        rw [List.getElem?_set_self j1] at hi
        cases hi
        exact absurd rfl hk
      · rw [List.getElem?_set_ne (fun e => hij e.symm)] at hi
        exact ⟨i, hi⟩

/-- In a findable table a key is stored at most once. -/
theorem findable_unique {hash : K → Exec Int} {slots : List (Option (K × V))} {p : Int}
    (hF : Findable hash slots p) {i j : Nat} {k : K} {v w : V}
    (hi : slots[i]? = some (some (k, v))) (hj : slots[j]? = some (some (k, w))) : i = j := by
  have a := hF i _ hi
  have b := hF j _ hj
  simp only at a b
  rw [a] at b
  cases b
  rfl

theorem createBuckets_get {n : Int} {j : Nat} {o : Option (K × V)}
    (h : (createBuckets n : List (Option (K × V)))[j]? = some o) : o = none := by
  unfold createBuckets at h
  rw [List.getElem?_replicate] at h
  split at h
  · cases h; rfl
  · cases h

theorem findable_create {hash : K → Exec Int} {n p : Int} :
    Findable hash (createBuckets n : List (Option (K × V))) p := by
  intro j kv h
  cases createBuckets_get h

theorem stores_create {n : Int} :
    Stores (createBuckets n : List (Option (K × V))) (fun _ => none) := by
  intro k v
  constructor
  · intro h; cases h
  · rintro ⟨j, hj⟩
    cases createBuckets_get hj

theorem createBuckets_length {n : Int} :
    (createBuckets n : List (Option (K × V))).length = n.toNat := by
  simp [createBuckets]

/-! ## Growth -/

/-- The bindings of a list of bucket contents, later ones first. -/
def listMap : List (Option (K × V)) → (K → Option V) → (K → Option V)
  | [], m => m
  | none :: rest, m => listMap rest m
  | some kv :: rest, m => listMap rest (fun k => if k = kv.1 then some kv.2 else m k)

theorem moveAll_ok {hash : K → Exec Int} {n : Int} :
    ∀ (items acc out : List (Option (K × V))) (m : K → Option V),
      Findable hash acc n → Stores acc m → moveAll hash n acc items = .ok out →
      Findable hash out n ∧ Stores out (listMap items m) ∧ out.length = acc.length
  | [], acc, out, m, hF, hS, h => by
    cases h
    exact ⟨hF, hS, rfl⟩
  | none :: rest, acc, out, m, hF, hS, h => by
    unfold moveAll at h
    exact moveAll_ok rest acc out m hF hS h
  | some kv :: rest, acc, out, m, hF, hS, h => by
    unfold moveAll at h
    obtain ⟨acc', ha, h⟩ := bind_ok h
    unfold moveItem at ha
    obtain ⟨idx, hidx, ha⟩ := bind_ok ha
    obtain ⟨old, hold, ha⟩ := bind_ok ha
    obtain ⟨_, _, ha⟩ := bind_ok ha
    obtain ⟨_, _, hset⟩ := aset_ok ha
    subst hset
    have hF' := findable_set (v := kv.2) hF hidx
    have hS' := stores_set (v := kv.2) hF hS hidx
    obtain ⟨a, b, c⟩ := moveAll_ok rest _ out _ hF' hS' h
    exact ⟨a, b, by simpa using c⟩

theorem listMap_spec :
    ∀ (items : List (Option (K × V))) (m : K → Option V),
      (∀ (i j : Nat) (k : K) (v w : V), items[i]? = some (some (k, v)) →
        items[j]? = some (some (k, w)) → i = j) →
      ∀ k v, listMap items m k = some v ↔
        (∃ j : Nat, items[j]? = some (some (k, v))) ∨
        ((∀ (j : Nat) (w : V), items[j]? ≠ some (some (k, w))) ∧ m k = some v)
  | [], m, _, k, v => by simp [listMap]
  | none :: rest, m, hu, k, v => by
    have hu' : ∀ (i j : Nat) (k : K) (v w : V), rest[i]? = some (some (k, v)) →
        rest[j]? = some (some (k, w)) → i = j := by
      intro i j k v w hi hj
      have := hu (i + 1) (j + 1) k v w (by simpa using hi) (by simpa using hj)
      omega
    unfold listMap
    rw [listMap_spec rest m hu' k v]
    constructor
    · rintro (⟨j, hj⟩ | ⟨hn, hm⟩)
      · exact Or.inl ⟨j + 1, by simpa using hj⟩
      · refine Or.inr ⟨?_, hm⟩
        intro j w
        cases j with
        | zero => simp
        | succ j => simpa using hn j w
    · rintro (⟨j, hj⟩ | ⟨hn, hm⟩)
      · cases j with
        | zero => simp at hj
        | succ j => exact Or.inl ⟨j, by simpa using hj⟩
      · refine Or.inr ⟨?_, hm⟩
        intro j w
        simpa using hn (j + 1) w
  | some kv :: rest, m, hu, k, v => by
    have hu' : ∀ (i j : Nat) (k : K) (v w : V), rest[i]? = some (some (k, v)) →
        rest[j]? = some (some (k, w)) → i = j := by
      intro i j k v w hi hj
      have := hu (i + 1) (j + 1) k v w (by simpa using hi) (by simpa using hj)
      omega
    have hno : ∀ (j : Nat) (w : V), rest[j]? ≠ some (some (kv.1, w)) := by
      intro j w hj
      have := hu 0 (j + 1) kv.1 kv.2 w (by simp) (by simpa using hj)
      omega
    unfold listMap
    rw [listMap_spec rest _ hu' k v]
    constructor
    · rintro (⟨j, hj⟩ | ⟨hn, hm⟩)
      · exact Or.inl ⟨j + 1, by simpa using hj⟩
      · by_cases hk : k = kv.1
        · subst hk
          simp only [if_true] at hm
          cases hm
          exact Or.inl ⟨0, by simp⟩
        · rw [if_neg hk] at hm
          refine Or.inr ⟨?_, hm⟩
          intro j w
          cases j with
          | zero =>
            simp only [List.getElem?_cons_zero, ne_eq, Option.some.injEq]
            intro e
            exact hk (by rw [e])
          | succ j => simpa using hn j w
    · rintro (⟨j, hj⟩ | ⟨hn, hm⟩)
      · cases j with
        | zero =>
          simp only [List.getElem?_cons_zero, Option.some.injEq] at hj
          subst hj
          exact Or.inr ⟨hno, by simp⟩
        | succ j => exact Or.inl ⟨j, by simpa using hj⟩
      · have hk : k ≠ kv.1 := by
          intro e
          have := hn 0 kv.2
          simp [e] at this
        refine Or.inr ⟨?_, by rw [if_neg hk]; exact hm⟩
        intro j w
        simpa using hn (j + 1) w

/-- Growth keeps the stored bindings. -/
theorem extend_ok {hash : K → Exec Int} {t t' : Table K V} {m : K → Option V}
    (hF : Findable hash t.slots t.bucketSize) (hS : Stores t.slots m)
    (h : extend hash t = .ok t') :
    Findable hash t'.slots t'.bucketSize ∧ Stores t'.slots m ∧
      aget primes (t.primeIdx + 1) = .ok t'.bucketSize ∧ t'.primeIdx = t.primeIdx + 1 ∧
      t'.size = t.size ∧ t'.slots.length = t'.bucketSize.toNat := by
  unfold extend at h
  obtain ⟨n, hn, h⟩ := bind_ok h
  obtain ⟨s, hs, h⟩ := bind_ok h
  cases h
  obtain ⟨a, b, c⟩ := moveAll_ok _ _ _ _ findable_create stores_create hs
  refine ⟨a, ?_, hn, rfl, rfl, ?_⟩
  · intro k v
    rw [← b k v, listMap_spec _ _ (fun i j k v w => findable_unique hF), hS k v]
    simp
  · rw [c, createBuckets_length]

theorem stores_congr {slots : List (Option (K × V))} {m m' : K → Option V}
    (h : Stores slots m) (e : m = m') : Stores slots m' := e ▸ h

/-- `Insert` adds or replaces one binding. -/
theorem insert_ok {hash : K → Exec Int} {t t' : Table K V} {m : K → Option V} {key : K} {v : V}
    (hF : Findable hash t.slots t.bucketSize) (hS : Stores t.slots m)
    (h : insert hash t key v = .ok t') :
    Findable hash t'.slots t'.bucketSize ∧
      Stores t'.slots (fun k => if k = key then some v else m k) := by
  unfold insert at h
  obtain ⟨t1, h1, h⟩ := bind_ok h
  have : Findable hash t1.slots t1.bucketSize ∧ Stores t1.slots m := by
    unfold growIfLoaded at h1
    split at h1
    · obtain ⟨a, b, _⟩ := extend_ok hF hS h1
      exact ⟨a, b⟩
    · cases h1
      exact ⟨hF, hS⟩
  obtain ⟨hF1, hS1⟩ := this
  obtain ⟨idx, hidx, h⟩ := bind_ok h
  obtain ⟨o, ho, h⟩ := bind_ok h
  split at h
  · obtain ⟨s, hs, h⟩ := bind_ok h
    obtain ⟨_, _, e⟩ := aset_ok hs
    cases h
    subst e
    exact ⟨findable_set hF1 hidx, stores_set hF1 hS1 hidx⟩
  · rename_i kv
    obtain ⟨_, hc, h⟩ := bind_ok h
    have hk : kv.1 = key := by simpa using cassert_ok hc
    obtain ⟨s, hs, h⟩ := bind_ok h
    obtain ⟨_, _, e⟩ := aset_ok hs
    cases h
    subst e
    simp only [hk]
    exact ⟨findable_set hF1 hidx, stores_set hF1 hS1 hidx⟩

/-- `Find` reads the stored binding. -/
theorem find_ok {hash : K → Exec Int} {t : Table K V} {m : K → Option V} {key : K} {d v : V}
    (hF : Findable hash t.slots t.bucketSize) (hS : Stores t.slots m)
    (h : find hash t key d = .ok v) : v = (m key).getD d := by
  unfold find at h
  obtain ⟨idx, hidx, h⟩ := bind_ok h
  obtain ⟨o, ho, h⟩ := bind_ok h
  obtain ⟨i0, i1, hio⟩ := aget_ok ho
  split at h
  · cases h
    cases hm : m key with
    | none => rfl
    | some w =>
      obtain ⟨j, hj⟩ := (hS key w).mp hm
      have := hF j _ hj
      simp only at this
      rw [hidx] at this
      cases this
      simp only [Int.toNat_natCast] at hio
      rw [hj] at hio
      cases hio
  · rename_i kv
    obtain ⟨_, hc, h⟩ := bind_ok h
    have hk : kv.1 = key := by simpa using cassert_ok hc
    cases h
    have : m key = some kv.2 := (hS key kv.2).mpr ⟨_, by rw [hio, ← hk]⟩
    rw [this]; rfl

theorem clear_findable {hash : K → Exec Int} {t : Table K V} :
    Findable hash (clear t).slots (clear t).bucketSize := by
  intro j kv h
  simp [clear, List.getElem?_map] at h

theorem clear_stores {t : Table K V} : Stores (clear t).slots (fun _ => none) := by
  intro k v
  constructor
  · intro h; cases h
  · rintro ⟨j, hj⟩
    simp [clear, List.getElem?_map] at hj

end Verif.HashTable
