import Verif.HashTableProgress

/-!
# Properties C01, C02, C03: the hash table
-/

namespace Verif.HashTable

set_option linter.unusedSectionVars false

variable {K V : Type} [DecidableEq K]

/-! ## Specification, independent of the implementation

A history is a list of calls.  What a `find` must answer depends only on the calls made before it. -/

/-- The value bound to `k` by the calls made so far (newest first): the value of the last `insert`
of `k` since the last `clear`. -/
def lastWrite (k : K) : List (Op K V) → Option V
  | [] => none
  | .insert k' v :: past => if k' = k then some v else lastWrite k past
  | .find _ _ :: past => lastWrite k past
  | .clear :: _ => none

/-- The answers the `find` calls of a history must give; `past` are the earlier calls, newest
first. -/
def specOutputs (past : List (Op K V)) : List (Op K V) → List V
  | [] => []
  | .find k d :: ops => (lastWrite k past).getD d :: specOutputs (.find k d :: past) ops
  | op :: ops => specOutputs (op :: past) ops

/-- The distinct keys bound by the calls made so far (newest first). -/
def liveKeys : List (Op K V) → List K
  | [] => []
  | .insert k _ :: past => if k ∈ liveKeys past then liveKeys past else k :: liveKeys past
  | .find _ _ :: past => liveKeys past
  | .clear :: _ => []

/-- At no point of the history are more than `n` distinct keys bound. -/
def AtMost (n : Nat) (past : List (Op K V)) : List (Op K V) → Prop
  | [] => (liveKeys past).length ≤ n
  | op :: ops => (liveKeys past).length ≤ n ∧ AtMost n (op :: past) ops

/-- Every `find` of the history asks for a key that is bound at that time. -/
def FindsBound (past : List (Op K V)) : List (Op K V) → Prop
  | [] => True
  | .find k d :: ops => k ∈ liveKeys past ∧ FindsBound (.find k d :: past) ops
  | op :: ops => FindsBound (op :: past) ops

/-- The keys mentioned in a history. -/
def keysOf : List (Op K V) → List K
  | [] => []
  | .insert k _ :: ops => k :: keysOf ops
  | .find k _ :: ops => k :: keysOf ops
  | .clear :: ops => keysOf ops

/-! ## Helper lemmas about histories -/

theorem mem_liveKeys {k : K} : ∀ past : List (Op K V),
    k ∈ liveKeys past ↔ ∃ v, lastWrite k past = some v
  | [] => by simp [liveKeys, lastWrite]
  | .insert k' v :: past => by
    have ih := mem_liveKeys (k := k) past
    by_cases h : k' = k
    · subst h
      simp only [liveKeys, lastWrite, if_true]
      split <;> simp_all
    · have h' : ¬ k = k' := fun e => h e.symm
      simp only [liveKeys, lastWrite, if_neg h]
      rw [← ih]
      split <;> simp_all
  | .find _ _ :: past => by
    simp only [liveKeys, lastWrite]
    exact mem_liveKeys past
  | .clear :: past => by simp [liveKeys, lastWrite]

theorem liveKeys_sub {k : K} : ∀ past : List (Op K V), k ∈ liveKeys past → k ∈ keysOf past
  | [], h => by simp [liveKeys] at h
  | .insert k' v :: past, h => by
    simp only [liveKeys] at h
    simp only [keysOf, List.mem_cons]
    split at h
    · exact Or.inr (liveKeys_sub past h)
    · rcases List.mem_cons.mp h with e | e
      · exact Or.inl e
      · exact Or.inr (liveKeys_sub past e)
  | .find _ _ :: past, h => by
    simp only [keysOf, List.mem_cons]
    exact Or.inr (liveKeys_sub past h)
  | .clear :: past, h => by simp [liveKeys] at h

/-- The state relation maintained along a history. -/
structure Rel (hash : K → Exec Int) (past : List (Op K V)) (t : Table K V) : Prop where
  findable : Findable hash t.slots t.bucketSize
  stores : Stores t.slots (fun k => lastWrite k past)

theorem new_rel {hash : K → Exec Int} {cap : Int} {t : Table K V} (h : new cap = .ok t) :
    Rel hash [] t := by
  unfold new at h
  obtain ⟨idx, _, h⟩ := bind_ok h
  obtain ⟨n, _, h⟩ := bind_ok h
  cases h
  exact ⟨findable_create, stores_create⟩

theorem step_insert (hash : K → Exec Int) (t : Table K V) (k : K) (v : V) :
    step hash t (.insert k v) = (insert hash t k v >>= fun t' => .ok (t', [])) := rfl

theorem step_find (hash : K → Exec Int) (t : Table K V) (k : K) (d : V) :
    step hash t (.find k d) = (find hash t k d >>= fun v => .ok (t, [v])) := rfl

theorem run_cons (hash : K → Exec Int) (t : Table K V) (op : Op K V) (ops : List (Op K V)) :
    run hash t (op :: ops) =
      (step hash t op >>= fun r => run hash r.1 ops >>= fun r' => .ok (r'.1, r.2 ++ r'.2)) := rfl

/-- The answer one call must give. -/
def expected (past : List (Op K V)) : Op K V → List V
  | .find k d => [(lastWrite k past).getD d]
  | _ => []

theorem step_rel {hash : K → Exec Int} {past : List (Op K V)} {t t' : Table K V} {op : Op K V}
    {o : List V} (r : Rel hash past t) (h : step hash t op = .ok (t', o)) :
    Rel hash (op :: past) t' ∧ o = expected past op := by
  cases op with
  | insert k v =>
    unfold step at h
    obtain ⟨t1, h1, h⟩ := bind_ok h
    cases h
    obtain ⟨a, b⟩ := insert_ok r.findable r.stores h1
    refine ⟨⟨a, stores_congr b ?_⟩, rfl⟩
    funext k'
    simp only [lastWrite]
    by_cases e : k = k'
    · subst e; simp
    · rw [if_neg e, if_neg (fun h => e h.symm)]
  | find k d =>
    unfold step at h
    obtain ⟨v, h1, h⟩ := bind_ok h
    cases h
    have := find_ok r.findable r.stores h1
    exact ⟨⟨r.findable, r.stores⟩, by rw [this]; rfl⟩
  | clear =>
    unfold step at h
    cases h
    exact ⟨⟨clear_findable, clear_stores⟩, rfl⟩

theorem run_rel {hash : K → Exec Int} : ∀ (ops past : List (Op K V)) (t t' : Table K V)
    (outs : List V), Rel hash past t → run hash t ops = .ok (t', outs) →
    outs = specOutputs past ops ∧ Rel hash (ops.reverse ++ past) t'
  | [], past, t, t', outs, r, h => by
    cases h; exact ⟨rfl, r⟩
  | op :: ops, past, t, t', outs, r, h => by
    unfold run at h
    obtain ⟨⟨t1, o⟩, h1, h⟩ := bind_ok h
    obtain ⟨⟨t2, os⟩, h2, h⟩ := bind_ok h
    cases h
    obtain ⟨r1, ho⟩ := step_rel r h1
    have ih := run_rel ops (op :: past) t1 _ os r1 h2
    refine ⟨?_, by simpa using ih.2⟩
    rw [ih.1, ho]
    cases op <;> rfl

/-! ## C01 -/

/-- **C01.** Whatever the key type, the hash function, the initial capacity and the sequence of
calls: if the run ends without a fault, every `Find` answered with the value of the last `Insert` of
its key since the last `Clear`, or with the default.  Collisions and growth are invisible. -/
theorem C01_hashtable_is_a_map {hash : K → Exec Int} {cap : Int} {t0 t : Table K V}
    {ops : List (Op K V)} {outs : List V}
    (hnew : new cap = .ok t0) (hrun : run hash t0 ops = .ok (t, outs)) :
    outs = specOutputs [] ops :=
  (run_rel ops [] t0 t outs (new_rel hnew) hrun).1

/-- Non-vacuity of C01: colliding keys (equal hashes), an overwrite, growth from 5 to 11 buckets, a
`Clear`. -/
example : ∃ (t0 t : Table Int Int),
    new 3 = .ok t0 ∧
    run (fun _ => .ok 7) t0
      [.insert 1 10, .insert 2 20, .find 1 0, .insert 1 11, .insert 3 30, .insert 4 40, .find 4 0,
       .find 1 0, .clear, .find 1 0] = .ok (t, [10, 40, 11, 0]) ∧
    t.bucketSize = 11 := by
  refine ⟨_, _, rfl, rfl, rfl⟩

/-! ## C02 -/

theorem insert_size {hash : K → Exec Int} {t t' : Table K V} {m : K → Option V} {key : K} {v : V}
    (hF : Findable hash t.slots t.bucketSize) (hS : Stores t.slots m)
    (h : insert hash t key v = .ok t') :
    t'.size = t.size + (if m key = none then 1 else 0) := by
  unfold insert at h
  obtain ⟨t1, h1, h⟩ := bind_ok h
  have : Findable hash t1.slots t1.bucketSize ∧ Stores t1.slots m ∧ t1.size = t.size := by
    unfold growIfLoaded at h1
    split at h1
    · obtain ⟨a, b, _, _, c, _⟩ := extend_ok hF hS h1
      exact ⟨a, b, c⟩
    · cases h1
      exact ⟨hF, hS, rfl⟩
  obtain ⟨hF1, hS1, hz⟩ := this
  obtain ⟨idx, hidx, h⟩ := bind_ok h
  obtain ⟨o, ho, h⟩ := bind_ok h
  obtain ⟨i0, i1, hio⟩ := aget_ok ho
  split at h
  · obtain ⟨s, hs, h⟩ := bind_ok h
    cases h
    have : m key = none := by
      cases hm : m key with
      | none => rfl
      | some w =>
        obtain ⟨j, hj⟩ := (hS1 key w).mp hm
        have := hF1 j _ hj
        simp only at this
        rw [hidx] at this
        cases this
        simp only [Int.toNat_natCast] at hio
        rw [hj] at hio
        cases hio
    simp [this, hz]
  · rename_i kv
    obtain ⟨_, hc, h⟩ := bind_ok h
    have hk : kv.1 = key := by simpa using cassert_ok hc
    obtain ⟨s, hs, h⟩ := bind_ok h
    cases h
    have : m key = some kv.2 := (hS1 key kv.2).mpr ⟨_, by rw [hio, ← hk]⟩
    simp [this, hz]

theorem liveKeys_insert_length {k : K} {v : V} (past : List (Op K V)) :
    (liveKeys (.insert k v :: past)).length =
      (liveKeys past).length + (if lastWrite k past = none then 1 else 0) := by
  simp only [liveKeys]
  by_cases h : k ∈ liveKeys past
  · obtain ⟨v, hv⟩ := (mem_liveKeys past).mp h
    simp [h, hv]
  · have : lastWrite k past = none := by
      cases hl : lastWrite k past with
      | none => rfl
      | some w => exact absurd ((mem_liveKeys past).mpr ⟨w, hl⟩) h
    simp [h, this]

theorem new_wf {hash : K → Exec Int} {cap : Int} (hcap : cap ≤ 2147483647) :
    ∃ t : Table K V, new cap = .ok t ∧ WF hash t ∧ t.size = 0 ∧ cap ≤ t.bucketSize ∧
      (∀ q ∈ primes, cap ≤ q → t.bucketSize ≤ q) := by
  have loop : ∀ (l pre : List Int), primes = pre ++ l → (∀ q ∈ pre, q < cap) → l ≠ [] →
      (∀ q ∈ l, q ≤ l.getLast?.getD 0) → (∀ a b c, l = a ++ b :: c → ∀ q ∈ c, b ≤ q) →
      l.getLast?.getD 0 = 2147483647 →
      ∃ idx p, nearestPrimeLoop cap l pre.length = .ok idx ∧ aget primes idx = .ok p ∧ cap ≤ p ∧
        (∀ q ∈ primes, cap ≤ q → p ≤ q) := by
    intro l
    induction l with
    | nil => intro pre _ _ h; exact absurd rfl h
    | cons p ps ih =>
      intro pre he hpre _ hle hsort hlast
      unfold nearestPrimeLoop
      by_cases hp : p ≥ cap
      · rw [if_pos hp]
        refine ⟨_, p, rfl, aget_of (by omega) ?_, hp, ?_⟩
        · rw [he]; simp
        · intro q hq hcq
          rw [he] at hq
          rcases List.mem_append.mp hq with h | h
          · have := hpre q h; omega
          · rcases List.mem_cons.mp h with h | h
            · omega
            · exact hsort [] p ps rfl q h
      · rw [if_neg hp]
        cases ps with
        | nil => simp at hlast; omega
        | cons p2 ps2 =>
          obtain ⟨idx, p', h1, h2⟩ := ih (pre ++ [p]) (by rw [he]; simp)
            (by
              intro q hq
              rcases List.mem_append.mp hq with h | h
              · exact hpre q h
              · simp at h; omega)
            (by simp)
            (by
              intro q hq
              have := hle q (List.mem_cons_of_mem _ hq)
              simpa [List.getLast?_cons_cons] using this)
            (by
              intro a b c e
              exact hsort (p :: a) b c (by rw [e]; rfl))
            (by simpa [List.getLast?_cons_cons] using hlast)
          refine ⟨idx, p', ?_, h2⟩
          rw [← h1]
          simp
  obtain ⟨idx, p, h1, h2, h3, h4⟩ := loop primes [] rfl (by simp) (by decide) (by decide) (by
    have : primes.Pairwise (· ≤ ·) := by decide
    intro a b c e q hq
    rw [e] at this
    have := (List.pairwise_append.mp this).2.1
    exact (List.pairwise_cons.mp this).1 q hq) (by decide)
  have hn : new cap = .ok (Table.mk (createBuckets p : List (Option (K × V))) p idx 0) := by
    unfold new nearestPrimeIdx
    rw [show decide (cap ≤ 2147483647) = true by simpa using hcap, cassert_true, ok_bind]
    rw [show ((0 : Int)) = (([] : List Int).length : Int) by rfl, h1, ok_bind, h2, ok_bind]
  have := primes_le h2
  refine ⟨_, hn, ⟨h2, createBuckets_length, ?_, ?_, findable_create⟩, rfl, h3, h4⟩
  · simp [occ_create]
  · simp only; omega

/-- The invariant of a run in which nothing faults. -/
structure Safe (hash : K → Exec Int) (past : List (Op K V)) (t : Table K V) : Prop where
  wf : WF hash t
  rel : Rel hash past t
  size : t.size = ((liveKeys past).length : Nat)

theorem safe_keys {hash : K → Exec Int} {past : List (Op K V)} {t : Table K V}
    (s : Safe hash past t) (hh : ∀ k ∈ keysOf past, ∃ h, hash k = .ok h) :
    ∀ kv, some kv ∈ t.slots → ∃ h, hash kv.1 = .ok h := by
  intro kv hkv
  obtain ⟨j, hj⟩ := List.mem_iff_getElem?.mp hkv
  have : lastWrite kv.1 past = some kv.2 := (s.rel.stores kv.1 kv.2).mpr ⟨j, hj⟩
  exact hh _ (liveKeys_sub past ((mem_liveKeys past).mpr ⟨_, this⟩))

theorem safe_clear {hash : K → Exec Int} {past : List (Op K V)} {t : Table K V}
    (s : Safe hash past t) : Safe hash (.clear :: past) (clear t) := by
  have hp := primes_le s.wf.prime
  refine ⟨⟨s.wf.prime, ?_, ?_, ?_, clear_findable⟩, ⟨clear_findable, clear_stores⟩, ?_⟩
  · simpa [clear] using s.wf.len
  · simp [clear, occ, List.countP_replicate]
  · simp only [clear]; omega
  · simp [clear, liveKeys]

theorem keysOf_cons_sub {op : Op K V} {past : List (Op K V)} {k : K} (h : k ∈ keysOf past) :
    k ∈ keysOf (op :: past) := by
  cases op <;> simp [keysOf, h]

theorem keysOf_head_sub {op : Op K V} {past ops : List (Op K V)} {P : K → Prop}
    (h1 : ∀ k ∈ keysOf past, P k) (h2 : ∀ k ∈ keysOf (op :: ops), P k) :
    (∀ k ∈ keysOf (op :: past), P k) ∧ (∀ k ∈ keysOf ops, P k) := by
  constructor
  · intro k hk
    cases op with
    | insert k' v =>
      rcases List.mem_cons.mp hk with e | e
      · exact h2 k (by simp [keysOf, e])
      · exact h1 k e
    | find k' v =>
      rcases List.mem_cons.mp hk with e | e
      · exact h2 k (by simp [keysOf, e])
      · exact h1 k e
    | clear => exact h1 k hk
  · intro k hk
    exact h2 k (keysOf_cons_sub hk)

theorem safe_insert {hash : K → Exec Int} {past : List (Op K V)} {t t' : Table K V} {k : K} {v : V}
    (s : Safe hash past t) (h : insert hash t k v = .ok t') (w : WF hash t') :
    Safe hash (.insert k v :: past) t' := by
  refine ⟨w, (step_rel (op := .insert k v) (o := []) s.rel
    (by rw [step_insert, h, ok_bind])).1, ?_⟩
  rw [insert_size s.rel.findable s.rel.stores h, liveKeys_insert_length, s.size]
  split <;> simp

theorem run_total_grow {hash : K → Exec Int} : ∀ (ops past : List (Op K V)) (t : Table K V),
    Safe hash past t → 5 ≤ t.bucketSize → t.bucketSize ≤ 536870923 →
    (∀ k ∈ keysOf past, ∃ h, hash k = .ok h) → (∀ k ∈ keysOf ops, ∃ h, hash k = .ok h) →
    AtMost 32767 past ops → FindsBound past ops →
    ∃ t' outs, run hash t ops = .ok (t', outs)
  | [], past, t, _, _, _, _, _, _, _ => ⟨t, [], rfl⟩
  | op :: ops, past, t, s, h5, hmax, hh, hh', hA, hB => by
    obtain ⟨hA1, hA2⟩ := hA
    obtain ⟨hk1, hk2⟩ := keysOf_head_sub hh hh'
    cases op with
    | insert k v =>
      obtain ⟨t1, e1, w1, b1, b2⟩ := insert_total (v := v) s.wf h5 hmax
        (by rw [s.size]; exact_mod_cast hA1) (safe_keys s hh) (hk1 k (by simp [keysOf]))
      obtain ⟨t', outs, h⟩ := run_total_grow ops _ t1 (safe_insert s e1 w1) b1 b2 hk1 hk2 hA2 hB
      refine ⟨t', [] ++ outs, ?_⟩
      rw [run_cons, step_insert, e1, ok_bind, ok_bind]
      simp only
      rw [h, ok_bind]
    | find k d =>
      obtain ⟨hm, hB⟩ := hB
      obtain ⟨v, hv⟩ := (mem_liveKeys past).mp hm
      obtain ⟨j, hj⟩ := (s.rel.stores k v).mp hv
      have e1 := findable_find (d := d) s.rel.findable hj
      obtain ⟨t', outs, h⟩ := run_total_grow ops _ t
        (⟨s.wf, ⟨s.rel.findable, s.rel.stores⟩, s.size⟩ : Safe hash (.find k d :: past) t)
        h5 hmax hk1 hk2 hA2 hB
      refine ⟨t', [v] ++ outs, ?_⟩
      rw [run_cons, step_find, e1, ok_bind, ok_bind]
      simp only
      rw [h, ok_bind]
    | clear =>
      obtain ⟨t', outs, h⟩ := run_total_grow ops _ (clear t) (safe_clear s) h5 hmax hk1 hk2 hA2 hB
      refine ⟨t', [] ++ outs, ?_⟩
      rw [run_cons, show step hash t .clear = .ok (clear t, []) from rfl, ok_bind]
      simp only
      rw [h, ok_bind]

theorem run_total_fixed {hash : K → Exec Int} {n : Nat} {B : Int} (h5 : 5 ≤ B)
    (hnB : 2 * (n : Int) ≤ B) (hnP : n < probeBound B.toNat) :
    ∀ (ops past : List (Op K V)) (t : Table K V),
    Safe hash past t → t.bucketSize = B →
    (∀ k ∈ keysOf past, ∃ h, hash k = .ok h) → (∀ k ∈ keysOf ops, ∃ h, hash k = .ok h) →
    AtMost n past ops →
    ∃ t' outs, run hash t ops = .ok (t', outs)
  | [], past, t, _, _, _, _, _ => ⟨t, [], rfl⟩
  | op :: ops, past, t, s, hB, hh, hh', hA => by
    obtain ⟨hA1, hA2⟩ := hA
    obtain ⟨hk1, hk2⟩ := keysOf_head_sub hh hh'
    obtain ⟨hpp, hodd⟩ := primes_prime s.wf.prime (by omega)
    have hple := primes_le s.wf.prime
    have hpn : ((t.bucketSize.toNat : Nat) : Int) = t.bucketSize := by omega
    have hsz : t.size ≤ n := by rw [s.size]; exact_mod_cast hA1
    have look : ∀ k, (∃ h, hash k = .ok h) →
        ∃ j, lookup hash t.slots t.bucketSize k = .ok j := by
      rintro k ⟨h, hh⟩
      obtain ⟨j, hj⟩ := lookup_total (slots := t.slots) hh hpp hodd (by omega) s.wf.len
        (by rw [hB]; have := s.wf.size; omega)
      rw [hpn] at hj
      exact ⟨j, hj⟩
    cases op with
    | insert k v =>
      obtain ⟨j, hj⟩ := look k (hk1 k (by simp [keysOf]))
      obtain ⟨j0, j1, o, ho, hst⟩ := lookup_stop hj
      have : ∃ t1, insert hash t k v = .ok t1 ∧ WF hash t1 ∧ t1.bucketSize = B := by
        unfold insert growIfLoaded
        rw [if_neg (by omega), ok_bind, hj, ok_bind, aget_of j0 ho, ok_bind]
        cases o with
        | none =>
          simp only
          rw [aset_of j0 j1, ok_bind]
          refine ⟨_, rfl, ⟨s.wf.prime, ?_, ?_, ?_, findable_set s.wf.findable hj⟩, hB⟩
          · simpa using s.wf.len
          · simp only [occ_set_none ho]; have := s.wf.size; push_cast; omega
          · simp only; omega
        | some kv =>
          have hke := hst kv rfl
          simp only [hke, decide_true, cassert_true, ok_bind]
          rw [aset_of j0 j1, ok_bind]
          refine ⟨_, rfl, ⟨s.wf.prime, ?_, ?_, ?_, findable_set s.wf.findable hj⟩, hB⟩
          · simpa using s.wf.len
          · simp only [occ_set_some ho]; exact s.wf.size
          · exact s.wf.load
      obtain ⟨t1, e1, w1, b1⟩ := this
      obtain ⟨t', outs, h⟩ := run_total_fixed h5 hnB hnP ops _ t1 (safe_insert s e1 w1) b1 hk1 hk2
        hA2
      refine ⟨t', [] ++ outs, ?_⟩
      rw [run_cons, step_insert, e1, ok_bind, ok_bind]
      simp only
      rw [h, ok_bind]
    | find k d =>
      obtain ⟨j, hj⟩ := look k (hk1 k (by simp [keysOf]))
      obtain ⟨j0, j1, o, ho, hst⟩ := lookup_stop hj
      have : ∃ v, find hash t k d = .ok v := by
        unfold find
        rw [hj, ok_bind, aget_of j0 ho, ok_bind]
        cases o with
        | none => exact ⟨_, rfl⟩
        | some kv =>
          have hke := hst kv rfl
          simp [hke]
      obtain ⟨v, e1⟩ := this
      obtain ⟨t', outs, h⟩ := run_total_fixed h5 hnB hnP ops _ t
        (⟨s.wf, ⟨s.rel.findable, s.rel.stores⟩, s.size⟩ : Safe hash (.find k d :: past) t)
        hB hk1 hk2 hA2
      refine ⟨t', [v] ++ outs, ?_⟩
      rw [run_cons, step_find, e1, ok_bind, ok_bind]
      simp only
      rw [h, ok_bind]
    | clear =>
      obtain ⟨t', outs, h⟩ := run_total_fixed h5 hnB hnP ops _ (clear t) (safe_clear s) hB hk1 hk2
        hA2
      refine ⟨t', [] ++ outs, ?_⟩
      rw [run_cons, show step hash t .clear = .ok (clear t, []) from rfl, ok_bind]
      simp only
      rw [h, ok_bind]

theorem new_safe {hash : K → Exec Int} {cap : Int} (hcap : cap ≤ 2147483647) :
    ∃ t : Table K V, new cap = .ok t ∧ Safe hash [] t ∧ cap ≤ t.bucketSize ∧
      (∀ q ∈ primes, cap ≤ q → t.bucketSize ≤ q) := by
  obtain ⟨t, h1, h2, h3, h4, h5⟩ := new_wf (hash := hash) (K := K) (V := V) hcap
  exact ⟨t, h1, ⟨h2, new_rel h1, by simp [h3, liveKeys]⟩, h4, h5⟩

/-- **C02, with growth.** A table of any initial capacity between 3 and 536870923 never faults on a
history that binds at most 32767 keys at a time and looks up bound keys only; every hash function is
covered, including constant ones. -/
theorem C02_insert_never_faults {hash : K → Exec Int} {cap : Int} (h3 : 3 ≤ cap)
    (hmax : cap ≤ 536870923) (ops : List (Op K V))
    (hh : ∀ k ∈ keysOf ops, ∃ h, hash k = .ok h)
    (hA : AtMost 32767 [] ops) (hB : FindsBound [] ops) :
    ∃ t0 t outs, (new cap : Exec (Table K V)) = .ok t0 ∧ run hash t0 ops = .ok (t, outs) := by
  obtain ⟨t0, h1, h2, h4, h5⟩ := new_safe (hash := hash) (K := K) (V := V) (cap := cap) (by omega)
  have hb : 5 ≤ t0.bucketSize := by
    obtain ⟨_, _, hj⟩ := aget_ok h2.wf.prime
    have : t0.bucketSize ∈ primes := List.mem_of_getElem? hj
    have all : ∀ q ∈ primes, (3 : Int) ≤ q → 5 ≤ q := by decide
    exact all _ this (by omega)
  have hm : t0.bucketSize ≤ 536870923 := h5 _ (by decide) hmax
  obtain ⟨t, outs, h⟩ := run_total_grow ops [] t0 h2 hb hm (by simp [keysOf]) hh hA hB
  exact ⟨t0, t, outs, h1, h⟩

/-- Non-vacuity: a history with growth satisfies the hypotheses. -/
example :
    let ops : List (Op Int Int) :=
      [.insert 0 1, .insert 5 2, .insert 10 3, .insert 15 4, .find 15 0, .clear, .insert 0 1]
    AtMost 32767 [] ops ∧ FindsBound [] ops ∧ ∀ k ∈ keysOf ops, ∃ h, hashInt k = .ok h := by
  refine ⟨by simp [AtMost, liveKeys], by simp [FindsBound, liveKeys], fun k _ => ⟨k, rfl⟩⟩

/-- **C02, absent keys allowed.** When the capacity was chosen larger than twice the number of keys
ever bound at a time (at most 32767), no call faults, whatever is looked up. -/
theorem C02_never_faults_below_half_capacity {hash : K → Exec Int} {cap : Int} {n : Nat}
    (h3 : 3 ≤ cap) (hmax : cap ≤ 536870923) (hn : 2 * (n : Int) < cap) (hn2 : n ≤ 32767)
    (ops : List (Op K V)) (hh : ∀ k ∈ keysOf ops, ∃ h, hash k = .ok h) (hA : AtMost n [] ops) :
    ∃ t0 t outs, (new cap : Exec (Table K V)) = .ok t0 ∧ run hash t0 ops = .ok (t, outs) := by
  obtain ⟨t0, h1, h2, h4, h5⟩ := new_safe (hash := hash) (K := K) (V := V) (cap := cap) (by omega)
  have hb : 5 ≤ t0.bucketSize := by
    obtain ⟨_, _, hj⟩ := aget_ok h2.wf.prime
    have : t0.bucketSize ∈ primes := List.mem_of_getElem? hj
    have all : ∀ q ∈ primes, (3 : Int) ≤ q → 5 ≤ q := by decide
    exact all _ this (by omega)
  have hm : t0.bucketSize ≤ 536870923 := h5 _ (by decide) hmax
  have hpb : n < probeBound t0.bucketSize.toNat := by
    rcases primes_gap h2.wf.prime with g | g
    · rw [probeBound_small (by omega)]; omega
    · have := probeBound_ge (p := t0.bucketSize.toNat) (by omega) (by omega)
      omega
  obtain ⟨t, outs, h⟩ := run_total_fixed hb (by omega) hpb ops [] t0 h2 rfl (by simp [keysOf]) hh hA
  exact ⟨t0, t, outs, h1, h⟩

/-- Non-vacuity: two bound keys, capacity 5, lookups of absent keys. -/
example :
    let ops : List (Op Int Int) := [.insert 0 1, .find 7 0, .insert 5 2, .find 10 0, .find 5 0]
    AtMost 2 [] ops ∧ ∀ k ∈ keysOf ops, ∃ h, hashInt k = .ok h := by
  refine ⟨by simp [AtMost, liveKeys], fun k _ => ⟨k, rfl⟩⟩

/-- **C02, the decoder's table** (`src/decoder.cc` 56: capacity 4 * 30000): no call faults as long as
at most 46338 states are active and the state numbers are below 67 million (so that their hash does
not overflow). -/
theorem C02_decoder_table_never_faults (ops : List (Op (Int × Int) V))
    (hk : ∀ s ∈ keysOf ops, 0 ≤ s.1 ∧ s.1 < 67000000 ∧ 0 ≤ s.2 ∧ s.2 < 67000000)
    (hA : AtMost 46338 [] ops) :
    ∃ t0 t outs, (new (30000 * 4) : Exec (Table (Int × Int) V)) = .ok t0 ∧
      run hashState t0 ops = .ok (t, outs) := by
  obtain ⟨t0, h1, h2, h4, h5⟩ :=
    new_safe (hash := hashState) (K := Int × Int) (V := V) (cap := 30000 * 4) (by omega)
  have hm : t0.bucketSize = 131101 := by
    have a := h5 131101 (by decide) (by omega)
    obtain ⟨_, _, hj⟩ := aget_ok h2.wf.prime
    have : t0.bucketSize ∈ primes := List.mem_of_getElem? hj
    have all : ∀ q ∈ primes, (120000 : Int) ≤ q → q ≤ 131101 → q = 131101 := by decide
    exact all _ this (by omega) a
  have hpb : 46338 < probeBound t0.bucketSize.toNat := by
    rw [hm]
    unfold probeBound
    rw [if_neg (by decide)]
    have : 46339 ≤ Nat.sqrt (2147483647 - Int.toNat 131101) := Nat.le_sqrt.mpr (by decide)
    have : (46339 : Nat) ≤ (Int.toNat 131101 - 1) / 2 := by decide
    omega
  obtain ⟨t, outs, h⟩ := run_total_fixed (hash := hashState) (n := 46338) (B := t0.bucketSize)
    (by omega) (by omega) hpb ops [] t0 h2 rfl (by simp [keysOf])
    (by
      intro s hs
      obtain ⟨a, b, c, d⟩ := hk s hs
      unfold hashState
      simp only
      rw [i32_of (show InI32 (19 * 31) by decide), ok_bind,
        i32_of (show InI32 (19 * 31 + s.1) by constructor <;> omega), ok_bind,
        i32_of (show InI32 ((19 * 31 + s.1) * 31) by constructor <;> omega), ok_bind,
        i32_of (show InI32 ((19 * 31 + s.1) * 31 + s.2) by constructor <;> omega)]
      exact ⟨_, rfl⟩) hA
  exact ⟨t0, t, outs, h1, h⟩

/-- Non-vacuity of the decoder-table theorem. -/
example :
    let ops : List (Op (Int × Int) Int) :=
      [.find (3, 0) (-1), .insert (3, 0) 0, .find (3, 1) (-1), .insert (3, 1) 1, .clear]
    AtMost 46338 [] ops ∧
      ∀ s ∈ keysOf ops, 0 ≤ s.1 ∧ s.1 < 67000000 ∧ 0 ≤ s.2 ∧ s.2 < 67000000 := by
  refine ⟨by simp [AtMost, liveKeys], by decide⟩

/-! ## C03 -/

/-- If every bucket that can be probed is occupied by another key, the lookup runs into signed
overflow of `i * i`. -/
theorem lookupLoop_stuck {slots : List (Option (K × V))} {p hv : Int} {key : K}
    (hp : 0 < p)
    (hfull : ∀ i : Int, (∃ kv, slots[((hv - i * i) % p).toNat]? = some (some kv) ∧ kv.1 ≠ key) ∧
      (∃ kv, slots[((hv + i * i) % p).toNat]? = some (some kv) ∧ kv.1 ≠ key)) :
    ∀ (fuel : Nat) (i : Int), 1 ≤ i → i ≤ 46341 → 46341 < i + fuel →
      lookupLoop slots p hv key fuel i = .error .ub
  | 0, i, _, h, h' => by omega
  | fuel + 1, i, h1, h2, h3 => by
    unfold lookupLoop
    rw [show decide (i < 65536) = true by simp; omega, cassert_true, ok_bind]
    have step : ∀ neg, probeIdx hv p i neg = .error .ub ∨
        ∃ a, probeIdx hv p i neg = .ok a ∧ stopAt slots a key = .ok false := by
      intro neg
      unfold probeIdx
      by_cases hs : InI32 (i * i)
      · rw [i32_of hs, ok_bind]
        by_cases hr : InI32 (if neg = true then hv + -(i * i) else hv + i * i)
        · rw [i32_of hr, ok_bind]
          right
          simp only
          rw [tmod_fix _ _ hp]
          refine ⟨_, rfl, ?_⟩
          obtain ⟨⟨a, ha1, ha2⟩, ⟨b, hb1, hb2⟩⟩ := hfull i
          cases neg with
          | true =>
            simp only [if_true]
            rw [show hv + -(i * i) = hv - i * i by omega,
              stopAt_of (Int.emod_nonneg _ (by omega)) ha1]
            simp [stopB, ha2]
          | false =>
            simp only [Bool.false_eq_true, if_false]
            rw [stopAt_of (Int.emod_nonneg _ (by omega)) hb1]
            simp [stopB, hb2]
        · left
          rw [i32_not hr]
          rfl
      · left
        rw [i32_not hs]
        rfl
    rcases step true with e | ⟨a, e1, e2⟩
    · rw [e]; rfl
    · rw [e1, ok_bind, e2, ok_bind]
      simp only [Bool.false_eq_true, if_false]
      rcases step false with e | ⟨b, e3, e4⟩
      · rw [e]; rfl
      · rw [e3, ok_bind, e4, ok_bind]
        simp only [Bool.false_eq_true, if_false]
        by_cases hi : i = 46341
        · subst hi
          exfalso
          unfold probeIdx at e1
          rw [i32_not (by decide)] at e1
          cases e1
        · exact lookupLoop_stuck hp hfull fuel (i + 1) (by omega) (by omega)
            (by push_cast at h3; omega)

/-- **C03 is false.** In a table created with capacity 3, after inserting the keys 0, 5 and 10 a lookup of the absent key 15 does not return the
default: its probe sequence visits only the three occupied buckets, until `i * i` overflows. -/
theorem C03_find_absent_key_fails :
    ∃ (t0 t : Table Int Int), new 3 = .ok t0 ∧
      run hashInt t0 [.insert 0 100, .insert 5 105, .insert 10 110] = .ok (t, []) ∧
      lastWrite (V := Int) 15 [.insert 10 110, .insert 5 105, .insert 0 100] = none ∧
      find hashInt t 15 (-1) = .error .ub := by
  refine ⟨Table.mk [none, none, none, none, none] 5 2 0,
    Table.mk [some (10, 110), some (5, 105), none, none, some (0, 100)] 5 2 3,
    rfl, rfl, by decide, ?_⟩
  unfold find
  have : lookup hashInt
      [some ((10 : Int), (110 : Int)), some (5, 105), none, none, some (0, 100)] 5 15
      = .error .ub := by
    unfold lookup hashInt
    rw [ok_bind]
    apply lookupLoop_stuck (by decide) _ _ _ (by decide) (by decide) (by decide)
    intro i
    have h : i * i % 5 = (i % 5) * (i % 5) % 5 := by rw [Int.mul_emod]
    have h0 := Int.emod_nonneg i (by decide : (5 : Int) ≠ 0)
    have h1 := Int.emod_lt_of_pos i (by decide : (0 : Int) < 5)
    generalize hr : i % 5 = r at h h0 h1
    have hc : i * i % 5 = 0 ∨ i * i % 5 = 1 ∨ i * i % 5 = 4 := by
      rw [h]
      have : r = 0 ∨ r = 1 ∨ r = 2 ∨ r = 3 ∨ r = 4 := by omega
      rcases this with e | e | e | e | e <;> subst e <;> decide
    have e1 : (Int.tmod 15 5 - i * i) % 5 = (5 - i * i % 5) % 5 := by
      rw [show Int.tmod 15 5 = 0 by decide]; omega
    have e2 : (Int.tmod 15 5 + i * i) % 5 = i * i % 5 := by
      rw [show Int.tmod 15 5 = 0 by decide]; omega
    rw [e1, e2]
    rcases hc with e | e | e <;> rw [e]
    · exact ⟨⟨(10, 110), by decide, by decide⟩, ⟨(10, 110), by decide, by decide⟩⟩
    · exact ⟨⟨(0, 100), by decide, by decide⟩, ⟨(5, 105), by decide, by decide⟩⟩
    · exact ⟨⟨(5, 105), by decide, by decide⟩, ⟨(0, 100), by decide, by decide⟩⟩
  exact congrArg (· >>= _) this

/-- **C03 is false, second witness.** A table created with capacity 2 cannot take a third key: the
"growth" from entry 0 to entry 1 of the prime table keeps two buckets, and `Insert` does not return. -/
theorem C03_third_insert_fails :
    ∃ (t0 t : Table Int Int), new 2 = .ok t0 ∧
      run hashInt t0 [.insert 0 100, .insert 1 101] = .ok (t, []) ∧
      insert hashInt t 2 102 = .error .ub := by
  refine ⟨Table.mk [none, none] 2 0 0,
    Table.mk [some (1, 101), some (0, 100)] 2 0 2, rfl, rfl, ?_⟩
  have g : growIfLoaded hashInt
      (Table.mk [some ((1 : Int), (101 : Int)), some (0, 100)] 2 0 2)
      = .ok (Table.mk [some (1, 101), some (0, 100)] 2 1 2) := rfl
  have : lookup hashInt [some ((1 : Int), (101 : Int)), some (0, 100)] 2 2 = .error .ub := by
    unfold lookup hashInt
    rw [ok_bind]
    apply lookupLoop_stuck (by decide) _ _ _ (by decide) (by decide) (by decide)
    intro i
    have two : ∀ x : Int, ∃ kv,
        [some ((1 : Int), (101 : Int)), some (0, 100)][(x % 2).toNat]? = some (some kv) ∧
          kv.1 ≠ 2 := by
      intro x
      have : x % 2 = 0 ∨ x % 2 = 1 := by omega
      rcases this with e | e <;> rw [e]
      · exact ⟨(1, 101), by decide, by decide⟩
      · exact ⟨(0, 100), by decide, by decide⟩
    exact ⟨two _, two _⟩
  unfold insert
  rw [g, ok_bind]
  exact congrArg (· >>= _) this

/-- **C03, what holds.** A key that is bound is always found, in every reachable table. -/
theorem C03_find_bound_key_partial {hash : K → Exec Int} {cap : Int} {t0 t : Table K V}
    {ops : List (Op K V)} {outs : List V} (hnew : new cap = .ok t0)
    (hrun : run hash t0 ops = .ok (t, outs)) {k : K} {v : V} (d : V)
    (hk : lastWrite k ops.reverse = some v) : find hash t k d = .ok v := by
  have r := (run_rel ops [] t0 t outs (new_rel hnew) hrun).2
  rw [List.append_nil] at r
  obtain ⟨j, hj⟩ := (r.stores k v).mp hk
  exact findable_find r.findable hj

/-- Non-vacuity: the full cluster of `C03_find_absent_key_fails` still finds its members. -/
example : ∃ (t0 t : Table Int Int), new 3 = .ok t0 ∧
    run hashInt t0 [.insert 0 100, .insert 5 105, .insert 10 110] = .ok (t, []) ∧
    lastWrite (V := Int) 10 [.insert 10 110, .insert 5 105, .insert 0 100] = some 110 :=
  ⟨_, _, rfl, rfl, by decide⟩

end Verif.HashTable
