import Verif.MdecMiddle
import Verif.MdecSpec
import Verif.HashTableProps
import Verif.PoolLemmas
import Verif.LmLemmas
import Verif.DecoderLemmas

/-!
# The decoder with its memory against the half-way decoder: operations
-/

set_option linter.unusedSectionVars false
set_option linter.unusedVariables false

namespace Verif.Mdec

open Verif Verif.Fst Verif.Decoder
open Verif.Pool (Addr ArenaInv)

variable {F D : Type}

/-! ## Two computations side by side -/

/-- What `x` reaches, `y` reaches too, with related results; and, under `bd`, `x` reaches an end if `y` does and the
result is within bounds. -/
structure Sim {α β : Type} (bd : Prop) (Bd : α → Prop) (R : β → α → Prop) (x : Exec β) (y : Exec α) : Prop where
  fwd : ∀ b, x = .ok b → ∃ a, y = .ok a ∧ R b a
  bwd : bd → ∀ a, y = .ok a → Bd a → ∃ b, x = .ok b

theorem Sim.bind {α β γ δ : Type} {bd : Prop} {Bd : α → Prop} {Bd' : γ → Prop} {R : β → α → Prop} {R' : δ → γ → Prop}
    {x : Exec β} {y : Exec α} {f : β → Exec δ} {g : α → Exec γ} (h : Sim bd Bd R x y)
    (hk : ∀ b a, R b a → Sim bd Bd' R' (f b) (g a)) (hm : ∀ a c, g a = .ok c → Bd' c → Bd a) :
    Sim bd Bd' R' (x >>= f) (y >>= g) where
  fwd c hc := by
    obtain ⟨b, hb, hc⟩ := bind_ok hc
    obtain ⟨a, ha, r⟩ := h.fwd b hb
    rw [ha, ok_bind]
    exact (hk b a r).fwd c hc
  bwd hbd c hc hB := by
    obtain ⟨a, ha, hc⟩ := bind_ok hc
    obtain ⟨b, hb⟩ := h.bwd hbd a ha (hm a c hc hB)
    obtain ⟨a', ha', r⟩ := h.fwd b hb
    rw [ha] at ha'
    cases ha'
    rw [hb, ok_bind]
    exact (hk b a r).bwd hbd c hc hB

theorem Sim.ok {α β : Type} {bd : Prop} {Bd : α → Prop} {R : β → α → Prop} {b : β} {a : α} (h : R b a) :
    Sim bd Bd R (.ok b) (.ok a) :=
  ⟨fun b' hb => by cases hb; exact ⟨a, rfl, h⟩, fun _ _ _ _ => ⟨b, rfl⟩⟩

theorem Sim.error {α β : Type} {bd : Prop} {Bd : α → Prop} {R : β → α → Prop} {f g : Fault} :
    Sim bd Bd R (.error f : Exec β) (.error g : Exec α) :=
  ⟨fun _ hb => (nomatch hb), fun _ _ ha _ => (nomatch ha)⟩

theorem Sim.same {α : Type} {bd : Prop} {Bd : α → Prop} (x : Exec α) : Sim bd Bd (fun b a => b = a) x x :=
  ⟨fun b hb => ⟨b, hb, rfl⟩, fun _ a ha _ => ⟨a, ha⟩⟩

theorem Sim.foldlM {α β γ : Type} {bd : Prop} {Bd : α → Prop} {R : β → α → Prop} {f : β → γ → Exec β}
    {g : α → γ → Exec α} (hm : ∀ a x a', g a x = .ok a' → Bd a' → Bd a) :
    ∀ (l : List γ), (∀ b a x, x ∈ l → R b a → Sim bd Bd R (f b x) (g a x)) → ∀ b a, R b a →
      Sim bd Bd R (l.foldlM f b) (l.foldlM g a)
  | [], _, b, a, h => Sim.ok h
  | x :: l, hs, b, a, h => by
    rw [List.foldlM_cons, List.foldlM_cons]
    refine (hs b a x (by simp) h).bind (fun b' a' h' => Sim.foldlM hm l (fun b a y hy => hs b a y (by simp [hy])) b' a' h') ?_
    intro a1
    clear h hs
    induction l generalizing a1 with
    | nil => intro c hc hB; cases (by simpa [pure, Except.pure] using hc : a1 = c); exact hB
    | cons y l ih =>
      intro c hc hB
      rw [List.foldlM_cons] at hc
      obtain ⟨a2, h2, hc⟩ := bind_ok hc
      exact hm _ _ _ h2 (ih a2 c hc hB)

/-! ## The table -/

/-- The table of the decoder as long as it has not grown. -/
structure TableOk (t : HashTable.Table State Int) : Prop where
  wf : HashTable.WF HashTable.hashState t
  size : t.bucketSize = 131101

theorem TableOk.look {t : HashTable.Table State Int} (h : TableOk t) (hs : t.size ≤ 46338) {st : State}
    (h1 : InRange st.1) (h2 : InRange st.2) :
    ∃ j, HashTable.lookup HashTable.hashState t.slots t.bucketSize st = .ok j := by
  obtain ⟨hpp, hodd⟩ := HashTable.primes_prime h.wf.prime (by rw [h.size]; omega)
  have hpn : ((t.bucketSize.toNat : Nat) : Int) = t.bucketSize := by rw [h.size]; rfl
  have hpb : 46338 < HashTable.probeBound t.bucketSize.toNat := by
    rw [h.size]
    unfold HashTable.probeBound
    rw [if_neg (by decide)]
    have : 46339 ≤ Nat.sqrt (2147483647 - Int.toNat 131101) := Nat.le_sqrt.mpr (by decide)
    have : (46339 : Nat) ≤ (Int.toNat 131101 - 1) / 2 := by decide
    omega
  obtain ⟨x, hx⟩ : ∃ x, HashTable.hashState st = .ok x := by
    obtain ⟨a, b⟩ := h1
    obtain ⟨c, d⟩ := h2
    unfold HashTable.hashState
    simp only
    rw [i32_of (show InI32 (19 * 31) by decide), ok_bind,
      i32_of (show InI32 (19 * 31 + st.1) by constructor <;> omega), ok_bind,
      i32_of (show InI32 ((19 * 31 + st.1) * 31) by constructor <;> omega), ok_bind,
      i32_of (show InI32 ((19 * 31 + st.1) * 31 + st.2) by constructor <;> omega)]
    exact ⟨_, rfl⟩
  obtain ⟨j, hj⟩ := HashTable.lookup_total (slots := t.slots) hx hpp hodd (by rw [h.size]; decide) h.wf.len (by
    have := h.wf.size
    omega)
  rw [hpn] at hj
  exact ⟨j, hj⟩

theorem TableOk.find {t : HashTable.Table State Int} (h : TableOk t) (hs : t.size ≤ 46338) {st : State}
    (h1 : InRange st.1) (h2 : InRange st.2) (d : Int) :
    ∃ v, HashTable.find HashTable.hashState t st d = .ok v := by
  obtain ⟨j, hj⟩ := h.look hs h1 h2
  obtain ⟨j0, j1, o, ho, hst⟩ := HashTable.lookup_stop hj
  unfold HashTable.find
  rw [hj, ok_bind, aget_of j0 ho, ok_bind]
  cases o with
  | none => exact ⟨_, rfl⟩
  | some kv =>
    have hke := hst kv rfl
    simp [hke]

theorem TableOk.insert {t : HashTable.Table State Int} (h : TableOk t) (hs : t.size ≤ 46338) {st : State}
    (h1 : InRange st.1) (h2 : InRange st.2) (v : Int) :
    ∃ t', HashTable.insert HashTable.hashState t st v = .ok t' ∧ TableOk t' := by
  obtain ⟨j, hj⟩ := h.look hs h1 h2
  obtain ⟨j0, j1, o, ho, hst⟩ := HashTable.lookup_stop hj
  have hz := h.size
  unfold HashTable.insert HashTable.growIfLoaded
  rw [if_neg (by omega), ok_bind, hj, ok_bind, aget_of j0 ho, ok_bind]
  cases o with
  | none =>
    simp only
    rw [aset_of j0 j1, ok_bind]
    refine ⟨_, rfl, ⟨⟨h.wf.prime, ?_, ?_, ?_, HashTable.findable_set h.wf.findable hj⟩, hz⟩⟩
    · simpa using h.wf.len
    · simp only [HashTable.occ_set_none ho]; have := h.wf.size; push_cast; omega
    · simp only; omega
  | some kv =>
    have hke := hst kv rfl
    simp only [hke, decide_true, cassert_true, ok_bind]
    rw [aset_of j0 j1, ok_bind]
    refine ⟨_, rfl, ⟨⟨h.wf.prime, ?_, ?_, ?_, HashTable.findable_set h.wf.findable hj⟩, hz⟩⟩
    · simpa using h.wf.len
    · simp only [HashTable.occ_set_some ho]; exact h.wf.size
    · exact h.wf.load

theorem TableOk.clear {t : HashTable.Table State Int} (h : TableOk t) : TableOk (HashTable.clear t) := by
  have hz := h.size
  refine ⟨⟨h.wf.prime, by simpa [HashTable.clear] using h.wf.len, ?_, ?_, HashTable.clear_findable⟩, hz⟩
  · have : HashTable.occ (HashTable.clear t).slots = 0 := by
      unfold HashTable.occ
      rw [List.countP_eq_zero]
      intro o ho
      simp only [HashTable.clear, List.mem_map] at ho
      obtain ⟨_, _, rfl⟩ := ho
      simp
    rw [this]; rfl
  · simp only [HashTable.clear]; omega

theorem tableOk_new : ∃ t, (HashTable.new (30000 * 4) : Exec (HashTable.Table State Int)) = .ok t ∧ TableOk t ∧
    t.size = 0 := by
  obtain ⟨t, h1, h2, h3, h4, h5⟩ :=
    HashTable.new_wf (hash := HashTable.hashState) (K := State) (V := Int) (cap := 30000 * 4) (by omega)
  refine ⟨t, h1, ⟨h2, ?_⟩, h3⟩
  have a := h5 131101 (by decide) (by omega)
  obtain ⟨_, _, hj⟩ := aget_ok h2.prime
  have : t.bucketSize ∈ HashTable.primes := List.mem_of_getElem? hj
  have all : ∀ q ∈ HashTable.primes, (120000 : Int) ≤ q → q ≤ 131101 → q = 131101 := by decide
  exact all _ this (by omega) a

/-! ## The cache -/

theorem cachedGetArc_ok {fst : IFst F} (hlab : ∀ s l a, fst.getArc s l = .ok (some a) → a.ilabel = l)
    {c c' : Cache F} {s l : Int} {r : Option (Arc F)} (hinv : CacheInv fst c)
    (h : cachedGetArc fst c s l = .ok (r, c')) :
    fst.getArc s l = .ok r ∧ CacheInv fst c' ∧ c'.length = c.length := by
  unfold cachedGetArc at h
  split at h
  · obtain ⟨r', h1, h⟩ := bind_ok h
    cases h
    exact ⟨h1, hinv, rfl⟩
  · obtain ⟨idx, h1, h⟩ := bind_ok h
    obtain ⟨item, h2, h⟩ := bind_ok h
    obtain ⟨hit, h3, h⟩ := bind_ok h
    obtain ⟨i0, i1, hi⟩ := aget_ok h2
    cases hit with
    | some a =>
      cases h
      unfold cacheHit at h3
      split at h3
      · rename_i hs
        split at h3
        · cases h3
        · rename_i a' ha'
          split at h3
          · rename_i hl
            cases h3
            rcases hinv item (List.mem_of_getElem? hi) with e | ⟨b, e1, e2⟩
            · rw [e] at ha'; cases ha'
            · rw [ha'] at e1
              cases e1
              rw [hs, hl] at e2
              exact ⟨e2, hinv, rfl⟩
          · cases h3
      · cases h3
    | none =>
      obtain ⟨r', h4, h⟩ := bind_ok h
      cases r' with
      | none => cases h; exact ⟨h4, hinv, rfl⟩
      | some a =>
        obtain ⟨c'', h5, h⟩ := bind_ok h
        cases h
        obtain ⟨_, _, e⟩ := aset_ok h5
        subst e
        refine ⟨h4, ?_, by simp⟩
        intro it hit
        rcases List.mem_or_eq_of_mem_set hit with h' | h'
        · exact hinv it h'
        · subst h'
          right
          exact ⟨a, rfl, by rw [hlab _ _ _ h4]; exact h4⟩

/-- The cache is one of the language model. -/
def CacheOk (e : Env F D) (c : Cache F) : Prop := ∀ lm, e.lm = some lm → CacheInv lm c ∧ c ≠ []

theorem addLm_sim {e : Env F D} (hlab : LmLabels e) {c : Cache F} (hc : CacheOk e c) {bd : Prop} {s l : Int} {t : D}
    (hs : bd → InRange s ∧ InRange l) :
    Sim bd (fun _ => True) (fun b a => b.1 = a.1 ∧ b.2.1 = a.2 ∧ CacheOk e b.2.2) (addLm e c s l t)
      (Decoder.addLm e s l t) := by
  unfold addLm Decoder.addLm
  cases hlm : e.lm with
  | none => exact Sim.ok ⟨rfl, rfl, fun lm h => by rw [hlm] at h; cases h⟩
  | some lm =>
    obtain ⟨ci, cn⟩ := hc lm hlm
    simp only
    unfold propagateLm Decoder.propagateLm
    by_cases hl : l = 0
    · simp only [hl, ne_eq, not_true_eq_false, if_false, ok_bind]
      exact Sim.ok ⟨rfl, rfl, hc⟩
    · simp only [ne_eq, hl, not_false_eq_true, if_true]
      constructor
      · intro b hb
        obtain ⟨⟨s', w, c'⟩, h1, hb⟩ := bind_ok hb
        cases hb
        obtain ⟨⟨r, c''⟩, h2, h1⟩ := bind_ok h1
        obtain ⟨g1, g2, g3⟩ := cachedGetArc_ok (hlab lm hlm) ci h2
        have hok : CacheOk e c'' := by
          intro lm' h'
          rw [hlm] at h'
          cases h'
          refine ⟨g2, ?_⟩
          intro e0
          rw [e0] at g3
          exact cn (List.length_eq_zero_iff.mp g3.symm)
        rw [g1, ok_bind]
        cases r with
        | none => cases h1; exact ⟨_, rfl, rfl, rfl, hok⟩
        | some a => cases h1; exact ⟨_, rfl, rfl, rfl, hok⟩
      · intro hbd a ha _
        obtain ⟨⟨s1, s2⟩, l1, l2⟩ := hs hbd
        obtain ⟨⟨s', w⟩, h1, ha⟩ := bind_ok ha
        obtain ⟨r, h2, h1⟩ := bind_ok h1
        rcases cachedGetArc_spec (hlab lm hlm) ci cn (s := s) (l := l) (by omega) (by constructor <;> omega)
          (by constructor <;> omega) (by constructor <;> omega) with ⟨r', c', g1, g2, _⟩ | ⟨f, g1, g2⟩
        · rw [g1, ok_bind]
          cases r' with
          | none => exact ⟨_, rfl⟩
          | some a => exact ⟨_, rfl⟩
        · rw [h2] at g2; cases g2

/-! ## The relation -/

/-- Pointers against the tokens they point to. -/
def Points (m : Mem F) (as : List Addr) (ts : List (Tok F)) : Prop :=
  List.Forall₂ (fun a t => m.pool.cells a = some t) as ts

/-- The decoder with its memory `m` stands for the half-way decoder `h`; `ps` and `ts` are the tokens of the
previous frame that are still alive. -/
structure Rel (e : Env F D) (bd : Prop) (ps : List Addr) (ts : List (Tok F)) (m : Mem F) (h : Mid.Half F) : Prop where
  live : ∃ live, ArenaInv blockSize m.pool.arena live ∧ (live.length : Int) = h.live ∧
    (∀ a, a ∈ m.toks ∨ a ∈ ps → a ∈ live)
  nodup : (m.toks ++ ps).Nodup
  toks : Points m m.toks h.toks
  prevs : Points m ps ts
  findable : HashTable.Findable HashTable.hashState m.table.slots m.table.bucketSize
  stores : HashTable.Stores m.table.slots (fun st => (h.idx.lookup st).map Int.ofNat)
  size : m.table.size = h.idx.length
  strong : bd → h.idx.length ≤ 46338 → TableOk m.table
  words : m.words = h.words
  cache : CacheOk e m.cache
  frames : m.frames = h.frames
  eos : m.eos = h.eos
  small : bd → Small e
  states : bd → ∀ t, t ∈ h.toks ∨ t ∈ ts → InRange t.state.1 ∧ InRange t.state.2

/-- Within bounds. -/
def Fits (h : Mid.Half F) : Prop := h.idx.length ≤ 46338

theorem points_get {m : Mem F} : ∀ {as : List Addr} {ts : List (Tok F)}, Points m as ts → ∀ {i : Nat} {t : Tok F},
    ts[i]? = some t → ∃ a, as[i]? = some a ∧ m.pool.cells a = some t
  | _, _, .nil, i, t, h => by simp at h
  | _, _, .cons (a := a) h0 hs, 0, t, h => by
    simp only [List.getElem?_cons_zero, Option.some.injEq] at h
    exact ⟨a, rfl, h ▸ h0⟩
  | _, _, .cons h0 hs, i + 1, t, h => by
    simp only [List.getElem?_cons_succ] at h ⊢
    exact points_get hs h

theorem points_get' {m : Mem F} : ∀ {as : List Addr} {ts : List (Tok F)}, Points m as ts → ∀ {i : Nat} {a : Addr},
    as[i]? = some a → ∃ t, ts[i]? = some t ∧ m.pool.cells a = some t
  | _, _, .nil, i, t, h => by simp at h
  | _, _, .cons (b := b) h0 hs, 0, a, h => by
    simp only [List.getElem?_cons_zero, Option.some.injEq] at h
    exact ⟨b, rfl, h ▸ h0⟩
  | _, _, .cons h0 hs, i + 1, t, h => by
    simp only [List.getElem?_cons_succ] at h ⊢
    exact points_get' hs h

theorem points_keep {m m' : Mem F} {as : List Addr} {ts : List (Tok F)} (h : Points m as ts)
    (hk : ∀ a ∈ as, m'.pool.cells a = m.pool.cells a) : Points m' as ts := by
  induction h with
  | nil => exact .nil
  | cons h0 _ ih =>
    exact .cons (by rw [hk _ (by simp)]; exact h0) (ih fun a ha => hk a (by simp [ha]))

theorem points_set {m : Mem F} {a : Addr} {t : Tok F} (ha : m.pool.cells a = some t) : ∀ {as : List Addr}
    {ts : List (Tok F)} (i : Nat), Points m as ts → Points m (as.set i a) (ts.set i t)
  | _, _, _, .nil => .nil
  | _, _, 0, .cons h0 hs => .cons ha hs
  | _, _, i + 1, .cons h0 hs => .cons h0 (points_set ha i hs)

theorem readAll_points {m : Mem F} : ∀ {as : List Addr} {ts : List (Tok F)}, Points m as ts → m.readAll as = .ok ts
  | _, _, .nil => rfl
  | _, _, .cons (l₁ := as) (l₂ := ts) h0 hs => by
    unfold Mem.readAll Mem.tok
    rw [h0]
    simp only [ok_bind]
    rw [readAll_points hs]
    rfl

theorem tok_of {m : Mem F} {a : Addr} {t : Tok F} (h : m.pool.cells a = some t) : m.tok a = .ok t := by
  unfold Mem.tok; rw [h]

/-- Allocation of a token. -/
theorem alloc_tok {p : Pool.Pool (Tok F)} {live : List Addr} (h : ArenaInv blockSize p.arena live) (t : Tok F) :
    ∃ p' a, Pool.alloc blockSize p t = .ok (p', a) ∧ a ∉ live ∧ ArenaInv blockSize p'.arena (a :: live) ∧
      p'.cells = (fun b => if b = a then some t else p.cells b) := by
  obtain ⟨ar, a, h1, h2, h3, _⟩ := Pool.take_spec (by decide : 0 < blockSize) h
  refine ⟨⟨ar, fun b => if b = a then some t else p.cells b⟩, a, ?_, h2, h3, rfl⟩
  unfold Pool.alloc
  rw [h1, ok_bind]

theorem insertTok_mono {e : Env F D} {h : Mid.Half F} {st : State} {label : Int} {o : Option Addr} {cost : F}
    {r : Bool × Mid.Half F} (hr : Mid.insertTok e h st label o cost = .ok r) : h.idx.length ≤ r.2.idx.length := by
  unfold Mid.insertTok at hr
  obtain ⟨⟨w, x⟩, _, hr⟩ := bind_ok hr
  simp only at hr
  split at hr
  · cases hr; simp
  · split at hr
    · cases hr
    · split at hr <;> cases hr <;> exact Nat.le_refl _

theorem insertTok_sim {e : Env F D} {bd : Prop} {ps : List Addr} {ts : List (Tok F)} {m : Mem F} {h : Mid.Half F}
    (r : Rel e bd ps ts m h) (st : State) (label : Int) (o : Option Addr) (cost : F)
    (hst : bd → InRange st.1 ∧ InRange st.2) :
    Sim bd (fun a => Fits a.2) (fun b a => b.1 = a.1 ∧ Rel e bd ps ts b.2 a.2) (insertTok e m st label o cost)
      (Mid.insertTok e h st label o cost) := by
  obtain ⟨live, l1, l2, l3⟩ := r.live
  have hnd := List.nodup_append.mp r.nodup
  constructor
  · intro b hb
    unfold insertTok at hb
    obtain ⟨i, hi, hb⟩ := bind_ok hb
    obtain ⟨⟨w, x⟩, hw, hb⟩ := bind_ok hb
    have hiv := HashTable.find_ok r.findable r.stores hi
    unfold Mid.insertTok
    rw [← r.words, hw, ok_bind]
    simp only at hb ⊢
    obtain ⟨p', a, p1, p2, p3, p4⟩ := alloc_tok l1 (⟨st, cost, x⟩ : Tok F)
    have hold : ∀ b, b ∈ m.toks ∨ b ∈ ps → b ≠ a := fun b hb e => p2 (e ▸ l3 b hb)
    cases hlk : h.idx.lookup st with
    | none =>
      rw [hlk] at hiv
      simp only [Option.map_none, Option.getD_none] at hiv
      rw [if_pos hiv, p1, ok_bind] at hb
      obtain ⟨t', ht, hb⟩ := bind_ok hb
      cases hb
      refine ⟨_, rfl, rfl, ?_⟩
      obtain ⟨f1, f2⟩ := HashTable.insert_ok r.findable r.stores ht
      have hz := HashTable.insert_size r.findable r.stores ht
      constructor
      · refine ⟨a :: live, p3, by simp only [List.length_cons]; push_cast; omega, ?_⟩
        intro b hb
        simp only [List.mem_append, List.mem_singleton] at hb
        rcases hb with (hb | hb) | hb
        · exact List.mem_cons_of_mem _ (l3 b (.inl hb))
        · rw [hb]; exact List.mem_cons_self
        · exact List.mem_cons_of_mem _ (l3 b (.inr hb))
      · rw [List.append_assoc, List.nodup_append]
        refine ⟨hnd.1, ?_, ?_⟩
        · rw [List.singleton_append, List.nodup_cons]
          exact ⟨fun hc => hold a (.inr hc) rfl, hnd.2.1⟩
        · intro b hb c hc
          rcases List.mem_append.mp hc with hc | hc
          · rw [List.mem_singleton.mp hc]; exact hold b (.inl hb)
          · exact hnd.2.2 b hb c hc
      · refine List.rel_append (points_keep r.toks ?_) (.cons ?_ .nil)
        · intro b hb
          simp only [p4, if_neg (hold b (.inl hb))]
        · simp only [p4, if_true]
      · exact points_keep r.prevs (fun b hb => by simp only [p4, if_neg (hold b (.inr hb))])
      · exact f1
      · refine HashTable.stores_congr f2 ?_
        funext k
        simp only [List.lookup_cons]
        have hlen : m.toks.length = h.toks.length := r.toks.length_eq
        by_cases hk : k = st
        · subst hk
          simp [hlen]
        · have : (k == st) = false := by simpa using hk
          rw [if_neg hk, this]
      · simp only [hlk, Option.map_none, if_true] at hz
        simp only [List.length_cons]
        rw [hz, r.size]; push_cast; rfl
      · intro hbd hl
        simp only [List.length_cons] at hl
        have hT := r.strong hbd (by omega)
        obtain ⟨t'', e1, e2⟩ := hT.insert (by rw [r.size]; omega) (hst hbd).1 (hst hbd).2 m.toks.length
        rw [e1] at ht
        cases ht
        exact e2
      · rfl
      · exact r.cache
      · exact r.frames
      · exact r.eos
      · exact r.small
      · intro hbd t ht
        simp only [List.mem_append, List.mem_singleton] at ht
        rcases ht with (ht | ht) | ht
        · exact r.states hbd t (.inl ht)
        · rw [ht]; exact hst hbd
        · exact r.states hbd t (.inr ht)
    | some n =>
      rw [hlk] at hiv
      simp only [Option.map_some, Option.getD_some] at hiv
      subst hiv
      rw [if_neg (by simp only [Int.ofNat_eq_natCast]; omega)] at hb
      obtain ⟨a0, h0, hb⟩ := bind_ok hb
      obtain ⟨i0, i1, hg⟩ := aget_ok h0
      simp only [Int.ofNat_eq_natCast, Int.toNat_natCast] at hg i0 i1
      obtain ⟨t0, ht0, hc0⟩ := points_get' r.toks hg
      simp only [ht0]
      rw [tok_of hc0, ok_bind] at hb
      split at hb
      · rename_i hlt
        rw [p1, ok_bind] at hb
        obtain ⟨toks', hs, hb⟩ := bind_ok hb
        cases hb
        rw [if_pos hlt]
        refine ⟨_, rfl, rfl, ?_⟩
        obtain ⟨_, _, hse⟩ := aset_ok hs
        simp only [Int.ofNat_eq_natCast, Int.toNat_natCast] at hse
        subst hse
        have hset : ∀ b, b ∈ m.toks.set n a → b = a ∨ b ∈ m.toks := by
          intro b hb
          exact (List.mem_or_eq_of_mem_set hb).symm
        constructor
        · refine ⟨a :: live, p3, by simp only [List.length_cons]; push_cast; omega, ?_⟩
          intro b hb
          rcases hb with hb | hb
          · rcases hset b hb with e | e
            · rw [e]; exact List.mem_cons_self
            · exact List.mem_cons_of_mem _ (l3 b (.inl e))
          · exact List.mem_cons_of_mem _ (l3 b (.inr hb))
        · rw [List.nodup_append]
          refine ⟨?_, hnd.2.1, ?_⟩
          · exact List.Nodup.set hnd.1 (fun hc => hold a (.inl hc) rfl)
          · intro b hb c hc
            rcases hset b hb with e | e
            · rw [e]; exact (hold c (.inr hc)).symm
            · exact hnd.2.2 b e c hc
        · refine points_set ?_ n (points_keep r.toks fun b hb => ?_)
          · simp only [p4, if_true]
          · simp only [p4, if_neg (hold b (.inl hb))]
        · exact points_keep r.prevs (fun b hb => by simp only [p4, if_neg (hold b (.inr hb))])
        · exact r.findable
        · exact r.stores
        · exact r.size
        · exact r.strong
        · rfl
        · exact r.cache
        · exact r.frames
        · exact r.eos
        · exact r.small
        · intro hbd t ht
          rcases ht with ht | ht
          · rcases List.mem_or_eq_of_mem_set ht with ht | ht
            · exact r.states hbd t (.inl ht)
            · rw [ht]; exact hst hbd
          · exact r.states hbd t (.inr ht)
      · rename_i hlt
        cases hb
        rw [if_neg hlt]
        refine ⟨_, rfl, rfl, ?_⟩
        exact ⟨r.live, r.nodup, r.toks, r.prevs, r.findable, r.stores, r.size, r.strong, rfl, r.cache, r.frames,
          r.eos, r.small, r.states⟩
  · intro hbd c hc hB
    have hl := insertTok_mono hc
    have hT := r.strong hbd (by unfold Fits at hB; omega)
    have hsz : m.table.size ≤ 46338 := by rw [r.size]; unfold Fits at hB; omega
    obtain ⟨s1, s2⟩ := hst hbd
    obtain ⟨i, hi⟩ := hT.find hsz s1 s2 (-1)
    have hiv := HashTable.find_ok r.findable r.stores hi
    unfold Mid.insertTok at hc
    obtain ⟨⟨w, x⟩, hw, hc⟩ := bind_ok hc
    unfold insertTok
    rw [hi, ok_bind, r.words, hw, ok_bind]
    simp only at hc ⊢
    obtain ⟨p', a, p1, p2, p3, p4⟩ := alloc_tok l1 (⟨st, cost, x⟩ : Tok F)
    cases hlk : h.idx.lookup st with
    | none =>
      rw [hlk] at hiv
      simp only [Option.map_none, Option.getD_none] at hiv
      obtain ⟨t', ht, _⟩ := hT.insert hsz s1 s2 m.toks.length
      rw [if_pos hiv, p1, ok_bind, ht]
      exact ⟨_, rfl⟩
    | some n =>
      rw [hlk] at hiv hc
      simp only [Option.map_some, Option.getD_some] at hiv hc
      subst hiv
      rw [if_neg (by simp only [Int.ofNat_eq_natCast]; omega)]
      split at hc
      · cases hc
      · rename_i t0 ht0
        obtain ⟨a0, ha0, hc0⟩ := points_get r.toks ht0
        have hn : n < m.toks.length := (List.getElem?_eq_some_iff.mp ha0).1
        simp only [Int.ofNat_eq_natCast]
        rw [Verif.aget_nat ha0, ok_bind, tok_of hc0, ok_bind]
        split
        · rw [p1, ok_bind, aset_nat hn]
          exact ⟨_, rfl⟩
        · exact ⟨_, rfl⟩

end Verif.Mdec
