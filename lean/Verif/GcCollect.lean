import Verif.GcLemmas

/-!
# The phases of a collection
-/

set_option linter.unusedSectionVars false
set_option linter.unusedVariables false

namespace Verif.Gc

open Verif.Pool (Addr Arena ArenaInv Used)

/-! ## Unmark -/

/-- The effect of unmarking on one node. -/
def Node.unmark (n : Node) : Node := if n.state = .freed then n else { n with state := .unmarked }

theorem unmark_facts (n : Node) : n.unmark.previous = n.previous ∧ n.unmark.olabel = n.olabel ∧
    n.unmark.nexts = n.nexts ∧ (n.unmark.state = .freed ↔ n.state = .freed) ∧
    n.unmark.state ≠ .marked := by
  unfold Node.unmark
  split
  · rename_i h; simp [h]
  · rename_i h; simp [h]

theorem unmark_unmark (n : Node) : n.unmark.unmark = n.unmark := by
  unfold Node.unmark
  split
  · rename_i h; simp [h]
  · rename_i h; simp

theorem unmarkAll_spec : ∀ (as : List Addr) (m : Mem), (∀ a ∈ as, ∃ n, m a = some n) →
    ∃ m', unmarkAll as m = .ok m' ∧
      ∀ b, m' b = (m b).map (fun n => if b ∈ as then n.unmark else n)
  | [], m, _ => ⟨m, rfl, fun b => by cases m b <;> simp⟩
  | a :: as, m, h => by
    obtain ⟨n, hn⟩ := h a (by simp)
    have hset : (if n.state = .freed then m else m.set a { n with state := .unmarked }) =
        m.set a n.unmark := by
      funext b
      unfold Node.unmark
      split
      · by_cases e : b = a
        · subst e; rw [set_same]; exact hn
        · rw [set_other _ _ e]
      · rfl
    obtain ⟨m', e1, e2⟩ := unmarkAll_spec as (m.set a n.unmark) (by
      intro b hb
      by_cases e : b = a
      · subst e; exact ⟨_, set_same ..⟩
      · rw [set_other _ _ e]; exact h b (by simp [hb]))
    refine ⟨m', ?_, ?_⟩
    · unfold unmarkAll rawNode
      rw [hn]
      simp only [ok_bind]
      rw [hset]; exact e1
    · intro b
      rw [e2 b]
      by_cases e : b = a
      · subst e
        rw [set_same, hn]
        simp only [Option.map_some, List.mem_cons, true_or, if_true]
        split
        · rw [unmark_unmark]
        · rfl
      · rw [set_other _ _ e]
        simp [e]

/-! ## Mark -/

/-- The slot holds a marked node. -/
def IsMarked (m : Mem) (a : Addr) : Prop := ∃ n, m a = some n ∧ n.state = .marked

/-- `m'` is `m` with more marks on nodes in use. -/
def Ext (m m' : Mem) : Prop :=
  ∀ b, m' b = m b ∨ ∃ n, m b = some n ∧ n.state ≠ .freed ∧ m' b = some { n with state := .marked }

theorem Ext.refl (m : Mem) : Ext m m := fun _ => Or.inl rfl

theorem Ext.trans {m1 m2 m3 : Mem} (h : Ext m1 m2) (h' : Ext m2 m3) : Ext m1 m3 := by
  intro b
  rcases h' b with e | ⟨n, e1, e2, e3⟩
  · rw [e]; exact h b
  · rcases h b with f | ⟨k, f1, f2, f3⟩
    · rw [f] at e1; exact Or.inr ⟨n, e1, e2, e3⟩
    · rw [f3] at e1
      cases e1
      exact Or.inr ⟨k, f1, f2, e3⟩

theorem Ext.marked {m m' : Mem} (h : Ext m m') {a : Addr} (ha : IsMarked m a) : IsMarked m' a := by
  obtain ⟨n, h1, h2⟩ := ha
  rcases h a with e | ⟨k, e1, e2, e3⟩
  · exact ⟨n, by rw [e]; exact h1, h2⟩
  · exact ⟨_, e3, rfl⟩

theorem Ext.back {m m' : Mem} (h : Ext m m') {a : Addr} {n' : Node} (ha : m' a = some n') :
    ∃ n, m a = some n ∧ n'.previous = n.previous ∧ n'.olabel = n.olabel ∧ n'.nexts = n.nexts ∧
      (n'.state = .freed ↔ n.state = .freed) ∧ (n'.state = n.state ∨ n'.state = .marked) := by
  rcases h a with e | ⟨k, e1, e2, e3⟩
  · rw [e] at ha; exact ⟨n', ha, rfl, rfl, rfl, Iff.rfl, Or.inl rfl⟩
  · rw [e3] at ha
    cases ha
    exact ⟨k, e1, rfl, rfl, rfl, by simp [e2], Or.inr rfl⟩

theorem Ext.fwd {m m' : Mem} (h : Ext m m') {a : Addr} {n : Node} (ha : m a = some n) :
    ∃ n', m' a = some n' ∧ n'.previous = n.previous ∧ n'.olabel = n.olabel ∧ n'.nexts = n.nexts ∧
      (n'.state = .freed ↔ n.state = .freed) := by
  rcases h a with e | ⟨k, e1, e2, e3⟩
  · exact ⟨n, by rw [e]; exact ha, rfl, rfl, rfl, Iff.rfl⟩
  · rw [ha] at e1
    cases e1
    exact ⟨_, e3, rfl, rfl, rfl, by simp [e2]⟩

theorem Reach.transfer {m m' : Mem} {a b : Addr} (h : Reach m a b)
    (hm : ∀ c n, m c = some n → ∃ n', m' c = some n' ∧ n'.previous = n.previous) :
    Reach m' a b := by
  induction h with
  | refl a => exact .refl a
  | step h1 h2 _ ih =>
    obtain ⟨n', e1, e2⟩ := hm _ _ h1
    exact .step e1 (e2 ▸ h2) ih

theorem Reach.tail {m : Mem} {a b p : Addr} {n : Node} (h : Reach m a b) (hb : m b = some n)
    (hp : n.previous = some p) : Reach m a p := by
  induction h with
  | refl a => exact .step hb hp (.refl p)
  | step h1 h2 _ ih => exact .step h1 h2 (ih hb)

/-- Number of slots without a marked node. -/
def unmarkedCount (m : Mem) : List Addr → Nat
  | [] => 0
  | a :: as => (match m a with
    | some n => if n.state = .marked then 0 else 1
    | none => 1) + unmarkedCount m as

theorem unmarkedCount_le {m : Mem} : ∀ as : List Addr, unmarkedCount m as ≤ as.length
  | [] => by simp [unmarkedCount]
  | a :: as => by
    have := unmarkedCount_le (m := m) as
    simp only [unmarkedCount, List.length_cons]
    split
    · split <;> omega
    · omega

theorem unmarkedCount_set_le {m : Mem} {a : Addr} {n : Node} (hn : n.state = .marked) :
    ∀ as : List Addr, unmarkedCount (m.set a n) as ≤ unmarkedCount m as
  | [] => by simp [unmarkedCount]
  | b :: as => by
    have ih := unmarkedCount_set_le (m := m) hn as (a := a)
    simp only [unmarkedCount]
    by_cases e : b = a
    · subst e
      rw [set_same]
      simp only [hn, if_true]
      omega
    · rw [set_other _ _ e]; omega

theorem unmarkedCount_set_lt {m : Mem} {a : Addr} {n k : Node} (hn : n.state = .marked)
    (hk : m a = some k) (hk' : k.state ≠ .marked) :
    ∀ as : List Addr, a ∈ as → unmarkedCount (m.set a n) as < unmarkedCount m as
  | b :: as, h => by
    have hle := unmarkedCount_set_le (m := m) hn as (a := a)
    simp only [unmarkedCount]
    by_cases e : b = a
    · subst e
      rw [set_same, hk]
      simp only [hn, if_true, if_neg hk']
      omega
    · rw [set_other _ _ e]
      have := unmarkedCount_set_lt hn hk hk' as (by
        rcases List.mem_cons.mp h with e' | e'
        · exact absurd e'.symm e
        · exact e')
      omega

theorem markLoop_spec (P : Addr → Prop) (slots : List Addr) (hs : ∀ a, P a → a ∈ slots) :
    ∀ (fuel : Nat) (m : Mem) (q : List Addr),
    (∀ a, P a → ∃ n, m a = some n ∧ n.state ≠ .freed ∧ ∀ p, n.previous = some p → P p) →
    (∀ a ∈ q, P a) → unmarkedCount m slots + q.length < fuel →
    ∃ m', markLoop fuel m q = .ok m' ∧ Ext m m' ∧ (∀ a ∈ q, IsMarked m' a) ∧
      ∀ a, IsMarked m' a → IsMarked m a ∨ ((∃ r ∈ q, Reach m r a) ∧
        ∀ n p, m a = some n → n.previous = some p → IsMarked m' p)
  | 0, m, q, _, _, hf => by omega
  | fuel + 1, m, [], _, _, _ => ⟨m, rfl, Ext.refl m, by simp, fun a h => Or.inl h⟩
  | fuel + 1, m, a :: q, hP, hq, hf => by
    obtain ⟨n, hn, hnf, hprev⟩ := hP a (hq a (by simp))
    unfold markLoop rawNode
    rw [hn]
    simp only [ok_bind]
    simp only [List.length_cons] at hf
    by_cases hm : n.state = .marked
    · rw [if_pos hm]
      obtain ⟨m', e1, e2, e3, e4⟩ := markLoop_spec P slots hs fuel m q hP
        (fun b hb => hq b (by simp [hb])) (by omega)
      refine ⟨m', e1, e2, ?_, ?_⟩
      · intro b hb
        rcases List.mem_cons.mp hb with e | e
        · subst e; exact e2.marked ⟨n, hn, hm⟩
        · exact e3 b e
      · intro b hb
        rcases e4 b hb with h | ⟨⟨r, hr, h1⟩, h2⟩
        · exact Or.inl h
        · exact Or.inr ⟨⟨r, by simp [hr], h1⟩, h2⟩
    · rw [if_neg hm, show decide (n.state ≠ .freed) = true by simpa using hnf, cassert_true, ok_bind]
      have hext : Ext m (m.set a { n with state := .marked }) := by
        intro b
        by_cases e : b = a
        · subst e; exact Or.inr ⟨n, hn, hnf, set_same ..⟩
        · exact Or.inl (set_other _ _ e)
      have hlt := unmarkedCount_set_lt (n := { n with state := .marked }) rfl hn hm slots
        (hs a (hq a (by simp)))
      have hlen : n.previous.toList.length ≤ 1 := by cases n.previous <;> simp
      obtain ⟨m', e1, e2, e3, e4⟩ := markLoop_spec P slots hs fuel
        (m.set a { n with state := .marked }) (n.previous.toList ++ q) (by
          intro b hb
          obtain ⟨k, h1, h2, h3⟩ := hP b hb
          obtain ⟨k', f1, f2, _, _, f3⟩ := hext.fwd h1
          exact ⟨k', f1, fun e => h2 (f3.mp e), fun p hp => h3 p (f2 ▸ hp)⟩) (by
          intro b hb
          rcases List.mem_append.mp hb with h | h
          · exact hprev b (by simpa using h)
          · exact hq b (by simp [h])) (by
          rw [List.length_append]
          omega)
      have htr : ∀ r b, Reach (m.set a { n with state := .marked }) r b → Reach m r b := by
        intro r b h
        refine h.transfer ?_
        intro c k hc
        obtain ⟨k0, f1, f2, _⟩ := hext.back hc
        exact ⟨k0, f1, f2.symm⟩
      refine ⟨m', e1, hext.trans e2, ?_, ?_⟩
      · intro b hb
        rcases List.mem_cons.mp hb with e | e
        · subst e; exact e2.marked ⟨_, set_same .., rfl⟩
        · exact e3 b (by simp [e])
      · intro b hb
        by_cases hba : b = a
        · subst hba
          refine Or.inr ⟨⟨b, by simp, .refl b⟩, ?_⟩
          intro k p hk hp
          rw [hn] at hk
          cases hk
          exact e3 p (by simp [hp])
        · rcases e4 b hb with h | ⟨⟨r, hr, h1⟩, h2⟩
          · obtain ⟨k, h1, h2⟩ := h
            rw [set_other _ _ hba] at h1
            exact Or.inl ⟨k, h1, h2⟩
          · refine Or.inr ⟨?_, ?_⟩
            · rcases List.mem_append.mp hr with h | h
              · exact ⟨a, by simp, .step hn (by simpa using h) (htr _ _ h1)⟩
              · exact ⟨r, by simp [h], htr _ _ h1⟩
            · intro k p hk hp
              exact h2 k p (by rw [set_other _ _ hba]; exact hk) hp

/-! ## Sweep -/

/-- The nodes a sweep of `as` collects. -/
def Dead (m : Mem) (as : List Addr) (b : Addr) : Prop :=
  b ∈ as ∧ ∃ n, m b = some n ∧ n.state ≠ .freed ∧ n.state ≠ .marked

/-- A freed node. -/
def freedNode : Node := ⟨.freed, none, -1, []⟩

theorem collect_spec {m : Mem} {a : Addr} {n : Node} (hn : m a = some n)
    (hnf : n.state ≠ .freed)
    (hptr : ∀ p, n.previous = some p → ∃ k, m p = some k) :
    ∃ m', collect m a n = .ok m' ∧ m' a = some freedNode ∧
      (∀ b, b ≠ a → m b = none → m' b = none) ∧
      (∀ b k, b ≠ a → m b = some k → ∃ k', m' b = some k' ∧ k'.state = k.state ∧
        k'.olabel = k.olabel ∧ k'.previous = k.previous ∧ k'.nexts.Sublist k.nexts ∧
        (k.state ≠ .freed → n.previous = some b → ∀ c, (n.olabel, c) ∉ k'.nexts) ∧
        (n.previous ≠ some b → k' = k)) := by
  unfold collect eraseFromPrevious
  cases hp : n.previous with
  | none =>
    refine ⟨_, rfl, set_same .., ?_, ?_⟩
    · intro b hb h
      rw [set_other _ _ hb, set_other _ _ hb]; exact h
    · intro b k hb h
      refine ⟨k, by rw [set_other _ _ hb, set_other _ _ hb]; exact h, rfl, rfl, rfl,
        List.Sublist.refl _, ?_, fun _ => rfl⟩
      intro _ h'; cases h'
  | some p =>
    obtain ⟨k0, hk0⟩ := hptr p hp
    by_cases e : p = a
    · subst e
      simp only [rawNode, set_same, ok_bind]
      refine ⟨_, rfl, set_same .., ?_, ?_⟩
      · intro b hb h
        rw [set_other _ _ hb]
        split
        · rw [set_other _ _ hb]; exact h
        · rw [set_other _ _ hb, set_other _ _ hb]; exact h
      · intro b k hb h
        refine ⟨k, ?_, rfl, rfl, rfl, List.Sublist.refl _, ?_, fun _ => rfl⟩
        · rw [set_other _ _ hb]
          split
          · rw [set_other _ _ hb]; exact h
          · rw [set_other _ _ hb, set_other _ _ hb]; exact h
        · intro _ h'
          cases h'
          exact absurd rfl hb
    · simp only [rawNode]
      rw [set_other _ _ e, hk0]
      simp only [ok_bind]
      refine ⟨_, rfl, set_same .., ?_, ?_⟩
      · intro b hb h
        have hbp : b ≠ p := by intro e'; subst e'; rw [h] at hk0; cases hk0
        rw [set_other _ _ hb]
        split
        · rw [set_other _ _ hb]; exact h
        · rw [set_other _ _ hbp, set_other _ _ hb]; exact h
      · intro b k hb h
        by_cases hbp : b = p
        · subst hbp
          rw [hk0] at h
          cases h
          rw [set_other _ _ hb]
          split
          · rename_i hfr
            refine ⟨k0, by rw [set_other _ _ hb]; exact hk0, rfl, rfl, rfl, List.Sublist.refl _,
              fun h' => absurd hfr h', fun h' => absurd rfl h'⟩
          · refine ⟨_, set_same .., rfl, rfl, rfl, List.filter_sublist, ?_, fun h' => absurd rfl h'⟩
            intro _ _ c hc
            have := (List.mem_filter.mp hc).2
            simp at this
        · refine ⟨k, ?_, rfl, rfl, rfl, List.Sublist.refl _, ?_, fun _ => rfl⟩
          · rw [set_other _ _ hb]
            split
            · rw [set_other _ _ hb]; exact h
            · rw [set_other _ _ hbp, set_other _ _ hb]; exact h
          · intro _ h'
            cases h'
            exact absurd rfl hbp

theorem sweep_spec : ∀ (as : List Addr) (m : Mem), (∀ a ∈ as, ∃ n, m a = some n) →
    (∀ a n p, m a = some n → n.previous = some p → ∃ k, m p = some k) →
    ∃ m' fs, sweep as m = .ok (m', fs) ∧ (∀ b, b ∈ fs ↔ Dead m as b) ∧ fs.Nodup ∧
      (∀ b, m b = none → m' b = none) ∧
      (∀ b, Dead m as b → m' b = some freedNode) ∧
      (∀ b n, m b = some n → ¬ Dead m as b → ∃ n', m' b = some n' ∧ n'.state = n.state ∧
        n'.olabel = n.olabel ∧ n'.previous = n.previous ∧ n'.nexts.Sublist n.nexts ∧
        (n.state ≠ .freed → ∀ a k, Dead m as a → m a = some k → k.previous = some b →
          ∀ c, (k.olabel, c) ∉ n'.nexts))
  | [], m, _, _ => by
    refine ⟨m, [], rfl, ?_, by simp, fun b h => h, ?_, ?_⟩
    · intro b; simp [Dead]
    · intro b h; exact absurd h.1 (by simp)
    · intro b n h _
      refine ⟨n, h, rfl, rfl, rfl, List.Sublist.refl _, ?_⟩
      intro _ a k h'; exact absurd h'.1 (by simp)
  | a :: as, m, has, hptr => by
    obtain ⟨n, hn⟩ := has a (by simp)
    unfold sweep rawNode
    rw [hn]
    simp only [ok_bind]
    by_cases hsk : n.state = .freed ∨ n.state = .marked
    · rw [if_pos hsk]
      have hdead : ∀ b, Dead m (a :: as) b ↔ Dead m as b := by
        intro b
        unfold Dead
        constructor
        · rintro ⟨h1, k, h2, h3, h4⟩
          refine ⟨?_, k, h2, h3, h4⟩
          rcases List.mem_cons.mp h1 with e | e
          · subst e
            rw [hn] at h2
            cases h2
            rcases hsk with h | h
            · exact absurd h h3
            · exact absurd h h4
          · exact e
        · rintro ⟨h1, h2⟩; exact ⟨List.mem_cons_of_mem _ h1, h2⟩
      obtain ⟨m', fs, e1, e2, e3, e4, e5, e6⟩ := sweep_spec as m (fun b hb => has b (by simp [hb])) hptr
      refine ⟨m', fs, e1, fun b => by rw [hdead]; exact e2 b, e3, e4,
        fun b hb => e5 b ((hdead b).mp hb), ?_⟩
      intro b k hk hb
      obtain ⟨n', f1, f2, f3, f4, f5, f6⟩ := e6 b k hk (fun h => hb ((hdead b).mpr h))
      exact ⟨n', f1, f2, f3, f4, f5, fun h c k' hc => f6 h c k' ((hdead c).mp hc)⟩
    · rw [if_neg hsk]
      have hnf : n.state ≠ .freed := fun h => hsk (Or.inl h)
      have hnm : n.state ≠ .marked := fun h => hsk (Or.inr h)
      obtain ⟨m1, c1, c2, c3, c4⟩ := collect_spec hn hnf (fun p hp => hptr a n p hn hp)
      rw [c1]
      simp only [ok_bind]
      have hdom : ∀ b k, m b = some k → ∃ k', m1 b = some k' := by
        intro b k hb
        by_cases e : b = a
        · subst e; exact ⟨_, c2⟩
        · obtain ⟨k', h, _⟩ := c4 b k e hb; exact ⟨k', h⟩
      have hptr1 : ∀ b k p, m1 b = some k → k.previous = some p → ∃ k', m1 p = some k' := by
        intro b k p hb hp
        by_cases e : b = a
        · subst e; rw [c2] at hb; cases hb; cases hp
        · cases hmb : m b with
          | none => rw [c3 b e hmb] at hb; cases hb
          | some k0 =>
            obtain ⟨k', h1, _, _, h2, _⟩ := c4 b k0 e hmb
            rw [h1] at hb
            cases hb
            obtain ⟨q, hq⟩ := hptr b k0 p hmb (h2 ▸ hp)
            exact hdom p q hq
      obtain ⟨m', fs, e1, e2, e3, e4, e5, e6⟩ := sweep_spec as m1 (by
        intro b hb
        obtain ⟨k, hk⟩ := has b (by simp [hb])
        exact hdom b k hk) hptr1
      have hdead : ∀ b, Dead m (a :: as) b ↔ b = a ∨ Dead m1 as b := by
        intro b
        unfold Dead
        constructor
        · rintro ⟨h1, k, h2, h3, h4⟩
          by_cases e : b = a
          · exact Or.inl e
          · obtain ⟨k', f1, f2, _⟩ := c4 b k e h2
            refine Or.inr ⟨?_, k', f1, f2 ▸ h3, f2 ▸ h4⟩
            rcases List.mem_cons.mp h1 with e' | e'
            · exact absurd e' e
            · exact e'
        · rintro (e | ⟨h1, k, h2, h3, h4⟩)
          · subst e; exact ⟨by simp, n, hn, hnf, hnm⟩
          · by_cases e : b = a
            · subst e; exact ⟨by simp, n, hn, hnf, hnm⟩
            · cases hmb : m b with
              | none => rw [c3 b e hmb] at h2; cases h2
              | some k0 =>
                obtain ⟨k', f1, f2, _⟩ := c4 b k0 e hmb
                rw [f1] at h2
                cases h2
                exact ⟨List.mem_cons_of_mem _ h1, k0, rfl, f2 ▸ h3, f2 ▸ h4⟩
      have hnd : ¬ Dead m1 as a := by
        rintro ⟨_, k, h2, h3, _⟩
        rw [c2] at h2
        cases h2
        exact h3 rfl
      have ha' : m' a = some freedNode := by
        obtain ⟨n', f1, f2, f3, f4, f5, _⟩ := e6 a freedNode c2 hnd
        rw [f1]
        have : n'.nexts = [] := List.eq_nil_of_sublist_nil f5
        cases n'
        simp only at f2 f3 f4 this
        subst f2 f3 f4 this
        rfl
      refine ⟨m', a :: fs, by rw [e1]; rfl, ?_, List.nodup_cons.mpr ⟨fun h => hnd ((e2 a).mp h), e3⟩,
        ?_, ?_, ?_⟩
      · intro b
        rw [hdead, List.mem_cons, e2]
      · intro b hb
        by_cases e : b = a
        · subst e; rw [hn] at hb; cases hb
        · exact e4 b (c3 b e hb)
      · intro b hb
        rcases (hdead b).mp hb with e | e
        · subst e; exact ha'
        · exact e5 b e
      · intro b k hk hb
        have hba : b ≠ a := fun e => hb ((hdead b).mpr (Or.inl e))
        obtain ⟨k1, g1, g2, g3, g4, g5, g6, g7⟩ := c4 b k hba hk
        obtain ⟨n', f1, f2, f3, f4, f5, f6⟩ := e6 b k1 g1 (fun h => hb ((hdead b).mpr (Or.inr h)))
        refine ⟨n', f1, f2.trans g2, f3.trans g3, f4.trans g4, f5.trans g5, ?_⟩
        intro hkf c kc hc hkc hpc d hd
        rcases (hdead c).mp hc with e | e
        · subst e
          rw [hn] at hkc
          cases hkc
          exact g6 hkf hpc d (f5.subset hd)
        · have hca : c ≠ a := fun e' => hnd (e' ▸ e)
          obtain ⟨kc', q1, q2, q3, q4, _⟩ := c4 c kc hca hkc
          refine f6 (g2 ▸ hkf) c kc' e q1 (by rw [q4]; exact hpc) d ?_
          rw [q3]; exact hd

end Verif.Gc
