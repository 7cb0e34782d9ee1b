import Verif.GcSpec
import Verif.PoolLemmas
import Mathlib.Data.List.Nodup

/-!
# Invariant of the garbage-collected pool and helper lemmas
-/

set_option linter.unusedSectionVars false
set_option linter.unusedVariables false

namespace Verif.Gc

open Verif.Pool (Addr Arena ArenaInv Used)

/-- A finite chain of nodes in use, spelling a list of words. -/
inductive Hist (m : Mem) : Option Addr → List Int → Prop where
  | nil : Hist m none []
  | cons {a : Addr} {n : Node} {ws : List Int} : m a = some n → n.state ≠ .freed →
      Hist m n.previous ws → Hist m (some a) (n.olabel :: ws)

theorem set_same (m : Mem) (a : Addr) (n : Node) : (m.set a n) a = some n := by simp [Mem.set]

theorem set_other (m : Mem) {a b : Addr} (n : Node) (h : b ≠ a) : (m.set a n) b = m b := by
  simp [Mem.set, h]

theorem Hist.det {m : Mem} {o : Option Addr} {ws : List Int} (h : Hist m o ws) :
    ∀ {ws' : List Int}, Hist m o ws' → ws = ws' := by
  induction h with
  | nil => intro ws' h'; cases h'; rfl
  | cons h1 h2 _ ih =>
    intro ws' h'
    cases h' with
    | cons h1' h2' h3' =>
      rw [h1] at h1'
      cases h1'
      rw [ih h3']

/-- The nodes the client can still reach, and what is known about the pool. -/
structure GInv (B : Nat) (ar : Arena) (m : Mem) (live : List Addr) (Good : Addr → Prop) : Prop where
  arena : ArenaInv B ar live
  liveMem : ∀ a ∈ live, ∃ n, m a = some n ∧ n.state ≠ .freed
  freeMem : ∀ a ∈ ar.free, ∃ n, m a = some n ∧ n.state = .freed
  rawMem : ∀ a, ¬ Used B ar a → m a = none
  ptr : ∀ a n p, m a = some n → n.previous = some p → ∃ k, m p = some k
  good : ∀ a, Good a → ∃ n ws, m a = some n ∧ n.state ≠ .freed ∧ Hist m (some a) ws ∧
    (∀ p, n.previous = some p → Good p) ∧
    (∀ l b, (l, b) ∈ n.nexts → Good b ∧ ∃ k, m b = some k ∧ k.olabel = l ∧ k.previous = some a)
  keys : ∀ a n, m a = some n → (n.nexts.map Prod.fst).Nodup

theorem GInv.live_iff {B : Nat} {g : GPool} {live : List Addr} {Good : Addr → Prop}
    (i : GInv B g.arena g.mem live Good) (a : Addr) :
    a ∈ live ↔ ∃ n, g.mem a = some n ∧ n.state ≠ .freed := by
  constructor
  · exact i.liveMem a
  · rintro ⟨n, h1, h2⟩
    have hu : Used B g.arena a := by
      by_contra hu
      rw [i.rawMem a hu] at h1
      cases h1
    rcases (i.arena.cover a).mpr hu with h | h
    · exact h
    · obtain ⟨k, h3, h4⟩ := i.freeMem a h
      rw [h1] at h3
      cases h3
      exact absurd h4 h2

theorem init_inv {B : Nat} : GInv B init.arena init.mem [] (fun _ => False) := by
  refine ⟨Pool.arena_init_inv, by simp, by simp [init, Arena.init], fun _ _ => rfl, ?_, by simp, ?_⟩
  · intro a n p h; cases h
  · intro a n h; cases h

/-- Chains survive changes that keep states other than freed, labels and previous pointers. -/
theorem Hist.transfer {m m' : Mem} {o : Option Addr} {ws : List Int} (h : Hist m o ws)
    (hm : ∀ a n, m a = some n → n.state ≠ .freed → ∃ n', m' a = some n' ∧ n'.state ≠ .freed ∧
      n'.olabel = n.olabel ∧ n'.previous = n.previous) : Hist m' o ws := by
  induction h with
  | nil => exact .nil
  | cons h1 h2 _ ih =>
    obtain ⟨n', e1, e2, e3, e4⟩ := hm _ _ h1 h2
    rw [← e3]
    exact .cons e1 e2 (e4 ▸ ih)

theorem lookup_mem {l : Int} {b : Addr} : ∀ {xs : List (Int × Addr)}, xs.lookup l = some b →
    (l, b) ∈ xs
  | [], h => by cases h
  | (k, c) :: xs, h => by
    rw [List.lookup_cons] at h
    split at h
    · rename_i he
      cases h
      rw [beq_iff_eq] at he
      subst he
      exact List.mem_cons_self ..
    · exact List.mem_cons_of_mem _ (lookup_mem h)

theorem keys_filter {xs : List (Int × Addr)} {l : Int} (h : (xs.map Prod.fst).Nodup) :
    ((xs.filter (fun e => e.1 ≠ l)).map Prod.fst).Nodup :=
  (List.filter_sublist.map _).nodup h

/-- `GCPool::Alloc` under the invariant. -/
theorem alloc_spec {B : Nat} (hB : 0 < B) {g : GPool} {live : List Addr} {Good : Addr → Prop}
    (i : GInv B g.arena g.mem live Good) {prev : Option Addr} (label : Int)
    (hp : ∀ p, prev = some p → Good p) :
    ∃ g' a, alloc B g prev label = .ok (g', a) ∧ a ∉ live ∧
      g'.mem = g.mem.set a ⟨.using, prev, label, []⟩ ∧
      GInv B g'.arena g'.mem (a :: live) (fun b => Good b ∨ b = a) ∧
      (∀ b k, g.mem b = some k → k.state ≠ .freed → b ≠ a) := by
  obtain ⟨ar', a, e1, e2, e3, _, _, e4⟩ := Pool.take_spec hB i.arena
  have hne : ∀ b k, g.mem b = some k → k.state ≠ .freed → b ≠ a := by
    intro b k hb hk e
    subst e
    exact e2 ((i.live_iff b).mpr ⟨k, hb, hk⟩)
  have hgood : ∀ b, Good b → b ≠ a := by
    intro b hb
    obtain ⟨n, ws, h1, h2, _⟩ := i.good b hb
    exact hne b n h1 h2
  have htr : ∀ o ws, Hist g.mem o ws → Hist (g.mem.set a ⟨.using, prev, label, []⟩) o ws := by
    intro o ws h
    refine h.transfer ?_
    intro b n hb hn
    exact ⟨n, by rw [set_other _ _ (hne b n hb hn)]; exact hb, hn, rfl, rfl⟩
  refine ⟨⟨ar', g.mem.set a ⟨.using, prev, label, []⟩⟩, a, by unfold alloc; rw [e1]; rfl, e2, rfl, ?_, hne⟩
  have hfree' : ∀ b ∈ ar'.free, b ∈ g.arena.free ∧ b ≠ a := by
    intro b hb
    have hn : b ≠ a := by
      intro e
      subst e
      exact e3.disjoint b hb (List.mem_cons_self ..)
    refine ⟨?_, hn⟩
    rcases e4 with ⟨_, _, _, h4, _⟩ | ⟨_, h4, _⟩
    · rw [h4]; exact List.mem_cons_of_mem _ hb
    · rw [h4] at hb; cases hb
  have hused : ∀ b, ¬ Used B ar' b → ¬ Used B g.arena b ∧ b ≠ a := by
    intro b hb
    constructor
    · intro hu
      apply hb
      rcases (i.arena.cover b).mpr hu with h | h
      · exact (e3.cover b).mp (Or.inl (List.mem_cons_of_mem _ h))
      · rcases e4 with ⟨_, _, _, h4, _⟩ | ⟨h4, _⟩
        · rw [h4] at h
          rcases List.mem_cons.mp h with e | e
          · exact (e3.cover b).mp (Or.inl (by rw [e]; exact List.mem_cons_self ..))
          · exact (e3.cover b).mp (Or.inr e)
        · rw [h4] at h; cases h
    · intro e
      subst e
      exact hb ((e3.cover b).mp (Or.inl (List.mem_cons_self ..)))
  show GInv B ar' (g.mem.set a ⟨.using, prev, label, []⟩) (a :: live) (fun b => Good b ∨ b = a)
  refine ⟨e3, ?_, ?_, ?_, ?_, ?_, ?_⟩
  · intro b hb
    rcases List.mem_cons.mp hb with e | e
    · subst e
      exact ⟨_, set_same .., by simp⟩
    · obtain ⟨n, h1, h2⟩ := i.liveMem b e
      exact ⟨n, by rw [set_other _ _ (hne b n h1 h2)]; exact h1, h2⟩
  · intro b hb
    obtain ⟨h1, h2⟩ := hfree' b hb
    obtain ⟨n, h3, h4⟩ := i.freeMem b h1
    exact ⟨n, by rw [set_other _ _ h2]; exact h3, h4⟩
  · intro b hb
    obtain ⟨h1, h2⟩ := hused b hb
    rw [set_other _ _ h2]
    exact i.rawMem b h1
  · intro b n p hb hpr
    have hex : ∃ k, g.mem p = some k := by
      by_cases e : b = a
      · subst e
        rw [set_same] at hb
        cases hb
        simp only at hpr
        obtain ⟨k, _, hk, _⟩ := i.good p (hp p hpr)
        exact ⟨k, hk⟩
      · rw [set_other _ _ e] at hb
        exact i.ptr b n p hb hpr
    by_cases e : p = a
    · subst e; exact ⟨_, set_same ..⟩
    · rw [set_other _ _ e]; exact hex
  · rintro b (hb | rfl)
    · obtain ⟨n, ws, h1, h2, h3, h4, h5⟩ := i.good b hb
      refine ⟨n, ws, by rw [set_other _ _ (hgood b hb)]; exact h1, h2, htr _ _ h3,
        fun p hp => Or.inl (h4 p hp), ?_⟩
      intro l c hc
      obtain ⟨h6, k, h7, h8⟩ := h5 l c hc
      exact ⟨Or.inl h6, k, by rw [set_other _ _ (hgood c h6)]; exact h7, h8⟩
    · have : ∃ ws, Hist g.mem prev ws := by
        cases prev with
        | none => exact ⟨[], .nil⟩
        | some p =>
          obtain ⟨n, ws, _, _, h, _⟩ := i.good p (hp p rfl)
          exact ⟨ws, h⟩
      obtain ⟨ws, hws⟩ := this
      refine ⟨_, label :: ws, set_same .., by simp, ?_, fun p hpp => Or.inl (hp p hpp), by simp⟩
      exact Hist.cons (n := ⟨.using, prev, label, []⟩) (set_same ..) (by simp) (htr _ _ hws)
  · intro b n hb
    by_cases e : b = a
    · subst e
      rw [set_same] at hb
      cases hb
      simp
    · rw [set_other _ _ e] at hb
      exact i.keys b n hb

/-- The previous node of a node in a finite chain differs from it. -/
theorem Hist.acyclic {m : Mem} {a : Addr} {ws : List Int} {n : Node} (h : Hist m (some a) ws)
    (hn : m a = some n) : n.previous ≠ some a := by
  intro hp
  cases h with
  | cons h1 h2 h3 =>
    rename_i k us
    rw [hn] at h1
    cases h1
    rw [hp] at h3
    have h4 : Hist m (some a) (n.olabel :: us) := .cons hn h2 (hp ▸ h3)
    have := h3.det h4
    have : us.length = (n.olabel :: us).length := by rw [← this]
    simp at this

/-- Adding an entry to `nexts_` for a new child. -/
theorem setNext_spec {B : Nat} {g : GPool} {live : List Addr} {Good : Addr → Prop}
    (i : GInv B g.arena g.mem live Good) {p a : Addr} {k : Node} (hp : Good p) (ha : Good a)
    (hk : g.mem a = some k) (hkp : k.previous = some p) :
    ∃ m, setNext g.mem p k.olabel a = .ok m ∧ GInv B g.arena m live Good ∧
      (∀ o ws, Hist g.mem o ws → Hist m o ws) := by
  obtain ⟨n, ws, h1, h2, h3, h4, h5⟩ := i.good p hp
  have hl : liveNode g.mem p = .ok n := by
    unfold liveNode; rw [h1]; simp [h2]
  have hm : ∀ b c, g.mem b = some c → ∃ c', (g.mem.set p (n.addNext k.olabel a)) b = some c' ∧ c'.state = c.state ∧
      c'.olabel = c.olabel ∧ c'.previous = c.previous := by
    intro b c hc
    by_cases e : b = p
    · subst e
      rw [h1] at hc
      cases hc
      exact ⟨_, set_same .., rfl, rfl, rfl⟩
    · exact ⟨c, by rw [set_other _ _ e]; exact hc, rfl, rfl, rfl⟩
  have htr : ∀ o ws, Hist g.mem o ws → Hist (g.mem.set p (n.addNext k.olabel a)) o ws := by
    intro o ws h
    refine h.transfer ?_
    intro b c hb hc
    obtain ⟨c', e1, e2, e3, e4⟩ := hm b c hb
    exact ⟨c', e1, e2 ▸ hc, e3, e4⟩
  have hback : ∀ b c', (g.mem.set p (n.addNext k.olabel a)) b = some c' → ∃ c, g.mem b = some c ∧
      c'.previous = c.previous := by
    intro b c' hb
    by_cases e : b = p
    · subst e
      rw [set_same] at hb
      cases hb
      exact ⟨n, h1, rfl⟩
    · rw [set_other _ _ e] at hb
      exact ⟨c', hb, rfl⟩
  refine ⟨_, by unfold setNext; rw [hl]; rfl, ⟨i.arena, ?_, ?_, ?_, ?_, ?_, ?_⟩, htr⟩
  · intro b hb
    obtain ⟨c, e1, e2⟩ := i.liveMem b hb
    obtain ⟨c', e3, e4, _⟩ := hm b c e1
    exact ⟨c', e3, e4 ▸ e2⟩
  · intro b hb
    obtain ⟨c, e1, e2⟩ := i.freeMem b hb
    obtain ⟨c', e3, e4, _⟩ := hm b c e1
    exact ⟨c', e3, e4 ▸ e2⟩
  · intro b hb
    have := i.rawMem b hb
    have hne : b ≠ p := by intro e; subst e; rw [h1] at this; cases this
    rw [set_other _ _ hne]; exact this
  · intro b c q hb hq
    obtain ⟨c0, e1, e2⟩ := hback b c hb
    obtain ⟨d, hd⟩ := i.ptr b c0 q e1 (e2 ▸ hq)
    obtain ⟨d', hd', _⟩ := hm q d hd
    exact ⟨d', hd'⟩
  · intro b hb
    obtain ⟨c, us, g1, g2, g3, g4, g5⟩ := i.good b hb
    by_cases e : b = p
    · subst e
      rw [h1] at g1
      cases g1
      refine ⟨_, us, set_same .., g2, htr _ _ g3, g4, ?_⟩
      intro l d hd
      rcases List.mem_cons.mp hd with hd | hd
      · cases hd
        obtain ⟨k', e1, _, e3, e4⟩ := hm a k hk
        exact ⟨ha, k', e1, e3, by rw [e4, hkp]⟩
      · obtain ⟨g6, k1, g7, g8, g9⟩ := g5 l d (List.mem_of_mem_filter hd)
        obtain ⟨k', e1, _, e3, e4⟩ := hm d k1 g7
        exact ⟨g6, k', e1, by rw [e3, g8], by rw [e4, g9]⟩
    · refine ⟨c, us, by rw [set_other _ _ e]; exact g1, g2, htr _ _ g3, g4, ?_⟩
      intro l d hd
      obtain ⟨g6, k1, g7, g8, g9⟩ := g5 l d hd
      obtain ⟨k', e1, _, e3, e4⟩ := hm d k1 g7
      exact ⟨g6, k', e1, by rw [e3, g8], by rw [e4, g9]⟩
  · intro b c hb
    by_cases e : b = p
    · subst e
      rw [set_same] at hb
      cases hb
      simp only [Node.addNext, List.map_cons, List.nodup_cons]
      refine ⟨?_, keys_filter (i.keys _ _ h1)⟩
      intro hc
      obtain ⟨x, hx, he⟩ := List.mem_map.mp hc
      have := (List.mem_filter.mp hx).2
      simp [he] at this
    · rw [set_other _ _ e] at hb
      exact i.keys b c hb

/-- `Good` handle: null or a good node. -/
def GoodH (Good : Addr → Prop) (o : Option Addr) : Prop := ∀ a, o = some a → Good a

/-- Extending a history under the invariant. -/
theorem extend_spec {B : Nat} (hB : 0 < B) {g : GPool} {live : List Addr} {Good : Addr → Prop}
    (i : GInv B g.arena g.mem live Good) {prev : Option Addr} {ws : List Int} (l : Int) (hp : GoodH Good prev)
    (hw : Hist g.mem prev ws) :
    ∃ g' h' live' Good', extend B g prev l = .ok (g', h') ∧ GInv B g'.arena g'.mem live' Good' ∧
      GoodH Good' h' ∧ (∀ a, Good a → Good' a) ∧
      Hist g'.mem h' (if l = 0 then ws else l :: ws) ∧
      (∀ o us, Hist g.mem o us → Hist g'.mem o us) := by
  unfold extend
  by_cases hl : l = 0
  · simp only [if_pos hl]
    exact ⟨g, prev, live, Good, rfl, i, hp, fun _ h => h, hw, fun _ _ h => h⟩
  · simp only [if_neg hl]
    cases prev with
    | none =>
      cases hw
      obtain ⟨g', a, e1, e2, e3, e4, e5⟩ := alloc_spec hB i l hp
      simp only [e1, ok_bind]
      refine ⟨g', some a, _, _, rfl, e4, ?_, fun a h => Or.inl h, ?_, ?_⟩
      · intro b hb; cases hb; exact Or.inr rfl
      · rw [e3]
        exact Hist.cons (n := ⟨.using, none, l, []⟩) (set_same ..) (by simp) .nil
      · intro o us h
        rw [e3]
        refine h.transfer ?_
        intro b n hb hn
        exact ⟨n, by rw [set_other _ _ (e5 b n hb hn)]; exact hb, hn, rfl, rfl⟩
    | some p =>
      obtain ⟨n, us, h1, h2, h3, h4, h5⟩ := i.good p (hp p rfl)
      have hln : liveNode g.mem p = .ok n := by unfold liveNode; rw [h1]; simp [h2]
      simp only [hln, ok_bind]
      cases hlk : n.nexts.lookup l with
      | some b =>
        obtain ⟨g6, k, g7, g8, g9⟩ := h5 l b (lookup_mem hlk)
        refine ⟨g, some b, live, Good, rfl, i, ?_, fun _ h => h, ?_, fun _ _ h => h⟩
        · intro c hc; cases hc; exact g6
        · obtain ⟨k', _, f1, f2, _⟩ := i.good b g6
          rw [g7] at f1
          cases f1
          rw [← g8]
          exact .cons g7 f2 (g9 ▸ hw)
      | none =>
        obtain ⟨g', a, e1, e2, e3, e4, e5⟩ := alloc_spec hB i l hp
        have hmem : g'.mem a = some ⟨.using, some p, l, []⟩ := by rw [e3, set_same]
        obtain ⟨m, s1, s2, s3⟩ := setNext_spec e4 (p := p) (a := a) (Or.inl (hp p rfl)) (Or.inr rfl)
          hmem rfl
        have htr : ∀ o us, Hist g.mem o us → Hist g'.mem o us := by
          intro o us h
          rw [e3]
          refine h.transfer ?_
          intro b n hb hn
          exact ⟨n, by rw [set_other _ _ (e5 b n hb hn)]; exact hb, hn, rfl, rfl⟩
        simp only at s1
        simp only [e1, ok_bind, s1]
        refine ⟨_, some a, _, _, rfl, s2, ?_, fun a h => Or.inl h, ?_, fun o us h => s3 _ _ (htr o us h)⟩
        · intro b hb; cases hb; exact Or.inr rfl
        · exact s3 _ _ (Hist.cons (n := ⟨.using, some p, l, []⟩) hmem (by simp) (htr _ _ hw))

end Verif.Gc
