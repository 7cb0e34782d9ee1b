import Verif.PoolSpec
import Mathlib.Data.List.Nodup
import Mathlib.Data.List.Range
import Mathlib.Tactic.Ring

/-!
# Invariant of the object pool and helper lemmas
-/

set_option linter.unusedSectionVars false
set_option linter.unusedVariables false

namespace Verif.Pool

variable {T : Type}

/-! ## Invariant -/

/-- Slots handed out by bumping since the last `Clear`. -/
def Used (B : Nat) (ar : Arena) (a : Addr) : Prop :=
  (a.1 < ar.curBlock ∧ a.2 < B) ∨ (a.1 = ar.curBlock ∧ a.2 < ar.curPos)

/-- Invariant of the bookkeeping. -/
structure ArenaInv (B : Nat) (ar : Arena) (live : List Addr) : Prop where
  block : ar.curBlock < ar.nBlocks
  pos : ar.curPos ≤ B
  nodupFree : ar.free.Nodup
  nodupLive : live.Nodup
  disjoint : ∀ a, a ∈ ar.free → a ∉ live
  cover : ∀ a, (a ∈ live ∨ a ∈ ar.free) ↔ Used B ar a
  count : live.length + ar.free.length = ar.curBlock * B + ar.curPos

theorem arena_init_inv {B : Nat} : ArenaInv B Arena.init [] := by
  refine ⟨by decide, by simp [Arena.init], by simp [Arena.init], by simp, by simp, ?_, by
    simp [Arena.init]⟩
  intro a
  simp [Arena.init, Used]

theorem nextBlock_inv {B : Nat} (hB : 0 < B) {ar : Arena} {live : List Addr}
    (h : ArenaInv B ar live) :
    ArenaInv B (nextBlock B ar) live ∧ (nextBlock B ar).free = ar.free ∧
      (nextBlock B ar).curPos < B := by
  unfold nextBlock
  split
  · rename_i hp
    refine ⟨⟨?_, ?_, h.nodupFree, h.nodupLive, h.disjoint, ?_, ?_⟩, rfl, ?_⟩
    · simp only
      have := h.block
      split <;> omega
    · simp
    · intro a
      rw [h.cover a]
      simp only [Used, hp]
      omega
    · have := h.count
      simp only [hp] at this ⊢
      rw [this]; ring
    · exact hB
  · refine ⟨h, rfl, ?_⟩
    have := h.pos
    omega

/-- Taking a slot succeeds and yields one that is neither held nor free. -/
theorem take_spec {B : Nat} (hB : 0 < B) {ar : Arena} {live : List Addr} (h : ArenaInv B ar live) :
    ∃ ar' m, ar.take B = .ok (ar', m) ∧ m ∉ live ∧ ArenaInv B ar' (m :: live) ∧
      m.1 < ar'.nBlocks ∧ m.2 < B ∧
      ((m ∈ ar.free ∧ ar'.curBlock = ar.curBlock ∧ ar'.curPos = ar.curPos ∧
          ar.free = m :: ar'.free ∧ ar'.nBlocks = ar.nBlocks) ∨
        (ar.free = [] ∧ ar'.free = [] ∧ ar'.curBlock = m.1 ∧ ar'.curPos = m.2 + 1 ∧
          ¬ Used B ar m ∧ (∀ a, Used B ar' a ↔ (Used B ar a ∨ a = m)) ∧
          (ar.curBlock = ar.nBlocks - 1 → ar'.curBlock = ar'.nBlocks - 1))) := by
  unfold Arena.take
  cases hf : ar.free with
  | nil =>
    simp only
    have hpos := h.pos
    rw [show decide (ar.curPos ≤ B) = true by simpa using hpos, cassert_true, ok_bind]
    obtain ⟨hi, hfr, hlt⟩ := nextBlock_inv hB h
    rw [if_pos hi.block]
    have hnu : ¬ Used B (nextBlock B ar) ((nextBlock B ar).curBlock, (nextBlock B ar).curPos) := by
      simp [Used]
    have hnl : ((nextBlock B ar).curBlock, (nextBlock B ar).curPos) ∉ live := by
      intro hc
      exact hnu ((hi.cover _).mp (Or.inl hc))
    refine ⟨_, _, rfl, hnl, ⟨hi.block, by simp only; omega, hi.nodupFree,
      List.nodup_cons.mpr ⟨hnl, hi.nodupLive⟩, ?_, ?_, ?_⟩, hi.block, hlt, Or.inr ⟨by trivial, ?_, rfl, rfl,
      ?_, ?_, ?_⟩⟩
    · intro a ha
      simp only [hfr, hf] at ha
      cases ha
    · intro a
      have hc := hi.cover a
      simp only [Used, List.mem_cons] at hc ⊢
      constructor
      · rintro ((rfl | hl) | hfree)
        · simp
        · rcases hc.mp (Or.inl hl) with h1 | h1
          · exact Or.inl h1
          · exact Or.inr ⟨h1.1, by omega⟩
        · rcases hc.mp (Or.inr hfree) with h1 | h1
          · exact Or.inl h1
          · exact Or.inr ⟨h1.1, by omega⟩
      · intro hu
        by_cases he : a = ((nextBlock B ar).curBlock, (nextBlock B ar).curPos)
        · exact Or.inl (Or.inl he)
        · have : a.1 = (nextBlock B ar).curBlock → a.2 ≠ (nextBlock B ar).curPos := by
            intro e1 e2
            exact he (Prod.ext e1 e2)
          rcases hc.mpr (by omega) with h1 | h1
          · exact Or.inl (Or.inr h1)
          · exact Or.inr h1
    · have := hi.count
      simp only [List.length_cons]
      omega
    · simp only [hfr, hf]
    · intro hu
      have := (h.cover _).mpr hu
      exact hnu ((hi.cover _).mp (by rw [hfr]; exact this))
    · intro a
      have h1 := h.cover a
      have h2 := hi.cover a
      rw [hfr] at h2
      have h3 : Used B (nextBlock B ar) a ↔ Used B ar a := h2.symm.trans h1
      rw [← h3]
      simp only [Used]
      constructor
      · rintro (h4 | h4)
        · exact Or.inl (Or.inl h4)
        · by_cases e : a.2 = (nextBlock B ar).curPos
          · exact Or.inr (Prod.ext h4.1 e)
          · exact Or.inl (Or.inr ⟨h4.1, by omega⟩)
      · rintro ((h4 | h4) | rfl)
        · exact Or.inl h4
        · exact Or.inr ⟨h4.1, by omega⟩
        · exact Or.inr ⟨rfl, by simp⟩
    · intro e
      simp only
      unfold nextBlock
      have := h.block
      split
      · simp only; omega
      · exact e
  | cons m rest =>
    simp only
    have hmf : m ∈ ar.free := by rw [hf]; simp
    have hnd := h.nodupFree
    rw [hf] at hnd
    obtain ⟨hm1, hm2⟩ := List.nodup_cons.mp hnd
    have hml := h.disjoint m hmf
    have hu := (h.cover m).mp (Or.inr hmf)
    refine ⟨_, _, rfl, hml, ⟨h.block, h.pos, hm2, List.nodup_cons.mpr ⟨hml, h.nodupLive⟩, ?_, ?_, ?_⟩,
      ?_, ?_, Or.inl ⟨by simp, rfl, rfl, rfl, rfl⟩⟩
    · intro a ha hc
      rcases List.mem_cons.mp hc with e | e
      · subst e; exact hm1 ha
      · exact h.disjoint a (by rw [hf]; exact List.mem_cons_of_mem _ ha) e
    · intro a
      have := h.cover a
      rw [hf] at this
      simp only [List.mem_cons] at this ⊢
      rw [show Used B { ar with free := rest } a ↔ Used B ar a from Iff.rfl, ← this]
      constructor
      · rintro ((h1 | h1) | h1)
        · exact Or.inr (Or.inl h1)
        · exact Or.inl h1
        · exact Or.inr (Or.inr h1)
      · rintro (h1 | (h1 | h1))
        · exact Or.inl (Or.inr h1)
        · exact Or.inl (Or.inl h1)
        · exact Or.inr h1
    · have := h.count
      rw [hf] at this
      simp only [List.length_cons] at this ⊢
      omega
    · have := h.block
      simp only
      rcases hu with h1 | h1 <;> omega
    · have := h.pos
      rcases hu with h1 | h1 <;> omega

/-- Returning a held slot keeps the bookkeeping invariant. -/
theorem release_inv {B : Nat} {ar : Arena} {live : List Addr} (h : ArenaInv B ar live) {m : Addr}
    (hm : m ∈ live) : ArenaInv B { ar with free := m :: ar.free } (live.erase m) := by
  refine ⟨h.block, h.pos, List.nodup_cons.mpr ⟨fun hc => h.disjoint m hc hm, h.nodupFree⟩,
    h.nodupLive.erase m, ?_, ?_, ?_⟩
  · intro a ha hc
    rcases List.mem_cons.mp ha with e | e
    · subst e
      exact absurd hc (List.Nodup.not_mem_erase h.nodupLive)
    · exact h.disjoint a e (List.mem_of_mem_erase hc)
  · intro a
    have := h.cover a
    rw [show Used B { ar with free := m :: ar.free } a ↔ Used B ar a from Iff.rfl, ← this]
    simp only [List.mem_cons]
    by_cases e : a = m
    · subst e
      simp [hm]
    · rw [List.mem_erase_of_ne e]
      simp [e]
  · have := h.count
    have h2 := List.length_erase_of_mem hm
    have h3 : 0 < live.length := List.length_pos_of_mem hm
    simp only [List.length_cons]
    omega

theorem reset_inv {B : Nat} {ar : Arena} {live : List Addr} (h : ArenaInv B ar live) :
    ArenaInv B { ar with free := [], curBlock := 0, curPos := 0 } [] := by
  have := h.block
  refine ⟨by simp only; omega, by simp, by simp, by simp, by simp, ?_, by simp⟩
  intro a
  simp [Used]

/-- Invariant of a pool along a history. -/
structure Inv (B : Nat) (past : List (Event T)) (p : Pool T) : Prop where
  arena : ArenaInv B p.arena (liveAfter past)
  cells : ∀ a, p.cells a = valueAt a past
  alive : ∀ a, a ∈ liveAfter past ↔ ∃ x, valueAt a past = some x

theorem init_inv {B : Nat} : Inv B [] (init : Pool T) :=
  ⟨arena_init_inv, fun _ => rfl, fun a => by simp [liveAfter, valueAt]⟩

theorem destroyAll_none : ∀ (ms : List Addr) (cells cells' : Addr → Option T),
    destroyAll cells ms = .ok cells' → ∀ a, cells' a = if a ∈ ms then none else cells a
  | [], cells, cells', h, a => by
    cases h; simp
  | m :: ms, cells, cells', h, a => by
    unfold destroyAll at h
    obtain ⟨c1, h1, h⟩ := bind_ok h
    have ih := destroyAll_none ms c1 cells' h a
    rw [ih]
    unfold destroy at h1
    split at h1
    · cases h1
    · cases h1
      by_cases e : a = m
      · subst e; simp
      · simp [e]

theorem step_inv {B : Nat} (hB : 0 < B) {trivial : Bool} {past : List (Event T)} {p p' : Pool T}
    {op : Op T} {e : Event T} (i : Inv B past p) (h : step B trivial p op = .ok (p', e))
    (hc : ∀ a, e = .dealloc a → a ∈ liveAfter past)
    (hcl : e = .clear → ∀ a, p'.cells a = none) :
    Inv B (e :: past) p' := by
  cases op with
  | alloc x =>
    change (alloc B p x >>= fun r => .ok (r.1, Event.alloc x r.2)) = _ at h
    obtain ⟨⟨p1, a⟩, h1, h⟩ := bind_ok h
    cases h
    change (p.arena.take B >>= fun r => _) = _ at h1
    obtain ⟨⟨ar, m⟩, h2, h1⟩ := bind_ok h1
    cases h1
    obtain ⟨ar', m', e1, e2, e3, _⟩ := take_spec hB i.arena
    rw [h2] at e1
    cases e1
    refine ⟨e3, ?_, ?_⟩
    · intro b
      simp only [valueAt]
      by_cases hb : b = a
      · subst hb; simp
      · rw [if_neg hb, if_neg (fun e => hb e.symm)]; exact i.cells b
    · intro b
      simp only [liveAfter, valueAt, List.mem_cons]
      by_cases hb : a = b
      · subst hb; simp
      · rw [if_neg hb, ← i.alive b]
        constructor
        · rintro (e | e)
          · exact absurd e.symm hb
          · exact e
        · exact Or.inr
  | dealloc m =>
    change (dealloc trivial p m >>= fun r => .ok (r, Event.dealloc m)) = _ at h
    obtain ⟨p1, h1, h⟩ := bind_ok h
    cases h
    have hm := hc m rfl
    have hcells : p'.arena = { p.arena with free := m :: p.arena.free } ∧
        ∀ a, p'.cells a = if a = m then none else p.cells a := by
      unfold dealloc at h1
      cases trivial with
      | true => cases h1; exact ⟨rfl, fun _ => rfl⟩
      | false =>
        change (destroy p.cells m >>= _) = _ at h1
        obtain ⟨c, h2, h1⟩ := bind_ok h1
        cases h1
        unfold destroy at h2
        split at h2
        · cases h2
        · cases h2; exact ⟨rfl, fun _ => rfl⟩
    refine ⟨?_, ?_, ?_⟩
    · rw [hcells.1]; exact release_inv i.arena hm
    · intro b
      rw [hcells.2 b, i.cells b]
      simp only [valueAt]
      by_cases hb : b = m
      · subst hb; simp
      · rw [if_neg hb, if_neg (fun e => hb e.symm)]
    · intro b
      simp only [liveAfter, valueAt]
      by_cases hb : m = b
      · subst hb
        simp [List.Nodup.not_mem_erase i.arena.nodupLive]
      · rw [if_neg hb, ← i.alive b, List.mem_erase_of_ne (fun e => hb e.symm)]
  | clear =>
    change (clear B trivial p >>= fun r => .ok (r.1, Event.clear)) = _ at h
    obtain ⟨⟨p1, ds⟩, h1, h⟩ := bind_ok h
    cases h
    have har : p1.arena = { p.arena with free := [], curBlock := 0, curPos := 0 } := by
      unfold clear at h1
      cases trivial with
      | true => cases h1; rfl
      | false =>
        change (destroyAll p.cells (clearTargets B p.arena) >>= _) = _ at h1
        obtain ⟨c, h2, h1⟩ := bind_ok h1
        cases h1; rfl
    refine ⟨?_, ?_, ?_⟩
    · rw [har]; exact reset_inv i.arena
    · intro b; rw [hcl rfl b]; rfl
    · intro b; simp [liveAfter, valueAt]

theorem mem_clearTargets {B : Nat} {ar : Arena} {a : Addr} :
    a ∈ clearTargets B ar ↔
      ((a.1 < ar.nBlocks - 1 ∧ a.2 < B) ∨ (a.1 = ar.nBlocks - 1 ∧ a.2 < ar.curPos)) ∧
        a ∉ ar.free := by
  obtain ⟨b, i⟩ := a
  simp only [clearTargets, List.mem_filter, List.mem_append, List.mem_flatMap, List.mem_map,
    List.mem_range, Prod.mk.injEq, Bool.not_eq_true', List.contains_eq_mem, decide_eq_false_iff_not]
  refine and_congr_left fun _ => or_congr ?_ ?_
  · constructor
    · rintro ⟨x, hx, y, hy, rfl, rfl⟩; exact ⟨hx, hy⟩
    · rintro ⟨hx, hy⟩; exact ⟨b, hx, i, hy, rfl, rfl⟩
  · constructor
    · rintro ⟨y, hy, rfl, rfl⟩; exact ⟨rfl, hy⟩
    · rintro ⟨rfl, hy⟩; exact ⟨i, hy, rfl, rfl⟩

theorem nodup_row (b n : Nat) : ((List.range n).map fun i => ((b, i) : Addr)).Nodup :=
  List.Nodup.map (fun x y h => by cases h; rfl) List.nodup_range

theorem nodup_rows (n m : Nat) :
    ((List.range n).flatMap fun b => (List.range m).map fun i => ((b, i) : Addr)).Nodup := by
  rw [List.nodup_flatMap]
  refine ⟨fun b _ => nodup_row b m, ?_⟩
  refine List.Pairwise.imp ?_ (List.nodup_range (n := n))
  intro b c hbc
  simp only [Function.onFun]
  intro x hx hy
  obtain ⟨_, _, rfl⟩ := List.mem_map.mp hx
  obtain ⟨_, _, e⟩ := List.mem_map.mp hy
  cases e
  exact hbc rfl

theorem nodup_clearTargets {B : Nat} {ar : Arena} : (clearTargets B ar).Nodup := by
  refine List.Nodup.filter _ ?_
  rw [List.nodup_append]
  refine ⟨nodup_rows _ _, nodup_row _ _, ?_⟩
  intro x hx y hy e
  subst e
  obtain ⟨b, hb, hx⟩ := List.mem_flatMap.mp hx
  obtain ⟨_, _, rfl⟩ := List.mem_map.mp hx
  obtain ⟨_, _, e⟩ := List.mem_map.mp hy
  cases e
  rw [List.mem_range] at hb
  omega

theorem destroyAll_total : ∀ (ms : List Addr) (cells : Addr → Option T), ms.Nodup →
    (∀ m ∈ ms, ∃ x, cells m = some x) → ∃ cells', destroyAll cells ms = .ok cells'
  | [], cells, _, _ => ⟨cells, rfl⟩
  | m :: ms, cells, hn, h => by
    obtain ⟨x, hx⟩ := h m (by simp)
    obtain ⟨h1, h2⟩ := List.nodup_cons.mp hn
    have hd : destroy cells m = .ok (fun a => if a = m then none else cells a) := by
      unfold destroy; rw [hx]
    obtain ⟨c, hc⟩ := destroyAll_total ms (fun a => if a = m then none else cells a) h2 (by
      intro k hk
      have : k ≠ m := fun e => h1 (e ▸ hk)
      simp only [if_neg this]
      exact h k (by simp [hk]))
    exact ⟨c, by unfold destroyAll; rw [hd, ok_bind, hc]⟩

theorem destroyAll_dead : ∀ (ms : List Addr) (cells : Addr → Option T) (m : Addr), m ∈ ms →
    cells m = none → destroyAll cells ms = .error .ub
  | k :: ms, cells, m, hm, h => by
    unfold destroyAll destroy
    cases hk : cells k with
    | none => rfl
    | some x =>
      simp only [ok_bind]
      have hne : m ≠ k := by intro e; subst e; rw [h] at hk; cases hk
      refine destroyAll_dead ms _ m ?_ (by simp [hne, h])
      rcases List.mem_cons.mp hm with e | e
      · exact absurd e hne
      · exact e

/-- What a `Clear` on a pool with nontrivial element type does: fine exactly when the pool is working
in its last block. -/
theorem clear_spec {B : Nat} (hB : 0 < B) {past : List (Event T)} {p : Pool T} (i : Inv B past p) :
    (p.arena.curBlock = p.arena.nBlocks - 1 →
      (∀ a, a ∈ clearTargets B p.arena ↔ a ∈ liveAfter past) ∧
      ∃ p', clear B false p = .ok (p', clearTargets B p.arena) ∧ ∀ a, p'.cells a = none) ∧
    (p.arena.curBlock ≠ p.arena.nBlocks - 1 → clear B false p = .error .ub) := by
  have hal : ∀ a, a ∈ liveAfter past ↔ ∃ x, p.cells a = some x := by
    intro a; rw [i.alive a, i.cells a]
  constructor
  · intro ht
    have hmem : ∀ a, a ∈ clearTargets B p.arena ↔ a ∈ liveAfter past := by
      intro a
      rw [mem_clearTargets, ← ht, show ((a.1 < p.arena.curBlock ∧ a.2 < B) ∨
        (a.1 = p.arena.curBlock ∧ a.2 < p.arena.curPos)) ↔ Used B p.arena a from Iff.rfl,
        ← i.arena.cover a]
      constructor
      · rintro ⟨h1 | h1, h2⟩
        · exact h1
        · exact absurd h1 h2
      · intro h
        exact ⟨Or.inl h, fun hc => i.arena.disjoint a hc h⟩
    refine ⟨hmem, ?_⟩
    obtain ⟨c, hc⟩ := destroyAll_total (clearTargets B p.arena) p.cells nodup_clearTargets
      (fun m hm => (hal m).mp ((hmem m).mp hm))
    refine ⟨_, by change (destroyAll p.cells (clearTargets B p.arena) >>= _) = _; rw [hc]; rfl, ?_⟩
    intro a
    have := destroyAll_none _ _ _ hc a
    simp only
    rw [this]
    split
    · rfl
    · rename_i hn
      cases hx : p.cells a with
      | none => rfl
      | some x => exact absurd ((hmem a).mpr ((hal a).mpr ⟨x, hx⟩)) hn
  · intro ht
    have hb := i.arena.block
    have hp := i.arena.pos
    have dead : ∀ m, m ∈ clearTargets B p.arena → ¬ Used B p.arena m →
        clear B false p = .error .ub := by
      intro m hm hu
      have : p.cells m = none := by
        cases hx : p.cells m with
        | none => rfl
        | some x => exact absurd ((i.arena.cover m).mp (Or.inl ((hal m).mpr ⟨x, hx⟩))) hu
      change (destroyAll p.cells (clearTargets B p.arena) >>= _) = _
      rw [destroyAll_dead _ _ m hm this]; rfl
    have nf : ∀ m, ¬ Used B p.arena m → m ∉ p.arena.free := by
      intro m hu hc
      exact hu ((i.arena.cover m).mp (Or.inr hc))
    by_cases hlt : p.arena.curPos < B
    · have hu : ¬ Used B p.arena (p.arena.curBlock, p.arena.curPos) := by simp [Used]
      refine dead _ (mem_clearTargets.mpr ⟨Or.inl ⟨?_, hlt⟩, nf _ hu⟩) hu
      simp only; omega
    · have hu : ¬ Used B p.arena (p.arena.nBlocks - 1, 0) := by
        simp only [Used]; omega
      refine dead _ (mem_clearTargets.mpr ⟨Or.inr ⟨rfl, ?_⟩, nf _ hu⟩) hu
      simp only; omega

theorem clear_cells {B : Nat} (hB : 0 < B) {trivial : Bool} {past : List (Event T)} {p p' : Pool T}
    {ds : List Addr} (i : Inv B past p) (h : clear B trivial p = .ok (p', ds)) :
    ∀ a, p'.cells a = none := by
  cases trivial with
  | true => cases h; intro a; rfl
  | false =>
    by_cases ht : p.arena.curBlock = p.arena.nBlocks - 1
    · obtain ⟨_, q, hq, hn⟩ := (clear_spec hB i).1 ht
      rw [h] at hq
      cases hq
      exact hn
    · rw [(clear_spec hB i).2 ht] at h
      cases h

theorem step_inv' {B : Nat} (hB : 0 < B) {trivial : Bool} {past : List (Event T)} {p p' : Pool T}
    {op : Op T} {e : Event T} (i : Inv B past p) (h : step B trivial p op = .ok (p', e))
    (hc : ∀ a, e = .dealloc a → a ∈ liveAfter past) : Inv B (e :: past) p' := by
  refine step_inv hB i h hc ?_
  intro he a
  subst he
  cases op with
  | alloc x =>
    change (alloc B p x >>= fun r => .ok (r.1, Event.alloc x r.2)) = _ at h
    obtain ⟨⟨p1, a⟩, h1, h⟩ := bind_ok h
    cases h
  | dealloc m =>
    change (dealloc trivial p m >>= fun r => .ok (r, Event.dealloc m)) = _ at h
    obtain ⟨p1, h1, h⟩ := bind_ok h
    cases h
  | clear =>
    change (clear B trivial p >>= fun r => .ok (r.1, Event.clear)) = _ at h
    obtain ⟨⟨p1, ds⟩, h1, h⟩ := bind_ok h
    cases h
    exact clear_cells hB i h1 a

theorem run_cons {B : Nat} {trivial : Bool} {p : Pool T} {op : Op T} {ops : List (Op T)} :
    run B trivial p (op :: ops) = (step B trivial p op >>= fun r =>
      run B trivial r.1 ops >>= fun q => .ok (q.1, r.2 :: q.2)) := rfl

theorem clientOk_cons {past : List (Event T)} {e : Event T} {es : List (Event T)}
    (h : ClientOk past (e :: es)) :
    (∀ a, e = .dealloc a → a ∈ liveAfter past) ∧ ClientOk (e :: past) es := by
  cases e with
  | dealloc a => exact ⟨fun b hb => by cases hb; exact h.1, h.2⟩
  | alloc x a => exact ⟨fun b hb => by simp at hb, h⟩
  | clear => exact ⟨fun b hb => by simp at hb, h⟩

theorem run_inv {B : Nat} (hB : 0 < B) {trivial : Bool} : ∀ (ops : List (Op T))
    (past : List (Event T)) (p p' : Pool T) (evs : List (Event T)), Inv B past p →
    run B trivial p ops = .ok (p', evs) → ClientOk past evs → Inv B (evs.reverse ++ past) p'
  | [], past, p, p', evs, i, h, _ => by cases h; exact i
  | op :: ops, past, p, p', evs, i, h, hc => by
    rw [run_cons] at h
    obtain ⟨⟨p1, e⟩, h1, h⟩ := bind_ok h
    obtain ⟨⟨p2, es⟩, h2, h⟩ := bind_ok h
    cases h
    obtain ⟨hc1, hc2⟩ := clientOk_cons hc
    have := run_inv hB ops (e :: past) p1 p2 es (step_inv' hB i h1 hc1) h2 hc2
    simpa using this

theorem run_split {B : Nat} {trivial : Bool} : ∀ (ops : List (Op T)) (p p' : Pool T)
    (pre : List (Event T)) (e : Event T) (post : List (Event T)),
    run B trivial p ops = .ok (p', pre ++ e :: post) →
    ∃ ops1 op ops2 p1 p2, ops = ops1 ++ op :: ops2 ∧ run B trivial p ops1 = .ok (p1, pre) ∧
      step B trivial p1 op = .ok (p2, e)
  | [], p, p', pre, e, post, h => by
    exfalso
    have : ([] : List (Event T)) = pre ++ e :: post := by
      injection h with h; injection h
    simp at this
  | op :: ops, p, p', [], e, post, h => by
    rw [run_cons] at h
    obtain ⟨⟨p1, e1⟩, h1, h⟩ := bind_ok h
    obtain ⟨⟨p2, es⟩, h2, h⟩ := bind_ok h
    cases h
    exact ⟨[], op, ops, p, p1, rfl, rfl, h1⟩
  | op :: ops, p, p', e0 :: pre, e, post, h => by
    rw [run_cons] at h
    obtain ⟨⟨p1, e1⟩, h1, h⟩ := bind_ok h
    obtain ⟨⟨p2, es⟩, h2, h⟩ := bind_ok h
    cases h
    obtain ⟨ops1, op', ops2, q1, q2, e1, e2, e3⟩ := run_split ops p1 p2 pre e post h2
    refine ⟨op :: ops1, op', ops2, q1, q2, by rw [e1]; rfl, ?_, e3⟩
    rw [run_cons, h1, ok_bind, e2]; rfl

theorem clientOk_append : ∀ (pre : List (Event T)) (past post : List (Event T)),
    ClientOk past (pre ++ post) → ClientOk past pre
  | [], _, _, _ => trivial
  | e :: pre, past, post, h => by
    have := clientOk_cons h
    have ih := clientOk_append pre (e :: past) post this.2
    cases e with
    | dealloc a => exact ⟨this.1 a rfl, ih⟩
    | alloc x a => exact ih
    | clear => exact ih

/-- Without `Clear`, the pool always works in its last block. -/
theorem run_tight {B : Nat} (hB : 0 < B) {trivial : Bool} : ∀ (ops : List (Op T))
    (past : List (Event T)) (p p' : Pool T) (evs : List (Event T)), Inv B past p →
    run B trivial p ops = .ok (p', evs) → ClientOk past evs → NoClear ops →
    p.arena.curBlock = p.arena.nBlocks - 1 → p'.arena.curBlock = p'.arena.nBlocks - 1
  | [], past, p, p', evs, i, h, _, _, ht => by cases h; exact ht
  | op :: ops, past, p, p', evs, i, h, hc, hn, ht => by
    rw [run_cons] at h
    obtain ⟨⟨p1, e⟩, h1, h⟩ := bind_ok h
    obtain ⟨⟨p2, es⟩, h2, h⟩ := bind_ok h
    cases h
    obtain ⟨hc1, hc2⟩ := clientOk_cons hc
    have hi := step_inv' hB i h1 hc1
    cases op with
    | clear => exact hn.elim
    | alloc x =>
      refine run_tight hB ops (e :: past) p1 p2 es hi h2 hc2 hn ?_
      change (alloc B p x >>= fun r => .ok (r.1, Event.alloc x r.2)) = _ at h1
      obtain ⟨⟨q, a⟩, h3, h1⟩ := bind_ok h1
      cases h1
      change (p.arena.take B >>= fun r => _) = _ at h3
      obtain ⟨⟨ar, m⟩, h4, h3⟩ := bind_ok h3
      cases h3
      obtain ⟨ar', m', e1, _, _, _, _, e5⟩ := take_spec hB i.arena
      rw [h4] at e1
      cases e1
      rcases e5 with ⟨_, e6, _, _, e7⟩ | ⟨_, _, _, _, _, _, e6⟩
      · simp only; rw [e6, e7]; exact ht
      · exact e6 ht
    | dealloc m =>
      refine run_tight hB ops (e :: past) p1 p2 es hi h2 hc2 hn ?_
      change (dealloc trivial p m >>= fun r => .ok (r, Event.dealloc m)) = _ at h1
      obtain ⟨q, h3, h1⟩ := bind_ok h1
      cases h1
      cases trivial with
      | true => cases h3; exact ht
      | false =>
        change (destroy p.cells m >>= _) = _ at h3
        obtain ⟨c, _, h3⟩ := bind_ok h3
        cases h3
        exact ht

end Verif.Pool
