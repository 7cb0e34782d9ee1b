import Verif.GcRun
import Mathlib.Data.List.Perm.Subperm

/-!
# Properties C07, C08, C09: word histories under garbage collection
-/

namespace Verif.Gc

open Verif.Pool (Addr Arena ArenaInv Used)

/-- **C07**, the part that holds: in every history of extensions and collections in which no
collection starts with a stale mark, no step faults and every held handle reads back (`BestPath`'s word
loop) exactly the words it was built from.  Missing: collections that start with a stale mark on the
slot handed out last by bumping, where the claim is false (`C07_second_collection_corrupts`). -/
theorem C07_histories_survive_gc_partial {B : Nat} (hB : 0 < B) {ops : List Op}
    {ws : List (List Int)} (hspec : specRun [] ops = some ws) (hf : FreshRun B ops) :
    ∃ g hs, run B init [] ops = .ok (g, hs) ∧ hs.length = ws.length ∧
      ∀ (i : Nat) (w : List Int), ws[i]? = some w → ∃ h, hs[i]? = some h ∧
        ∀ k, w.length ≤ k → readWords g.mem k h = .ok w := by
  obtain ⟨g, hs, live, Good, h1, c⟩ := run_spec hB ops init [] [] ws [] _ init_cinv hspec hf
  refine ⟨g, hs, h1, c.handles.length_eq, ?_⟩
  intro i w hw
  obtain ⟨h, e1, e2, e3⟩ := forall₂_get c.handles hw
  exact ⟨h, e1, fun k hk => e3.read hk⟩

/-- The condition of C07 holds for every history with at most one collection. -/
theorem C07_first_collection_is_fresh {B : Nat} {pre post : List Op} {keep : List Nat}
    (h1 : ∀ k, .gc k ∉ pre) (h2 : ∀ k, .gc k ∉ post) :
    FreshRun B (pre ++ .gc keep :: post) := by
  intro pre' keep' post' g hs he hr
  have hno : ∀ k, .gc k ∉ pre' := by
    have hpre : pre' = pre := by
      rcases List.append_eq_append_iff.mp he with ⟨as, e1, e2⟩ | ⟨as, e1, e2⟩
      · cases as with
        | nil => simpa using e1
        | cons x xs =>
          simp only [List.cons_append, List.cons.injEq] at e2
          exfalso
          exact h2 keep' (by rw [e2.2]; simp)
      · cases as with
        | nil => simpa using e1.symm
        | cons x xs =>
          simp only [List.cons_append, List.cons.injEq] at e2
          exfalso
          exact h1 keep' (by rw [e1, ← e2.1]; simp)
    rw [hpre]; exact h1
  have := run_noGc pre' init g [] hs (by rintro a ⟨n, h, _⟩; cases h) hr hno
  intro n hn hm
  exact this _ ⟨n, hn, hm⟩

/-- **C07 fails**: after any history, if a held handle's last word sits in the slot handed out last by
bumping and has a word before it, then keeping that handle through two collections in a row frees the
node of the word before it, and reading the handle's words touches the freed node.  (Stated for all
histories, block sizes and words; both collections themselves succeed.) -/
theorem C07_second_collection_corrupts {B : Nat} (hB : 0 < B) {ops : List Op}
    {ws : List (List Int)} (hspec : specRun [] ops = some ws) (hf : FreshRun B ops)
    {g : GPool} {hs : List (Option Addr)} (hrun : run B init [] ops = .ok (g, hs)) (hfr : Fresh g)
    {i : Nat} {w : List Int} (hh : hs[i]? = some (some (lastSlot g.arena)))
    (hw : ws[i]? = some w) (hlen : 2 ≤ w.length) :
    ∃ g2, run B init [] (ops ++ [.gc [i], .gc [0]]) = .ok (g2, [some (lastSlot g.arena)]) ∧
      ∀ k, 1 ≤ k → readWords g2.mem k (some (lastSlot g.arena)) = .error .ub := by
  obtain ⟨g0, hs0, live, Good, h1, c⟩ := run_spec hB ops init [] [] ws [] _ init_cinv hspec hf
  rw [hrun] at h1
  cases h1
  obtain ⟨x, e1, e2, e3⟩ := forall₂_get c.handles hw
  rw [hh] at e1
  cases e1
  obtain ⟨g1, live1, Good1, f1, f2, f3, f4, f5, f6, f7⟩ := gc_spec c.pool hfr
    (roots := [lastSlot g.arena]) (by
      intro a ha
      rw [List.mem_singleton] at ha
      subst ha
      exact e2 _ rfl)
  -- after the first collection the last slot is marked
  have hmk := f6 (lastSlot g.arena) (by simp) _ (.refl _)
  have hh1 := f4 (lastSlot g.arena) (by simp) w e3
  obtain ⟨n, hn, hnm⟩ := hmk
  -- its predecessor
  obtain ⟨p, hp⟩ : ∃ p, n.previous = some p := by
    cases hprev : n.previous with
    | some p => exact ⟨p, rfl⟩
    | none =>
      exfalso
      cases hh1 with
      | cons q1 q2 q3 =>
        rw [hn] at q1
        cases q1
        rw [hprev] at q3
        cases q3
        simp at hlen
  have hpne : p ≠ lastSlot g.arena := by
    intro e
    exact hh1.acyclic hn (by rw [hp, e])
  obtain ⟨np, hnp, hnpf⟩ : ∃ np, g1.mem p = some np ∧ np.state ≠ .freed := by
    cases hh1 with
    | cons q1 q2 q3 =>
      rw [hn] at q1
      cases q1
      rw [hp] at q3
      cases q3 with
      | cons r1 r2 _ => exact ⟨_, r1, r2⟩
  have hpu : p ∈ sweepSlots B g1.arena := by
    have hu : Used B g1.arena p := by
      by_contra hu
      rw [f2.rawMem p hu] at hnp
      cases hnp
    rcases used_cases hu with h | h
    · exact h
    · exact absurd (h.trans f7) hpne
  have hlns : lastSlot g.arena ∉ sweepSlots B g1.arena := by
    intro hc
    exact (sweep_used hc).2 f7.symm
  -- the second collection
  obtain ⟨m1, u1, u2⟩ := unmarkAll_spec (sweepSlots B g1.arena) g1.mem (by
    intro a ha
    rcases (f2.arena.cover a).mpr (sweep_used ha).1 with h | h
    · obtain ⟨n, h1, _⟩ := f2.liveMem a h; exact ⟨n, h1⟩
    · obtain ⟨n, h1, _⟩ := f2.freeMem a h; exact ⟨n, h1⟩)
  have hm1l : m1 (lastSlot g.arena) = some n := by
    rw [u2, hn]; simp only [Option.map_some, if_neg hlns]
  have hm1p : m1 p = some np.unmark := by
    rw [u2, hnp]; simp only [Option.map_some, if_pos hpu]
  have k1 : markLoop ([lastSlot g.arena].length + (allSlots B g1.arena).length + 1) m1
      [lastSlot g.arena].reverse = .ok m1 := by
    rw [show [lastSlot g.arena].length + (allSlots B g1.arena).length + 1 =
      (allSlots B g1.arena).length + 2 by simp; omega]
    simp only [List.reverse_singleton, markLoop, rawNode, hm1l, ok_bind, if_pos hnm]
  obtain ⟨m3, fs, s1, s2, s3, s4, s5, s6⟩ := sweep_spec (sweepSlots B g1.arena) m1 (by
    intro a ha
    rcases (f2.arena.cover a).mpr (sweep_used ha).1 with h | h
    · obtain ⟨n, h1, _⟩ := f2.liveMem a h; exact ⟨_, by rw [u2, h1]; rfl⟩
    · obtain ⟨n, h1, _⟩ := f2.freeMem a h; exact ⟨_, by rw [u2, h1]; rfl⟩) (by
    intro a k q ha hq
    rw [u2] at ha
    cases hg : g1.mem a with
    | none => rw [hg] at ha; cases ha
    | some k0 =>
      rw [hg] at ha
      simp only [Option.map_some, Option.some.injEq] at ha
      have : k0.previous = some q := by
        rw [← ha] at hq
        split at hq
        · rw [(unmark_facts k0).1] at hq; exact hq
        · exact hq
      obtain ⟨kq, hkq⟩ := f2.ptr a k0 q hg this
      exact ⟨_, by rw [u2, hkq]; rfl⟩)
  have hdeadp : Dead m1 (sweepSlots B g1.arena) p :=
    ⟨hpu, np.unmark, hm1p, fun e => hnpf ((unmark_facts np).2.2.2.1.mp e), (unmark_facts np).2.2.2.2⟩
  have hlive : ¬ Dead m1 (sweepSlots B g1.arena) (lastSlot g.arena) := fun h => hlns h.1
  obtain ⟨n3, t1, t2, _, t4, _⟩ := s6 _ n hm1l hlive
  have hgc2 : gc B g1 [lastSlot g.arena] = .ok ⟨deallocAll fs g1.arena, m3⟩ := by
    unfold gc
    simp only [u1, ok_bind, k1, s1]
  have hruns : ∀ (os : List Op) (g g' : GPool) (hs hs' : List (Option Addr)) os',
      run B g hs os = .ok (g', hs') → run B g hs (os ++ os') = run B g' hs' os' := by
    intro os
    induction os with
    | nil => intro g g' hs hs' os' h; cases h; rfl
    | cons o os ih =>
      intro g g' hs hs' os' h
      rw [List.cons_append, run_cons]
      rw [run_cons] at h
      obtain ⟨⟨g1, hs1⟩, a1, a2⟩ := bind_ok h
      rw [a1, ok_bind]
      exact ih g1 g' hs1 hs' os' a2
  refine ⟨⟨deallocAll fs g1.arena, m3⟩, ?_, ?_⟩
  · rw [hruns ops init g [] hs _ hrun]
    have st1 : step B g hs (.gc [i]) = .ok (g1, [some (lastSlot g.arena)]) := by
      change (pick hs [i] >>= _) = _
      have : pick hs [i] = .ok [some (lastSlot g.arena)] := by
        unfold pick
        rw [aget_nat hh]; rfl
      rw [this, ok_bind]
      change (gc B g [lastSlot g.arena] >>= _) = _
      rw [f1]; rfl
    have st2 : step B g1 [some (lastSlot g.arena)] (.gc [0]) =
        .ok (⟨deallocAll fs g1.arena, m3⟩, [some (lastSlot g.arena)]) := by
      change (gc B g1 [lastSlot g.arena] >>= _) = _
      rw [hgc2]; rfl
    rw [run_cons, st1, ok_bind, run_cons, st2, ok_bind]
    rfl
  · intro k hk
    cases k with
    | zero => omega
    | succ k =>
      have hl : liveNode m3 (lastSlot g.arena) = .ok n3 := by
        unfold liveNode
        rw [t1]
        simp [t2, hnm]
      have hl2 : liveNode m3 p = .error .ub := by
        unfold liveNode
        rw [s5 p hdeadp]
        rfl
      unfold readWords
      rw [hl, ok_bind, t4, hp]
      cases k with
      | zero => unfold readWords; rw [hl2]; rfl
      | succ k => unfold readWords; rw [hl2]; rfl

/-- **C08.**  After any history of extensions and collections without stale marks, one more such
collection succeeds; afterwards the nodes in use are exactly the nodes the kept handles reach, plus
possibly the slot handed out last by bumping if it was in use; every other used slot is on the free
list, and the free list has no duplicates. -/
theorem C08_gc_frees_exactly_the_unreachable {B : Nat} (hB : 0 < B) {ops : List Op}
    {ws ws' : List (List Int)} (hspec : specRun [] ops = some ws) (hf : FreshRun B ops)
    {g : GPool} {hs : List (Option Addr)} (hrun : run B init [] ops = .ok (g, hs)) (hfr : Fresh g)
    {keep : List Nat} (hk : pickWords ws keep = some ws') :
    ∃ g' hs', step B g hs (.gc keep) = .ok (g', hs') ∧
      (∀ a, (∃ n, g'.mem a = some n ∧ n.state ≠ .freed) ↔
        (∃ n, g.mem a = some n ∧ n.state ≠ .freed) ∧
          ((∃ r, some r ∈ hs' ∧ Reach g.mem r a) ∨ a = lastSlot g.arena)) ∧
      (∀ a n, g'.mem a = some n → n.state = .freed → a ∈ g'.arena.free) ∧
      (∀ a ∈ g'.arena.free, ∃ n, g'.mem a = some n ∧ n.state = .freed) ∧
      g'.arena.free.Nodup ∧
      (∀ R : List Addr, (∀ r a, some r ∈ hs' → Reach g.mem r a → a ∈ R) →
        g'.arena.allocatedNodes B ≤ R.length + 1) := by
  obtain ⟨g0, hs0, live, Good, h1, c⟩ := run_spec hB ops init [] [] ws [] _ init_cinv hspec hf
  rw [hrun] at h1
  cases h1
  obtain ⟨hs', e1, e2⟩ := pick_spec c.handles hk
  have hall : ∀ (xs : List (Option Addr)) (ys : List (List Int)),
      List.Forall₂ (fun h w => GoodH Good h ∧ Hist g.mem h w) xs ys →
      ∀ a, some a ∈ xs → Good a := by
    intro xs ys hxy
    induction hxy with
    | nil => intro a ha; cases ha
    | cons p1 p2 ih =>
      intro a ha
      rcases List.mem_cons.mp ha with e | e
      · exact p1.1 a e.symm
      · exact ih a e
  have hroot : ∀ a, a ∈ hs'.filterMap id ↔ some a ∈ hs' := by
    intro a
    rw [List.mem_filterMap]
    constructor
    · rintro ⟨o, ho, he⟩; rw [← show o = some a from he]; exact ho
    · intro h; exact ⟨some a, h, rfl⟩
  obtain ⟨g', live', Good', f1, f2, f3, f4, f5, f6, f7⟩ := gc_spec c.pool hfr
    (roots := hs'.filterMap id) (fun a ha => hall hs' ws' e2 a ((hroot a).mp ha))
  have hex : ∀ a, (∃ r ∈ hs'.filterMap id, Reach g.mem r a) ↔ ∃ r, some r ∈ hs' ∧ Reach g.mem r a := by
    intro a
    constructor
    · rintro ⟨r, h1, h2⟩; exact ⟨r, (hroot r).mp h1, h2⟩
    · rintro ⟨r, h1, h2⟩; exact ⟨r, (hroot r).mpr h1, h2⟩
  refine ⟨g', hs', ?_, ?_, ?_, f2.freeMem, f2.arena.nodupFree, ?_⟩
  · change (pick hs keep >>= _) = _
    rw [e1, ok_bind, f1]; rfl
  · intro a
    rw [← f2.live_iff a, f5 a, c.pool.live_iff a, hex a]
  · intro a n ha hn
    have hu : Used B g'.arena a := by
      by_contra hu
      rw [f2.rawMem a hu] at ha
      cases ha
    rcases (f2.arena.cover a).mpr hu with h | h
    · obtain ⟨k, h1, h2⟩ := f2.liveMem a h
      rw [ha] at h1
      cases h1
      exact absurd hn h2
    · exact h
  · intro R hR
    have hsub : live' ⊆ lastSlot g.arena :: R := by
      intro a ha
      rcases ((f5 a).mp ha).2 with h | h
      · obtain ⟨r, h1, h2⟩ := (hex a).mp h
        exact List.mem_cons_of_mem _ (hR r a h1 h2)
      · rw [h]; exact List.mem_cons_self ..
    have hle : live'.length ≤ (lastSlot g.arena :: R).length :=
      (List.Nodup.subperm f2.arena.nodupLive hsub).length_le
    have hcount := f2.arena.count
    have hz : (live'.length : Int) + g'.arena.free.length =
        g'.arena.curBlock * B + g'.arena.curPos := by exact_mod_cast hcount
    unfold Arena.allocatedNodes
    simp only [List.length_cons] at hle
    omega

/-- **C09.**  After any history of extensions and collections without stale marks: every successor
entry `(l, b)` of a node the client can reach is a node in use with label `l` whose predecessor is that
node, with at most one entry per label. -/
theorem C09_successor_links_well_formed {B : Nat} (hB : 0 < B) {ops : List Op}
    {ws : List (List Int)} (hspec : specRun [] ops = some ws) (hf : FreshRun B ops)
    {g : GPool} {hs : List (Option Addr)} (hrun : run B init [] ops = .ok (g, hs))
    {r a : Addr} {n : Node} (hr : some r ∈ hs) (ha : Reach g.mem r a) (hn : g.mem a = some n) :
    (n.nexts.map Prod.fst).Nodup ∧
    ∀ l b, (l, b) ∈ n.nexts → ∃ k, g.mem b = some k ∧ k.state ≠ .freed ∧ k.olabel = l ∧
      k.previous = some a := by
  obtain ⟨g0, hs0, live, Good, h1, c⟩ := run_spec hB ops init [] [] ws [] _ init_cinv hspec hf
  rw [hrun] at h1
  cases h1
  have hall : ∀ (xs : List (Option Addr)) (ys : List (List Int)),
      List.Forall₂ (fun h w => GoodH Good h ∧ Hist g.mem h w) xs ys →
      ∀ a, some a ∈ xs → Good a := by
    intro xs ys hxy
    induction hxy with
    | nil => intro a ha; cases ha
    | cons p1 p2 ih =>
      intro a ha
      rcases List.mem_cons.mp ha with e | e
      · exact p1.1 a e.symm
      · exact ih a e
  have hga : ∀ r a, Reach g.mem r a → Good r → Good a := by
    intro r a h
    induction h with
    | refl a => exact fun h => h
    | step h1 h2 _ ih =>
      intro hg
      obtain ⟨k, _, q1, _, _, q4, _⟩ := c.pool.good _ hg
      rw [h1] at q1
      cases q1
      exact ih (q4 _ h2)
  have hgood := hga r a ha (hall hs ws c.handles r hr)
  refine ⟨c.pool.keys a n hn, ?_⟩
  intro l b hb
  obtain ⟨k, _, q1, _, _, _, q5⟩ := c.pool.good a hgood
  rw [hn] at q1
  cases q1
  obtain ⟨gb, kb, r1, r2, r3⟩ := q5 l b hb
  obtain ⟨kb', _, t1, t2, _⟩ := c.pool.good b gb
  rw [r1] at t1
  cases t1
  exact ⟨kb, r1, t2, r2, r3⟩

/-- **C09**, sharing: extending a (nonempty) history twice by the same word yields the same handle, and
the second extension allocates nothing. -/
theorem C09_extending_twice_is_idempotent {B : Nat} (hB : 0 < B) {ops : List Op}
    {ws : List (List Int)} (hspec : specRun [] ops = some ws) (hf : FreshRun B ops)
    {g : GPool} {hs : List (Option Addr)} (hrun : run B init [] ops = .ok (g, hs))
    {r : Addr} (hr : some r ∈ hs) (l : Int) :
    ∃ g' h', extend B g (some r) l = .ok (g', h') ∧ extend B g' (some r) l = .ok (g', h') := by
  obtain ⟨g0, hs0, live, Good, h1, c⟩ := run_spec hB ops init [] [] ws [] _ init_cinv hspec hf
  rw [hrun] at h1
  cases h1
  have hall : ∀ (xs : List (Option Addr)) (ys : List (List Int)),
      List.Forall₂ (fun h w => GoodH Good h ∧ Hist g.mem h w) xs ys →
      ∀ a, some a ∈ xs → Good a := by
    intro xs ys hxy
    induction hxy with
    | nil => intro a ha; cases ha
    | cons p1 p2 ih =>
      intro a ha
      rcases List.mem_cons.mp ha with e | e
      · exact p1.1 a e.symm
      · exact ih a e
  have hgr := hall hs ws c.handles r hr
  by_cases hl : l = 0
  · exact ⟨g, some r, by unfold extend; rw [if_pos hl], by unfold extend; rw [if_pos hl]⟩
  · obtain ⟨n, us, q1, q2, q3, q4, q5⟩ := c.pool.good r hgr
    have hln : liveNode g.mem r = .ok n := by unfold liveNode; rw [q1]; simp [q2]
    cases hlk : n.nexts.lookup l with
    | some b =>
      have : extend B g (some r) l = .ok (g, some b) := by
        unfold extend
        simp only [if_neg hl, hln, ok_bind, hlk]
      exact ⟨g, some b, this, this⟩
    | none =>
      obtain ⟨g', a, e1, e2, e3, e4, e5⟩ := alloc_spec hB c.pool (prev := some r) l (by
        intro p hp; cases hp; exact hgr)
      have hra : r ≠ a := e5 r n q1 q2
      have hln' : liveNode g'.mem r = .ok n := by
        unfold liveNode
        rw [e3, set_other _ _ hra, q1]; simp [q2]
      have hset : setNext g'.mem r l a = .ok (g'.mem.set r (n.addNext l a)) := by
        unfold setNext
        rw [hln']; rfl
      refine ⟨⟨g'.arena, g'.mem.set r (n.addNext l a)⟩, some a, ?_, ?_⟩
      · unfold extend
        simp only [if_neg hl, hln, ok_bind, hlk, e1, hset]
      · have h2 : liveNode (g'.mem.set r (n.addNext l a)) r = .ok (n.addNext l a) := by
          unfold liveNode
          rw [set_same]
          simp [Node.addNext, q2]
        have h3 : (n.addNext l a).nexts.lookup l = some a := by
          simp [Node.addNext]
        unfold extend
        simp only [if_neg hl, h2, ok_bind, h3]

/-! ## The hypotheses are satisfiable -/

/-- A client history: two hypotheses sharing a prefix, one collection that drops one of them, and
further extension through recycled slots. -/
def demo : List Op :=
  [.start, .extend 0 5, .extend 1 6, .extend 1 7, .extend 2 0, .gc [2], .extend 0 9]

example : specRun [] demo = some [[6, 5], [9, 6, 5]] := by decide
example : FreshRun 2 demo :=
  C07_first_collection_is_fresh (pre := [.start, .extend 0 5, .extend 1 6, .extend 1 7, .extend 2 0])
    (keep := [2]) (post := [.extend 0 9]) (by simp) (by simp)
example : (run 2 init [] demo).map (fun r => (r.2, readWords r.1.mem 99999 (some (1, 1)))) =
    .ok ([some (0, 1), some (1, 1)], .ok [9, 6, 5]) := by decide +kernel
/-- The two hypotheses of `C07_second_collection_corrupts` about a handle: `[6, 5]` sits in the slot
handed out last. -/
example : (run 4 init [] [.start, .extend 0 5, .extend 1 6]).map
    (fun r => (r.2, lastSlot r.1.arena)) = .ok ([none, some (0, 0), some (0, 1)], (0, 1)) := by
  decide +kernel
/-- Two collections in a row, executed: reading the kept history is undefined. -/
example : ((run 4 init [] [.start, .extend 0 5, .extend 1 6, .gc [2], .gc [0]]) >>= fun r =>
    readWords r.1.mem 99999 (some (0, 1))) = .error .ub := by decide +kernel
/-- Sharing: the second extension by 6 gives the handle of the first. -/
example : (run 4 init [] [.start, .extend 0 5, .extend 1 6, .extend 1 6]).map (fun r => r.2) =
    .ok [none, some (0, 0), some (0, 1), some (0, 1)] := by decide +kernel

end Verif.Gc
