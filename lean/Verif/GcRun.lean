import Verif.GcCollect

/-!
# A whole collection, and histories of client actions
-/

set_option linter.unusedSectionVars false
set_option linter.unusedVariables false

namespace Verif.Gc

open Verif.Pool (Addr Arena ArenaInv Used)

theorem mem_sweepSlots {B : Nat} {ar : Arena} {a : Addr} : a ∈ sweepSlots B ar ↔
    (a.1 < ar.curBlock ∧ a.2 < B) ∨ (a.1 = ar.curBlock ∧ a.2 < ar.curPos - 1) := by
  obtain ⟨b, i⟩ := a
  simp only [sweepSlots, List.mem_flatMap, List.mem_map, List.mem_range, Prod.mk.injEq]
  constructor
  · rintro ⟨c, hc, j, hj, rfl, rfl⟩
    split at hj
    · rename_i e; exact Or.inr ⟨e, hj⟩
    · rename_i e; exact Or.inl ⟨by omega, hj⟩
  · rintro (⟨h1, h2⟩ | ⟨h1, h2⟩)
    · exact ⟨b, by omega, i, by rw [if_neg (by omega)]; exact h2, rfl, rfl⟩
    · exact ⟨b, by omega, i, by rw [if_pos h1]; exact h2, rfl, rfl⟩

theorem mem_allSlots {B : Nat} {ar : Arena} {a : Addr} :
    a ∈ allSlots B ar ↔ a.1 < ar.nBlocks ∧ a.2 < B := by
  obtain ⟨b, i⟩ := a
  simp only [allSlots, List.mem_flatMap, List.mem_map, List.mem_range, Prod.mk.injEq]
  constructor
  · rintro ⟨c, hc, j, hj, rfl, rfl⟩; exact ⟨hc, hj⟩
  · rintro ⟨h1, h2⟩; exact ⟨b, h1, i, h2, rfl, rfl⟩

theorem used_cases {B : Nat} {ar : Arena} {a : Addr} (h : Used B ar a) :
    a ∈ sweepSlots B ar ∨ a = lastSlot ar := by
  rw [mem_sweepSlots]
  unfold Used at h
  unfold lastSlot
  by_cases e : a.1 = ar.curBlock ∧ a.2 = ar.curPos - 1
  · exact Or.inr (Prod.ext e.1 e.2)
  · left; omega

theorem sweep_used {B : Nat} {ar : Arena} {a : Addr} (h : a ∈ sweepSlots B ar) :
    Used B ar a ∧ a ≠ lastSlot ar := by
  rw [mem_sweepSlots] at h
  unfold Used
  refine ⟨by omega, ?_⟩
  rintro rfl
  simp only [lastSlot] at h
  omega

theorem deallocAll_inv {B : Nat} : ∀ (fs : List Addr) (ar : Arena) (live : List Addr),
    ArenaInv B ar live → fs.Nodup → (∀ a ∈ fs, a ∈ live) →
    ∃ live', ArenaInv B (deallocAll fs ar) live' ∧ (∀ a, a ∈ live' ↔ a ∈ live ∧ a ∉ fs) ∧
      (∀ a, a ∈ (deallocAll fs ar).free ↔ a ∈ fs ∨ a ∈ ar.free) ∧
      (deallocAll fs ar).curBlock = ar.curBlock ∧ (deallocAll fs ar).curPos = ar.curPos ∧
      (deallocAll fs ar).nBlocks = ar.nBlocks
  | [], ar, live, i, _, _ => ⟨live, i, by simp, by simp [deallocAll], rfl, rfl, rfl⟩
  | a :: fs, ar, live, i, hn, hs => by
    obtain ⟨h1, h2⟩ := List.nodup_cons.mp hn
    have i' := Pool.release_inv i (hs a (by simp))
    obtain ⟨live', e1, e2, e3, e4, e5, e6⟩ := deallocAll_inv fs _ _ i' h2 (by
      intro b hb
      have : b ≠ a := fun e => h1 (e ▸ hb)
      rw [List.mem_erase_of_ne this]
      exact hs b (by simp [hb]))
    refine ⟨live', e1, ?_, ?_, e4, e5, e6⟩
    · intro b
      rw [e2 b, i.nodupLive.mem_erase_iff, List.mem_cons, not_or]
      constructor
      · rintro ⟨⟨h3, h4⟩, h5⟩; exact ⟨h4, h3, h5⟩
      · rintro ⟨h4, h3, h5⟩; exact ⟨⟨h3, h4⟩, h5⟩
    · intro b
      change b ∈ (deallocAll fs { ar with free := a :: ar.free }).free ↔ _
      rw [e3 b]
      simp only [List.mem_cons]
      constructor
      · rintro (h | h | h)
        · exact Or.inl (Or.inr h)
        · exact Or.inl (Or.inl h)
        · exact Or.inr h
      · rintro ((h | h) | h)
        · exact Or.inr (Or.inl h)
        · exact Or.inl h
        · exact Or.inr (Or.inr h)

/-- A collection with good roots and no stale mark: it succeeds; what stays in use is exactly what the
roots reach, plus possibly the slot that is not visited; histories of reached nodes are unchanged. -/
theorem gc_spec {B : Nat} {g : GPool} {live : List Addr} {Good : Addr → Prop}
    (i : GInv B g.arena g.mem live Good) (hf : Fresh g) {roots : List Addr}
    (hr : ∀ a ∈ roots, Good a) :
    ∃ g' live' Good', gc B g roots = .ok g' ∧ GInv B g'.arena g'.mem live' Good' ∧
      (∀ r ∈ roots, Good' r) ∧
      (∀ r ∈ roots, ∀ ws, Hist g.mem (some r) ws → Hist g'.mem (some r) ws) ∧
      (∀ a, a ∈ live' ↔ a ∈ live ∧ ((∃ r ∈ roots, Reach g.mem r a) ∨ a = lastSlot g.arena)) ∧
      (∀ r ∈ roots, ∀ a, Reach g.mem r a → IsMarked g'.mem a) ∧
      lastSlot g'.arena = lastSlot g.arena := by
  have hdomS : ∀ a ∈ sweepSlots B g.arena, ∃ n, g.mem a = some n := by
    intro a ha
    rcases (i.arena.cover a).mpr (sweep_used ha).1 with h | h
    · obtain ⟨n, h1, _⟩ := i.liveMem a h; exact ⟨n, h1⟩
    · obtain ⟨n, h1, _⟩ := i.freeMem a h; exact ⟨n, h1⟩
  obtain ⟨m1, u1, u2⟩ := unmarkAll_spec (sweepSlots B g.arena) g.mem hdomS
  -- what unmarking does to a node
  have ufwd : ∀ b n, g.mem b = some n → ∃ n', m1 b = some n' ∧ n'.previous = n.previous ∧
      n'.olabel = n.olabel ∧ n'.nexts = n.nexts ∧ (n'.state = .freed ↔ n.state = .freed) := by
    intro b n hb
    refine ⟨_, by rw [u2 b, hb]; rfl, ?_⟩
    obtain ⟨f1, f2, f3, f4, _⟩ := unmark_facts n
    split
    · exact ⟨f1, f2, f3, f4⟩
    · exact ⟨rfl, rfl, rfl, Iff.rfl⟩
  have uback : ∀ b n', m1 b = some n' → ∃ n, g.mem b = some n := by
    intro b n' hb
    rw [u2 b] at hb
    cases hg : g.mem b with
    | none => rw [hg] at hb; cases hb
    | some n => exact ⟨n, rfl⟩
  have hnomark : ∀ b, ¬ IsMarked m1 b := by
    rintro b ⟨n', h1, h2⟩
    obtain ⟨n, hn⟩ := uback b n' h1
    rw [u2 b, hn] at h1
    simp only [Option.map_some, Option.some.injEq] at h1
    have hu : Used B g.arena b := by
      by_contra hu
      rw [i.rawMem b hu] at hn
      cases hn
    rcases used_cases hu with h | h
    · rw [if_pos h] at h1
      rw [← h1] at h2
      exact (unmark_facts n).2.2.2.2 h2
    · have hns : b ∉ sweepSlots B g.arena := by
        intro hc; exact (sweep_used hc).2 h
      rw [if_neg hns] at h1
      rw [← h1] at h2
      exact hf n (h ▸ hn) h2
  -- marking
  have hgoodUsed : ∀ a, Good a → a ∈ allSlots B g.arena := by
    intro a ha
    obtain ⟨n, _, h1, _⟩ := i.good a ha
    have hu : Used B g.arena a := by
      by_contra hu
      rw [i.rawMem a hu] at h1
      cases h1
    rw [mem_allSlots]
    have hb := i.arena.block
    have hp := i.arena.pos
    unfold Used at hu
    omega
  have hcount := unmarkedCount_le (m := m1) (allSlots B g.arena)
  obtain ⟨m2, k1, k2, k3, k4⟩ := markLoop_spec Good (allSlots B g.arena) hgoodUsed
    (roots.length + (allSlots B g.arena).length + 1) m1 roots.reverse (by
      intro a ha
      obtain ⟨n, _, h1, h2, _, h3, _⟩ := i.good a ha
      obtain ⟨n', f1, f2, _, _, f3⟩ := ufwd a n h1
      exact ⟨n', f1, fun e => h2 (f3.mp e), fun p hp => h3 p (f2 ▸ hp)⟩)
    (by intro a ha; exact hr a (List.mem_reverse.mp ha)) (by
      rw [List.length_reverse]; omega)
  have hreach : ∀ r a, Reach m1 r a ↔ Reach g.mem r a := by
    intro r a
    constructor
    · intro h
      refine h.transfer ?_
      intro c n' hc
      obtain ⟨n, hn⟩ := uback c n' hc
      obtain ⟨n'', f1, f2, _⟩ := ufwd c n hn
      rw [hc] at f1
      cases f1
      exact ⟨n, hn, f2.symm⟩
    · intro h
      refine h.transfer ?_
      intro c n hc
      obtain ⟨n', f1, f2, _⟩ := ufwd c n hc
      exact ⟨n', f1, f2⟩
  -- node of m2 from node of g.mem
  have mfwd : ∀ b n, g.mem b = some n → ∃ n', m2 b = some n' ∧ n'.previous = n.previous ∧
      n'.olabel = n.olabel ∧ n'.nexts = n.nexts ∧ (n'.state = .freed ↔ n.state = .freed) := by
    intro b n hb
    obtain ⟨n1, f1, f2, f3, f4, f5⟩ := ufwd b n hb
    obtain ⟨n2, e1, e2, e3, e4, e5⟩ := k2.fwd f1
    exact ⟨n2, e1, e2.trans f2, e3.trans f3, e4.trans f4, e5.trans f5⟩
  have mback : ∀ b n', m2 b = some n' → ∃ n, g.mem b = some n := by
    intro b n' hb
    obtain ⟨n1, f1, _⟩ := k2.back hb
    exact uback b n1 f1
  have hmarkReach : ∀ a, IsMarked m2 a → ∃ r ∈ roots, Reach g.mem r a := by
    intro a ha
    rcases k4 a ha with h | ⟨⟨r, h1, h2⟩, _⟩
    · exact absurd h (hnomark a)
    · exact ⟨r, List.mem_reverse.mp h1, (hreach r a).mp h2⟩
  have hclosed : ∀ a n p, IsMarked m2 a → g.mem a = some n → n.previous = some p → IsMarked m2 p := by
    intro a n p ha hn hp
    rcases k4 a ha with h | ⟨_, h2⟩
    · exact absurd h (hnomark a)
    · obtain ⟨n1, f1, f2, _⟩ := ufwd a n hn
      exact h2 n1 p f1 (f2 ▸ hp)
  have hreachMark : ∀ r a, Reach g.mem r a → IsMarked m2 r → IsMarked m2 a := by
    intro r a h
    induction h with
    | refl a => exact fun h => h
    | step h1 h2 _ ih => exact fun h => ih (hclosed _ _ _ h h1 h2)
  have hrootMark : ∀ r ∈ roots, IsMarked m2 r := fun r h => k3 r (List.mem_reverse.mpr h)
  have hptr2 : ∀ a n p, m2 a = some n → n.previous = some p → ∃ k, m2 p = some k := by
    intro a n p ha hp
    obtain ⟨n0, h0⟩ := mback a n ha
    obtain ⟨n', f1, f2, _⟩ := mfwd a n0 h0
    rw [ha] at f1
    cases f1
    obtain ⟨k, hk⟩ := i.ptr a n0 p h0 (f2 ▸ hp)
    obtain ⟨k', h, _⟩ := mfwd p k hk
    exact ⟨k', h⟩
  obtain ⟨m3, fs, s1, s2, s3, s4, s5, s6⟩ := sweep_spec (sweepSlots B g.arena) m2 (by
    intro a ha
    obtain ⟨n, hn⟩ := hdomS a ha
    obtain ⟨n', h, _⟩ := mfwd a n hn
    exact ⟨n', h⟩) hptr2
  have hfsLive : ∀ a ∈ fs, a ∈ live := by
    intro a ha
    obtain ⟨_, n', h1, h2, _⟩ := (s2 a).mp ha
    obtain ⟨n, hn⟩ := mback a n' h1
    obtain ⟨n'', f1, _, _, _, f2⟩ := mfwd a n hn
    rw [h1] at f1
    cases f1
    exact (i.live_iff a).mpr ⟨n, hn, fun e => h2 (f2.mpr e)⟩
  obtain ⟨live', d1, d2, d3, d4, d5, d6⟩ := deallocAll_inv fs g.arena live i.arena s3 hfsLive
  have hnotDead : ∀ a, IsMarked m2 a → ¬ Dead m2 (sweepSlots B g.arena) a := by
    rintro a ⟨n, h1, h2⟩ ⟨_, k, h3, _, h4⟩
    rw [h1] at h3
    cases h3
    exact h4 h2
  -- survivors keep their node
  have sfwd : ∀ b n, g.mem b = some n → ¬ Dead m2 (sweepSlots B g.arena) b → ∃ n', m3 b = some n' ∧
      n'.previous = n.previous ∧ n'.olabel = n.olabel ∧ n'.nexts.Sublist n.nexts ∧
      (n'.state = .freed ↔ n.state = .freed) ∧
      (n.state ≠ .freed → ∀ a k, Dead m2 (sweepSlots B g.arena) a → g.mem a = some k →
        k.previous = some b → ∀ c, (k.olabel, c) ∉ n'.nexts) := by
    intro b n hb hd
    obtain ⟨n2, f1, f2, f3, f4, f5⟩ := mfwd b n hb
    obtain ⟨n3, e1, e2, e3, e4, e5, e6⟩ := s6 b n2 f1 hd
    refine ⟨n3, e1, e4.trans f2, e3.trans f3, f4 ▸ e5, by rw [e2]; exact f5, ?_⟩
    intro hnf a k hda hk hkp c
    obtain ⟨k2', q1, q2, q3, _⟩ := mfwd a k hk
    rw [← q3]
    exact e6 (fun e => hnf (f5.mp e)) a k2' hda q1 (by rw [q2]; exact hkp) c
  have hchain : ∀ o ws, Hist g.mem o ws → (∀ a, o = some a → IsMarked m2 a) → Hist m3 o ws := by
    intro o ws h
    induction h with
    | nil => intro _; exact .nil
    | cons h1 h2 _ ih =>
      intro ha
      rename_i a n ws _
      obtain ⟨n', f1, f2, f3, _, f5, _⟩ := sfwd a n h1 (hnotDead a (ha a rfl))
      rw [← f3]
      refine .cons f1 (fun e => h2 (f5.mp e)) ?_
      rw [f2]
      exact ih (fun p hp => hclosed a n p (ha a rfl) h1 hp)
  have hlast : ∀ a, a ∈ live → ¬ IsMarked m2 a → ¬ Dead m2 (sweepSlots B g.arena) a →
      a = lastSlot g.arena := by
    intro a hal hm hd
    obtain ⟨n, h1, h2⟩ := i.liveMem a hal
    have hu := (i.arena.cover a).mp (Or.inl hal)
    rcases used_cases hu with h | h
    · exfalso
      obtain ⟨n2, f1, _, _, _, f5⟩ := mfwd a n h1
      exact hd ⟨h, n2, f1, fun e => h2 (f5.mp e), fun e => hm ⟨n2, f1, e⟩⟩
    · exact h
  refine ⟨⟨deallocAll fs g.arena, m3⟩, live',
    fun b => Good b ∧ ¬ Dead m2 (sweepSlots B g.arena) b ∧
      ∀ n p, g.mem b = some n → n.previous = some p → IsMarked m2 p, ?_, ?_, ?_, ?_, ?_, ?_, ?_⟩
  · unfold gc
    simp only [u1, ok_bind, k1, s1]
  · have hused : ∀ a, Used B (deallocAll fs g.arena) a ↔ Used B g.arena a := by
      intro a; unfold Used; rw [d4, d5]
    refine ⟨d1, ?_, ?_, ?_, ?_, ?_, ?_⟩
    · intro a ha
      obtain ⟨h1, h2⟩ := (d2 a).mp ha
      obtain ⟨n, h3, h4⟩ := i.liveMem a h1
      obtain ⟨n', f1, _, _, _, f5, _⟩ := sfwd a n h3 (fun h => h2 ((s2 a).mpr h))
      exact ⟨n', f1, fun e => h4 (f5.mp e)⟩
    · intro a ha
      rcases (d3 a).mp ha with h | h
      · exact ⟨_, s5 a ((s2 a).mp h), rfl⟩
      · obtain ⟨n, h1, h2⟩ := i.freeMem a h
        have hnd : ¬ Dead m2 (sweepSlots B g.arena) a := by
          intro hd
          exact i.arena.disjoint a h (hfsLive a ((s2 a).mpr hd))
        obtain ⟨n', f1, _, _, _, f5, _⟩ := sfwd a n h1 hnd
        exact ⟨n', f1, f5.mpr h2⟩
    · intro a ha
      rw [hused] at ha
      have h0 := i.rawMem a ha
      have h1 : m2 a = none := by
        cases hm : m2 a with
        | none => rfl
        | some n =>
          obtain ⟨k, hk⟩ := mback a n hm
          rw [h0] at hk; cases hk
      exact s4 a h1
    · have hdom3 : ∀ b k, g.mem b = some k → ∃ k', m3 b = some k' := by
        intro b k hb
        by_cases hd : Dead m2 (sweepSlots B g.arena) b
        · exact ⟨_, s5 b hd⟩
        · obtain ⟨n', f1, _⟩ := sfwd b k hb hd; exact ⟨n', f1⟩
      intro a n p ha hp
      cases hg : g.mem a with
      | none =>
        have h1 : m2 a = none := by
          cases hm : m2 a with
          | none => rfl
          | some n =>
            obtain ⟨k, hk⟩ := mback a n hm
            rw [hg] at hk; cases hk
        simp only at ha
        rw [s4 a h1] at ha
        cases ha
      | some n0 =>
        by_cases hd : Dead m2 (sweepSlots B g.arena) a
        · simp only at ha
          rw [s5 a hd] at ha
          cases ha
          cases hp
        · obtain ⟨n', f1, f2, _⟩ := sfwd a n0 hg hd
          simp only at ha
          rw [f1] at ha
          cases ha
          obtain ⟨k, hk⟩ := i.ptr a n0 p hg (f2 ▸ hp)
          exact hdom3 p k hk
    · rintro b ⟨hb, hd, hpm⟩
      obtain ⟨n, ws, h1, h2, h3, h4, h5⟩ := i.good b hb
      obtain ⟨n', f1, f2, f3, f4, f5, f6⟩ := sfwd b n h1 hd
      have hnf' : n'.state ≠ .freed := fun e => h2 (f5.mp e)
      refine ⟨n', ws, f1, hnf', ?_, ?_, ?_⟩
      · cases h3 with
        | cons q1 q2 q3 =>
          rw [h1] at q1
          cases q1
          rw [← f3]
          refine .cons f1 hnf' ?_
          rw [f2]
          exact hchain _ _ q3 (fun p hp => hpm n p h1 hp)
      · intro p hp
        rw [f2] at hp
        have hpmk := hpm n p h1 hp
        exact ⟨h4 p hp, hnotDead p hpmk, fun k q hk hq => hclosed p k q hpmk hk hq⟩
      · intro l c hc
        obtain ⟨g6, k, g7, g8, g9⟩ := h5 l c (f4.subset hc)
        have hcd : ¬ Dead m2 (sweepSlots B g.arena) c := by
          intro hcd
          refine f6 h2 c k hcd g7 g9 c ?_
          rw [g8]; exact hc
        obtain ⟨k', e1, e2, e3, _⟩ := sfwd c k g7 hcd
        have hbm : IsMarked m2 b := by
          by_contra hbm
          have hbl := hlast b ((i.live_iff b).mpr ⟨n, h1, h2⟩) hbm hd
          have hcm : ¬ IsMarked m2 c := fun h => hbm (hclosed c k b h g7 g9)
          obtain ⟨kc, wc, c1, c2, c3, _⟩ := i.good c g6
          rw [g7] at c1
          cases c1
          have hcl := hlast c ((i.live_iff c).mpr ⟨k, g7, c2⟩) hcm hcd
          have : b = c := hbl.trans hcl.symm
          subst this
          exact c3.acyclic g7 g9
        refine ⟨⟨g6, hcd, ?_⟩, k', e1, by rw [e3, g8], by rw [e2, g9]⟩
        intro n1 p hn1 hp
        rw [g7] at hn1
        cases hn1
        rw [g9] at hp
        cases hp
        exact hbm
    · intro b n hb
      cases hg : g.mem b with
      | none =>
        have h1 : m2 b = none := by
          cases hm : m2 b with
          | none => rfl
          | some n =>
            obtain ⟨k, hk⟩ := mback b n hm
            rw [hg] at hk; cases hk
        simp only at hb
        rw [s4 b h1] at hb
        cases hb
      | some n0 =>
        by_cases hd : Dead m2 (sweepSlots B g.arena) b
        · simp only at hb
          rw [s5 b hd] at hb
          cases hb
          simp [freedNode]
        · obtain ⟨n', f1, _, _, f4, _⟩ := sfwd b n0 hg hd
          simp only at hb
          rw [f1] at hb
          cases hb
          exact (f4.map _).nodup (i.keys b n0 hg)
  · intro r hrr
    have := hrootMark r hrr
    exact ⟨hr r hrr, hnotDead r this, fun n p hn hp => hclosed r n p this hn hp⟩
  · intro r hrr ws h
    exact hchain _ _ h (fun a ha => by cases ha; exact hrootMark r hrr)
  · intro a
    rw [d2 a]
    refine and_congr_right fun hal => ?_
    constructor
    · intro hfs
      by_cases hm : IsMarked m2 a
      · exact Or.inl (hmarkReach a hm)
      · exact Or.inr (hlast a hal hm (fun h => hfs ((s2 a).mpr h)))
    · rintro (⟨r, h1, h2⟩ | h) hc
      · exact hnotDead a (hreachMark r a h2 (hrootMark r h1)) ((s2 a).mp hc)
      · exact (sweep_used ((s2 a).mp hc).1).2 h
  · intro r h1 a h2
    have hm := hreachMark r a h2 (hrootMark r h1)
    obtain ⟨n2, e1, e2⟩ := hm
    obtain ⟨n3, f1, f2, _⟩ := s6 a n2 e1 (hnotDead a ⟨n2, e1, e2⟩)
    exact ⟨n3, f1, f2.trans e2⟩
  · unfold lastSlot; simp only; rw [d4, d5]

/-! ## Histories -/

/-- The state of a client and its pool, against the words its handles stand for. -/
structure CInv (B : Nat) (g : GPool) (hs : List (Option Addr)) (ws : List (List Int))
    (live : List Addr) (Good : Addr → Prop) : Prop where
  pool : GInv B g.arena g.mem live Good
  handles : List.Forall₂ (fun h w => GoodH Good h ∧ Hist g.mem h w) hs ws

theorem forall₂_get {α β : Type} {R : α → β → Prop} : ∀ {xs : List α} {ys : List β},
    List.Forall₂ R xs ys → ∀ {i : Nat} {y : β}, ys[i]? = some y → ∃ x, xs[i]? = some x ∧ R x y
  | _, _, .nil, i, y, h => by simp at h
  | _, _, .cons h1 h2, 0, y, h => by
    simp only [List.getElem?_cons_zero, Option.some.injEq] at h
    subst h
    exact ⟨_, by simp, h1⟩
  | _, _, .cons h1 h2, i + 1, y, h => by
    simp only [List.getElem?_cons_succ] at h
    obtain ⟨x, e1, e2⟩ := forall₂_get h2 h
    exact ⟨x, by simpa using e1, e2⟩

theorem aget_nat {α : Type} {xs : List α} {i : Nat} {x : α} (h : xs[i]? = some x) :
    aget xs (i : Int) = .ok x := by
  apply aget_of
  · omega
  · simpa using h

theorem pick_spec {R : Option Addr → List Int → Prop} {hs : List (Option Addr)}
    {ws : List (List Int)} (h : List.Forall₂ R hs ws) : ∀ {keep : List Nat} {ws' : List (List Int)},
    pickWords ws keep = some ws' → ∃ hs', pick hs keep = .ok hs' ∧ List.Forall₂ R hs' ws'
  | [], ws', e => by cases e; exact ⟨[], rfl, .nil⟩
  | i :: is, ws', e => by
    unfold pickWords at e
    cases h1 : ws[i]? with
    | none => rw [h1] at e; cases e
    | some w =>
      cases h2 : pickWords ws is with
      | none => rw [h1, h2] at e; cases e
      | some t =>
        rw [h1, h2] at e
        cases e
        obtain ⟨x, e1, e2⟩ := forall₂_get h h1
        obtain ⟨hs', e3, e4⟩ := pick_spec h h2
        exact ⟨x :: hs', by unfold pick; rw [aget_nat e1, ok_bind, e3]; rfl, .cons e2 e4⟩

theorem step_spec {B : Nat} (hB : 0 < B) {g : GPool} {hs : List (Option Addr)}
    {ws ws' : List (List Int)} {live : List Addr} {Good : Addr → Prop} {op : Op}
    (c : CInv B g hs ws live Good) (h : specStep ws op = some ws')
    (hf : ∀ keep, op = .gc keep → Fresh g) :
    ∃ g' hs' live' Good', step B g hs op = .ok (g', hs') ∧ CInv B g' hs' ws' live' Good' := by
  cases op with
  | start =>
    cases h
    refine ⟨g, _, live, Good, rfl, c.pool, ?_⟩
    refine List.rel_append c.handles (.cons ⟨?_, .nil⟩ .nil)
    intro a ha; cases ha
  | extend i l =>
    simp only [specStep] at h
    cases hw : ws[i]? with
    | none => rw [hw] at h; cases h
    | some w =>
      rw [hw] at h
      cases h
      obtain ⟨x, e1, e2, e3⟩ := forall₂_get c.handles hw
      obtain ⟨g', h', live', Good', f1, f2, f3, f4, f5, f6⟩ := extend_spec hB c.pool l e2 e3
      refine ⟨g', hs ++ [h'], live', Good', ?_, f2, ?_⟩
      · change (aget hs (i : Int) >>= _) = _
        rw [aget_nat e1, ok_bind, f1]; rfl
      · refine List.rel_append (c.handles.imp ?_) (.cons ⟨f3, f5⟩ .nil)
        rintro o us ⟨p1, p2⟩
        exact ⟨fun a ha => f4 a (p1 a ha), f6 o us p2⟩
  | gc keep =>
    obtain ⟨hs', e1, e2⟩ := pick_spec c.handles h
    have hall : ∀ (xs : List (Option Addr)) (ys : List (List Int)),
        List.Forall₂ (fun h w => GoodH Good h ∧ Hist g.mem h w) xs ys →
        ∀ a, some a ∈ xs → Good a := by
      intro xs ys hxy
      induction hxy with
      | nil => intro a ha; cases ha
      | cons p1 p2 ih =>
        intro a ha
        rcases List.mem_cons.mp ha with e | e
        · exact p1.1 a e.symm
        · exact ih a e
    obtain ⟨g', live', Good', f1, f2, f3, f4, _⟩ := gc_spec c.pool (hf keep rfl)
      (roots := hs'.filterMap id) (by
        intro a ha
        obtain ⟨o, ho, he⟩ := List.mem_filterMap.mp ha
        exact hall hs' ws' e2 a (by rw [← show o = some a from he]; exact ho))
    refine ⟨g', hs', live', Good', ?_, f2, ?_⟩
    · change (pick hs keep >>= _) = _
      rw [e1, ok_bind, f1]; rfl
    · have : ∀ (xs : List (Option Addr)) (ys : List (List Int)),
          List.Forall₂ (fun h w => GoodH Good h ∧ Hist g.mem h w) xs ys →
          (∀ o ∈ xs, o ∈ hs') →
          List.Forall₂ (fun h w => GoodH Good' h ∧ Hist g'.mem h w) xs ys := by
        intro xs ys hxy
        induction hxy with
        | nil => intro _; exact .nil
        | cons p1 p2 ih =>
          intro hsub
          refine .cons ?_ (ih (fun o ho => hsub o (List.mem_cons_of_mem _ ho)))
          rename_i o w _ _
          have ho := hsub o (List.mem_cons_self ..)
          cases o with
          | none =>
            obtain ⟨_, p12⟩ := p1
            cases p12
            refine ⟨?_, .nil⟩
            intro a ha
            simp at ha
          | some a =>
            have : a ∈ hs'.filterMap id := List.mem_filterMap.mpr ⟨some a, ho, rfl⟩
            exact ⟨fun b hb => by cases hb; exact f3 a this, f4 a this _ p1.2⟩
      exact this hs' ws' e2 (fun o ho => ho)

theorem run_cons {B : Nat} {g : GPool} {hs : List (Option Addr)} {op : Op} {ops : List Op} :
    run B g hs (op :: ops) = (step B g hs op >>= fun r => run B r.1 r.2 ops) := rfl

theorem run_spec {B : Nat} (hB : 0 < B) : ∀ (ops : List Op) (g : GPool) (hs : List (Option Addr))
    (ws ws' : List (List Int)) (live : List Addr) (Good : Addr → Prop),
    CInv B g hs ws live Good → specRun ws ops = some ws' →
    (∀ pre keep post g' hs', ops = pre ++ .gc keep :: post → run B g hs pre = .ok (g', hs') →
      Fresh g') →
    ∃ g' hs' live' Good', run B g hs ops = .ok (g', hs') ∧ CInv B g' hs' ws' live' Good'
  | [], g, hs, ws, ws', live, Good, c, h, _ => by
    cases h; exact ⟨g, hs, live, Good, rfl, c⟩
  | op :: ops, g, hs, ws, ws', live, Good, c, h, hf => by
    unfold specRun at h
    cases h1 : specStep ws op with
    | none => rw [h1] at h; cases h
    | some w1 =>
      rw [h1] at h
      simp only at h
      obtain ⟨g1, hs1, live1, Good1, e1, e2⟩ := step_spec hB c h1 (by
        intro keep hk
        subst hk
        exact hf [] keep ops g hs rfl rfl)
      obtain ⟨g2, hs2, live2, Good2, e3, e4⟩ := run_spec hB ops g1 hs1 w1 ws' live1 Good1 e2 h (by
        intro pre keep post g' hs' he hr
        refine hf (op :: pre) keep post g' hs' (by rw [he]; rfl) ?_
        rw [run_cons, e1, ok_bind]; exact hr)
      exact ⟨g2, hs2, live2, Good2, by rw [run_cons, e1, ok_bind]; exact e3, e4⟩

theorem init_cinv {B : Nat} : CInv B init [] [] [] (fun _ => False) := ⟨init_inv, .nil⟩

/-- Reading a chain back. -/
theorem Hist.read {m : Mem} {o : Option Addr} {ws : List Int} (h : Hist m o ws) :
    ∀ {k : Nat}, ws.length ≤ k → readWords m k o = .ok ws := by
  induction h with
  | nil => intro k _; cases k <;> rfl
  | cons h1 h2 _ ih =>
    intro k hk
    cases k with
    | zero => simp at hk
    | succ k =>
      unfold readWords liveNode
      rw [h1]
      simp only [if_neg h2, ok_bind]
      rw [ih (by simpa using hk)]
      rfl

/-- Before the first collection no node is marked. -/
theorem run_noGc {B : Nat} : ∀ (ops : List Op) (g g' : GPool) (hs hs' : List (Option Addr)),
    (∀ a, ¬ IsMarked g.mem a) → run B g hs ops = .ok (g', hs') → (∀ keep, .gc keep ∉ ops) →
    ∀ a, ¬ IsMarked g'.mem a
  | [], g, g', hs, hs', h, hr, _ => by cases hr; exact h
  | op :: ops, g, g', hs, hs', h, hr, hno => by
    rw [run_cons] at hr
    obtain ⟨⟨g1, hs1⟩, h1, hr⟩ := bind_ok hr
    refine run_noGc ops g1 g' hs1 hs' ?_ hr (fun keep hk => hno keep (List.mem_cons_of_mem _ hk))
    have halloc : ∀ (g g1 : GPool) prev label a, (∀ a, ¬ IsMarked g.mem a) →
        alloc B g prev label = .ok (g1, a) → ∀ a, ¬ IsMarked g1.mem a := by
      intro g g1 prev label a hg ha b
      unfold alloc at ha
      obtain ⟨⟨ar, c⟩, _, ha⟩ := bind_ok ha
      cases ha
      rintro ⟨n, e1, e2⟩
      simp only at e1
      by_cases e : b = a
      · subst e; rw [set_same] at e1; cases e1; cases e2
      · rw [set_other _ _ e] at e1; exact hg b ⟨n, e1, e2⟩
    cases op with
    | start => cases h1; exact h
    | gc keep => exact absurd (List.mem_cons_self ..) (hno keep)
    | extend i l =>
      change (aget hs (i : Int) >>= fun x => extend B g x l >>= fun r => .ok (r.1, hs ++ [r.2])) = _ at h1
      obtain ⟨x, _, h1⟩ := bind_ok h1
      obtain ⟨⟨g2, h2⟩, h3, h1⟩ := bind_ok h1
      cases h1
      unfold extend at h3
      split at h3
      · cases h3; exact h
      · cases x with
        | none =>
          obtain ⟨⟨g3, a⟩, h4, h3⟩ := bind_ok h3
          cases h3
          exact halloc _ _ _ _ _ h h4
        | some p =>
          obtain ⟨n, _, h3⟩ := bind_ok h3
          split at h3
          · cases h3; exact h
          · obtain ⟨⟨g3, a⟩, h4, h3⟩ := bind_ok h3
            obtain ⟨m, h5, h3⟩ := bind_ok h3
            cases h3
            have hg3 := halloc _ _ _ _ _ h h4
            unfold setNext at h5
            obtain ⟨k, hk, h5⟩ := bind_ok h5
            cases h5
            unfold liveNode at hk
            rintro b ⟨c, e1, e2⟩
            simp only at e1
            by_cases e : b = p
            · subst e
              rw [set_same] at e1
              cases e1
              cases hm : g3.mem b with
              | none => simp only [hm] at hk; cases hk
              | some c =>
                simp only [hm] at hk
                split at hk
                · cases hk
                · cases hk
                  exact hg3 b ⟨_, hm, e2⟩
            · rw [set_other _ _ e] at e1
              exact hg3 b ⟨c, e1, e2⟩

end Verif.Gc
