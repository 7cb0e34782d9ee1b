import Verif.VecMemProps
import Verif.SubVecSpec

/-!
# Lemmas about views
-/

namespace Verif.VecMem

open Spec (Vals Legal Does Part Views Names)
open Mat (Heap Addr peek poke load loop loop_inv memset0 memcpy)

variable {F : Type}

/-- The pointer of a part of a vector. -/
def shift (d : Option Addr) (o : Nat) : Option Addr := d.map fun a => ⟨a.block, a.off + o⟩

/-- The object `t` points to the part `p` of the list `l`. -/
structure At (s : VSt F) (vals : Vals F) (t : Vec) (p : Part) (l : List (Option F)) : Prop where
  owner : ∃ u, s.base.objs p.owner = some u ∧ Own s.base.heap u l ∧ t = ⟨shift u.data p.origin, p.length⟩
  list : vals p.owner = some l
  fits : p.origin + p.length ≤ l.length

/-- The memory of a program holds the lists `vals` and the views `vs`. -/
structure RepV (s : VSt F) (vals : Vals F) (vs : Views) (lost : List Nat) : Prop where
  base : Represents s.base vals lost
  views : ∀ v p, vs v = some p → ∃ u l, s.base.objs p.owner = some u ∧ vals p.owner = some l ∧
    p.origin + p.length ≤ l.length ∧ s.views v = some ⟨shift u.data p.origin, p.length⟩
  short : ∀ x l, vals x = some l → l.length ≤ 2147483647

theorem shift_zero {h : Heap F} {u : Vec} {l : List (Option F)} (ho : Own h u l) : shift u.data 0 = u.data := by
  rcases ho with ⟨-, rfl⟩ | ⟨b, h1, -⟩
  · rfl
  · rw [h1]; rfl

theorem RepV.names {s : VSt F} {vals : Vals F} {vs : Views} {lost : List Nat} (r : RepV s vals vs lost) {t : Ref} {p : Part}
    {l : List (Option F)} (hn : Names vals vs t p l) : ∃ u, s.ref t = .ok u ∧ At s vals u p l := by
  cases hn with
  | @vec x _ h =>
    obtain ⟨u, h1, h2⟩ := r.base.get h
    refine ⟨u, obj_ok h1, ⟨u, h1, h2, ?_⟩, h, by simp⟩
    rw [shift_zero h2, ← h2.dim]
  | @view v _ _ h1 h2 =>
    obtain ⟨u, k, g1, g2, g3, g4⟩ := r.views v p h1
    rw [h2] at g2
    cases g2
    obtain ⟨u', q1, q2⟩ := r.base.get h2
    rw [g1] at q1
    cases q1
    exact ⟨_, by unfold VSt.ref; simp only; rw [g4], ⟨u, g1, q2, rfl⟩, h2, g3⟩

theorem At.dim {s : VSt F} {vals : Vals F} {t : Vec} {p : Part} {l : List (Option F)} (h : At s vals t p l) :
    t.dim = p.length := by
  obtain ⟨u, -, -, rfl⟩ := h.owner
  rfl

/-- Nothing is there to point to, or a block is. -/
theorem At.cases {s : VSt F} {vals : Vals F} {t : Vec} {p : Part} {l : List (Option F)} (h : At s vals t p l) :
    (l = [] ∧ p.origin = 0 ∧ p.length = 0 ∧ t = ⟨none, 0⟩) ∨
    ∃ b u, s.base.objs p.owner = some u ∧ u.data = some ⟨b, 0⟩ ∧ Own s.base.heap u l ∧ s.base.heap[b]? = some (some l) ∧
      t = ⟨some ⟨b, (p.origin : Nat)⟩, p.length⟩ := by
  have hf := h.fits
  obtain ⟨u, h1, h2, rfl⟩ := h.owner
  rcases h2 with ⟨rfl, rfl⟩ | ⟨b, g1, g2, g3, g4⟩
  · simp only [List.length_nil] at hf
    exact .inl ⟨rfl, by omega, by omega, by rw [show p.length = 0 by omega]; rfl⟩
  · refine .inr ⟨b, u, h1, g1, .inr ⟨b, g1, g2, g3, g4⟩, g4, ?_⟩
    rw [g1]
    show Vec.mk (some ⟨b, 0 + (p.origin : Int)⟩) _ = _
    rw [Int.zero_add]

/-- A block is given other contents. -/
theorem RepV.write {s : VSt F} {vals : Vals F} {vs : Views} {lost : List Nat} (r : RepV s vals vs lost) {x b : Nat} {u : Vec}
    {l l' : List (Option F)} (hx : s.base.objs x = some u) (hv : vals x = some l) (hd : u.data = some ⟨b, 0⟩)
    (ho : Own s.base.heap u l) (hl : l'.length = l.length) :
    RepV { s with base := { s.base with heap := s.base.heap.set b (some l') } } (Spec.put vals x (some l')) vs lost := by
  have h1 := r.base.change (.inl hx) ho (Chg.contents (l' := l') hd ho hl)
  rw [St.set_self hx] at h1
  refine ⟨h1, ?_, ?_⟩
  · intro v p hp
    obtain ⟨u', k, g1, g2, g3, g4⟩ := r.views v p hp
    by_cases e : p.owner = x
    · refine ⟨u', l', g1, if_pos e, ?_, g4⟩
      rw [e, hv] at g2
      cases g2
      omega
    · exact ⟨u', k, g1, (if_neg e).trans g2, g3, g4⟩
  · intro y k hk
    unfold Spec.put at hk
    split at hk
    · cases hk
      rw [hl]
      exact r.short x l hv
    · exact r.short y k hk

theorem paste_patch (l : List (Option F)) (p : Part) {c : List (Option F)} (hc : c.length = p.length) :
    Spec.paste l p c = patch l p.origin c := by
  unfold Spec.paste patch
  rw [hc]

theorem slice_length {l : List (Option F)} {p : Part} (h : p.origin + p.length ≤ l.length) :
    (Spec.slice l p).length = p.length := by
  unfold Spec.slice
  rw [List.length_take, List.length_drop]
  omega

theorem slice_get {l : List (Option F)} {p : Part} {i : Nat} (hi : i < p.length) :
    (Spec.slice l p)[i]? = l[p.origin + i]? := by
  unfold Spec.slice
  rw [List.getElem?_take_of_lt hi, List.getElem?_drop]

/-- A loop that writes `c` into a block, where each step sees what the steps before have written. -/
theorem loop_write' {f : Int → Heap F → Exec (Heap F)} {h : Heap F} {b o : Nat} {l c : List (Option F)}
    (hb : h[b]? = some (some l)) (hc : o + c.length ≤ l.length)
    (hf : ∀ (i : Nat) (x : Option F), c[i]? = some x →
      f i (h.set b (some (patch l o (c.take i)))) = poke (h.set b (some (patch l o (c.take i)))) ⟨b, (o + i : Nat)⟩ x) :
    loop c.length f h = .ok (h.set b (some (patch l o c))) := by
  have hlt : b < h.length := (List.getElem?_eq_some_iff.mp hb).1
  have hset : ∀ k : List (Option F), (h.set b (some k))[b]? = some (some k) := fun k => by
    rw [List.getElem?_set_self hlt]
  obtain ⟨h', e, p⟩ := loop_inv (f := f)
    (fun i h1 => ∃ n : Nat, i = n ∧ h1 = h.set b (some (patch l o (c.take n)))) c.length h (by omega)
    ⟨0, rfl, by
      rw [List.take_zero, patch_nil]
      apply List.ext_getElem?
      intro i
      by_cases hi : b = i
      · rw [← hi, hb, hset]
      · rw [List.getElem?_set_ne hi]⟩ (by
      rintro i h1 h0 h2 ⟨n, rfl, rfl⟩
      have hn : n < c.length := by omega
      have hx := List.getElem?_eq_getElem hn
      have hle : o + (c.take n).length ≤ l.length := by rw [List.length_take]; omega
      refine ⟨_, (hf n _ hx).trans
        (poke_block (hset _) (by rw [patch_length _ hle]; omega) _), n + 1, rfl, ?_⟩
      rw [List.set_set, patch_snoc l hx hc])
  obtain ⟨n, hn, rfl⟩ := p
  rw [e, show n = c.length by omega, List.take_length]

/-- What a loop has not written yet is as it was. -/
theorem patch_ahead {l c : List (Option F)} {o i j : Nat} (hc : o + c.length ≤ l.length) (hj : j < o ∨ o + i ≤ j) :
    (patch l o (c.take i))[j]? = l[j]? := by
  have hle : o + (c.take i).length ≤ l.length := by rw [List.length_take]; omega
  have hi : (c.take i).length ≤ i := by rw [List.length_take]; omega
  rw [patch_get l hle]
  split
  · rfl
  · rw [if_neg (by omega)]

/-- The source of a step of a loop that writes into `b`: an element of another block, or one not written yet. -/
theorem source {h : Heap F} {b b' : Nat} {l k c : List (Option F)} {o i j : Nat} (hb : h[b]? = some (some l))
    (hb' : h[b']? = some (some k)) (hc : o + c.length ≤ l.length) (hj : b' = b → j < o ∨ o + i ≤ j) {x : Option F}
    (hx : k[j]? = some x) : peek (h.set b (some (patch l o (c.take i)))) ⟨b', (j : Nat)⟩ = some x := by
  have hlt : b < h.length := (List.getElem?_eq_some_iff.mp hb).1
  by_cases e : b' = b
  · subst e
    rw [hb] at hb'
    cases hb'
    exact peek_block' (List.getElem?_set_self hlt) ((patch_ahead hc (hj rfl)).trans hx)
  · exact peek_block' ((List.getElem?_set_ne (Ne.symm e)).trans hb') hx

theorem source_load {h : Heap F} {b b' : Nat} {l k c : List (Option F)} {o i j : Nat} (hb : h[b]? = some (some l))
    (hb' : h[b']? = some (some k)) (hc : o + c.length ≤ l.length) (hj : b' = b → j < o ∨ o + i ≤ j) {x : F}
    (hx : k[j]? = some (some x)) : load (h.set b (some (patch l o (c.take i)))) ⟨b', (j : Nat)⟩ = .ok x := by
  unfold load
  rw [source hb hb' hc hj hx]

/-- Two objects with the same owner point into the same block, two with different owners into different ones. -/
theorem blocks_eq {s : VSt F} {vals : Vals F} {vs : Views} {lost : List Nat} (r : RepV s vals vs lost) {x y b b' : Nat}
    {u u' : Vec} (hx : s.base.objs x = some u) (hy : s.base.objs y = some u') (hu : u.data = some ⟨b, 0⟩)
    (hu' : u'.data = some ⟨b', 0⟩) : b = b' ↔ x = y := by
  constructor
  · rintro rfl
    exact r.base.once x y b ⟨u, _, hx, hu, rfl⟩ ⟨u', _, hy, hu', rfl⟩
  · rintro rfl
    rw [hx] at hy
    cases hy
    rw [hu] at hu'
    cases hu'
    rfl

/-- `advance` within a vector. -/
theorem subVec_at {s : VSt F} {vals : Vals F} {vs : Views} {lost : List Nat} (r : RepV s vals vs lost) {t : Vec} {p : Part}
    {l : List (Option F)} (h : At s vals t p l) (o n : Nat) (ho : o + n ≤ p.length) :
    ∃ u, s.base.objs p.owner = some u ∧
      subVec t o n s.base.heap = .ok ⟨shift u.data (p.origin + o), n⟩ := by
  have hs := r.short _ _ h.list
  have hf := h.fits
  have hi : i32 ((o : Int) + n) = .ok ((o : Int) + n) := i32_of ⟨by omega, by omega⟩
  have hc : cassert (decide ((o : Int) + n ≤ t.dim)) = .ok () := by
    unfold cassert
    rw [decide_eq_true (by rw [h.dim]; omega)]
    rfl
  have hcase := h.cases
  obtain ⟨u, h1, h2, h3⟩ := h.owner
  refine ⟨u, h1, ?_⟩
  unfold subVec
  rw [hi, ok_bind, hc, ok_bind]
  rcases hcase with ⟨-, e1, e2, e3⟩ | ⟨b, u', g1, g2, -, g4, g5⟩
  · have eo : o = 0 := by omega
    have : shift u.data 0 = none := by
      rw [e3, e1] at h3
      exact (Vec.mk.inj h3).1.symm
    subst eo
    rw [e3, e1, Nat.add_zero, this]
    rfl
  · rw [h1] at g1
    cases g1
    rw [g5]
    have : advance (some ⟨b, (p.origin : Nat)⟩) (o : Int) s.base.heap = .ok (some ⟨b, (p.origin : Int) + o⟩) := by
      unfold advance
      simp only [g4]
      rw [if_pos ⟨by omega, by omega⟩]
    rw [this, ok_bind, g2]
    unfold shift
    show Except.ok (Vec.mk (some ⟨b, (p.origin : Int) + o⟩) n) = .ok (Vec.mk (some ⟨b, 0 + ((p.origin + o : Nat) : Int)⟩) n)
    rw [Int.zero_add, Int.natCast_add]

theorem subVec_long {s : VSt F} {vals : Vals F} {t : Vec} {p : Part} {l : List (Option F)} (h : At s vals t p l) (o n : Nat)
    (ho : p.length < o + n) (hw : o + n ≤ 2147483647) : subVec t o n s.base.heap = .error .assert := by
  unfold subVec cassert
  rw [i32_of ⟨by omega, by omega⟩, ok_bind, decide_eq_false (by rw [h.dim]; omega)]
  rfl

/-- A method has written `c` into a part. -/
def Wrote (s : VSt F) (vals : Vals F) (vs : Views) (lost : List Nat) (p : Part) (l c : List (Option F))
    (r : Exec (Heap F)) : Prop :=
  ∃ s', s.write r = .ok s' ∧ RepV s' (Spec.put vals p.owner (some (Spec.paste l p c))) vs lost

theorem wrote_none {s : VSt F} {vals : Vals F} {vs : Views} {lost : List Nat} (r : RepV s vals vs lost) {p : Part}
    {c : List (Option F)} (h : vals p.owner = some []) (h1 : p.length = 0) (hc : c.length = p.length) :
    Wrote s vals vs lost p [] c (.ok s.base.heap) := by
  refine ⟨s, rfl, ?_⟩
  have hn : c = [] := List.length_eq_zero_iff.mp (by omega)
  have : Spec.put vals p.owner (some (Spec.paste [] p c)) = vals := by
    funext z
    unfold Spec.put
    split
    · next e => rw [e, h, hn]; unfold Spec.paste; simp
    · rfl
  rw [this]
  exact r

theorem wrote_block {s : VSt F} {vals : Vals F} {vs : Views} {lost : List Nat} (r : RepV s vals vs lost) {p : Part}
    {l c : List (Option F)} {b : Nat} {u : Vec} (hx : s.base.objs p.owner = some u) (hv : vals p.owner = some l)
    (hd : u.data = some ⟨b, 0⟩) (ho : Own s.base.heap u l) (hf : p.origin + p.length ≤ l.length)
    (hc : c.length = p.length) :
    Wrote s vals vs lost p l c (.ok (s.base.heap.set b (some (patch l p.origin c)))) := by
  refine ⟨_, rfl, ?_⟩
  rw [paste_patch _ _ hc]
  exact r.write hx hv hd ho (patch_length _ (by omega))

/-- A loop over an object that computes each element from what is there before the loop. -/
theorem wrote_loop {s : VSt F} {vals : Vals F} {vs : Views} {lost : List Nat} (r : RepV s vals vs lost) {t : Vec} {p : Part}
    {l c : List (Option F)} (h : At s vals t p l) (hc : c.length = p.length) {f : Int → Heap F → Exec (Heap F)}
    (hf : ∀ b, s.base.heap[b]? = some (some l) → t = ⟨some ⟨b, (p.origin : Nat)⟩, p.length⟩ →
      ∀ (i : Nat) (x : Option F), c[i]? = some x →
      f i (s.base.heap.set b (some (patch l p.origin (c.take i)))) =
        poke (s.base.heap.set b (some (patch l p.origin (c.take i)))) ⟨b, (p.origin + i : Nat)⟩ x) :
    Wrote s vals vs lost p l c (loop t.dim f s.base.heap) := by
  have hfit := h.fits
  have hlist := h.list
  rcases h.cases with ⟨e0, -, e2, e3⟩ | ⟨b, u, g1, g2, g3, g4, g5⟩
  · subst e0
    rw [e3]
    exact wrote_none r hlist e2 hc
  · have := loop_write' g4 (by omega) (hf b g4 g5)
    rw [h.dim, ← hc, this]
    exact wrote_block r g1 hlist g2 g3 hfit hc

end Verif.VecMem
