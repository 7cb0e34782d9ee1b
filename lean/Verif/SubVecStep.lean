import Verif.SubVecLemmas

/-!
# One step of a program with views
-/

namespace Verif.VecMem

open Spec (Vals Legal Does Refused Part Views Names VDoes VRefused)
open Mat (Heap Addr peek poke load loop loop_inv memset0 memcpy)

variable {F : Type}

theorem map_get {c : List F} {l : List (Option F)} {p : Part} (h : Spec.slice l p = c.map some) {i : Nat} {x : F}
    (hi : c[i]? = some x) (hp : i < p.length) : l[p.origin + i]? = some (some x) := by
  rw [← slice_get hp, h, List.getElem?_map, hi]
  rfl

theorem fill_at {s : VSt F} {vals : Vals F} {vs : Views} {lost : List Nat} (r : RepV s vals vs lost) {t : Vec} {p : Part}
    {l : List (Option F)} (h : At s vals t p l) (x : F) :
    Wrote s vals vs lost p l (List.replicate p.length (some x)) (fill t x s.base.heap) := by
  refine wrote_loop r h List.length_replicate ?_
  rintro b hb rfl i y hy
  rw [List.getElem?_replicate] at hy
  split at hy
  · cases hy
    rfl
  · cases hy

theorem setZero_at {s : VSt F} {vals : Vals F} {vs : Views} {lost : List Nat} (r : RepV s vals vs lost) {t : Vec} {p : Part}
    {l : List (Option F)} (h : At s vals t p l) (zero : F) :
    Wrote s vals vs lost p l (List.replicate p.length (some zero)) (setZero zero t s.base.heap) := by
  have hfit := h.fits
  have hlist := h.list
  unfold setZero
  rw [if_neg (by rw [h.dim]; omega)]
  rcases h.cases with ⟨e0, -, e2, e3⟩ | ⟨b, u, g1, g2, g3, g4, g5⟩
  · subst e0
    rw [e3]
    exact wrote_none r hlist e2 List.length_replicate
  · rw [g5]
    show Wrote s vals vs lost p l _ (memset0 zero (some ⟨b, (p.origin : Nat)⟩) (p.length : Nat) s.base.heap)
    rw [memset_block zero g4 hfit]
    exact wrote_block r g1 hlist g2 g3 hfit List.length_replicate

theorem map_at {s : VSt F} {vals : Vals F} {vs : Views} {lost : List Nat} (r : RepV s vals vs lost) {t : Vec} {p : Part}
    {l : List (Option F)} (h : At s vals t p l) (f : F → F) {c : List F} (hc : Spec.slice l p = c.map some) :
    Wrote s vals vs lost p l ((c.map f).map some) (mapVec f t s.base.heap) := by
  have hlen : c.length = p.length := by rw [← slice_length h.fits, hc, List.length_map]
  have hfit := h.fits
  have hlen' : ((c.map f).map some).length = p.length := by rw [List.length_map, List.length_map]; exact hlen
  refine wrote_loop r h hlen' ?_
  rintro b hb rfl i y hy
  rw [List.getElem?_map, List.getElem?_map] at hy
  cases hx : c[i]? with
  | none => rw [hx] at hy; cases hy
  | some x =>
    rw [hx] at hy
    cases hy
    have hi : i < p.length := by rw [← hlen]; exact (List.getElem?_eq_some_iff.mp hx).1
    have e : elem ⟨some ⟨b, (p.origin : Nat)⟩, (p.length : Nat)⟩ (i : Int)
        (s.base.heap.set b (some (patch l p.origin (((c.map f).map some).take i)))) = .ok x :=
      source_load (j := p.origin + i) hb hb (by omega) (fun _ => .inr (Nat.le_refl _)) (map_get hc hx hi)
    simp only [e, ok_bind]
    rfl

/-- `MulElements` and `AddVec` after their checks. -/
theorem zip_at {s : VSt F} {vals : Vals F} {vs : Views} {lost : List Nat} (r : RepV s vals vs lost) {t t' : Vec} {p q : Part}
    {l k : List (Option F)} (h : At s vals t p l) (h' : At s vals t' q k) (hpq : p.length = q.length)
    (hn : Spec.NotInto p q) (g : F → F → F) {a c : List F} (ha : Spec.slice l p = a.map some)
    (hc : Spec.slice k q = c.map some) {f : Int → Heap F → Exec (Heap F)}
    (hf : ∀ (i : Nat) (h : Heap F) x y, i < p.length → elem t i h = .ok x → elem t' i h = .ok y →
      f i h = setElem t i (g x y) h) :
    Wrote s vals vs lost p l ((a.zipWith g c).map some) (loop t.dim f s.base.heap) := by
  have hla : a.length = p.length := by rw [← slice_length h.fits, ha, List.length_map]
  have hlc : c.length = p.length := by rw [hpq, ← slice_length h'.fits, hc, List.length_map]
  have hfit := h.fits
  have hlen : ((a.zipWith g c).map some).length = p.length := by
    rw [List.length_map, List.length_zipWith, hla, hlc, Nat.min_self]
  refine wrote_loop r h hlen ?_
  rintro b hb rfl i y hy
  have hi : i < p.length := by rw [← hlen]; exact (List.getElem?_eq_some_iff.mp hy).1
  have hxa := List.getElem?_eq_getElem (l := a) (i := i) (by omega)
  have hxc := List.getElem?_eq_getElem (l := c) (i := i) (by omega)
  generalize a[i] = x at hxa
  generalize c[i] = z at hxc
  rw [List.getElem?_map, List.getElem?_zipWith, hxa, hxc] at hy
  cases hy
  have e1 : elem ⟨some ⟨b, (p.origin : Nat)⟩, (p.length : Nat)⟩ (i : Int)
      (s.base.heap.set b (some (patch l p.origin (((a.zipWith g c).map some).take i)))) = .ok x :=
    source_load (j := p.origin + i) hb hb (by omega) (fun _ => .inr (Nat.le_refl _)) (map_get ha hxa hi)
  have e2 : elem t' (i : Int)
      (s.base.heap.set b (some (patch l p.origin (((a.zipWith g c).map some).take i)))) = .ok z := by
    rcases h'.cases with ⟨-, -, g3, -⟩ | ⟨b', u', g1, g2, g3, g4, g5⟩
    · omega
    · rw [g5]
      refine source_load (j := q.origin + i) hb g4 (by omega) (fun e => ?_) (map_get hc hxc (by omega))
      rcases h.cases with ⟨-, -, q3, -⟩ | ⟨b'', u, q1, q2, q3, q4, q5⟩
      · omega
      · have eb : b = b'' := by
          have := (Vec.mk.inj q5).1
          injection this with this
          exact (Addr.mk.inj this).1
        subst eb
        have hxy := (blocks_eq r g1 q1 g2 q2).mp e
        rcases hn with hn | hn | hn
        · exact absurd hxy.symm hn
        · exact .inr (by omega)
        · exact .inl (by omega)
  rw [hf i _ x z hi e1 e2]
  rfl

theorem mul_at {s : VSt F} {vals : Vals F} {vs : Views} {lost : List Nat} (r : RepV s vals vs lost) {t t' : Vec} {p q : Part}
    {l k : List (Option F)} (h : At s vals t p l) (h' : At s vals t' q k) (hpq : p.length = q.length)
    (hn : Spec.NotInto p q) (g : F → F → F) {a c : List F} (ha : Spec.slice l p = a.map some)
    (hc : Spec.slice k q = c.map some) :
    Wrote s vals vs lost p l ((a.zipWith g c).map some) (mulVec g t t' s.base.heap) := by
  have hdim : cassert (decide (t'.dim = t.dim)) = .ok () := by
    unfold cassert
    rw [decide_eq_true (by rw [h.dim, h'.dim, hpq])]
    rfl
  unfold mulVec
  rw [hdim, ok_bind]
  refine zip_at r h h' hpq hn g ha hc ?_
  intro i hp x y hi e1 e2
  have : get t' (i : Int) hp = .ok y := by
    unfold get cassert
    rw [decide_eq_true (by rw [h'.dim, ← hpq]; omega)]
    exact e2
  simp only [e1, ok_bind, this]

theorem overlap_at {s : VSt F} {vals : Vals F} {vs : Views} {lost : List Nat} (r : RepV s vals vs lost) {t t' : Vec}
    {p q : Part} {l k : List (Option F)} (h : At s vals t p l) (h' : At s vals t' q k) (hpq : p.length = q.length) :
    overlap t.data t'.data t.dim = true ↔ ¬ Spec.Apart p q := by
  unfold Spec.Apart
  rcases h.cases with ⟨-, e1, e2, e3⟩ | ⟨b, u, g1, g2, g3, g4, g5⟩
  · rw [e3]
    simp only [overlap]
    constructor
    · intro g; cases g
    · intro g
      exact absurd (.inr (by omega)) g
  · rcases h'.cases with ⟨-, e1, e2, e3⟩ | ⟨b', u', q1, q2, q3, q4, q5⟩
    · rw [e3, g5]
      simp only [overlap]
      constructor
      · intro g; cases g
      · intro g
        exact absurd (.inr (by omega)) g
    · have := blocks_eq r g1 q1 g2 q2
      rw [g5, q5]
      unfold overlap
      simp only [decide_eq_true_eq]
      constructor
      · rintro ⟨h1, h2, h3⟩ (h4 | h4 | h4)
        · exact h4 (this.mp h1)
        · omega
        · omega
      · intro g
        refine ⟨this.mpr (Classical.not_not.mp fun e => g (.inl e)), ?_, ?_⟩
        · have := fun e => g (.inr (.inr e)); omega
        · have := fun e => g (.inr (.inl e)); omega

theorem add_at {s : VSt F} {vals : Vals F} {vs : Views} {lost : List Nat} (r : RepV s vals vs lost) {t t' : Vec} {p q : Part}
    {l k : List (Option F)} (h : At s vals t p l) (h' : At s vals t' q k) (hpq : p.length = q.length)
    (hn : Spec.Apart p q) (g : F → F → F) {a c : List F} (ha : Spec.slice l p = a.map some)
    (hc : Spec.slice k q = c.map some) :
    Wrote s vals vs lost p l ((a.zipWith g c).map some) (addVec g t t' s.base.heap) := by
  have hov : ¬ overlap t.data t'.data t.dim = true := fun e => (overlap_at r h h' hpq).mp e hn
  unfold addVec cassert
  rw [decide_eq_true (by rw [h.dim, h'.dim, hpq])]
  show Wrote _ _ _ _ _ _ _ (if overlap t.data t'.data t.dim then _ else _)
  rw [if_neg hov]
  refine zip_at r h h' hpq ?_ g ha hc ?_
  · rcases hn with hn | hn | hn
    · exact .inl hn
    · exact .inr (.inl (by omega))
    · exact .inr (.inr hn)
  · intro i hp x y hi e1 e2
    simp only [e1, ok_bind, e2]

theorem slice_same (l : List (Option F)) (p : Part) :
    Spec.paste l p (Spec.slice l p) = l := by
  unfold Spec.paste Spec.slice
  rw [List.append_assoc, Nat.add_comm p.origin p.length, ← List.drop_drop, List.drop_drop,
    Nat.add_comm p.length p.origin, ← List.drop_drop, List.take_append_drop, List.take_append_drop]

theorem copy_at {s : VSt F} {vals : Vals F} {vs : Views} {lost : List Nat} (r : RepV s vals vs lost) {t t' : Vec} {p q : Part}
    {l k : List (Option F)} (h : At s vals t p l) (h' : At s vals t' q k) (hpq : p.length = q.length)
    (hn : p = q ∨ Spec.Apart p q) :
    Wrote s vals vs lost p l (Spec.slice k q) (copyVec t t' s.base.heap) := by
  have hfit := h.fits
  have hsl : (Spec.slice k q).length = p.length := by rw [slice_length h'.fits, hpq]
  have hdim : cassert (decide (t.dim = t'.dim)) = .ok () := by
    unfold cassert
    rw [decide_eq_true (by rw [h.dim, h'.dim, hpq])]
    rfl
  unfold copyVec
  rw [if_neg (by rw [h.dim]; omega)]
  unfold copyFrom
  rw [hdim, ok_bind]
  -- a part of no elements
  have hzero : p.length = 0 → Wrote s vals vs lost p l (Spec.slice k q) (.ok s.base.heap) := by
    intro e
    refine ⟨s, rfl, ?_⟩
    have hnil : Spec.slice k q = [] := List.length_eq_zero_iff.mp (by omega)
    have : Spec.put vals p.owner (some (Spec.paste l p (Spec.slice k q))) = vals := by
      funext z
      unfold Spec.put
      split
      · next ez =>
        rw [ez, h.list, hnil]
        unfold Spec.paste
        rw [e, List.append_nil, Nat.add_zero, List.take_append_drop]
      · rfl
    rw [this]
    exact r
  by_cases hd : t.data = t'.data
  · rw [if_pos hd]
    by_cases e : p.length = 0
    · exact hzero e
    · rcases h.cases with ⟨-, -, q3, -⟩ | ⟨b, u, g1, g2, g3, g4, g5⟩
      · exact absurd q3 e
      · rcases h'.cases with ⟨-, -, q3, -⟩ | ⟨b', u', q1, q2, q3, q4, q5⟩
        · omega
        · rw [g5, q5] at hd
          have hd' := Addr.mk.inj (Option.some.inj hd)
          have ho := (blocks_eq r g1 q1 g2 q2).mp hd'.1
          have heq : p = q := by
            cases p; cases q
            simp only at hd' ho hpq
            simp only [Part.mk.injEq]
            exact ⟨ho, by omega, hpq⟩
          subst heq
          have : k = l := Option.some.inj (h'.list.symm.trans h.list)
          subst this
          refine ⟨s, rfl, ?_⟩
          rw [slice_same]
          have : Spec.put vals p.owner (some k) = vals := by
            funext z
            unfold Spec.put
            split
            · next ez => rw [ez, h.list]
            · rfl
          rw [this]
          exact r
  · rw [if_neg hd]
    rcases h.cases with ⟨-, -, e2, e3⟩ | ⟨b, u, g1, g2, g3, g4, g5⟩
    · rw [e3]
      exact hzero e2
    · rcases h'.cases with ⟨-, -, e2, e3⟩ | ⟨b', u', q1, q2, q3, q4, q5⟩
      · rw [g5, e3]
        show Wrote _ _ _ _ _ _ _ (if (p.length : Int) = 0 then _ else _)
        rw [if_pos (by omega)]
        exact hzero (by omega)
      · have hap : Spec.Apart p q := by
          rcases hn with rfl | hn
          · have hbb := (blocks_eq r g1 q1 g2 q2).mpr rfl
            subst hbb
            exact absurd (by rw [g5, q5]) hd
          · exact hn
        have hov : ¬ overlap t.data t'.data t.dim = true := fun e => (overlap_at r h h' hpq).mp e hap
        rw [g5, q5] at hov
        simp only [overlap, decide_eq_true_eq] at hov
        have : memcpy ⟨b, (p.origin : Nat)⟩ ⟨b', (q.origin : Nat)⟩ (p.length : Nat) s.base.heap =
            .ok (s.base.heap.set b (some (patch l p.origin (Spec.slice k q)))) := by
          unfold memcpy
          rw [if_neg hov]
          have := loop_write' (f := fun i h =>
            match peek h ⟨b', (q.origin : Int) + i⟩ with
            | some c => poke h ⟨b, (p.origin : Int) + i⟩ c
            | none => .error .ub) (o := p.origin) (c := Spec.slice k q) g4 (by omega) (by
              intro i x hx
              have hi : i < p.length := by rw [← hsl]; exact (List.getElem?_eq_some_iff.mp hx).1
              have hs : peek (s.base.heap.set b (some (patch l p.origin ((Spec.slice k q).take i))))
                  ⟨b', (q.origin : Int) + i⟩ = some x := by
                refine source (j := q.origin + i) g4 q4 (by omega) (fun e => ?_) (by rw [← slice_get (by omega)]; exact hx)
                have ho := (blocks_eq r g1 q1 g2 q2).mp e.symm
                rcases hap with hap | hap | hap
                · exact absurd ho hap
                · exact .inr (by omega)
                · exact .inl (by omega)
              simp only [hs]
              rfl)
          rw [hsl] at this
          exact this
        rw [g5, q5]
        show Wrote _ _ _ _ _ _ _ (memcpy _ _ _ _)
        rw [this]
        exact wrote_block r g1 h.list g2 g3 hfit hsl

theorem put_at {s : VSt F} {vals : Vals F} {vs : Views} {lost : List Nat} (r : RepV s vals vs lost) {t : Vec} {p : Part}
    {l : List (Option F)} (h : At s vals t p l) {i : Nat} (hi : i < p.length) (x : F) :
    ∃ s', s.write (put t i x s.base.heap) = .ok s' ∧
      RepV s' (Spec.put vals p.owner (some (l.set (p.origin + i) (some x)))) vs lost := by
  have hfit := h.fits
  rcases h.cases with ⟨-, -, e2, -⟩ | ⟨b, u, g1, g2, g3, g4, g5⟩
  · omega
  · have : put t i x s.base.heap = .ok (s.base.heap.set b (some (l.set (p.origin + i) (some x)))) := by
      unfold put cassert
      rw [decide_eq_true (by rw [h.dim]; omega), g5]
      show poke s.base.heap ⟨b, ((p.origin : Nat) : Int) + (i : Int)⟩ (some x) = _
      rw [← Int.natCast_add, poke_block g4 (by omega)]
    rw [this]
    exact ⟨_, rfl, r.write g1 h.list g2 g3 List.length_set⟩

/-- A vector that keeps its length keeps its block. -/
theorem resize_same (zero : F) (w : Nat) {h h' : Heap F} {v v' : Vec} {l : List (Option F)} (ho : Own h v l) (m : Mode)
    (e : resize zero w v (l.length : Nat) m h = .ok (v', h')) : v' = v := by
  have hplain : ∀ z, resizePlain zero w v (l.length : Nat) z h = .ok (v', h') → v' = v := by
    intro z e
    unfold resizePlain at e
    rcases ho with ⟨rfl, rfl⟩ | ⟨b, g1, g2, g3, g4⟩
    · rw [if_neg (by simp)] at e
      cases z <;> cases e <;> rfl
    · rw [if_pos ⟨by rw [g1]; simp, g2⟩] at e
      obtain ⟨h1, -, e2⟩ := bind_ok e
      cases e2
      rfl
  cases m with
  | zero => exact hplain true e
  | undefined => exact hplain false e
  | copy =>
    have e : resizeCopy zero w v (l.length : Nat) h = .ok (v', h') := e
    unfold resizeCopy at e
    by_cases h1 : v.data = none ∨ ((l.length : Nat) : Int) = 0
    · rw [if_pos h1] at e
      exact hplain true e
    · rw [if_neg h1, if_pos ho.dim] at e
      cases e
      rfl

theorem set_two (s : St F) (x y : Nat) (a b : Option Vec) (z : Nat) :
    ((s.set x a).set y b).objs z = if z = y then b else if z = x then a else s.objs z := rfl

theorem put_two (s : Vals F) (x y : Nat) (a b : Option (List (Option F))) (z : Nat) :
    Spec.put (Spec.put s x a) y b z = if z = y then b else if z = x then a else s z := rfl

/-- A step on vectors: the views follow. -/
theorem own_ok (zero : F) (w : Nat) (hw : 0 < w) {s : VSt F} {vals vals' : Vals F} {vs : Views} {lost : List Nat}
    (r : RepV s vals vs lost) {op : Op F} (hl : Legal w vals op) (hd : Does zero vals op vals') :
    ∃ s' lost', vstep zero w s (.own op) = .ok s' ∧ RepV s' vals' (Spec.follow vals op vs) lost' := by
  obtain ⟨b, lost', e, rb, -⟩ := step_ok zero w r.base hl hd
  refine ⟨{ s with base := b }, lost', ?_, rb, ?_, ?_⟩
  · show (step zero w s.base op >>= _) = _
    rw [e]
    rfl
  · intro v p hp
    unfold Spec.follow at hp
    cases hv : vs v with
    | none => rw [hv] at hp; cases hp
    | some q =>
    rw [hv] at hp
    simp only at hp
    obtain ⟨u, l, g1, g2, g3, g4⟩ := r.views v q hv
    cases hd with
    | @make x n m =>
      cases hp
      obtain ⟨c, e1, e2⟩ := bind_ok e
      have hne : p.owner ≠ x := fun e' => by rw [e', hl.1] at g2; cases g2
      refine ⟨u, l, ?_, (if_neg hne).trans g2, g3, g4⟩
      rw [← Except.ok.inj e2, set_ne _ _ hne]
      exact g1
    | @move x y k hy =>
      simp only at hp
      obtain ⟨c, e1, e2⟩ := bind_ok e
      have hne : q.owner ≠ x := fun e' => by rw [e', hl.1] at g2; cases g2
      have hyx : y ≠ x := fun e' => by rw [e', hl.1] at hy; cases hy
      by_cases ho : q.owner = y
      · rw [if_pos ho] at hp
        cases hp
        have : c = u := by
          rw [ho] at g1
          rw [obj_ok g1] at e1
          cases e1
          rfl
        subst this
        refine ⟨c, l, ?_, ?_, g3, g4⟩
        · rw [← Except.ok.inj e2, set_two, if_neg hyx.symm, if_pos rfl]
        · rw [put_two, if_neg hyx.symm, if_pos rfl, ← hy, ← ho, g2]
      · rw [if_neg ho] at hp
        cases hp
        refine ⟨u, l, ?_, ?_, g3, g4⟩
        · rw [← Except.ok.inj e2, set_two, if_neg ho, if_neg hne, g1]
        · rw [put_two, if_neg ho, if_neg hne, g2]
    | @assign x y k hy =>
      simp only at hp
      obtain ⟨c', -, e⟩ := bind_ok e
      obtain ⟨c, e1, e2⟩ := bind_ok e
      by_cases hne : q.owner = x
      · rw [if_pos hne] at hp
        cases hp
      · rw [if_neg hne] at hp
        by_cases ho : q.owner = y
        · have hyx : y ≠ x := fun e' => hne (ho.trans e')
          rw [if_pos ho] at hp
          cases hp
          have : c = u := by
            rw [ho] at g1
            rw [obj_ok g1] at e1
            cases e1
            rfl
          subst this
          refine ⟨c, l, ?_, ?_, g3, g4⟩
          · rw [← Except.ok.inj e2, set_two, if_neg hyx.symm, if_pos rfl]
          · rw [put_two, if_neg hyx.symm, if_pos rfl, ← hy, ← ho, g2]
        · rw [if_neg ho] at hp
          cases hp
          refine ⟨u, l, ?_, ?_, g3, g4⟩
          · rw [← Except.ok.inj e2, set_two, if_neg ho, if_neg hne, g1]
          · rw [put_two, if_neg ho, if_neg hne, g2]
    | @swap x y k k' hx hy =>
      simp only at hp
      obtain ⟨c, e1, e⟩ := bind_ok e
      obtain ⟨c', e1', e2⟩ := bind_ok e
      by_cases ho : q.owner = y
      · rw [if_pos ho] at hp
        cases hp
        have : c' = u := by
          rw [ho] at g1
          rw [obj_ok g1] at e1'
          cases e1'
          rfl
        subst this
        have hkl : l = k' := by
          rw [ho, hy] at g2
          exact (Option.some.inj g2).symm
        subst hkl
        refine ⟨c', l, ?_, ?_, g3, g4⟩
        · rw [← Except.ok.inj e2, set_two]
          by_cases hxy : x = y
          · subst hxy
            rw [e1] at e1'
            cases e1'
            rw [if_pos rfl]
          · rw [if_neg hxy, if_pos rfl]
        · rw [put_two]
          by_cases hxy : x = y
          · subst hxy
            rw [hx] at hy
            cases hy
            rw [if_pos rfl]
          · rw [if_neg hxy, if_pos rfl]
      · rw [if_neg ho] at hp
        by_cases hne : q.owner = x
        · rw [if_pos hne] at hp
          cases hp
          have : c = u := by
            rw [hne] at g1
            rw [obj_ok g1] at e1
            cases e1
            rfl
          subst this
          have hkl : l = k := by
            rw [hne, hx] at g2
            exact (Option.some.inj g2).symm
          subst hkl
          refine ⟨c, l, ?_, ?_, g3, g4⟩
          · rw [← Except.ok.inj e2, set_two, if_pos rfl]
          · rw [put_two, if_pos rfl]
        · rw [if_neg hne] at hp
          cases hp
          refine ⟨u, l, ?_, ?_, g3, g4⟩
          · rw [← Except.ok.inj e2, set_two, if_neg ho, if_neg hne, g1]
          · rw [put_two, if_neg ho, if_neg hne, g2]
    | @resize x n m k hx =>
      simp only at hp
      obtain ⟨c, e1, e⟩ := bind_ok e
      obtain ⟨c', e1', e2⟩ := bind_ok e
      by_cases ho : q.owner = x
      · by_cases hlen : ((vals x).map fun l => (l.length : Int)) = some (n : Int)
        · rw [if_neg (fun g => g.2 hlen)] at hp
          cases hp
          rw [hx] at hlen
          have hkn : k.length = n := Int.ofNat.inj (Option.some.inj hlen)
          have hkl : l = k := by
            rw [ho, hx] at g2
            exact (Option.some.inj g2).symm
          subst hkl
          rw [ho] at g1
          rw [obj_ok g1] at e1
          cases e1
          obtain ⟨u', q1, q2⟩ := r.base.get hx
          rw [g1] at q1
          cases q1
          have hcu : c'.1 = u := resize_same zero w q2 m (h' := c'.2) (by rw [hkn]; exact e1')
          refine ⟨u, Spec.resized zero l n m, ?_, if_pos ho, ?_, g4⟩
          · rw [← Except.ok.inj e2, ho, set_same, hcu]
          · have : (Spec.resized zero l n m).length = n := by
              cases m with
              | zero => exact List.length_replicate
              | undefined =>
                show (if l.length = n then l else _).length = n
                rw [if_pos hkn, hkn]
              | copy =>
                show (l.take n ++ _).length = n
                rw [List.length_append, List.length_take, List.length_replicate]
                omega
            omega
        · rw [if_pos ⟨ho, hlen⟩] at hp
          cases hp
      · rw [if_neg (fun g => ho g.1)] at hp
        cases hp
        refine ⟨u, l, ?_, (if_neg ho).trans g2, g3, g4⟩
        rw [← Except.ok.inj e2, set_ne _ _ ho]
        exact g1
    | @put x i c k hx hi =>
      cases hp
      obtain ⟨c', -, e⟩ := bind_ok e
      obtain ⟨h', -, e2⟩ := bind_ok e
      by_cases ho : p.owner = x
      · refine ⟨u, _, by rw [← Except.ok.inj e2]; exact g1, if_pos ho, ?_, g4⟩
        rw [ho, hx] at g2
        cases g2
        rw [List.length_set]
        exact g3
      · exact ⟨u, l, by rw [← Except.ok.inj e2]; exact g1, (if_neg ho).trans g2, g3, g4⟩
    | @fill x c k hx =>
      cases hp
      obtain ⟨c', -, e⟩ := bind_ok e
      obtain ⟨h', -, e2⟩ := bind_ok e
      by_cases ho : p.owner = x
      · refine ⟨u, _, by rw [← Except.ok.inj e2]; exact g1, if_pos ho, ?_, g4⟩
        rw [ho, hx] at g2
        cases g2
        rw [List.length_replicate]
        exact g3
      · exact ⟨u, l, by rw [← Except.ok.inj e2]; exact g1, (if_neg ho).trans g2, g3, g4⟩
    | @copy x y k k' hx hy hk =>
      cases hp
      obtain ⟨c', -, e⟩ := bind_ok e
      obtain ⟨c'', -, e⟩ := bind_ok e
      obtain ⟨h', -, e2⟩ := bind_ok e
      by_cases ho : p.owner = x
      · refine ⟨u, _, by rw [← Except.ok.inj e2]; exact g1, if_pos ho, ?_, g4⟩
        rw [ho, hx] at g2
        cases g2
        rw [← hk]
        exact g3
      · exact ⟨u, l, by rw [← Except.ok.inj e2]; exact g1, (if_neg ho).trans g2, g3, g4⟩
    | @drop x =>
      simp only at hp
      obtain ⟨c', -, e⟩ := bind_ok e
      obtain ⟨h', -, e2⟩ := bind_ok e
      by_cases ho : q.owner = x
      · rw [if_pos ho] at hp
        cases hp
      · rw [if_neg ho] at hp
        cases hp
        refine ⟨u, l, ?_, (if_neg ho).trans g2, g3, g4⟩
        rw [← Except.ok.inj e2, set_ne _ _ ho]
        exact g1
  · have hput : ∀ {vals : Vals F} {x : Nat} {l : List (Option F)}, (∀ y k, vals y = some k → k.length ≤ 2147483647) →
        l.length ≤ 2147483647 → ∀ y k, Spec.put vals x (some l) y = some k → k.length ≤ 2147483647 := by
      intro vals x l h1 h2 y k hk
      unfold Spec.put at hk
      split at hk
      · cases hk; exact h2
      · exact h1 y k hk
    have hsz : ∀ {n : Nat}, (n : Int) * w ≤ 2147483647 → n ≤ 2147483647 := by
      intro n hn
      have : (n : Int) * 1 ≤ n * w := Int.mul_le_mul_of_nonneg_left (by omega) (by omega)
      omega
    have hrs : ∀ (l : List (Option F)) (n : Nat) (m : Mode), (Spec.resized zero l n m).length = n := by
      intro l n m
      cases m with
      | zero => exact List.length_replicate
      | undefined =>
        show (if l.length = n then l else _).length = n
        split
        · assumption
        · exact List.length_replicate
      | copy =>
        show (l.take n ++ _).length = n
        rw [List.length_append, List.length_take, List.length_replicate]
        omega
    cases hd with
    | make n => exact hput r.short (by rw [hrs]; exact hsz hl.2)
    | move hy => exact hput (hput r.short (r.short _ _ hy)) (by simp)
    | assign hy => exact hput (hput r.short (r.short _ _ hy)) (by simp)
    | swap hx hy => exact hput (hput r.short (r.short _ _ hy)) (r.short _ _ hx)
    | resize n hx => exact hput r.short (by rw [hrs]; exact hsz hl.2)
    | put hx hi => exact hput r.short (by rw [List.length_set]; exact r.short _ _ hx)
    | fill hx => exact hput r.short (by rw [List.length_replicate]; exact r.short _ _ hx)
    | copy hx hy hk => exact hput r.short (r.short _ _ hy)
    | @drop x =>
      intro y k hk
      unfold Spec.put at hk
      split at hk
      · cases hk
      · exact r.short y k hk

/-- One step. -/
theorem vstep_ok (zero : F) (w : Nat) (hw : 0 < w) {s : VSt F} {vals vals' : Vals F} {vs vs' : Views} {lost : List Nat}
    (r : RepV s vals vs lost) {op : VOp F} (hd : VDoes zero w vals vs op vals' vs') :
    ∃ s' lost', vstep zero w s op = .ok s' ∧ RepV s' vals' vs' lost' := by
  cases hd with
  | own hl hd => exact own_ok zero w hw r hl hd
  | @sub v t p l o n hn ho =>
    obtain ⟨u, e1, h1⟩ := r.names hn
    obtain ⟨u', g1, g2⟩ := subVec_at r h1 o n ho
    have hf := h1.fits
    refine ⟨{ s with views := fun y => if y = v then some ⟨shift u'.data (p.origin + o), n⟩ else s.views y }, lost, ?_,
      r.base, ?_, r.short⟩
    · show (s.ref t >>= _) = _
      rw [e1, ok_bind, g2]
      rfl
    · intro y q hq
      simp only at hq ⊢
      by_cases hy : y = v
      · rw [if_pos hy] at hq
        cases hq
        rw [if_pos hy]
        exact ⟨u', l, g1, h1.list, by simp only; omega, rfl⟩
      · rw [if_neg hy] at hq
        rw [if_neg hy]
        exact r.views y q hq
  | @put t p l i c hn hi =>
    obtain ⟨u, e1, h1⟩ := r.names hn
    obtain ⟨s', e2, r'⟩ := put_at r h1 hi c
    refine ⟨s', lost, ?_, r'⟩
    show (s.ref t >>= _) = _
    rw [e1, ok_bind, e2]
  | @fill t p l c hn =>
    obtain ⟨u, e1, h1⟩ := r.names hn
    obtain ⟨s', e2, r'⟩ := fill_at r h1 c
    refine ⟨s', lost, ?_, r'⟩
    show (s.ref t >>= _) = _
    rw [e1, ok_bind, e2]
  | @clear t p l hn =>
    obtain ⟨u, e1, h1⟩ := r.names hn
    obtain ⟨s', e2, r'⟩ := setZero_at r h1 zero
    refine ⟨s', lost, ?_, r'⟩
    show (s.ref t >>= _) = _
    rw [e1, ok_bind, e2]
  | @map t p l f c hn hc =>
    obtain ⟨u, e1, h1⟩ := r.names hn
    obtain ⟨s', e2, r'⟩ := map_at r h1 f hc
    refine ⟨s', lost, ?_, r'⟩
    show (s.ref t >>= _) = _
    rw [e1, ok_bind, e2]
  | @copy d t p q l k hn hn' hpq ha =>
    obtain ⟨u, e1, h1⟩ := r.names hn
    obtain ⟨u', e1', h1'⟩ := r.names hn'
    obtain ⟨s', e2, r'⟩ := copy_at r h1 h1' hpq ha
    refine ⟨s', lost, ?_, r'⟩
    show (s.ref d >>= _) = _
    rw [e1, ok_bind, e1', ok_bind, e2]
  | @mul d t p q l k g a b hn hn' hpq ha hsa hsb =>
    obtain ⟨u, e1, h1⟩ := r.names hn
    obtain ⟨u', e1', h1'⟩ := r.names hn'
    obtain ⟨s', e2, r'⟩ := mul_at r h1 h1' hpq ha g hsa hsb
    refine ⟨s', lost, ?_, r'⟩
    show (s.ref d >>= _) = _
    rw [e1, ok_bind, e1', ok_bind, e2]
  | @add d t p q l k g a b hn hn' hpq ha hsa hsb =>
    obtain ⟨u, e1, h1⟩ := r.names hn
    obtain ⟨u', e1', h1'⟩ := r.names hn'
    obtain ⟨s', e2, r'⟩ := add_at r h1 h1' hpq ha g hsa hsb
    refine ⟨s', lost, ?_, r'⟩
    show (s.ref d >>= _) = _
    rw [e1, ok_bind, e1', ok_bind, e2]

/-- A step without a meaning is stopped by an assertion. -/
theorem vstep_refused (zero : F) (w : Nat) {s : VSt F} {vals : Vals F} {vs : Views} {lost : List Nat}
    (r : RepV s vals vs lost) {op : VOp F} (hr : VRefused w vals vs op) : vstep zero w s op = .error .assert := by
  cases hr with
  | @own op hl hr =>
    show (step zero w s.base op >>= _) = _
    rw [step_refused zero w r.base hl hr]
    rfl
  | @sub v t p l o n hn ho hw =>
    obtain ⟨u, e1, h1⟩ := r.names hn
    show (s.ref t >>= _) = _
    rw [e1, ok_bind, subVec_long h1 o n ho hw]
    rfl
  | @put t p l i c hn hi =>
    obtain ⟨u, e1, h1⟩ := r.names hn
    show (s.ref t >>= _) = _
    rw [e1, ok_bind]
    unfold put cassert
    rw [decide_eq_false (by rw [h1.dim]; omega)]
    rfl
  | @copy d t p q l k hn hn' hpq =>
    obtain ⟨u, e1, h1⟩ := r.names hn
    obtain ⟨u', e1', h1'⟩ := r.names hn'
    show (s.ref d >>= _) = _
    rw [e1, ok_bind, e1', ok_bind]
    unfold copyVec
    rw [if_neg (by rw [h1.dim]; omega)]
    unfold copyFrom cassert
    rw [decide_eq_false (by rw [h1.dim, h1'.dim]; omega)]
    rfl
  | @mul d t p q l k g hn hn' hpq =>
    obtain ⟨u, e1, h1⟩ := r.names hn
    obtain ⟨u', e1', h1'⟩ := r.names hn'
    show (s.ref d >>= _) = _
    rw [e1, ok_bind, e1', ok_bind]
    unfold mulVec cassert
    rw [decide_eq_false (by rw [h1.dim, h1'.dim]; omega)]
    rfl
  | @add d t p q l k g hn hn' hpq =>
    obtain ⟨u, e1, h1⟩ := r.names hn
    obtain ⟨u', e1', h1'⟩ := r.names hn'
    show (s.ref d >>= _) = _
    rw [e1, ok_bind, e1', ok_bind]
    unfold addVec cassert
    rw [decide_eq_false (by rw [h1.dim, h1'.dim]; omega)]
    rfl

theorem vrun_from (zero : F) (w : Nat) (hw : 0 < w) {vals : Vals F} {vs : Views} {ops : List (VOp F)}
    {res : Option (Vals F × Views)} (hr : Spec.VRuns zero w vals vs ops res) :
    ∀ {s : VSt F} {lost : List Nat}, RepV s vals vs lost →
    match res with
    | some (vals', vs') => ∃ s' lost', vrun zero w ops s = .ok s' ∧ RepV s' vals' vs' lost'
    | none => vrun zero w ops s = .error .assert := by
  induction hr with
  | nil v vs => exact fun {s lost} r => ⟨s, lost, rfl, r⟩
  | @step s0 s1 vs0 vs1 op ops res hd _ ih =>
    intro s lost r
    obtain ⟨s1, l1, e1, r1⟩ := vstep_ok zero w hw r hd
    have hrun : vrun zero w (op :: ops) s = vrun zero w ops s1 := by
      show (vstep zero w s _ >>= _) = _
      rw [e1]
      rfl
    have := ih r1
    cases res with
    | none => rw [hrun]; exact this
    | some p => rw [hrun]; exact this
  | refused hr =>
    intro s lost r
    show (vstep zero w s _ >>= _) = _
    rw [vstep_refused zero w r hr]
    rfl

theorem vstart_represents : RepV (VSt.start : VSt F) (fun _ => none) (fun _ => none) [] where
  base := start_represents
  views := by intro v p h; cases h
  short := by intro x l h; cases h

/-- What is read and what the length is. -/
theorem RepV.read {s : VSt F} {vals : Vals F} {vs : Views} {lost : List Nat} (r : RepV s vals vs lost) {t : Ref} {p : Part}
    {l : List (Option F)} (hn : Names vals vs t p l) : s.dim t = .ok (p.length : Int) ∧
    (∀ (i : Nat) (x : F), i < p.length → l[p.origin + i]? = some (some x) → s.get t i = .ok x) ∧
    ∀ i : Nat, p.length ≤ i → s.get t i = .error .assert := by
  obtain ⟨u, e1, h1⟩ := r.names hn
  refine ⟨?_, ?_, ?_⟩
  · unfold VSt.dim
    rw [e1, ok_bind, h1.dim]
  · intro i x hi hx
    unfold VSt.get
    rw [e1, ok_bind]
    unfold get cassert
    rw [decide_eq_true (by rw [h1.dim]; omega)]
    rcases h1.cases with ⟨-, -, e2, -⟩ | ⟨b, u, g1, g2, g3, g4, g5⟩
    · omega
    · rw [g5]
      exact load_block g4 hx
  · intro i hi
    unfold VSt.get
    rw [e1, ok_bind]
    unfold get cassert
    rw [decide_eq_false (by rw [h1.dim]; omega)]
    rfl

end Verif.VecMem
