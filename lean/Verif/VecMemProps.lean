import Verif.VecMemLemmas

/-!
# C79: vectors own their memory
-/

namespace Verif.VecMem

open Spec (Vals Legal Does Refused Overwrites Runs)
open Mat (Heap Addr)

variable {F : Type}

theorem Represents.get {s : St F} {vals : Vals F} {lost : List Nat} (r : Represents s vals lost) {x : Nat}
    {l : List (Option F)} (h : vals x = some l) : ∃ v, s.objs x = some v ∧ Own s.heap v l := by
  rcases r.values x with ⟨h1, -⟩ | ⟨l', v, h1, h2, h3⟩
  · rw [h] at h1; cases h1
  · rw [h] at h1; cases h1
    exact ⟨v, h2, h3⟩

theorem obj_ok {s : St F} {x : Nat} {v : Vec} (h : s.objs x = some v) : s.obj x = .ok v := by
  unfold St.obj
  rw [h]

theorem set_same (s : St F) (x : Nat) (v : Option Vec) : (s.set x v).objs x = v := if_pos rfl

theorem set_ne (s : St F) {x y : Nat} (v : Option Vec) (h : y ≠ x) : (s.set x v).objs y = s.objs y := if_neg h

/-- The vector `v` of an object (or the empty vector of one that is to be made) has been changed. -/
theorem Represents.change {s : St F} {vals : Vals F} {lost : List Nat} (r : Represents s vals lost) {x : Nat} {v : Vec}
    {l : List (Option F)} (hx : s.objs x = some v ∨ (s.objs x = none ∧ v = .empty)) (ho : Own s.heap v l)
    {h' : Heap F} {v' : Vec} {l' : List (Option F)} (hc : Chg s.heap v h' v' l') :
    Represents ({ s with heap := h' }.set x (some v')) (Spec.put vals x (some l')) lost := by
  have hown : ∀ a, v.data = some a → Owner s x a.block := by
    intro a ha
    rcases hx with hx | ⟨-, rfl⟩
    · exact ⟨v, a, hx, ha, rfl⟩
    · cases ha
  have hlt : ∀ y b, Owner s y b → b < s.heap.length := by
    rintro y b ⟨u, a, h1, h2, rfl⟩
    rcases r.values y with ⟨-, g⟩ | ⟨k, u', -, g1, g2⟩
    · rw [h1] at g; cases g
    · rw [h1] at g1; cases g1
      exact (List.getElem?_eq_some_iff.mp (g2.block h2).2.1).1
  have hoth : ∀ y b, y ≠ x → (Owner ({ s with heap := h' }.set x (some v')) y b ↔ Owner s y b) := by
    intro y b hy
    unfold Owner
    rw [set_ne _ _ hy]
  have hfr : ∀ y b, y ≠ x → Owner s y b → h'[b]? = s.heap[b]? := by
    intro y b hy hb
    refine hc.frame b (fun a ha e => hy ?_) (hlt y b hb)
    exact r.once y x b hb (e ▸ hown a ha)
  have hself : ∀ b, Owner ({ s with heap := h' }.set x (some v')) x b → ∃ a, v'.data = some a ∧ a.block = b := by
    rintro b ⟨u, a, h1, h2, h3⟩
    rw [set_same] at h1
    cases h1
    exact ⟨a, h2, h3⟩
  have hmix : ∀ y b, y ≠ x → Owner s y b → ∀ a, v'.data = some a → a.block ≠ b := by
    intro y b hy hb a ha e
    rcases hc.blk a ha with h1 | h1
    · exact hy (r.once y x b hb (e ▸ hown a h1))
    · have := hlt y b hb
      omega
  constructor
  · intro y
    by_cases hy : y = x
    · subst hy
      exact .inr ⟨l', v', if_pos rfl, set_same _ _ _, hc.own⟩
    · rw [set_ne _ _ hy]
      have : Spec.put vals x (some l') y = vals y := if_neg hy
      rw [this]
      rcases r.values y with h1 | ⟨k, u, h1, h2, h3⟩
      · exact .inl h1
      · refine .inr ⟨k, u, h1, h2, ?_⟩
        rcases h3 with h3 | ⟨b, g1, g2, g3, g4⟩
        · exact .inl h3
        · exact .inr ⟨b, g1, g2, g3, (hfr y b hy ⟨u, _, h2, g1, rfl⟩).trans g4⟩
  · intro y z b hy hz
    by_cases ey : y = x <;> by_cases ez : z = x
    · rw [ey, ez]
    · subst ey
      obtain ⟨a, ha, e⟩ := hself b hy
      exact absurd e (hmix z b ez ((hoth z b ez).mp hz) a ha)
    · subst ez
      obtain ⟨a, ha, e⟩ := hself b hz
      exact absurd e (hmix y b ey ((hoth y b ey).mp hy) a ha)
    · exact r.once y z b ((hoth y b ey).mp hy) ((hoth z b ez).mp hz)
  · intro b c hb
    rcases hc.live b c hb with ⟨a, ha, e⟩ | ⟨h1, h2⟩
    · exact .inl ⟨x, v', a, set_same _ _ _, ha, e⟩
    · have : s.heap[b]? = some (some c) := (hc.frame b h2 h1).symm.trans hb
      rcases r.blocks b c this with ⟨y, hy⟩ | g
      · by_cases ey : y = x
        · subst ey
          obtain ⟨u, a, g1, g2, g3⟩ := hy
          rcases hx with hx | ⟨hx, -⟩
          · rw [g1] at hx; cases hx
            exact absurd g3 (h2 a g2)
          · rw [g1] at hx; cases hx
        · exact .inl ⟨y, (hoth y b ey).mpr hy⟩
      · exact .inr g
  · intro b hb
    obtain ⟨⟨c, hcb⟩, hno⟩ := r.unowned b hb
    have hlt' : b < s.heap.length := (List.getElem?_eq_some_iff.mp hcb).1
    refine ⟨⟨c, (hc.frame b (fun a ha e => hno x (e ▸ hown a ha)) hlt').trans hcb⟩, fun y hy => ?_⟩
    by_cases ey : y = x
    · subst ey
      obtain ⟨a, ha, e⟩ := hself b hy
      rcases hc.blk a ha with h1 | h1
      · exact hno y (e ▸ hown a h1)
      · omega
    · exact hno y ((hoth y b ey).mp hy)
  · exact r.nodup

/-- An object without memory goes. -/
theorem Represents.remove {s : St F} {vals : Vals F} {lost : List Nat} (r : Represents s vals lost) {x : Nat}
    (hx : s.objs x = some .empty) : Represents (s.set x none) (Spec.put vals x none) lost := by
  have hoth : ∀ y b, Owner (s.set x none) y b ↔ Owner s y b := by
    intro y b
    by_cases hy : y = x
    · subst hy
      constructor
      · rintro ⟨v, a, h1, -, -⟩
        rw [set_same] at h1
        cases h1
      · rintro ⟨v, a, h1, h2, -⟩
        rw [hx] at h1
        cases h1
        cases h2
    · unfold Owner
      rw [set_ne _ _ hy]
  constructor
  · intro y
    by_cases hy : y = x
    · subst hy
      exact .inl ⟨if_pos rfl, set_same _ _ _⟩
    · rw [set_ne _ _ hy]
      have : Spec.put vals x none y = vals y := if_neg hy
      rw [this]
      exact r.values y
  · intro y z b hy hz
    exact r.once y z b ((hoth y b).mp hy) ((hoth z b).mp hz)
  · intro b c hb
    rcases r.blocks b c hb with ⟨y, hy⟩ | g
    · exact .inl ⟨y, (hoth y b).mpr hy⟩
    · exact .inr g
  · intro b hb
    exact ⟨(r.unowned b hb).1, fun y hy => (r.unowned b hb).2 y ((hoth y b).mp hy)⟩
  · exact r.nodup

/-- The vector of `y` goes to `x`, which had none, and `y` is left empty. -/
theorem Represents.moved {s : St F} {vals : Vals F} {lost : List Nat} (r : Represents s vals lost) {x y : Nat} {v : Vec}
    {l : List (Option F)} (hne : y ≠ x) (hx : ∀ b, ¬ Owner s x b) (hy : s.objs y = some v) (ho : Own s.heap v l) :
    Represents ((s.set x (some v)).set y (some .empty)) (Spec.put (Spec.put vals x (some l)) y (some [])) lost := by
  have hX : ((s.set x (some v)).set y (some .empty)).objs x = some v := by rw [set_ne _ _ hne.symm, set_same]
  have hY : ((s.set x (some v)).set y (some .empty)).objs y = some .empty := set_same _ _ _
  have hZ : ∀ z, z ≠ x → z ≠ y → ((s.set x (some v)).set y (some .empty)).objs z = s.objs z := fun z h1 h2 => by
    rw [set_ne _ _ h2, set_ne _ _ h1]
  -- who owns what now
  have hown : ∀ z b, Owner ((s.set x (some v)).set y (some .empty)) z b →
      (z = x ∧ Owner s y b) ∨ (z ≠ x ∧ z ≠ y ∧ Owner s z b) := by
    rintro z b ⟨u, a, h1, h2, h3⟩
    by_cases ez : z = x
    · subst ez
      rw [hX] at h1
      cases h1
      exact .inl ⟨rfl, v, a, hy, h2, h3⟩
    · by_cases ez' : z = y
      · subst ez'
        rw [hY] at h1
        cases h1
        cases h2
      · rw [hZ z ez ez'] at h1
        exact .inr ⟨ez, ez', u, a, h1, h2, h3⟩
  constructor
  · intro z
    by_cases ez : z = y
    · subst ez
      exact .inr ⟨[], .empty, if_pos rfl, hY, .inl ⟨rfl, rfl⟩⟩
    · have e1 : Spec.put (Spec.put vals x (some l)) y (some []) z = Spec.put vals x (some l) z := if_neg ez
      rw [e1]
      by_cases ez' : z = x
      · subst ez'
        exact .inr ⟨l, v, if_pos rfl, hX, ho⟩
      · have e2 : Spec.put vals x (some l) z = vals z := if_neg ez'
        rw [e2, hZ z ez' ez]
        exact r.values z
  · intro z z' b hz hz'
    rcases hown z b hz with ⟨h1, h2⟩ | ⟨h1, h1', h2⟩ <;> rcases hown z' b hz' with ⟨g1, g2⟩ | ⟨g1, g1', g2⟩
    · rw [h1, g1]
    · exact absurd (r.once y z' b h2 g2).symm g1'
    · exact absurd (r.once z y b h2 g2) h1'
    · exact r.once z z' b h2 g2
  · intro b c hb
    rcases r.blocks b c hb with ⟨z, hz⟩ | g
    · by_cases ez : z = y
      · subst ez
        obtain ⟨u, a, h1, h2, h3⟩ := hz
        rw [hy] at h1
        cases h1
        exact .inl ⟨x, v, a, hX, h2, h3⟩
      · have ez' : z ≠ x := fun e => hx b (e ▸ hz)
        obtain ⟨u, a, h1, h2, h3⟩ := hz
        exact .inl ⟨z, u, a, by rw [hZ z ez' ez]; exact h1, h2, h3⟩
    · exact .inr g
  · intro b hb
    refine ⟨(r.unowned b hb).1, fun z hz => ?_⟩
    rcases hown z b hz with ⟨-, h2⟩ | ⟨-, -, h2⟩
    · exact (r.unowned b hb).2 y h2
    · exact (r.unowned b hb).2 z h2
  · exact r.nodup

/-- An object is emptied without giving its block back. -/
theorem Represents.leak {s : St F} {vals : Vals F} {lost : List Nat} (r : Represents s vals lost) {x : Nat} {v : Vec}
    {l : List (Option F)} (hx : s.objs x = some v) (ho : Own s.heap v l) :
    ∃ lost', Represents (s.set x (some .empty)) (Spec.put vals x (some [])) lost' ∧
      ((l = [] ∧ lost' = lost) ∨ (l ≠ [] ∧ lost'.length = lost.length + 1)) := by
  have hoth : ∀ y b, Owner (s.set x (some .empty)) y b ↔ (y ≠ x ∧ Owner s y b) := by
    intro y b
    by_cases hy : y = x
    · subst hy
      constructor
      · rintro ⟨v, a, h1, h2, -⟩
        rw [set_same] at h1
        cases h1
        cases h2
      · exact fun g => absurd rfl g.1
    · unfold Owner
      rw [set_ne _ _ hy]
      exact ⟨fun g => ⟨hy, g⟩, fun g => g.2⟩
  have hval : ∀ y, (Spec.put vals x (some []) y = none ∧ (s.set x (some .empty)).objs y = none) ∨
      ∃ l v, Spec.put vals x (some []) y = some l ∧ (s.set x (some .empty)).objs y = some v ∧ Own s.heap v l := by
    intro y
    by_cases hy : y = x
    · subst hy
      exact .inr ⟨[], .empty, if_pos rfl, set_same _ _ _, .inl ⟨rfl, rfl⟩⟩
    · rw [set_ne _ _ hy]
      have : Spec.put vals x (some []) y = vals y := if_neg hy
      rw [this]
      exact r.values y
  have honce : ∀ y z b, Owner (s.set x (some .empty)) y b → Owner (s.set x (some .empty)) z b → y = z :=
    fun y z b hy hz => r.once y z b ((hoth y b).mp hy).2 ((hoth z b).mp hz).2
  rcases ho with ⟨rfl, rfl⟩ | ⟨a, h1, h2, h3, h4⟩
  · refine ⟨lost, ⟨hval, honce, ?_, ?_, r.nodup⟩, .inl ⟨rfl, rfl⟩⟩
    · intro b c hb
      rcases r.blocks b c hb with ⟨y, hy⟩ | g
      · refine .inl ⟨y, (hoth y b).mpr ⟨fun e => ?_, hy⟩⟩
        subst e
        obtain ⟨u, a, g1, g2, -⟩ := hy
        rw [hx] at g1
        cases g1
        cases g2
      · exact .inr g
    · intro b hb
      exact ⟨(r.unowned b hb).1, fun y hy => (r.unowned b hb).2 y ((hoth y b).mp hy).2⟩
  · have hox : Owner s x a := ⟨v, _, hx, h1, rfl⟩
    refine ⟨a :: lost, ⟨hval, honce, ?_, ?_, ?_⟩, .inr ⟨h3, rfl⟩⟩
    · intro b c hb
      rcases r.blocks b c hb with ⟨y, hy⟩ | g
      · by_cases e : y = x
        · subst e
          obtain ⟨u, a', g1, g2, g3⟩ := hy
          rw [hx] at g1
          cases g1
          rw [h1] at g2
          cases g2
          exact .inr (List.mem_cons.mpr (.inl g3.symm))
        · exact .inl ⟨y, (hoth y b).mpr ⟨e, hy⟩⟩
      · exact .inr (List.mem_cons_of_mem _ g)
    · intro b hb
      rcases List.mem_cons.mp hb with e | hb
      · rw [e]
        exact ⟨⟨l, h4⟩, fun y hy => ((hoth y a).mp hy).1 (r.once y x a ((hoth y a).mp hy).2 hox)⟩
      · exact ⟨(r.unowned b hb).1, fun y hy => (r.unowned b hb).2 y ((hoth y b).mp hy).2⟩
    · exact List.nodup_cons.mpr ⟨fun g => (r.unowned a g).2 x hox, r.nodup⟩

/-- Two vectors change places. -/
theorem Represents.swapped {s : St F} {vals : Vals F} {lost : List Nat} (r : Represents s vals lost) {x y : Nat} {v u : Vec}
    {l k : List (Option F)} (hx : s.objs x = some v) (hy : s.objs y = some u) (hv : Own s.heap v l) (hu : Own s.heap u k) :
    Represents ((s.set x (some u)).set y (some v)) (Spec.put (Spec.put vals x (some k)) y (some l)) lost := by
  -- the object that has now what `z` had
  let p : Nat → Nat := fun z => if z = y then x else if z = x then y else z
  have hobj : ∀ z, ((s.set x (some u)).set y (some v)).objs z = s.objs (p z) := by
    intro z
    by_cases ez : z = y
    · subst ez
      rw [set_same, show p z = x from if_pos rfl, hx]
    · rw [set_ne _ _ ez]
      by_cases ez' : z = x
      · subst ez'
        rw [set_same, show p z = y from (if_neg ez).trans (if_pos rfl), hy]
      · rw [set_ne _ _ ez', show p z = z from (if_neg ez).trans (if_neg ez')]
  have hp : ∀ z, p (p z) = z := by
    intro z
    show (if (if z = y then x else if z = x then y else z) = y then x else
      if (if z = y then x else if z = x then y else z) = x then y else (if z = y then x else if z = x then y else z)) = z
    by_cases ez : z = y
    · rw [if_pos ez]
      by_cases e : x = y
      · rw [if_pos e, ez, e]
      · rw [if_neg e, if_pos rfl, ez]
    · rw [if_neg ez]
      by_cases ez' : z = x
      · rw [if_pos ez', if_pos rfl, ez']
      · rw [if_neg ez', if_neg ez, if_neg ez']
  have hown : ∀ z b, Owner ((s.set x (some u)).set y (some v)) z b ↔ Owner s (p z) b := by
    intro z b
    unfold Owner
    rw [hobj]
  constructor
  · intro z
    by_cases ez : z = y
    · subst ez
      exact .inr ⟨l, v, if_pos rfl, set_same _ _ _, hv⟩
    · have e1 : Spec.put (Spec.put vals x (some k)) y (some l) z = Spec.put vals x (some k) z := if_neg ez
      rw [e1, set_ne _ _ ez]
      by_cases ez' : z = x
      · subst ez'
        exact .inr ⟨k, u, if_pos rfl, set_same _ _ _, hu⟩
      · have e2 : Spec.put vals x (some k) z = vals z := if_neg ez'
        rw [e2, set_ne _ _ ez']
        exact r.values z
  · intro z z' b hz hz'
    have := r.once _ _ b ((hown z b).mp hz) ((hown z' b).mp hz')
    rw [← hp z, this, hp]
  · intro b c hb
    rcases r.blocks b c hb with ⟨z, hz⟩ | g
    · exact .inl ⟨p z, (hown _ b).mpr (by rw [hp]; exact hz)⟩
    · exact .inr g
  · intro b hb
    exact ⟨(r.unowned b hb).1, fun z hz => (r.unowned b hb).2 _ ((hown z b).mp hz)⟩
  · exact r.nodup

theorem put_same {s : Vals F} {x : Nat} {a b : Option (List (Option F))} :
    Spec.put (Spec.put s x a) x b = Spec.put s x b := by
  funext y
  unfold Spec.put
  split <;> rfl

theorem St.set_set (s : St F) (x : Nat) (a b : Option Vec) : (s.set x a).set x b = s.set x b := by
  unfold St.set
  congr 1
  funext y
  simp only
  split <;> rfl

theorem St.set_self {s : St F} {x : Nat} {v : Vec} (h : s.objs x = some v) (h' : Heap F) :
    { s with heap := h' }.set x (some v) = { s with heap := h' } := by
  unfold St.set
  congr 1
  funext y
  simp only
  split
  · next e => rw [e, h]
  · rfl

/-- One step. -/
theorem step_ok (zero : F) (w : Nat) {s : St F} {vals vals' : Vals F} {lost : List Nat} (r : Represents s vals lost)
    {op : Op F} (hl : Legal w vals op) (hd : Does zero vals op vals') :
    ∃ s' lost', step zero w s op = .ok s' ∧ Represents s' vals' lost' ∧
      ((¬ Overwrites vals op ∧ lost' = lost) ∨ (Overwrites vals op ∧ lost'.length = lost.length + 1)) := by
  cases hd with
  | @make x n m =>
    have hn : s.objs x = none := by
      rcases r.values x with ⟨-, g⟩ | ⟨l, v, g, -, -⟩
      · exact g
      · rw [hl.1] at g; cases g
    obtain ⟨v', h', e, hc⟩ := resize_chg zero w (h := s.heap) (v := .empty) (l := []) (.inl ⟨rfl, rfl⟩) n hl.2 m
    refine ⟨_, lost, ?_, r.change (x := x) (.inr ⟨hn, rfl⟩) (.inl ⟨rfl, rfl⟩) hc, .inl ⟨id, rfl⟩⟩
    show (resize zero w .empty n m s.heap >>= _) = _
    rw [e]
    rfl
  | @move x y l hy =>
    obtain ⟨v, h1, h2⟩ := r.get hy
    have hn : s.objs x = none := by
      rcases r.values x with ⟨-, g⟩ | ⟨l, v, g, -, -⟩
      · exact g
      · rw [hl.1] at g; cases g
    refine ⟨_, lost, ?_, r.moved (x := x) (fun e => ?_) (fun b g => ?_) h1 h2, .inl ⟨id, rfl⟩⟩
    · show (s.obj y >>= _) = _
      rw [obj_ok h1]
      rfl
    · rw [e, hn] at h1
      cases h1
    · obtain ⟨u, a, g1, -, -⟩ := g
      rw [hn] at g1
      cases g1
  | @assign x y l hy =>
    obtain ⟨v, h1, h2⟩ := r.get hy
    obtain ⟨k, hk⟩ := Option.ne_none_iff_exists'.mp hl.1
    obtain ⟨u, g1, g2⟩ := r.get hk
    obtain ⟨lost', r', hlost⟩ := r.leak g1 g2
    have hfin : (¬ Overwrites vals (.assign x y) ∧ lost' = lost) ∨
        (Overwrites vals (.assign x y) ∧ lost'.length = lost.length + 1) := by
      rcases hlost with ⟨e, e'⟩ | ⟨e, e'⟩
      · refine .inl ⟨?_, e'⟩
        rintro ⟨k', q1, q2⟩
        rw [hk] at q1
        cases q1
        exact q2 e
      · exact .inr ⟨⟨k, hk, e⟩, e'⟩
    have hstep : step zero w s (.assign x y) = .ok ((s.set x (some v)).set y (some .empty)) := by
      show (s.obj x >>= _) = _
      rw [obj_ok g1]
      show (s.obj y >>= _) = _
      rw [obj_ok h1]
      rfl
    refine ⟨_, lost', hstep, ?_, hfin⟩
    by_cases hxy : y = x
    · subst hxy
      rw [St.set_set, put_same]
      exact r'
    · have := r'.moved (x := x) (y := y) (v := v) (l := l) hxy (fun b g => by
        obtain ⟨u', a, q1, q2, -⟩ := g
        rw [set_same] at q1
        cases q1
        cases q2) (by rw [set_ne _ _ hxy]; exact h1) h2
      rwa [St.set_set, put_same] at this
  | @swap x y l k hx hy =>
    obtain ⟨v, h1, h2⟩ := r.get hx
    obtain ⟨u, g1, g2⟩ := r.get hy
    refine ⟨_, lost, ?_, r.swapped h1 g1 h2 g2, .inl ⟨id, rfl⟩⟩
    show (s.obj x >>= _) = _
    rw [obj_ok h1]
    show (s.obj y >>= _) = _
    rw [obj_ok g1]
    rfl
  | @resize x n m l hx =>
    obtain ⟨v, h1, h2⟩ := r.get hx
    obtain ⟨v', h', e, hc⟩ := resize_chg zero w h2 n hl.2 m
    refine ⟨_, lost, ?_, r.change (.inl h1) h2 hc, .inl ⟨id, rfl⟩⟩
    show (s.obj x >>= _) = _
    rw [obj_ok h1]
    show (resize zero w v n m s.heap >>= _) = _
    rw [e]
    rfl
  | @put x i c l hx hi =>
    obtain ⟨v, h1, h2⟩ := r.get hx
    rcases h2 with ⟨rfl, -⟩ | ⟨b, g1, g2, g3, g4⟩
    · exact absurd hi (Nat.not_lt_zero _)
    · have ho : Own s.heap v l := .inr ⟨b, g1, g2, g3, g4⟩
      have := r.change (.inl h1) ho (Chg.contents (l' := l.set i (some c)) g1 ho List.length_set)
      refine ⟨{ s with heap := s.heap.set b (some (l.set i (some c))) }, lost, ?_, ?_, .inl ⟨id, rfl⟩⟩
      · show (s.obj x >>= _) = _
        rw [obj_ok h1]
        show (put v i c s.heap >>= _) = _
        unfold put cassert
        rw [decide_eq_true (by omega), g1]
        show (Mat.poke s.heap ⟨b, 0 + (i : Int)⟩ (some c) >>= _) = _
        rw [Int.zero_add, poke_block g4 hi]
        rfl
      · rwa [St.set_self h1] at this
  | @fill x c l hx =>
    obtain ⟨v, h1, h2⟩ := r.get hx
    have hs : ∀ h', fill v c s.heap = .ok h' → step zero w s (.fill x c) = .ok { s with heap := h' } := by
      intro h' e
      show (s.obj x >>= _) = _
      rw [obj_ok h1]
      show (fill v c s.heap >>= _) = _
      rw [e]
      rfl
    rcases h2 with ⟨rfl, rfl⟩ | ⟨b, g1, g2, g3, g4⟩
    · refine ⟨_, lost, hs s.heap rfl, ?_, .inl ⟨id, rfl⟩⟩
      have : Spec.put vals x (some (List.replicate ([] : List (Option F)).length (some c))) = vals := by
        funext z
        unfold Spec.put
        split
        · next e => rw [e, hx]; rfl
        · rfl
      rw [this]
      exact r
    · have ho : Own s.heap v l := .inr ⟨b, g1, g2, g3, g4⟩
      have := r.change (.inl h1) ho (Chg.contents (l' := List.replicate l.length (some c)) g1 ho List.length_replicate)
      refine ⟨_, lost, hs (s.heap.set b (some (List.replicate l.length (some c)))) ?_, ?_, .inl ⟨id, rfl⟩⟩
      · have := loop_write (f := fun i h => Mat.poke h ⟨b, 0 + i⟩ (some c)) (o := 0)
          (c := List.replicate l.length (some c)) g4 (by rw [List.length_replicate]; omega) (by
            intro i x k hx _ _
            rw [List.getElem?_replicate] at hx
            split at hx
            · cases hx
              rw [Int.zero_add, Nat.zero_add]
            · cases hx)
        rw [List.length_replicate, patch_all _ _ List.length_replicate] at this
        unfold fill
        rw [g2, g1]
        exact this
      · rwa [St.set_self h1] at this
  | @copy x y l k hx hy he =>
    obtain ⟨v, h1, h2⟩ := r.get hx
    obtain ⟨u, q1, q2⟩ := r.get hy
    have hs : ∀ h', copyFrom v u s.heap = .ok h' → step zero w s (.copy x y) = .ok { s with heap := h' } := by
      intro h' e
      show (s.obj x >>= _) = _
      rw [obj_ok h1]
      show (s.obj y >>= _) = _
      rw [obj_ok q1]
      show (copyFrom v u s.heap >>= _) = _
      rw [e]
      rfl
    have hdim : decide (v.dim = u.dim) = true := decide_eq_true (by rw [h2.dim, q2.dim, he])
    have hsame : l = k → Represents s (Spec.put vals x (some k)) lost := by
      intro e
      have : Spec.put vals x (some k) = vals := by
        funext z
        unfold Spec.put
        split
        · next e' => rw [e', hx, e]
        · rfl
      rw [this]
      exact r
    by_cases hdd : v.data = u.data
    · refine ⟨_, lost, hs s.heap ?_, hsame ?_, .inl ⟨id, rfl⟩⟩
      · unfold copyFrom cassert
        rw [hdim]
        show (if v.data = u.data then _ else _) = _
        rw [if_pos hdd]
      · rcases h2 with ⟨rfl, rfl⟩ | ⟨b, g1, g2, g3, g4⟩
        · exact (List.length_eq_zero_iff.mp he.symm).symm
        · rcases q2 with ⟨rfl, rfl⟩ | ⟨b', p1, p2, p3, p4⟩
          · exact List.length_eq_zero_iff.mp he
          · rw [g1, p1] at hdd
            cases hdd
            rw [g4] at p4
            cases p4
            rfl
    · rcases h2 with ⟨rfl, rfl⟩ | ⟨b, g1, g2, g3, g4⟩
      · refine absurd ?_ hdd
        rw [(q2.none_iff).mpr (List.length_eq_zero_iff.mp he.symm)]
      · rcases q2 with ⟨rfl, rfl⟩ | ⟨b', p1, p2, p3, p4⟩
        · exact absurd (List.length_eq_zero_iff.mp he) g3
        · have ho : Own s.heap v l := .inr ⟨b, g1, g2, g3, g4⟩
          have := r.change (.inl h1) ho (Chg.contents (l' := k) g1 ho he.symm)
          refine ⟨_, lost, hs (s.heap.set b (some k)) ?_, ?_, .inl ⟨id, rfl⟩⟩
          · unfold copyFrom cassert
            rw [hdim]
            show (if v.data = u.data then _ else _) = _
            rw [if_neg hdd, g1, p1]
            show Mat.memcpy ⟨b, 0⟩ ⟨b', 0⟩ v.dim s.heap = _
            rw [g2, memcpy_block (fun e => hdd (by rw [g1, p1, e])) g4 p4 (Nat.le_refl _) (by omega), he, List.take_length,
              patch_all _ _ he.symm]
          · rwa [St.set_self h1] at this
  | @drop x =>
    obtain ⟨l, hx⟩ := Option.ne_none_iff_exists'.mp hl
    obtain ⟨v, h1, h2⟩ := r.get hx
    obtain ⟨h', e, -, hc⟩ := destroy_chg h2
    have r1 := r.change (.inl h1) h2 hc
    have r2 := r1.remove (x := x) (set_same _ _ _)
    rw [St.set_set, put_same] at r2
    refine ⟨_, lost, ?_, r2, .inl ⟨id, rfl⟩⟩
    show (s.obj x >>= _) = _
    rw [obj_ok h1]
    show (destroy v s.heap >>= _) = _
    rw [e]
    rfl

/-- A step without a meaning is stopped by an assertion. -/
theorem step_refused (zero : F) (w : Nat) {s : St F} {vals : Vals F} {lost : List Nat} (r : Represents s vals lost)
    {op : Op F} (hl : Legal w vals op) (hr : Refused vals op) : step zero w s op = .error .assert := by
  cases hr with
  | @make x n m hn =>
    show (resize zero w .empty n m s.heap >>= _) = _
    rw [resize_neg zero w (v := .empty) (l := []) (.inl ⟨rfl, rfl⟩) hn]
    rfl
  | @resize x n m hn =>
    obtain ⟨l, hx⟩ := Option.ne_none_iff_exists'.mp hl.1
    obtain ⟨v, h1, h2⟩ := r.get hx
    show (s.obj x >>= _) = _
    rw [obj_ok h1]
    show (resize zero w v n m s.heap >>= _) = _
    rw [resize_neg zero w h2 hn]
    rfl
  | @put x i c l hx hi =>
    obtain ⟨v, h1, h2⟩ := r.get hx
    show (s.obj x >>= _) = _
    rw [obj_ok h1]
    show (put v i c s.heap >>= _) = _
    unfold put cassert
    rw [decide_eq_false (by rw [h2.dim]; omega)]
    rfl
  | @copy x y l k hx hy hne =>
    obtain ⟨v, h1, h2⟩ := r.get hx
    obtain ⟨u, q1, q2⟩ := r.get hy
    show (s.obj x >>= _) = _
    rw [obj_ok h1]
    show (s.obj y >>= _) = _
    rw [obj_ok q1]
    show (copyFrom v u s.heap >>= _) = _
    unfold copyFrom cassert
    rw [decide_eq_false (by rw [h2.dim, q2.dim]; omega)]
    rfl

theorem run_from (zero : F) (w : Nat) {vals : Vals F} {ops : List (Op F)} {res : Option (Vals F × Nat)}
    (hr : Runs zero w vals ops res) : ∀ {s : St F} {lost : List Nat}, Represents s vals lost →
    match res with
    | some (vals', n) => ∃ s' lost', run zero w ops s = .ok s' ∧ Represents s' vals' lost' ∧ lost'.length = lost.length + n
    | none => run zero w ops s = .error .assert := by
  induction hr with
  | nil v => exact fun {s lost} r => ⟨s, lost, rfl, r, rfl⟩
  | step hl hd ho _ ih =>
    intro s lost r
    obtain ⟨s1, l1, e1, r1, h1⟩ := step_ok zero w r hl hd
    obtain ⟨s2, l2, e2, r2, h2⟩ := ih r1
    refine ⟨s2, l2, ?_, r2, ?_⟩
    · show (step zero w s _ >>= _) = _
      rw [e1]
      exact e2
    · rcases h1 with ⟨-, e⟩ | ⟨g, -⟩
      · rw [h2, e]
      · exact absurd g ho
  | over hl hd ho _ ih =>
    intro s lost r
    obtain ⟨s1, l1, e1, r1, h1⟩ := step_ok zero w r hl hd
    obtain ⟨s2, l2, e2, r2, h2⟩ := ih r1
    refine ⟨s2, l2, ?_, r2, ?_⟩
    · show (step zero w s _ >>= _) = _
      rw [e1]
      exact e2
    · rcases h1 with ⟨g, -⟩ | ⟨-, e⟩
      · exact absurd ho g
      · omega
  | refused hl hr =>
    intro s lost r
    show (step zero w s _ >>= _) = _
    rw [step_refused zero w r hl hr]
    rfl
  | later hl hd _ ih =>
    intro s lost r
    obtain ⟨s1, l1, e1, r1, h1⟩ := step_ok zero w r hl hd
    show (step zero w s _ >>= _) = _
    rw [e1]
    exact ih r1

theorem start_represents : Represents (St.start : St F) (fun _ => none) [] where
  values _ := .inl ⟨rfl, rfl⟩
  once := by rintro x y b ⟨v, a, h, -, -⟩; cases h
  blocks := by intro b c h; cases h
  unowned := by intro b h; cases h
  nodup := List.nodup_nil

/-- **C79, vectors are lists.**  Whatever a program does with vectors, nothing is undefined, the vectors hold the lists
they should hold, no block of memory belongs to two vectors, and the only blocks that belong to none are those of the
`n` vectors that something was assigned to when they were not empty. -/
theorem C79_values (zero : F) (w : Nat) (ops : List (Op F)) {vals : Vals F} {n : Nat}
    (hr : Runs zero w (fun _ => none) ops (some (vals, n))) :
    ∃ s lost, run zero w ops .start = .ok s ∧ Represents s vals lost ∧ lost.length = n := by
  obtain ⟨s, lost, h1, h2, h3⟩ := run_from zero w hr start_represents
  exact ⟨s, lost, h1, h2, by rw [h3]; exact Nat.zero_add n⟩

/-- **C79, refusals.**  A negative size, an index beyond the end, or lists of different lengths stop the program. -/
theorem C79_refused (zero : F) (w : Nat) (ops : List (Op F)) (hr : Runs zero w (fun _ => none) ops none) :
    run zero w ops .start = .error .assert := run_from zero w hr start_represents

/-- Every program that keeps to scopes either goes through or is refused: `Runs` has an answer while steps are legal. -/
theorem Spec.answer (zero : F) (w : Nat) (vals : Vals F) (op : Op F) (h : Legal w vals op) :
    (∃ vals', Does zero vals op vals') ∨ Refused vals op := by
  have nat : ∀ {n : Int}, ¬ n < 0 → ∃ m : Nat, n = m := fun {n} h => ⟨n.toNat, by omega⟩
  cases op with
  | make x n m =>
    by_cases hn : n < 0
    · exact .inr (.make hn)
    · obtain ⟨k, rfl⟩ := nat hn
      exact .inl ⟨_, .make k⟩
  | move x y => obtain ⟨l, hl⟩ := Option.ne_none_iff_exists'.mp h.2; exact .inl ⟨_, .move hl⟩
  | assign x y => obtain ⟨l, hl⟩ := Option.ne_none_iff_exists'.mp h.2; exact .inl ⟨_, .assign hl⟩
  | swap x y =>
    obtain ⟨l, hl⟩ := Option.ne_none_iff_exists'.mp h.1
    obtain ⟨k, hk⟩ := Option.ne_none_iff_exists'.mp h.2
    exact .inl ⟨_, .swap hl hk⟩
  | resize x n m =>
    by_cases hn : n < 0
    · exact .inr (.resize hn)
    · obtain ⟨k, rfl⟩ := nat hn
      obtain ⟨l, hl⟩ := Option.ne_none_iff_exists'.mp h.1
      exact .inl ⟨_, .resize k hl⟩
  | put x i c =>
    obtain ⟨l, hl⟩ := Option.ne_none_iff_exists'.mp h.1
    obtain ⟨k, rfl⟩ := nat (Int.not_lt.mpr h.2)
    by_cases hk : k < l.length
    · exact .inl ⟨_, .put hl hk⟩
    · exact .inr (.put hl (by omega))
  | fill x c => obtain ⟨l, hl⟩ := Option.ne_none_iff_exists'.mp h; exact .inl ⟨_, .fill hl⟩
  | copy x y =>
    obtain ⟨l, hl⟩ := Option.ne_none_iff_exists'.mp h.1
    obtain ⟨k, hk⟩ := Option.ne_none_iff_exists'.mp h.2
    by_cases e : l.length = k.length
    · exact .inl ⟨_, .copy hl hk e⟩
    · exact .inr (.copy hl hk e)
  | drop x => exact .inl ⟨_, .drop⟩

/-- **C79, what is left.**  When all vectors are gone, the number of blocks that are still allocated is the number of
assignments to vectors that were not empty. -/
theorem C79_given_back_partial (zero : F) (w : Nat) (ops : List (Op F)) {n : Nat}
    (hr : Runs zero w (fun _ => none) ops (some ((fun _ => none), n))) :
    ∃ s, run zero w ops .start = .ok s ∧
      ∃ lost : List Nat, lost.Nodup ∧ lost.length = n ∧ ∀ b, (∃ c, s.heap[b]? = some (some c)) ↔ b ∈ lost := by
  obtain ⟨s, lost, h1, h2, h3⟩ := C79_values zero w ops hr
  refine ⟨s, h1, lost, h2.nodup, h3, fun b => ⟨?_, fun hb => (h2.unowned b hb).1⟩⟩
  rintro ⟨c, hc⟩
  rcases h2.blocks b c hc with ⟨x, v, a, g, -, -⟩ | g
  · rcases h2.values x with ⟨-, q⟩ | ⟨l, v', q, -, -⟩
    · rw [q] at g; cases g
    · cases q
  · exact g

/-- **C79 fails** for assignment: the block of the vector that is assigned to is never freed. -/
theorem C79_assignment_leaks (zero : F) :
    ∃ s, run zero 4 [.make 0 1 .zero, .make 1 2 .zero, .assign 0 1, .drop 0, .drop 1] .start = .ok s ∧
      s.objs 0 = none ∧ s.objs 1 = none ∧ s.heap = [some [some zero], none] :=
  ⟨_, rfl, rfl, rfl, rfl⟩

/-- The hypotheses of `C79_values`, of `C79_given_back_partial` and of `C79_refused` can be met. -/
example : ∃ vals, Runs (0 : Int) 4 (fun _ => none)
    [.make 0 2 .zero, .put 0 1 7, .resize 0 3 .copy, .move 1 0, .make 2 1 .undefined, .assign 2 1, .swap 0 2]
    (some (vals, 1)) ∧ vals 0 = some [some 0, some 7, some 0] ∧ vals 1 = some [] ∧ vals 2 = some [] := by
  refine ⟨_, .step ⟨by decide, by decide⟩ (.make 2) id (.step ⟨by decide, by decide⟩ (.put (i := 1) rfl (by decide)) id
    (.step ⟨by decide, by decide⟩ (.resize 3 rfl) id (.step ⟨by decide, by decide⟩ (.move rfl) id
    (.step ⟨by decide, by decide⟩ (.make 1) id (.over ⟨by decide, by decide⟩ (.assign rfl) ⟨_, rfl, by decide⟩
    (.step ⟨by decide, by decide⟩ (.swap rfl rfl) id (.nil _))))))), ?_⟩
  decide

example : Runs (0 : Int) 4 (fun _ => none) [.make 0 2 .zero, .put 0 2 7, .drop 0] none :=
  .later ⟨by decide, by decide⟩ (.make 2) (.refused ⟨by decide, by decide⟩ (.put (i := 2) rfl (by decide)))

example : ∃ vals, Runs (0 : Int) 4 (fun _ => none) [.make 0 1 .zero, .make 1 2 .zero, .assign 0 1, .drop 0, .drop 1]
    (some (vals, 1)) ∧ vals = fun _ => none := by
  refine ⟨_, .step ⟨by decide, by decide⟩ (.make 1) id (.step ⟨by decide, by decide⟩ (.make 2) id
    (.over ⟨by decide, by decide⟩ (.assign rfl) ⟨_, rfl, by decide⟩ (.step (by unfold Legal; decide) .drop id
    (.step (by unfold Legal; decide) .drop id (.nil _))))), ?_⟩
  funext x
  unfold Spec.put
  split
  · rfl
  · split
    · rfl
    · rfl

/-- The condition on sizes is needed: the size of 2^30 `float`s in bytes is zero as an `int`. -/
theorem C79_size_wraps (zero : F) : run zero 4 [.make 0 1073741824 .zero] .start = .error .ub := rfl

/-- The implicit copy constructor of `Matrix`, `src/matrix.h` 136-204: unlike `Vector` (`src/vector.h` 226) the class
does not forbid copies, and the pointer is copied. -/
def copiedMatrix (m : Mat.View) : Mat.View := m

/-- **C79 fails for copies of matrices**: the block is freed twice. -/
theorem C79_matrix_copy_fails (m : Mat.View) (h h' : Heap F) (hm : m.data ≠ none) (hd : Mat.destroy m h = .ok h') :
    Mat.destroy (copiedMatrix m) h' = .error .ub := by
  unfold Mat.destroy copiedMatrix at *
  cases hc : m.data with
  | none => exact absurd hc hm
  | some a =>
    rw [hc] at hd
    simp only at hd ⊢
    unfold Mat.free at hd ⊢
    split at hd
    · next b hb =>
      split at hd
      · cases hd
        rw [List.getElem?_set_self (List.getElem?_eq_some_iff.mp hb).1]
      · cases hd
    · cases hd

example : ∃ h' : Heap Int, Mat.destroy ⟨some ⟨0, 0⟩, 1, 1, 1⟩ [some [some 5]] = .ok h' := ⟨_, rfl⟩

end Verif.VecMem
