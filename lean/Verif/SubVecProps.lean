import Verif.SubVecStep

/-!
# C87: views of vectors
-/

namespace Verif.VecMem

open Spec (Vals Legal Does Part Views Names VDoes VRefused VRuns Apart)
open Mat (Heap Addr)

variable {F : Type}

/-- **C87, views are parts.**  Whatever a program does with vectors and with views of them, nothing is undefined, the
vectors hold the lists they should hold, and each view has the length and the elements of its part of the list that is
viewed, and no others. -/
theorem C87_values (zero : F) (w : Nat) (hw : 0 < w) (ops : List (VOp F)) {vals : Vals F} {vs : Views}
    (hr : VRuns zero w (fun _ => none) (fun _ => none) ops (some (vals, vs))) :
    ∃ s, vrun zero w ops .start = .ok s ∧ (∃ lost, Represents s.base vals lost) ∧
      ∀ t p l, Names vals vs t p l → s.dim t = .ok (p.length : Int) ∧
        (∀ (i : Nat) (x : F), i < p.length → l[p.origin + i]? = some (some x) → s.get t i = .ok x) ∧
        ∀ i : Nat, p.length ≤ i → s.get t i = .error .assert := by
  obtain ⟨s, lost, e, r⟩ := vrun_from zero w hw hr vstart_represents
  exact ⟨s, e, ⟨lost, r.base⟩, fun t p l hn => r.read hn⟩

/-- **C87, refusals.**  A part that ends after the end, an index beyond the end, or different lengths stop the program. -/
theorem C87_refused (zero : F) (w : Nat) (hw : 0 < w) (ops : List (VOp F))
    (hr : VRuns zero w (fun _ => none) (fun _ => none) ops none) :
    vrun zero w ops .start = .error .assert := vrun_from zero w hw hr vstart_represents

/-- A view that may be used is a part of a list that is there. -/
theorem RepV.inside {s : VSt F} {vals : Vals F} {vs : Views} {lost : List Nat} (r : RepV s vals vs lost) {v : Nat} {p : Part}
    (h : vs v = some p) : ∃ l, vals p.owner = some l ∧ p.origin + p.length ≤ l.length := by
  obtain ⟨u, l, -, h2, h3, -⟩ := r.views v p h
  exact ⟨l, h2, h3⟩

/-- **C87, views stay inside.**  After any program, each view that may be used lies in the list of its vector. -/
theorem C87_inside (zero : F) (w : Nat) (hw : 0 < w) (ops : List (VOp F)) {vals : Vals F} {vs : Views}
    (hr : VRuns zero w (fun _ => none) (fun _ => none) ops (some (vals, vs))) {v : Nat} {p : Part} (hv : vs v = some p) :
    ∃ l, vals p.owner = some l ∧ p.origin + p.length ≤ l.length := by
  obtain ⟨s, lost, e, r⟩ := vrun_from zero w hw hr vstart_represents
  exact r.inside hv

theorem vrun_append (zero : F) (w : Nat) (a b : List (VOp F)) (s : VSt F) :
    vrun zero w (a ++ b) s = vrun zero w a s >>= vrun zero w b := by
  unfold vrun
  rw [List.foldlM_append]

/-- A vector that gets another length gets another block. -/
theorem resize_fresh (zero : F) (w : Nat) {h h' : Heap F} {v v' : Vec} {l : List (Option F)} (ho : Own h v l) (n : Nat)
    (hn : n ≠ l.length) (m : Mode) (e : resize zero w v n m h = .ok (v', h')) {a : Addr} (ha : v'.data = some a) :
    a.block = h.length := by
  have hinit : ∀ {h1 h2 : Heap F} {u : Vec}, init w n h1 = .ok (u, h2) → u.data = none ∨ u.data = some ⟨h1.length, 0⟩ := by
    intro h1 h2 u e
    unfold init at e
    obtain ⟨-, -, e⟩ := bind_ok e
    split at e
    · cases e; exact .inl rfl
    · cases e; exact .inr rfl
  have hplain : ∀ {v : Vec} {l : List (Option F)}, Own h v l → n ≠ l.length → ∀ z {v' h'},
      resizePlain zero w v n z h = .ok (v', h') → ∀ {a : Addr}, v'.data = some a → a.block = h.length := by
    intro v l ho hn z v' h' e a ha
    unfold resizePlain at e
    rw [if_neg (fun g => hn (by have := ho.dim; omega))] at e
    obtain ⟨h1, e1, e⟩ := bind_ok e
    obtain ⟨h1', e1', hlen, -⟩ := destroy_chg ho
    rw [e1] at e1'
    cases e1'
    obtain ⟨c, e2, e⟩ := bind_ok e
    obtain ⟨h2, -, e⟩ := bind_ok e
    cases e
    rcases hinit e2 with g | g
    · rw [ha] at g; cases g
    · rw [ha] at g; cases g; exact hlen
  cases m with
  | zero => exact hplain ho hn true e ha
  | undefined => exact hplain ho hn false e ha
  | copy =>
    have e : resizeCopy zero w v n h = .ok (v', h') := e
    unfold resizeCopy at e
    split at e
    · exact hplain ho hn true e ha
    · next h1 =>
      rw [if_neg (fun g => hn (by have := ho.dim; omega))] at e
      obtain ⟨c, e1, e⟩ := bind_ok e
      have hc := fun a => hplain (v := .empty) (l := []) (.inl ⟨rfl, rfl⟩) (by simp only [List.length_nil]; omega) false e1 (a := a)
      split at e
      · obtain ⟨h1, -, e⟩ := bind_ok e
        obtain ⟨h2, -, e⟩ := bind_ok e
        cases e
        exact hc _ ha
      · cases e

/-- The vector of a view ends, or its length changes. -/
def Spec.Ends (vals : Vals F) (x : Nat) : Op F → Prop
  | .drop y => y = x
  | .resize y n _ => y = x ∧ 0 ≤ n ∧ ((vals x).map fun l => (l.length : Int)) ≠ some n
  | _ => False

/-- **C87 fails for views that outlive their vectors**: nothing refuses to use them.  After any program, when a vector
with a view of at least one element ends or gets another length, the view can still be named and has its old length, and
reading or writing any of its elements is undefined. -/
theorem C87_dangling (zero : F) (w : Nat) (hw : 0 < w) (ops : List (VOp F)) {vals : Vals F} {vs : Views}
    (hr : VRuns zero w (fun _ => none) (fun _ => none) ops (some (vals, vs))) {v : Nat} {p : Part} (hv : vs v = some p)
    {op : Op F} (hl : Legal w vals op) (he : Spec.Ends vals p.owner op) :
    ∃ s, vrun zero w (ops ++ [.own op]) .start = .ok s ∧ s.dim (.view v) = .ok (p.length : Int) ∧
      ∀ i : Nat, i < p.length → s.get (.view v) i = .error .ub ∧
        ∀ c, vrun zero w (ops ++ [.own op, .put (.view v) i c]) .start = .error .ub := by
  obtain ⟨s, lost, e, r⟩ := vrun_from zero w hw hr vstart_represents
  obtain ⟨u, l, g1, g2, g3, g4⟩ := r.views v p hv
  obtain ⟨u', q1, ho⟩ := r.base.get g2
  rw [g1] at q1
  cases q1
  -- the step, and that the block is gone
  have key : ∃ b, step zero w s.base op = .ok b ∧ ∀ a, u.data = some a → ∀ c, b.heap[a.block]? ≠ some (some c) := by
    cases op with
    | drop y =>
      have hy : y = p.owner := he
      subst hy
      obtain ⟨h', e1, -, hc⟩ := destroy_chg ho
      refine ⟨{ s.base with heap := h' }.set p.owner none, ?_, ?_⟩
      · show (s.base.obj p.owner >>= _) = _
        rw [obj_ok g1]
        show (destroy u s.base.heap >>= _) = _
        rw [e1]
        rfl
      · intro a ha c hcb
        rcases hc.live a.block c hcb with ⟨a', h1, -⟩ | ⟨-, h2⟩
        · cases h1
        · exact h2 a ha rfl
    | resize y n m =>
      obtain ⟨hy, hn, hne⟩ := he
      subst hy
      obtain ⟨k, rfl⟩ : ∃ k : Nat, n = k := ⟨n.toNat, by omega⟩
      have hne' : k ≠ l.length := by
        rintro rfl
        rw [g2] at hne
        exact hne rfl
      obtain ⟨v', h', e1, hc⟩ := resize_chg zero w ho k hl.2 m
      refine ⟨{ s.base with heap := h' }.set p.owner (some v'), ?_, ?_⟩
      · show (s.base.obj p.owner >>= _) = _
        rw [obj_ok g1]
        show (resize zero w u k m s.base.heap >>= _) = _
        rw [e1]
        rfl
      · intro a ha c hcb
        have hlt : a.block < s.base.heap.length := (List.getElem?_eq_some_iff.mp (ho.block ha).2.1).1
        rcases hc.live a.block c hcb with ⟨a', h1, h2⟩ | ⟨-, h2⟩
        · have := resize_fresh zero w ho k hne' m e1 h1
          omega
        · exact h2 a ha rfl
    | _ => exact absurd he id
  obtain ⟨b, e1, hb⟩ := key
  have hs : vstep zero w s (.own op) = .ok { s with base := b } := by
    show (step zero w s.base op >>= _) = _
    rw [e1]
    rfl
  have hrun : vrun zero w (ops ++ [.own op]) .start = .ok { s with base := b } := by
    rw [vrun_append, e, ok_bind]
    show (vstep zero w s (.own op) >>= _) = _
    rw [hs]
    rfl
  have href : VSt.ref { s with base := b } (.view v) = .ok ⟨shift u.data p.origin, p.length⟩ := by
    unfold VSt.ref
    simp only
    rw [g4]
  refine ⟨_, hrun, ?_, ?_⟩
  · unfold VSt.dim
    rw [href]
    rfl
  · intro i hi
    have hcas : cassert (decide ((i : Int) < (p.length : Int))) = .ok () := by
      unfold cassert
      rw [decide_eq_true (by omega)]
      rfl
    refine ⟨?_, fun c => ?_⟩
    · unfold VSt.get
      rw [href, ok_bind]
      unfold get
      simp only
      rw [hcas, ok_bind]
      cases hd : u.data with
      | none => rfl
      | some a =>
        show Mat.load b.heap _ = _
        have := hb a hd
        unfold Mat.load Mat.peek
        simp only
    · rw [show ops ++ [VOp.own op, .put (.view v) i c] = (ops ++ [.own op]) ++ [.put (.view v) i c] by simp,
        vrun_append, hrun, ok_bind]
      show (vstep zero w _ _ >>= _) = _
      have : vstep zero w { s with base := b } (.put (.view v) i c) = .error .ub := by
        show (VSt.ref _ _ >>= _) = _
        rw [href, ok_bind]
        have hp : put ⟨shift u.data p.origin, p.length⟩ (i : Int) c b.heap = .error .ub := by
          unfold put
          simp only
          rw [hcas, ok_bind]
          cases hd : u.data with
          | none => rfl
          | some a =>
            show Mat.poke b.heap _ _ = _
            have := hb a hd
            unfold Mat.poke
            simp only
        show VSt.write _ (put _ _ _ _) = _
        rw [hp]
        rfl
      rw [this]
      rfl

/-- **C87 fails for parts that overlap**: after any program, copying between two parts of one vector that overlap without
being the same, and adding to a part one that it overlaps (itself too), are undefined, though the lengths agree. -/
theorem C87_overlap (zero : F) (w : Nat) (hw : 0 < w) (ops : List (VOp F)) {vals : Vals F} {vs : Views}
    (hr : VRuns zero w (fun _ => none) (fun _ => none) ops (some (vals, vs))) {d t : Ref} {p q : Part}
    {l k : List (Option F)} (hd : Names vals vs d p l) (ht : Names vals vs t q k) (hpq : p.length = q.length)
    (ha : ¬ Apart p q) (g : F → F → F) :
    (p ≠ q → vrun zero w (ops ++ [.copy d t]) .start = .error .ub) ∧
      vrun zero w (ops ++ [.add d t g]) .start = .error .ub := by
  obtain ⟨s, lost, e, r⟩ := vrun_from zero w hw hr vstart_represents
  obtain ⟨u, e1, h1⟩ := r.names hd
  obtain ⟨u', e2, h2⟩ := r.names ht
  have hov := (overlap_at r h1 h2 hpq).mpr ha
  have hdim : cassert (decide (u.dim = u'.dim)) = .ok () := by
    unfold cassert
    rw [decide_eq_true (by rw [h1.dim, h2.dim, hpq])]
    rfl
  constructor
  · intro hne
    rw [vrun_append, e, ok_bind]
    have : copyVec u u' s.base.heap = .error .ub := by
      unfold copyVec
      rw [if_neg (by rw [h1.dim]; omega)]
      unfold copyFrom
      rw [hdim, ok_bind]
      rcases h1.cases with ⟨-, -, q3, q4⟩ | ⟨b, v, g1, g2, g3, g4, g5⟩
      · rw [q4] at hov
        cases hov
      · rcases h2.cases with ⟨-, -, q3, q4⟩ | ⟨b', v', q1, q2, q3, q4, q5⟩
        · rw [q4, g5] at hov
          cases hov
        · rw [if_neg]
          · rw [g5, q5] at hov ⊢
            unfold overlap at hov
            show Mat.memcpy _ _ _ _ = _
            unfold Mat.memcpy
            rw [if_pos (of_decide_eq_true hov)]
          · intro hdd
            rw [g5, q5] at hdd
            have hd' := Addr.mk.inj (Option.some.inj hdd)
            have ho := (blocks_eq r g1 q1 g2 q2).mp hd'.1
            apply hne
            cases p; cases q
            simp only at hd' ho hpq
            simp only [Part.mk.injEq]
            exact ⟨ho, by omega, hpq⟩
    show (vstep zero w s (.copy d t) >>= _) = _
    have hs : vstep zero w s (.copy d t) = .error .ub := by
      show (s.ref d >>= _) = _
      rw [e1, ok_bind, e2, ok_bind, this]
      rfl
    rw [hs]
    rfl
  · rw [vrun_append, e, ok_bind]
    show (vstep zero w s (.add d t g) >>= _) = _
    have hs : vstep zero w s (.add d t g) = .error .ub := by
      show (s.ref d >>= _) = _
      rw [e1, ok_bind, e2, ok_bind]
      unfold addVec
      rw [hdim, ok_bind, if_pos hov]
      rfl
    rw [hs]
    rfl

/-- **C87 fails for origins and lengths below zero**: they are not refused, though the comment in the code says so.
After any program, for a name that stands for a part, an origin before its start and a length with an end inside of it:
if the list does not begin that early this is undefined; else it makes a view of elements that are not in the part.  A
view may get a length below zero. -/
theorem C87_negative (zero : F) (w : Nat) (hw : 0 < w) (ops : List (VOp F)) {vals : Vals F} {vs : Views}
    (hr : VRuns zero w (fun _ => none) (fun _ => none) ops (some (vals, vs))) {t : Ref} {p : Part} {l : List (Option F)}
    (ht : Names vals vs t p l) (v : Nat) (o n : Int) (hon : -2147483648 ≤ o + n) (hle : o + n ≤ p.length) (hl : l ≠ []) :
    ((p.origin : Int) + o < 0 → vrun zero w (ops ++ [.sub v t o n]) .start = .error .ub) ∧
    (0 ≤ (p.origin : Int) + o → p.origin + o ≤ l.length → ∃ s, vrun zero w (ops ++ [.sub v t o n]) .start = .ok s ∧
      s.dim (.view v) = .ok n ∧
      ∀ x, 0 < n → l[(p.origin + o).toNat]? = some (some x) → s.get (.view v) 0 = .ok x) := by
  obtain ⟨s, lost, e, r⟩ := vrun_from zero w hw hr vstart_represents
  obtain ⟨u, e1, h1⟩ := r.names ht
  have hshort := r.short _ _ h1.list
  have hfit := h1.fits
  rcases h1.cases with ⟨hnil, -⟩ | ⟨b, u', g1, g2, g3, g4, g5⟩
  · exact absurd hnil hl
  · have hpre : subVec u o n s.base.heap =
        advance (some ⟨b, (p.origin : Nat)⟩) o s.base.heap >>= fun a => .ok ⟨a, n⟩ := by
      unfold subVec
      have hc : cassert (decide (o + n ≤ u.dim)) = .ok () := by
        unfold cassert
        rw [decide_eq_true (by rw [h1.dim]; omega)]
        rfl
      rw [i32_of ⟨hon, by omega⟩, ok_bind, hc, ok_bind, g5]
    constructor
    · intro hneg
      have : vstep zero w s (.sub v t o n) = .error .ub := by
        show (s.ref t >>= _) = _
        rw [e1, ok_bind, hpre]
        unfold advance
        simp only [g4]
        rw [if_neg (fun g => by omega)]
        rfl
      rw [vrun_append, e, ok_bind]
      show (vstep zero w s _ >>= _) = _
      rw [this]
      rfl
    · intro h0 hlen
      have : vstep zero w s (.sub v t o n) =
          .ok { s with views := fun y => if y = v then some ⟨some ⟨b, (p.origin : Nat) + o⟩, n⟩ else s.views y } := by
        show (s.ref t >>= _) = _
        rw [e1, ok_bind, hpre]
        unfold advance
        simp only [g4]
        rw [if_pos ⟨h0, hlen⟩]
        rfl
      refine ⟨{ s with views := fun y => if y = v then some ⟨some ⟨b, (p.origin : Nat) + o⟩, n⟩ else s.views y }, ?_, ?_, ?_⟩
      · rw [vrun_append, e, ok_bind]
        show (vstep zero w s _ >>= _) = _
        rw [this]
        rfl
      · unfold VSt.dim VSt.ref
        simp only [if_pos]
        rfl
      · intro x hn hx
        unfold VSt.get VSt.ref
        simp only [if_pos]
        show get ⟨some ⟨b, (p.origin : Nat) + o⟩, n⟩ 0 s.base.heap = .ok x
        unfold get cassert
        rw [decide_eq_true hn]
        show Mat.load s.base.heap ⟨b, (p.origin : Int) + o + 0⟩ = _
        have : (p.origin : Int) + o + 0 = (((p.origin + o).toNat : Nat) : Int) := by omega
        rw [this]
        exact load_block g4 hx

/-- **C87 fails for the sum of origin and length**: a part so far beyond the end that the sum is not an `int` is
undefined instead of refused. -/
theorem C87_sum_overflows (zero : F) (w : Nat) (hw : 0 < w) (ops : List (VOp F)) {vals : Vals F} {vs : Views}
    (hr : VRuns zero w (fun _ => none) (fun _ => none) ops (some (vals, vs))) {t : Ref} {p : Part} {l : List (Option F)}
    (ht : Names vals vs t p l) (v : Nat) (o n : Int) (hon : 2147483647 < o + n) :
    vrun zero w (ops ++ [.sub v t o n]) .start = .error .ub := by
  obtain ⟨s, lost, e, r⟩ := vrun_from zero w hw hr vstart_represents
  obtain ⟨u, e1, h1⟩ := r.names ht
  have : vstep zero w s (.sub v t o n) = .error .ub := by
    show (s.ref t >>= _) = _
    rw [e1, ok_bind]
    unfold subVec i32
    rw [if_neg (by omega)]
    rfl
  rw [vrun_append, e, ok_bind]
  show (vstep zero w s _ >>= _) = _
  rw [this]
  rfl

/-- **C87 fails for products**: a part multiplied by one that begins before it and overlaps it does not hold the
products of the elements: 3 * 2 and 5 * 3 are 6 and 15, but the second is 5 times the 6 just written. -/
theorem C87_product_of_overlapping :
    ∃ s, vrun (0 : Int) 4 [.own (.make 0 3 .zero), .put (.vec 0) 0 2, .put (.vec 0) 1 3, .put (.vec 0) 2 5,
      .sub 0 (.vec 0) 1 2, .sub 1 (.vec 0) 0 2, .mul (.view 0) (.view 1) (· * ·)] .start = .ok s ∧
      s.get (.view 0) 0 = .ok 6 ∧ s.get (.view 0) 1 = .ok 30 := ⟨_, rfl, rfl, rfl⟩

/-- A program that meets the hypotheses of `C87_values`, of `C87_inside`, of `C87_dangling`, of `C87_overlap`, of
`C87_negative` and of `C87_sum_overflows`: a view of a view is written to after its vector was moved. -/
theorem C87_example : ∃ vals vs, VRuns (0 : Int) 4 (fun _ => none) (fun _ => none)
    [.own (.make 0 4 .zero), .sub 0 (.vec 0) 1 3, .sub 1 (.view 0) 1 2, .sub 2 (.view 0) 0 2, .own (.move 1 0),
      .put (.view 1) 1 7] (some (vals, vs)) ∧
    vals 1 = some [some 0, some 0, some 0, some 7] ∧ vs 0 = some ⟨1, 1, 3⟩ ∧ vs 1 = some ⟨1, 2, 2⟩ ∧
      vs 2 = some ⟨1, 1, 2⟩ := by
  refine ⟨_, _, .step (.own ⟨by decide, by decide⟩ (.make 4)) (.step (.sub 1 3 (.vec rfl) (by decide))
    (.step (.sub 1 2 (.view rfl rfl) (by decide)) (.step (.sub 0 2 (.view rfl rfl) (by decide))
    (.step (.own ⟨by decide, by decide⟩ (.move rfl)) (.step (.put (i := 1) (.view rfl rfl) (by decide)) (.nil _ _)))))),
    rfl, rfl, rfl, rfl⟩

example : ∃ vals vs, VRuns (0 : Int) 4 (fun _ => none) (fun _ => none)
    [.own (.make 0 4 .zero), .sub 0 (.vec 0) 1 3, .sub 1 (.view 0) 1 2, .own (.move 1 0), .put (.view 1) 1 7,
      .add (.view 1) (.view 1) (· + ·)].dropLast (some (vals, vs)) ∧
    vals 1 = some [some 0, some 0, some 0, some 7] ∧ vs 0 = some ⟨1, 1, 3⟩ ∧ vs 1 = some ⟨1, 2, 2⟩ := by
  refine ⟨_, _, .step (.own ⟨by decide, by decide⟩ (.make 4)) (.step (.sub 1 3 (.vec rfl) (by decide))
    (.step (.sub 1 2 (.view rfl rfl) (by decide)) (.step (.own ⟨by decide, by decide⟩ (.move rfl))
    (.step (.put (i := 1) (.view rfl rfl) (by decide)) (.nil _ _))))), rfl, rfl, rfl⟩

example : ∃ vals vs, VRuns (0 : Int) 4 (fun _ => none) (fun _ => none)
    [.own (.make 0 4 .zero), .sub 0 (.vec 0) 1 3, .fill (.view 0) 5, .sub 1 (.view 0) 0 1, .sub 2 (.view 0) 2 1,
      .map (.view 1) (· + 1), .mul (.view 1) (.view 1) (· * ·), .add (.view 2) (.view 1) (· + ·), .clear (.view 1),
      .own (.make 1 3 .undefined), .copy (.vec 1) (.view 0)]
    (some (vals, vs)) ∧ vals 0 = some [some 0, some 0, some 5, some 41] ∧ vals 1 = some [some 0, some 5, some 41] := by
  refine ⟨_, _, .step (.own ⟨by decide, by decide⟩ (.make 4)) (.step (.sub 1 3 (.vec rfl) (by decide))
    (.step (.fill (.view rfl rfl)) (.step (.sub 0 1 (.view rfl rfl) (by decide))
    (.step (.sub 2 1 (.view rfl rfl) (by decide))
    (.step (.map (c := [5]) (.view rfl rfl) (by decide)) (.step (.mul (a := [6]) (b := [6]) (.view rfl rfl) (.view rfl rfl) rfl
      (.inr (.inl (by decide))) (by decide) (by decide))
    (.step (.add (a := [5]) (b := [36]) (.view rfl rfl) (.view rfl rfl) rfl (.inr (.inr (by decide))) (by decide) (by decide))
    (.step (.clear (.view rfl rfl)) (.step (.own ⟨by decide, by decide⟩ (.make 3))
    (.step (.copy (.vec rfl) (.view rfl rfl) rfl (.inr (.inl (by decide)))) (.nil _ _))))))))))), rfl, rfl⟩

/-- The hypothesis of `C87_refused` can be met. -/
example : VRuns (0 : Int) 4 (fun _ => none) (fun _ => none)
    [.own (.make 0 4 .zero), .sub 0 (.vec 0) 1 3, .sub 1 (.view 0) 2 2] none :=
  .step (.own ⟨by decide, by decide⟩ (.make 4)) (.step (.sub 1 3 (.vec rfl) (by decide))
    (.refused (.sub 2 2 (.view rfl rfl) (by decide) (by decide))))

/-- The vector that is viewed in `C87_example` gets another length, or ends; the views are copied and added to each other;
there are views with origins before the start. -/
example : ∃ ops : List (VOp Int),
    vrun 0 4 (ops ++ [.own (.resize 1 5 .copy), .put (.view 1) 0 3]) .start = .error .ub ∧
    vrun 0 4 (ops ++ [.own (.drop 1), .put (.view 1) 0 3]) .start = .error .ub ∧
    vrun 0 4 (ops ++ [.copy (.view 1) (.view 2)]) .start = .error .ub ∧
    vrun 0 4 (ops ++ [.add (.view 1) (.view 1) (· + ·)]) .start = .error .ub ∧
    vrun 0 4 (ops ++ [.sub 3 (.view 1) (-3) 2]) .start = .error .ub ∧
    vrun 0 4 (ops ++ [.sub 3 (.view 1) 1 2147483647]) .start = .error .ub ∧
    ∃ s, vrun 0 4 (ops ++ [.sub 3 (.view 1) (-2) 4]) .start = .ok s ∧ s.dim (.view 3) = .ok 4 := by
  obtain ⟨vals, vs, h, h1, -, h3, h4⟩ := C87_example
  have n1 : Names vals vs (.view 1) ⟨1, 2, 2⟩ _ := .view h3 h1
  have n2 : Names vals vs (.view 2) ⟨1, 1, 2⟩ _ := .view h4 h1
  have hne : vals 1 ≠ none := by rw [h1]; simp
  refine ⟨[.own (.make 0 4 .zero), .sub 0 (.vec 0) 1 3, .sub 1 (.view 0) 1 2, .sub 2 (.view 0) 0 2, .own (.move 1 0),
    .put (.view 1) 1 7], ?_, ?_, ?_, ?_, ?_, ?_, ?_⟩
  · obtain ⟨s, -, -, g⟩ := C87_dangling 0 4 (by decide) _ h h3 (op := .resize 1 5 .copy) ⟨hne, by decide⟩
      ⟨rfl, by decide, by rw [h1]; decide⟩
    exact (g 0 (by decide)).2 3
  · obtain ⟨s, -, -, g⟩ := C87_dangling 0 4 (by decide) _ h h3 (op := .drop 1) hne rfl
    exact (g 0 (by decide)).2 3
  · exact (C87_overlap 0 4 (by decide) _ h n1 n2 rfl (by unfold Apart; decide) (· + ·)).1 (by decide)
  · exact (C87_overlap 0 4 (by decide) _ h n1 n1 rfl (by unfold Apart; decide) (· + ·)).2
  · exact (C87_negative 0 4 (by decide) _ h n1 3 (-3) 2 (by decide) (by decide) (by simp)).1 (by decide)
  · exact C87_sum_overflows 0 4 (by decide) _ h n1 3 1 2147483647 (by decide)
  · obtain ⟨s, g1, g2, -⟩ := (C87_negative 0 4 (by decide) _ h n1 3 (-2) 4 (by decide) (by decide) (by simp)).2
      (by decide) (by decide)
    exact ⟨s, g1, g2⟩

end Verif.VecMem
