import Verif.MainSpec
import Verif.LmProps

/-!
# Reading bits as numbers commutes with conversion and with the table of the unigram state
-/

namespace Verif.Main

open Verif Verif.Fst Verif.Main.Spec

variable {F : Type}

/-- The value of the weight of an arc. -/
def valueArc (g : UInt32 → F) (a : Arc UInt32) : Arc F := ⟨a.next, a.ilabel, a.olabel, g a.weight⟩

theorem aget_map {α β : Type} (h : α → β) (xs : List α) (i : Int) : aget (xs.map h) i = (aget xs i).map h := by
  unfold aget
  split
  · rfl
  · rw [List.getElem?_map]
    cases xs[i.toNat]? <;> rfl

theorem aset_map {α β : Type} (h : α → β) (xs : List α) (i : Int) (x : α) :
    aset (xs.map h) i (h x) = (aset xs i x).map (List.map h) := by
  unfold aset
  split
  · rfl
  · rw [List.length_map]
    split
    · simp [Except.map, List.map_set]
    · rfl

theorem rawArcs_map (g : UInt32 → F) : ∀ (states : List (UInt32 × List (Arc UInt32))) (s : Nat),
    rawArcs (states.map fun p => (g p.1, p.2.map (valueArc g))) s =
      (rawArcs states s).map fun x => (x.1, valueArc g x.2)
  | [], _ => rfl
  | (x, as) :: rest, s => by
    simp only [List.map_cons, rawArcs, List.map_append, rawArcs_map g rest, List.map_map]
    rfl

theorem insertArc_map (g : UInt32 → F) (x : Nat × Arc UInt32) : ∀ l : List (Nat × Arc UInt32),
    insertArc (x.1, valueArc g x.2) (l.map fun x => (x.1, valueArc g x.2)) =
      (insertArc x l).map fun x => (x.1, valueArc g x.2)
  | [] => rfl
  | y :: l => by
    simp only [List.map_cons, insertArc]
    rw [show keyLe (x.1, valueArc g x.2) (y.1, valueArc g y.2) = keyLe x y from rfl]
    split
    · rfl
    · rw [List.map_cons, insertArc_map g x l]

theorem sortArcs_map (g : UInt32 → F) : ∀ l : List (Nat × Arc UInt32),
    sortArcs (l.map fun x => (x.1, valueArc g x.2)) = (sortArcs l).map fun x => (x.1, valueArc g x.2)
  | [] => rfl
  | x :: l => by
    simp only [List.map_cons, sortArcs]
    rw [sortArcs_map g l, insertArc_map]

theorem fillIdx_map (g : UInt32 → F) : ∀ (l : List (Nat × Arc UInt32)) (i : Int) (idx : List Int),
    fillIdx (l.map fun x => (x.1, valueArc g x.2)) i idx = fillIdx l i idx
  | [], _, _ => rfl
  | (s, a) :: l, i, idx => by
    simp only [List.map_cons, fillIdx, fillIdx_map g l]

/-- The arrays with values are those of the transducer with values. -/
theorem convert_value (g : Option Nat → F) {t : Transducer UInt32} {f : Fst UInt32} (h : convert t = .ok f) :
    convert (valueFst (fun x => g (some x.toNat)) t) = .ok (fstOf g f) := by
  unfold convert at h ⊢
  have e : sortedArcs (valueFst (fun x => g (some x.toNat)) t) =
      (sortedArcs t).map fun x => (x.1, valueArc (fun x => g (some x.toNat)) x.2) := by
    unfold sortedArcs
    rw [← sortArcs_map, ← rawArcs_map]
    rfl
  simp only at h ⊢
  rw [e, fillIdx_map, show (valueFst (fun x => g (some x.toNat)) t).states.length = t.states.length by simp [valueFst]]
  obtain ⟨idx, h1, h2⟩ := bind_ok h
  rw [h1, ok_bind]
  cases h2
  simp only [fstOf, valueFst, List.map_map]
  rfl

theorem countArcs_value (g : Option Nat → F) (f : Fst UInt32) (s : Int) : countArcs (fstOf g f) s = countArcs f s := by
  unfold countArcs fstOf
  simp only [List.length_map]

theorem nextAll_value (g : Option Nat → F) (arcs : List (Arc UInt32)) : ∀ (n : Nat) (base : Int),
    nextAll (arcs.map (arcOf g)) n base = (nextAll arcs n base).map (List.map (arcOf g))
  | 0, _ => rfl
  | n + 1, base => by
    simp only [nextAll]
    rw [aget_map, nextAll_value g arcs n]
    cases aget arcs base with
    | error e => rfl
    | ok a =>
      simp only [Except.map, ok_bind]
      cases nextAll arcs n (base + 1) with
      | error e => rfl
      | ok as => rfl

theorem maxLabel_value (g : Option Nat → F) : ∀ (as : List (Arc UInt32)) (m : Int),
    maxLabel (as.map (arcOf g)) m = maxLabel as m
  | [], _ => rfl
  | a :: as, m => by
    simp only [List.map_cons, maxLabel]
    exact maxLabel_value g as _

theorem fillBucket_value (g : Option Nat → F) : ∀ (as : List (Arc UInt32)) (b : List (Option (Arc UInt32))),
    fillBucket (as.map (arcOf g)) (b.map (·.map (arcOf g))) = (fillBucket as b).map (List.map (·.map (arcOf g)))
  | [], _ => rfl
  | a :: as, b => by
    simp only [List.map_cons, fillBucket]
    have := aset_map (fun o : Option (Arc UInt32) => o.map (arcOf g)) b a.ilabel (some a)
    simp only [Option.map_some] at this
    rw [show (arcOf g a).ilabel = a.ilabel from rfl, this]
    cases aset b a.ilabel (some a) with
    | error e => rfl
    | ok b' =>
      simp only [Except.map, ok_bind]
      have := fillBucket_value g as b'
      simpa only [Except.map] using this

/-- The table with values is that of the arrays with values. -/
theorem initBucket0_value (g : Option Nat → F) {f : Fst UInt32} {b : List (Option (Arc UInt32))}
    (h : initBucket0 f = .ok b) : initBucket0 (fstOf g f) = .ok (b.map (·.map (arcOf g))) := by
  unfold initBucket0 at h ⊢
  obtain ⟨as, h1, h⟩ := bind_ok h
  obtain ⟨n, h2, h⟩ := bind_ok h
  have e1 : iterArcs (fstOf g f) 0 = .ok (as.map (arcOf g)) := by
    unfold iterArcs at h1 ⊢
    obtain ⟨u, c1, h1⟩ := bind_ok h1
    obtain ⟨total, c2, h1⟩ := bind_ok h1
    obtain ⟨base, c3, h1⟩ := bind_ok h1
    change (do
      cassert (decide ((0 : Int) < f.stateIdx.length ∧ (0 : Int) ≤ 0))
      let total ← countArcs (fstOf g f) 0
      let base ← aget f.stateIdx 0
      nextAll (f.arcs.map (arcOf g)) total.toNat base) = _
    rw [countArcs_value, c1, ok_bind, c2, ok_bind, c3, ok_bind, nextAll_value, h1]
    rfl
  rw [e1, ok_bind, maxLabel_value, h2, ok_bind]
  have := fillBucket_value g as (List.replicate n.toNat none)
  rw [h, List.map_replicate] at this
  exact this

theorem arcCount_value (g : UInt32 → F) (t : Transducer UInt32) : arcCount (valueFst g t) = arcCount t := by
  unfold arcCount valueFst
  simp only [List.map_map]
  congr 1
  exact List.map_congr_left fun x _ => by simp

theorem isLm_value {g : UInt32 → F} {t : Transducer UInt32} (h : IsLm t) : IsLm (valueFst g t) := by
  refine ⟨?_, by rw [arcCount_value]; exact h.size⟩
  intro x hx a ha
  obtain ⟨y, hy, rfl⟩ := List.mem_map.mp hx
  obtain ⟨b, hb, rfl⟩ := List.mem_map.mp ha
  exact h.labels y hy b hb

theorem unigramState_value {g : UInt32 → F} {t : Transducer UInt32} (h : UnigramState t) :
    UnigramState (valueFst g t) := by
  have key : ∀ x as, (valueFst g t).states[0]? = some (x, as) → ∃ y bs, t.states[0]? = some (y, bs) ∧
      as = bs.map fun a => (⟨a.next, a.ilabel, a.olabel, g a.weight⟩ : Arc F) := by
    intro x as hx
    simp only [valueFst, List.getElem?_map] at hx
    cases ht : t.states[0]? with
    | none => rw [ht] at hx; cases hx
    | some p =>
      rw [ht] at hx
      simp only [Option.map_some, Option.some.injEq, Prod.mk.injEq] at hx
      exact ⟨p.1, p.2, rfl, hx.2.symm⟩
  refine ⟨?_, ?_, ?_⟩
  · simp only [valueFst, ne_eq, List.map_eq_nil_iff]; exact h.exists0
  · intro x as hx
    obtain ⟨y, bs, e1, rfl⟩ := key x as hx
    rw [List.pairwise_map]
    exact h.distinct y bs e1
  · intro x as hx a ha
    obtain ⟨y, bs, e1, rfl⟩ := key x as hx
    obtain ⟨b, hb, rfl⟩ := List.mem_map.mp ha
    exact h.small y bs e1 b hb

/-- The language model the decoder uses answers as the large model in the files and the scores of the small one say. -/
theorem deltaOf_answers {G D : Type} (mach : Machine G F D) (u : List Nat) {l : App.Lm} {t : Transducer UInt32}
    (h1 : convert t = .ok l.fst) (h2 : initBucket0 l.fst = .ok l.bucket) (h4 : IsLm t) (h5 : UnigramState t)
    (bos eos : Int) : Answers mach.lm (u.map fun x => mach.word (some x))
      (valueFst (fun x => mach.word (some x.toNat)) t) bos eos mach.lmFuel (mach.deltaOf u l (bos, eos)) where
  start hb s e hs bs hc hl a ha := by
    obtain ⟨f, b, e1, e2, e3⟩ := C16_delta_start mach.lm _ (isLm_value h4) (unigramState_value h5)
      (u.map fun x => mach.word (some x)) bos eos hb s e hs bs hc a ha
    rw [convert_value mach.word h1] at e1
    cases e1
    rw [initBucket0_value mach.word h2] at e2
    cases e2
    exact e3 _ hl
  arc w hw x hx s e bs hc hl a ha := by
    obtain ⟨f, b, e1, e2, e3⟩ := C16_delta_score mach.lm _ (isLm_value h4) (unigramState_value h5)
      (u.map fun x => mach.word (some x)) bos eos w hw x hx s e bs hc
    rw [convert_value mach.word h1] at e1
    cases e1
    rw [initBucket0_value mach.word h2] at e2
    cases e2
    exact (e3 _ hl).1 a ha
  noArc w hw x hx s e bs hc hl he g1 g2 := by
    obtain ⟨f, b, e1, e2, e3⟩ := C16_delta_score mach.lm _ (isLm_value h4) (unigramState_value h5)
      (u.map fun x => mach.word (some x)) bos eos w hw x hx s e bs hc
    rw [convert_value mach.word h1] at e1
    cases e1
    rw [initBucket0_value mach.word h2] at e2
    cases e2
    exact (e3 _ hl).2 he g1 g2
  final heos x hx s e d g bs fs hc hl a ha hd hf hlf w hw hend := by
    obtain ⟨f, b, e1, e2, e3⟩ := C16_delta_final mach.lm _ (isLm_value h4) (unigramState_value h5)
      (u.map fun x => mach.word (some x)) bos eos heos x hx s e d g bs fs hc a ha hd hf w hw hend
    rw [convert_value mach.word h1] at e1
    cases e1
    rw [initBucket0_value mach.word h2] at e2
    cases e2
    exact e3 _ hl hlf

end Verif.Main
