import Verif.AmConvMean
import Verif.SerProps
import Mathlib.Data.List.Forall2

/-!
# Lemmas: the files of the acoustic model converter
-/

namespace Verif.Tool

open Verif.Nnet (Layer numCols)
open Verif.Nnet.Spec (Pointwise)
open Verif.Ser.Spec
open Kaldi

variable {R : Type}

/-- `n` is the word Python writes for the number. -/
def IsWord32 (num : ANum R) (x : R) (n : Nat) : Prop := ∃ w, num.pack x = some w ∧ n = w.toNat

/-- The layer with every number as the word Python writes for it. -/
def Rounds (num : ANum R) : Layer R → Layer Nat → Prop
  | .linear W b, .linear W' b' =>
    List.Forall₂ (List.Forall₂ (IsWord32 num)) W W' ∧ List.Forall₂ (IsWord32 num) b b'
  | .batchNorm s t, .batchNorm s' t' => List.Forall₂ (IsWord32 num) s s' ∧ List.Forall₂ (IsWord32 num) t t'
  | .splice idx, .splice idx' => idx = idx'
  | .narrow l r, .narrow l' r' => l = l' ∧ r = r'
  | .relu, .relu => True
  | .normalize, .normalize => True
  | .softmax, .softmax => True
  | .logSoftmax, .logSoftmax => True
  | _, _ => False

/-- The numbers of a layer. -/
def layerNumbers : Layer R → List R
  | .linear W b => W.flatten ++ b
  | .batchNorm s t => s ++ t
  | _ => []

/-- Layers that can be written. -/
def Small : Layer R → Prop
  | .linear W b => (∃ cols, 1 ≤ cols ∧ cols * 4 + 4 ≤ 2147483647 ∧ W ≠ [] ∧ (∀ r ∈ W, r.length = cols) ∧
      W.length * cols ≤ 2147483647) ∧ b ≠ [] ∧ b.length * 4 + 4 ≤ 2147483647
  | .splice idx => idx.length ≤ 2147483647 ∧ ∀ i ∈ idx, InI32 i
  | .batchNorm s t => (s ≠ [] ∧ s.length * 4 + 4 ≤ 2147483647) ∧ (t ≠ [] ∧ t.length * 4 + 4 ≤ 2147483647)
  | .narrow l r => InI32 l ∧ InI32 r
  | _ => True

theorem mapM_forall₂ {α β : Type} {f : α → Exec β} {P : α → β → Prop} : ∀ {v : List α},
    (∀ x ∈ v, ∃ y, f x = .ok y ∧ P x y) → ∃ v', v.mapM f = .ok v' ∧ List.Forall₂ P v v'
  | [], _ => ⟨[], rfl, .nil⟩
  | x :: v, h => by
    obtain ⟨y, h1, h2⟩ := h x (List.mem_cons_self ..)
    obtain ⟨v', h3, h4⟩ := mapM_forall₂ fun z hz => h z (List.mem_cons_of_mem _ hz)
    refine ⟨y :: v', ?_, .cons h2 h4⟩
    rw [List.mapM_cons, h1, ok_bind, h3, ok_bind]
    rfl

theorem packInt_ok {x : Int} (h : InI32 x) : packInt x = .ok () := by
  unfold packInt
  rw [if_pos ⟨h.1, h.2⟩]

theorem packVec_ok {num : ANum R} {v : List R} (h : ∀ x ∈ v, ∃ w, num.pack x = some w)
    (hl : v.length * 4 + 4 ≤ 2147483647) : ∃ v', packVec num v = .ok v' ∧ List.Forall₂ (IsWord32 num) v v' := by
  unfold packVec
  rw [packInt_ok ⟨by omega, by omega⟩, ok_bind]
  apply mapM_forall₂
  intro x hx
  obtain ⟨w, hw⟩ := h x hx
  rw [hw]
  exact ⟨w.toNat, rfl, w, hw, rfl⟩

theorem vecOk_of {num : ANum R} {v : List R} {v' : List Nat} (h : List.Forall₂ (IsWord32 num) v v') (h0 : v ≠ [])
    (hl : v.length * 4 + 4 ≤ 2147483647) : VecOk v' := by
  have hlen := h.length_eq
  refine ⟨?_, by omega, ?_⟩
  · intro e
    subst e
    cases h
    exact h0 rfl
  · clear h0 hl hlen
    induction h with
    | nil => intro x hx; cases hx
    | cons h1 _ ih =>
      intro x hx
      rcases List.mem_cons.mp hx with rfl | hx
      · obtain ⟨w, _, rfl⟩ := h1
        exact w.toNat_lt
      · exact ih x hx

theorem forall₂_mem {α β : Type} {P : α → β → Prop} {l : List α} {l' : List β} (h : List.Forall₂ P l l') :
    ∀ y ∈ l', ∃ x ∈ l, P x y := by
  induction h with
  | nil => intro y hy; cases hy
  | cons h1 _ ih =>
    intro y hy
    rcases List.mem_cons.mp hy with rfl | hy
    · exact ⟨_, List.mem_cons_self .., h1⟩
    · obtain ⟨x, hx, hp⟩ := ih y hy
      exact ⟨x, List.mem_cons_of_mem _ hx, hp⟩

theorem packLayer_ok {num : ANum R} {k : Layer R} (hs : Small k)
    (h : ∀ x ∈ layerNumbers k, ∃ w, num.pack x = some w) :
    ∃ k', packLayer num k = .ok k' ∧ Rounds num k k' ∧ LayerOk k' := by
  cases k with
  | linear W b =>
    obtain ⟨⟨cols, c1, c2, hW0, hr, hsz⟩, hb0, hb⟩ := hs
    have hn : numCols W = cols := by
      cases W with
      | nil => exact absurd rfl hW0
      | cons r W => exact hr r (List.mem_cons_self ..)
    have hW : 1 ≤ W.length := List.length_pos_iff.mpr hW0
    have hle : W.length ≤ W.length * cols := Nat.le_mul_of_pos_right _ c1
    obtain ⟨W', w1, w2⟩ := mapM_forall₂ (f := packVec num) (P := List.Forall₂ (IsWord32 num)) (v := W) (by
      intro r hr'
      refine packVec_ok (fun x hx => h x ?_) (by rw [hr r hr']; exact c2)
      exact List.mem_append_left _ (List.mem_flatten.mpr ⟨r, hr', hx⟩))
    obtain ⟨b', b1, b2⟩ := packVec_ok (v := b) (fun x hx => h x (List.mem_append_right _ hx)) hb
    refine ⟨.linear W' b', ?_, ⟨w2, b2⟩, ?_⟩
    · unfold packLayer
      simp only
      rw [packInt_ok ⟨by omega, by omega⟩, ok_bind, packInt_ok (by rw [hn]; exact ⟨by omega, by omega⟩), ok_bind, w1, ok_bind,
        b1, ok_bind]
    · have hlen := w2.length_eq
      refine ⟨⟨cols, ?_, ?_, ?_⟩, vecOk_of b2 hb0 hb⟩
      · intro e
        subst e
        simp at hlen
        exact hW0 hlen
      · intro r' hr'
        obtain ⟨r, hr1, hr2⟩ := forall₂_mem w2 r' hr'
        have e := hr r hr1
        refine ⟨by rw [← hr2.length_eq]; exact e, vecOk_of hr2 ?_ (by rw [e]; exact c2)⟩
        intro h0
        rw [h0] at e
        simp at e
        omega
      · rw [← hlen]
        exact_mod_cast hsz
  | relu => exact ⟨.relu, rfl, trivial, trivial⟩
  | normalize => exact ⟨.normalize, rfl, trivial, trivial⟩
  | softmax => exact ⟨.softmax, rfl, trivial, trivial⟩
  | splice idx =>
    obtain ⟨h1, h2⟩ := hs
    refine ⟨.splice idx, ?_, rfl, h1, h2⟩
    obtain ⟨v, hv, _⟩ := mapM_forall₂ (f := packInt) (P := fun _ _ => True) (v := idx)
      (fun i hi => ⟨(), packInt_ok (h2 i hi), trivial⟩)
    unfold packLayer
    simp only
    rw [packInt_ok ⟨by omega, by omega⟩, ok_bind, hv, ok_bind]
  | batchNorm s t =>
    obtain ⟨⟨s1, s2⟩, t1, t2⟩ := hs
    obtain ⟨s', a1, a2⟩ := packVec_ok (v := s) (fun x hx => h x (List.mem_append_left _ hx)) s2
    obtain ⟨t', b1, b2⟩ := packVec_ok (v := t) (fun x hx => h x (List.mem_append_right _ hx)) t2
    refine ⟨.batchNorm s' t', ?_, ⟨a2, b2⟩, vecOk_of a2 s1 s2, vecOk_of b2 t1 t2⟩
    unfold packLayer
    simp only
    rw [a1, ok_bind, b1, ok_bind]
  | logSoftmax => exact ⟨.logSoftmax, rfl, trivial, trivial⟩
  | narrow l r =>
    obtain ⟨h1, h2⟩ := hs
    refine ⟨.narrow l r, ?_, ⟨rfl, rfl⟩, h1, h2⟩
    unfold packLayer
    simp only
    rw [packInt_ok h1, ok_bind, packInt_ok h2, ok_bind]

/-! ## `verify` -/

theorem verify_row {k : Layer R} {d e : Nat} (h : Pointwise k d e) {o : Option Nat} (ho : o = none ∨ o = some d)
    (ls : List (Layer R)) : ∃ o', verify o (k :: ls) = verify o' ls ∧ (o' = none ∨ o' = some e) := by
  cases h with
  | @linear W b _ _ h0 h1 h2 h3 =>
    have hn : numCols W = e := by
      cases W with
      | nil => exact absurd rfl h0
      | cons r W => exact h2 r (List.mem_cons_self ..)
    refine ⟨some e, ?_, .inr rfl⟩
    rcases ho with rfl | rfl
    · show verify (some (numCols W)) ls = _
      rw [hn]
    · show (if d ≠ W.length then _ else verify (some (numCols W)) ls) = _
      rw [if_neg (by simp [h1]), hn]
  | relu => exact ⟨o, by rcases ho with rfl | rfl <;> rfl, ho⟩
  | normalize => exact ⟨o, by rcases ho with rfl | rfl <;> rfl, ho⟩
  | softmax => exact ⟨o, by rcases ho with rfl | rfl <;> rfl, ho⟩
  | logSoftmax => exact ⟨o, by rcases ho with rfl | rfl <;> rfl, ho⟩
  | batchNorm h1 h2 => exact ⟨o, by rcases ho with rfl | rfl <;> rfl, ho⟩

theorem verify_built {ls : List (Layer R)} {d e L Rt w : Nat} (h : Nnet.Spec.Built ls d e L Rt w) :
    ∀ {o : Option Nat}, (o = none ∨ o = some d) → verify o ls = .ok () := by
  induction h with
  | nil => intro o _; rw [verify]
  | row _ _ h _ ih =>
    intro o ho
    obtain ⟨o', h1, h2⟩ := verify_row h ho _
    rw [h1]
    exact ih h2
  | @context idx l r ls d f L R w _ _ _ _ _ _ _ _ ih =>
    intro o ho
    have e1 : verify o (.splice idx :: .narrow l r :: ls) = verify (o.map (· * idx.length)) ls := by
      rcases ho with rfl | rfl <;> rfl
    rw [e1]
    refine ih ?_
    rcases ho with rfl | rfl
    · exact .inl rfl
    · right
      show some (d * idx.length) = _
      rw [Nat.mul_comm]

/-! ## The conversion -/

/-- Sizes that can be written to a file. -/
def Kaldi.Comp.Writable : Comp R → Prop
  | .affine W _ => W.length ≤ 536870910 ∧ ∀ row ∈ W, W.length * row.length ≤ 2147483647
  | .batchNorm mean _ _ _ => mean.length ≤ 536870910
  | _ => True

theorem small_comp {num : ANum R} {c : Comp R} {d e : Nat} (h1 : 1 ≤ d) (he : 1 ≤ e) (h : c.Takes d e)
    (hw : c.Writable) : Small (layerOfComp num c) := by
  have hp := pointwise_of (num := num) h1 he h
  cases c with
  | affine W b =>
    obtain ⟨hW, hb, hr⟩ := h
    obtain ⟨w1, w2⟩ := hw
    have hW0 : W ≠ [] := by intro h; subst h; simp at hW; omega
    cases hp with
    | linear p0 p1 p2 p3 =>
      refine ⟨⟨e, he, by omega, p0, p2, ?_⟩, ?_, by omega⟩
      · rw [p1]
        obtain ⟨row, hrow⟩ := List.exists_mem_of_ne_nil W hW0
        have := w2 row hrow
        rw [hr row hrow, hW, Nat.mul_comm] at this
        exact this
      · intro h0
        rw [h0] at hb
        simp at hb
        omega
  | relu => trivial
  | batchNorm mean var eps rms =>
    cases hp with
    | batchNorm p1 p2 =>
      obtain ⟨hm, _, -⟩ := h
      have hw : mean.length ≤ 536870910 := hw
      have ne : ∀ {l : List R}, l.length = d → l ≠ [] := by
        intro l hl h0
        rw [h0] at hl
        simp at hl
        omega
      exact ⟨⟨ne p1, by omega⟩, ne p2, by omega⟩
  | logSoftmax => trivial

theorem small_layers {num : ANum R} {cs : List (Txt × Comp R)} (hd : (cs.map Prod.fst).Nodup)
    (hw : ∀ p ∈ cs, p.2.Writable) {ns : List Node} {ls : List (Layer R)} {l r : Int} (hl : Layers num cs ns ls l r) :
    ∀ {prev : Txt} {d e : Nat}, Chain prev ns → Fit cs d ns e →
    (∀ n ∈ ns, ∀ ps, n.input = .append ps → ps.length ≤ 2147483647) → l ≤ 2147483647 → r ≤ 2147483647 →
    0 ≤ l ∧ 0 ≤ r ∧ ∀ k ∈ ls, Small k := by
  induction hl with
  | nil => intro _ _ _ _ _ _ _ _; exact ⟨by omega, by omega, fun k hk => absurd hk List.not_mem_nil⟩
  | @plain n p c ns ls l r hi hc _ ih =>
    intro prev d e hch hf hps bl br
    cases hf with
    | @cons _ e' _ _ _ c' h1 hc' ht hf =>
      obtain rfl := comp_unique hd hc hc'
      have hpos := width_pos (d := d) hch h1
      obtain ⟨i1, i2, i3⟩ := ih (prev := n.name) (by cases hch <;> assumption) hf
        (fun m hm => hps m (List.mem_cons_of_mem _ hm)) bl br
      refine ⟨i1, i2, ?_⟩
      intro k hk
      rcases List.mem_cons.mp hk with rfl | hk
      · exact small_comp hpos (fit_pos hf) ht (hw _ hc)
      · exact i3 k hk
  | @context n ps c ns ls l r hi hc _ ih =>
    intro prev d e hch hf hps bl br
    have a := foldl_min_le (shifts ps) 0
    have b := foldl_max_ge (shifts ps) 0
    have ha : 0 ≤ back ps := by unfold back; omega
    have hb : 0 ≤ forth ps := by unfold forth; omega
    cases hf with
    | @cons _ e' _ _ _ c' h1 hc' ht hf =>
      obtain rfl := comp_unique hd hc hc'
      have hpos := width_pos (d := d) hch h1
      have hch' : Chain n.name ns := by cases hch <;> assumption
      have hps' := hps n (List.mem_cons_self ..) ps hi
      obtain ⟨i1, i2, i3⟩ : 0 ≤ l ∧ 0 ≤ r ∧ ∀ k ∈ ls, Small k := by
        have hnn : 0 ≤ l ∧ 0 ≤ r := by
          obtain ⟨w, L, R, rfl, rfl, _⟩ := built_chain hd ‹Layers num cs ns ls l r› hch' hf
          exact ⟨Int.natCast_nonneg _, Int.natCast_nonneg _⟩
        exact ih hch' hf (fun m hm => hps m (List.mem_cons_of_mem _ hm)) (by omega) (by omega)
      refine ⟨by omega, by omega, ?_⟩
      intro k hk
      rcases List.mem_cons.mp hk with rfl | hk
      · refine ⟨by unfold shifts; rw [List.length_map]; exact hps', ?_⟩
        intro i hi'
        have := a.2.1 i hi'
        have := b.2.1 i hi'
        unfold back at *
        unfold forth at *
        exact ⟨by omega, by omega⟩
      rcases List.mem_cons.mp hk with rfl | hk
      · exact ⟨⟨by omega, by omega⟩, ⟨by omega, by omega⟩⟩
      rcases List.mem_cons.mp hk with rfl | hk
      · exact small_comp hpos (fit_pos hf) ht (hw _ hc)
      · exact i3 k hk

/-- The prior probabilities are found. -/
theorem prior_ok {num : ANum R} {val : Txt → R} {net : Net Txt} {text : Txt} (h : IsText net text)
    (hv : ∀ w ∈ net.prior, num.parse w = some (val w)) : ∃ t t', gotoToken "Priors".toList text = .ok t ∧
      readMatrix num t = .ok ([net.prior.map val], t') := by
  obtain ⟨pre, lines, a, cnt, b, comps, mid, m, tail, rfl, -, -, h3, -, -, -, -, -, -, -, -, -, h13⟩ := h
  have e1 := gotoToken_ok (name := "Priors".toList) (m ++ tail) (by decide) h3
  rw [show tokenText "Priors".toList = "<Priors>".toList from rfl] at e1
  refine ⟨m ++ tail, tail.dropWhile white, ?_, ?_⟩
  · rw [← e1]
    simp only [List.append_assoc]
  · exact readMatrix_ok (c := net.prior.length) tail h13 (by
      intro r hr
      cases List.mem_singleton.mp hr
      exact ⟨rfl, hv⟩)

end Verif.Tool
