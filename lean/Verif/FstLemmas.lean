import Verif.FstModel

/-! # Lemmas about the FST model: array layout, search, and the converter -/

set_option linter.unusedSectionVars false

namespace Verif.Fst

open Verif

variable {W : Type}

/-! ## The layout of the arrays -/

/-- Start offsets of consecutive groups, −1 for an empty group. -/
def idxOf : List (List (Arc W)) → Nat → List Int
  | [], _ => []
  | g :: gs, o => (if g = [] then (-1 : Int) else (o : Int)) :: idxOf gs (o + g.length)

/-- The arrays of `f` store the groups `gs`, one group per state. -/
structure Layout (f : Fst W) (gs : List (List (Arc W))) : Prop where
  arcs : f.arcs = gs.flatten
  idx : f.stateIdx = idxOf gs 0
  size : (f.arcs.length : Int) ≤ 2147483647

theorem idxOf_length : ∀ (gs : List (List (Arc W))) (o : Nat), (idxOf gs o).length = gs.length
  | [], _ => rfl
  | _ :: gs, o => by simp [idxOf, idxOf_length gs]

theorem idxOf_get : ∀ (gs : List (List (Arc W))) (o s : Nat) (g : List (Arc W)),
    gs[s]? = some g →
    (idxOf gs o)[s]? = some (if g = [] then (-1 : Int) else ((o + (gs.take s).flatten.length : Nat) : Int))
  | [], _, _, _, h => by simp at h
  | g0 :: gs, o, 0, g, h => by
    simp at h; subst h; simp [idxOf]
  | g0 :: gs, o, s + 1, g, h => by
    simp only [List.getElem?_cons_succ] at h
    simp only [idxOf, List.getElem?_cons_succ]
    rw [idxOf_get gs (o + g0.length) s g h]
    simp only [List.take_succ_cons, List.flatten_cons, List.length_append, Nat.add_assoc]

theorem idxOf_drop : ∀ (gs : List (List (Arc W))) (o s : Nat),
    (idxOf gs o).drop s = idxOf (gs.drop s) (o + (gs.take s).flatten.length)
  | [], o, s => by simp [idxOf]
  | g :: gs, o, 0 => by simp
  | g :: gs, o, s + 1 => by
    simp only [idxOf, List.drop_succ_cons]
    rw [idxOf_drop gs (o + g.length) s]
    simp only [List.take_succ_cons, List.flatten_cons, List.length_append, Nat.add_assoc]

theorem firstPos_idxOf : ∀ (gs : List (List (Arc W))) (o : Nat), 0 < o →
    (firstPos (idxOf gs o) = some (o : Int)) ∨ (firstPos (idxOf gs o) = none ∧ gs.flatten = [])
  | [], _, _ => by right; simp [idxOf, firstPos]
  | g :: gs, o, h => by
    by_cases hg : g = []
    · subst hg
      have := firstPos_idxOf gs o h
      simpa [idxOf, firstPos] using this
    · left
      simp only [idxOf, if_neg hg, firstPos]
      rw [if_pos (by exact_mod_cast h)]

theorem flatten_split {gs : List (List (Arc W))} {s : Nat} {g : List (Arc W)}
    (h : gs[s]? = some g) :
    gs.flatten = (gs.take s).flatten ++ (g ++ (gs.drop (s + 1)).flatten) := by
  obtain ⟨hlt, rfl⟩ := List.getElem?_eq_some_iff.mp h
  conv => lhs; rw [← List.take_append_drop s gs]
  rw [List.flatten_append, List.drop_eq_getElem_cons hlt, List.flatten_cons]

theorem countArcs_layout {f : Fst W} {gs : List (List (Arc W))} (hl : Layout f gs) {s : Nat}
    {g : List (Arc W)} (hg : gs[s]? = some g) : countArcs f s = .ok (g.length : Int) := by
  have hs := flatten_split hg
  have hidx := idxOf_get gs 0 s g hg
  unfold countArcs
  rw [hl.idx, aget_nat hidx, ok_bind]
  by_cases hn : g = []
  · subst hn
    simp
  · have hgl : 0 < g.length := List.length_pos_iff.mpr hn
    simp only [if_neg hn]
    rw [if_neg (by omega)]
    have ht : (gs.take (s + 1)).flatten.length = (gs.take s).flatten.length + g.length := by
      obtain ⟨hlt, rfl⟩ := List.getElem?_eq_some_iff.mp hg
      rw [List.take_succ_eq_append_getElem hlt, List.flatten_append, List.length_append]
      simp only [List.flatten_cons, List.flatten_nil, List.append_nil]
    have hlen := congrArg List.length hs
    simp only [List.length_append] at hlen
    have hsz := hl.size
    rw [hl.arcs] at hsz
    have hd : (idxOf gs 0).drop ((s : Int).toNat + 1)
        = idxOf (gs.drop (s + 1)) ((gs.take s).flatten.length + g.length) := by
      rw [show (s : Int).toNat + 1 = s + 1 by omega, idxOf_drop, ht, Nat.zero_add]
    rw [hd]
    rcases firstPos_idxOf (gs.drop (s + 1)) ((gs.take s).flatten.length + g.length) (by omega) with
      h | ⟨h, he⟩
    · rw [h, Option.getD_some]
      rw [show ((((gs.take s).flatten.length + g.length : Nat) : Int)
          - ((0 + (gs.take s).flatten.length : Nat) : Int)) = (g.length : Int) by omega]
      exact i32_of (by unfold InI32; omega)
    · rw [h, hl.arcs, Option.getD_none]
      rw [he] at hlen
      simp only [List.length_nil] at hlen
      rw [show ((gs.flatten.length : Int) - ((0 + (gs.take s).flatten.length : Nat) : Int))
          = (g.length : Int) by omega]
      exact i32_of (by unfold InI32; omega)

/-- Arc number `i` of state `s` in the array. -/
theorem arcs_get {f : Fst W} {gs : List (List (Arc W))} (hl : Layout f gs) {s : Nat}
    {g : List (Arc W)} (hg : gs[s]? = some g) {i : Nat} (hi : i < g.length) :
    f.arcs[(gs.take s).flatten.length + i]? = some g[i] := by
  rw [hl.arcs, flatten_split hg, List.getElem?_append_right (by omega),
    List.getElem?_append_left (by omega)]
  simp [hi]

theorem nextAll_ok (arcs g : List (Arc W)) (base : Nat)
    (h : ∀ i (hi : i < g.length), arcs[base + i]? = some g[i]) :
    nextAll arcs g.length base = .ok g := by
  induction g generalizing base with
  | nil => rfl
  | cons a g ih =>
    have h0 := h 0 (by simp)
    rw [Nat.add_zero] at h0
    simp only [List.length_cons, nextAll]
    rw [aget_nat h0, ok_bind]
    rw [show ((base : Int) + 1) = ((base + 1 : Nat) : Int) by omega, ih (base + 1) ?_]
    · rfl
    · intro i hi
      have := h (i + 1) (by simp; omega)
      rw [show base + 1 + i = base + (i + 1) by omega]
      simpa using this

theorem iterArcs_layout {f : Fst W} {gs : List (List (Arc W))} (hl : Layout f gs) {s : Nat}
    {g : List (Arc W)} (hg : gs[s]? = some g) : iterArcs f s = .ok g := by
  have hlt : s < gs.length := (List.getElem?_eq_some_iff.mp hg).1
  have hidx := idxOf_get gs 0 s g hg
  unfold iterArcs
  rw [countArcs_layout hl hg, hl.idx, idxOf_length]
  rw [show decide ((s : Int) < gs.length ∧ (0 : Int) ≤ s) = true by simp; omega]
  rw [cassert_true, ok_bind, ok_bind, aget_nat hidx, ok_bind]
  by_cases hn : g = []
  · subst hn; rfl
  · rw [if_neg hn, Int.toNat_natCast, Nat.zero_add]
    exact nextAll_ok _ _ _ (fun i hi => arcs_get hl hg hi)

theorem lowerBound_spec (arcs g : List (Arc W)) (label : Int) (base : Nat)
    (h : ∀ i (hi : i < g.length), arcs[base + i]? = some g[i])
    (hsort : g.Pairwise (fun a b => a.ilabel ≤ b.ilabel)) :
    ∀ (fuel lo len : Nat), len < fuel → lo + len ≤ g.length →
      (∀ i (hi : i < g.length), i < lo → g[i].ilabel < label) →
      (∀ i (hi : i < g.length), lo + len ≤ i → label ≤ g[i].ilabel) →
      ∃ p : Nat, lowerBound arcs label fuel ((base + lo : Nat) : Int) len = .ok ((base + p : Nat) : Int)
        ∧ p ≤ g.length
        ∧ (∀ i (hi : i < g.length), i < p → g[i].ilabel < label)
        ∧ (∀ i (hi : i < g.length), p ≤ i → label ≤ g[i].ilabel) := by
  intro fuel
  induction fuel with
  | zero => intro lo len h0; omega
  | succ fuel ih =>
    intro lo len hf hle hlo hhi
    unfold lowerBound
    by_cases hz : len = 0
    · subst hz
      rw [if_neg (by omega)]
      exact ⟨lo, rfl, by omega, hlo, fun i hi hp => hhi i hi (by omega)⟩
    · rw [if_pos (by omega)]
      have hm : lo + len / 2 < g.length := by omega
      have hget := h (lo + len / 2) hm
      have e1 : ((base + lo : Nat) : Int) + (len : Int) / 2 = ((base + (lo + len / 2) : Nat) : Int) := by
        omega
      simp only [e1]
      rw [aget_nat hget, ok_bind]
      have hs := List.pairwise_iff_getElem.mp hsort
      by_cases hc : g[lo + len / 2].ilabel < label
      · rw [if_pos hc]
        have := ih (lo + len / 2 + 1) (len - len / 2 - 1) (by omega) (by omega) ?_ ?_
        · rw [show (((base + (lo + len / 2) : Nat) : Int) + 1)
              = ((base + (lo + len / 2 + 1) : Nat) : Int) by omega,
            show ((len : Int) - (len : Int) / 2 - 1) = ((len - len / 2 - 1 : Nat) : Int) by omega]
          exact this
        · intro i hi hlt
          by_cases he : i = lo + len / 2
          · subst he; exact hc
          · have := hs i (lo + len / 2) hi hm (by omega)
            omega
        · intro i hi hge
          exact hhi i hi (by omega)
      · rw [if_neg hc]
        have := ih lo (len / 2) (by omega) (by omega) hlo ?_
        · rw [show ((len : Int) / 2) = ((len / 2 : Nat) : Int) by omega]
          exact this
        · intro i hi hge
          by_cases he : i = lo + len / 2
          · subst he; omega
          · have := hs (lo + len / 2) i hm hi (by omega)
            omega

/-- First element satisfying a predicate, from an index characterisation. -/
theorem find?_of_index {α : Type} (p : α → Bool) : ∀ (l : List α) (i : Nat) (hi : i < l.length),
    p l[i] = true → (∀ j (hj : j < l.length), j < i → p l[j] = false) → l.find? p = some l[i]
  | [], _, hi, _, _ => by simp at hi
  | a :: l, 0, _, h, _ => by simp at h; simp [h]
  | a :: l, i + 1, hi, h, hb => by
    have h0 := hb 0 (by simp) (by omega)
    simp at h0
    rw [List.find?_cons, h0]
    simp only [List.getElem_cons_succ] at h ⊢
    exact find?_of_index p l i _ h (fun j hj hlt => by
      have := hb (j + 1) (by simp; omega) (by omega)
      simpa using this)

theorem getArc_layout {f : Fst W} {gs : List (List (Arc W))} (hl : Layout f gs) {s : Nat}
    {g : List (Arc W)} (hg : gs[s]? = some g) (hsort : g.Pairwise (fun a b => a.ilabel ≤ b.ilabel))
    (label : Int) : getArc f s label = .ok (g.find? (fun a => a.ilabel = label)) := by
  have hidx := idxOf_get gs 0 s g hg
  unfold getArc
  rw [countArcs_layout hl hg, ok_bind]
  by_cases hn : g = []
  · subst hn; rfl
  · have hgl : 0 < g.length := List.length_pos_iff.mpr hn
    rw [if_neg (by omega), hl.idx, aget_nat hidx, ok_bind]
    rw [if_neg hn, Nat.zero_add]
    have hlen := congrArg List.length (flatten_split hg)
    simp only [List.length_append] at hlen
    have ha : ∀ i : Nat, i ≤ gs.flatten.length → address f (i : Int) = .ok () := by
      intro i hi
      unfold address
      rw [hl.arcs, if_pos (by omega)]
    rw [ha _ (by omega), ok_bind]
    rw [show (((gs.take s).flatten.length : Nat) : Int) + (g.length : Int)
      = (((gs.take s).flatten.length + g.length : Nat) : Int) by omega]
    rw [ha _ (by omega), ok_bind, Int.toNat_natCast]
    obtain ⟨p, hp, hple, hlo, hhi⟩ := lowerBound_spec f.arcs g label (gs.take s).flatten.length
      (fun i hi => arcs_get hl hg hi) hsort (g.length + 1) 0 g.length (by omega) (by omega)
      (fun i hi h => by omega) (fun i hi h => by omega)
    rw [show (gs.take s).flatten.length + 0 = (gs.take s).flatten.length from rfl] at hp
    rw [hp, ok_bind]
    by_cases hpe : p = g.length
    · subst hpe
      rw [if_pos rfl]
      congr 1
      symm
      rw [List.find?_eq_none]
      intro a ha
      obtain ⟨i, hi, rfl⟩ := List.getElem_of_mem ha
      have := hlo i hi hi
      simp; omega
    · rw [if_neg (by omega)]
      have hplt : p < g.length := by omega
      rw [aget_nat (arcs_get hl hg hplt), ok_bind]
      by_cases hc : g[p].ilabel = label
      · rw [if_neg (by simpa using hc)]
        congr 1
        symm
        apply find?_of_index _ g p hplt (by simpa using hc)
        intro j hj hjp
        have := hlo j hj hjp
        simp; omega
      · rw [if_pos hc]
        congr 1
        symm
        rw [List.find?_eq_none]
        intro a ha
        obtain ⟨i, hi, rfl⟩ := List.getElem_of_mem ha
        have hs := List.pairwise_iff_getElem.mp hsort
        have h1 := hhi p hplt (by omega)
        by_cases hip : i < p
        · have := hlo i hi hip
          simp; omega
        · by_cases hie : i = p
          · subst hie; simpa using hc
          · have := hs p i hplt hi (by omega)
            simp; omega

theorem backoffArc_layout {f : Fst W} {gs : List (List (Arc W))} (hl : Layout f gs) {s : Nat}
    {g : List (Arc W)} (hg : gs[s]? = some g) :
    backoffArc f s = .ok (g.head?.filter (fun a => a.ilabel = 0)) := by
  have hidx := idxOf_get gs 0 s g hg
  unfold backoffArc
  rw [countArcs_layout hl hg, ok_bind]
  by_cases hn : g = []
  · subst hn; rfl
  · have hgl : 0 < g.length := List.length_pos_iff.mpr hn
    rw [if_neg (by omega), hl.idx, aget_nat hidx, ok_bind]
    rw [if_neg hn, Nat.zero_add]
    have := arcs_get hl hg hgl
    rw [Nat.add_zero] at this
    rw [aget_nat this, ok_bind]
    obtain ⟨a, g', rfl⟩ := List.exists_cons_of_ne_nil hn
    simp only [List.getElem_cons_zero, List.head?_cons, Option.filter_some]
    by_cases hc : a.ilabel = 0 <;> simp [hc]

/-! ## The converter produces such a layout -/

/-- The arcs of all groups with their state. -/
def tag : List (List (Arc W)) → Nat → List (Nat × Arc W)
  | [], _ => []
  | g :: gs, s => g.map (fun a => (s, a)) ++ tag gs (s + 1)

theorem rawArcs_tag : ∀ (st : List (W × List (Arc W))) (s : Nat), rawArcs st s = tag (st.map (·.2)) s
  | [], _ => rfl
  | (_, as) :: st, s => by simp [rawArcs, tag, rawArcs_tag st]

theorem tag_map_snd : ∀ (gs : List (List (Arc W))) (s : Nat), (tag gs s).map (·.2) = gs.flatten
  | [], _ => rfl
  | g :: gs, s => by
    simp only [tag, List.map_append, List.map_map, tag_map_snd gs, List.flatten_cons]
    congr 1
    exact (List.map_congr_left (fun _ _ => rfl)).trans (List.map_id g)

theorem mem_tag : ∀ (gs : List (List (Arc W))) (s : Nat) (x : Nat × Arc W), x ∈ tag gs s →
    s ≤ x.1 ∧ x.1 < s + gs.length
  | [], _, _, h => by simp [tag] at h
  | g :: gs, s, x, h => by
    simp only [tag, List.mem_append, List.mem_map] at h
    rcases h with ⟨a, _, rfl⟩ | h
    · simp
    · have := mem_tag gs (s + 1) x h
      simp; omega

theorem filter_tag : ∀ (gs : List (List (Arc W))) (s k : Nat),
    ((tag gs s).filter (fun x => x.1 == s + k)).map (·.2) = gs[k]?.getD []
  | [], s, k => by simp [tag]
  | g :: gs, s, 0 => by
    simp only [tag, List.filter_append, List.map_append, List.getElem?_cons_zero, Option.getD_some]
    rw [show (tag gs (s + 1)).filter (fun x => x.1 == s + 0) = [] by
      rw [List.filter_eq_nil_iff]
      intro x hx
      have := mem_tag gs (s + 1) x hx
      simp; omega]
    rw [List.filter_eq_self.mpr (by simp)]
    simp only [List.map_map, List.map_nil, List.append_nil]
    exact (List.map_congr_left (fun _ _ => rfl)).trans (List.map_id g)
  | g :: gs, s, k + 1 => by
    simp only [tag, List.filter_append, List.map_append, List.getElem?_cons_succ]
    rw [show (g.map (fun a => (s, a))).filter (fun x => x.1 == s + (k + 1)) = [] by
      rw [List.filter_eq_nil_iff]
      intro x hx
      simp only [List.mem_map] at hx
      obtain ⟨a, _, rfl⟩ := hx
      simp]
    have := filter_tag gs (s + 1) k
    rw [show s + 1 + k = s + (k + 1) by omega] at this
    simpa using this

/-- The arcs of state `k` in a tagged list. -/
def groupOf (A : List (Nat × Arc W)) (k : Nat) : List (Arc W) := (A.filter (fun x => x.1 == k)).map (·.2)

theorem filter_le_split (A : List (Nat × Arc W)) (s : Nat)
    (h : A.Pairwise (fun x y => x.1 ≤ y.1)) (hge : ∀ x ∈ A, s ≤ x.1) :
    A = A.filter (fun x => x.1 == s) ++ A.filter (fun x => decide (s < x.1)) := by
  induction A with
  | nil => rfl
  | cons x A ih =>
    have h1 := List.pairwise_cons.mp h
    have hx := hge x (by simp)
    by_cases he : x.1 = s
    · rw [List.filter_cons, if_pos (by simpa using he), List.filter_cons, if_neg (by simp; omega)]
      rw [List.cons_append]
      congr 1
      exact ih h1.2 (fun y hy => hge y (by simp [hy]))
    · have hlt : ∀ y ∈ x :: A, s < y.1 := by
        intro y hy
        rcases List.mem_cons.mp hy with rfl | hy
        · omega
        · have := h1.1 y hy; omega
      rw [show (x :: A).filter (fun x => x.1 == s) = [] by
        rw [List.filter_eq_nil_iff]; intro y hy; have := hlt y hy; simp; omega]
      rw [List.nil_append]
      exact (List.filter_eq_self.mpr (fun y hy => by simpa using hlt y hy)).symm

theorem tag_of_sorted : ∀ (n : Nat) (A : List (Nat × Arc W)) (s : Nat),
    A.Pairwise (fun x y => x.1 ≤ y.1) → (∀ x ∈ A, s ≤ x.1 ∧ x.1 < s + n) →
    A = tag ((List.range' s n).map (groupOf A)) s
  | 0, A, s, _, h => by
    cases A with
    | nil => rfl
    | cons x A => have := h x (by simp); omega
  | n + 1, A, s, hp, h => by
    have hsplit := filter_le_split A s hp (fun x hx => (h x hx).1)
    have ih := tag_of_sorted n (A.filter (fun x => decide (s < x.1))) (s + 1)
      (hp.filter _) (by
        intro x hx
        simp only [List.mem_filter, decide_eq_true_eq] at hx
        have := h x hx.1
        omega)
    simp only [List.range'_succ, List.map_cons, tag]
    conv => lhs; rw [hsplit]
    congr 1
    · unfold groupOf
      rw [List.map_map]
      symm
      refine (List.map_congr_left (g := id) ?_).trans (List.map_id _)
      intro x hx
      simp only [List.mem_filter, beq_iff_eq] at hx
      simp [← hx.2]
    · conv => lhs; rw [ih]
      congr 1
      apply List.map_congr_left
      intro k hk
      have hk' := List.mem_range'.mp hk
      unfold groupOf
      rw [List.filter_filter]
      congr 1
      apply List.filter_congr
      intro x _
      obtain ⟨i, _, rfl⟩ := hk'
      simp
      omega

theorem fillIdx_skip (s : Nat) (g : List (Arc W)) (rest : List (Nat × Arc W)) (i : Nat)
    (idx : List Int) (v : Int) (hv : idx[s]? = some v) (hne : v ≠ -1) :
    fillIdx (g.map (fun a => (s, a)) ++ rest) i idx = fillIdx rest ((i + g.length : Nat) : Int) idx := by
  induction g generalizing i with
  | nil => simp
  | cons a g ih =>
    simp only [List.map_cons, List.cons_append, fillIdx]
    rw [aget_nat hv, ok_bind, if_neg hne, ok_bind]
    rw [show ((i : Int) + 1) = ((i + 1 : Nat) : Int) by omega, ih (i + 1)]
    congr 2
    simp; omega

theorem fillIdx_tag : ∀ (gs : List (List (Arc W))) (o : Nat) (done : List Int),
    fillIdx (tag gs done.length) o (done ++ List.replicate gs.length (-1)) = .ok (done ++ idxOf gs o)
  | [], o, done => by simp [tag, fillIdx, idxOf]
  | [] :: gs, o, done => by
    have ih := fillIdx_tag gs o (done ++ [-1])
    simp only [List.length_append, List.length_cons, List.length_nil, List.append_assoc,
      List.singleton_append, Nat.zero_add] at ih
    simpa [tag, idxOf, List.replicate_succ] using ih
  | (a :: g) :: gs, o, done => by
    have hlen : done.length < (done ++ List.replicate ((a :: g) :: gs).length (-1 : Int)).length := by
      simp
    have h0 : (done ++ List.replicate ((a :: g) :: gs).length (-1 : Int))[done.length]? = some (-1) := by
      simp [List.replicate_succ]
    have hset : (done ++ List.replicate ((a :: g) :: gs).length (-1 : Int)).set done.length (o : Int)
        = (done ++ [(o : Int)]) ++ List.replicate gs.length (-1) := by
      simp [List.replicate_succ]
    have ih := fillIdx_tag gs (o + (a :: g).length) (done ++ [(o : Int)])
    simp only [tag, List.map_cons, List.cons_append, fillIdx]
    rw [aget_nat h0, ok_bind, if_pos rfl,
      aset_nat hlen, ok_bind, hset]
    rw [show ((o : Int) + 1) = ((o + 1 : Nat) : Int) by omega]
    rw [fillIdx_skip done.length g _ (o + 1) _ (o : Int) (by simp) (by omega)]
    rw [show o + 1 + g.length = o + (a :: g).length by simp; omega]
    simp only [List.length_append, List.length_cons, List.length_nil, Nat.zero_add] at ih ⊢
    rw [ih]
    simp [idxOf]

theorem keyLe_total (x y : Nat × Arc W) : (keyLe x y || keyLe y x) = true := by
  unfold keyLe
  simp only [Bool.or_eq_true, decide_eq_true_eq, Bool.and_eq_true, beq_iff_eq]
  omega

theorem keyLe_trans (x y z : Nat × Arc W) (h1 : keyLe x y = true) (h2 : keyLe y z = true) :
    keyLe x z = true := by
  unfold keyLe at *
  simp only [Bool.or_eq_true, decide_eq_true_eq, Bool.and_eq_true, beq_iff_eq] at *
  omega

theorem insertArc_perm (x : Nat × Arc W) : ∀ l : List (Nat × Arc W), (insertArc x l).Perm (x :: l)
  | [] => List.Perm.refl _
  | y :: l => by
    unfold insertArc
    split
    · exact List.Perm.refl _
    · exact ((insertArc_perm x l).cons y).trans (List.Perm.swap x y l)

theorem sortArcs_perm : ∀ l : List (Nat × Arc W), (sortArcs l).Perm l
  | [] => List.Perm.refl _
  | x :: l => (insertArc_perm x _).trans ((sortArcs_perm l).cons x)

theorem insertArc_sorted (x : Nat × Arc W) : ∀ l : List (Nat × Arc W),
    l.Pairwise (fun x y => keyLe x y = true) → (insertArc x l).Pairwise (fun x y => keyLe x y = true)
  | [], _ => by simp [insertArc]
  | y :: l, h => by
    have h1 := List.pairwise_cons.mp h
    unfold insertArc
    split
    · rename_i hc
      refine List.pairwise_cons.mpr ⟨?_, h⟩
      intro z hz
      rcases List.mem_cons.mp hz with rfl | hz
      · exact hc
      · exact keyLe_trans _ _ _ hc (h1.1 z hz)
    · rename_i hc
      refine List.pairwise_cons.mpr ⟨?_, insertArc_sorted x l h1.2⟩
      intro z hz
      rcases List.mem_cons.mp ((insertArc_perm x l).mem_iff.mp hz) with rfl | hz
      · have := keyLe_total z y
        rw [Bool.or_eq_true] at this
        exact this.resolve_left hc
      · exact h1.1 z hz

theorem sortArcs_sorted : ∀ l : List (Nat × Arc W),
    (sortArcs l).Pairwise (fun x y => keyLe x y = true)
  | [] => List.Pairwise.nil
  | x :: l => insertArc_sorted x _ (sortArcs_sorted l)

theorem insertArc_filter (p : Nat × Arc W → Bool)
    (hp : ∀ x y, p x = true → p y = true → keyLe x y = true) (x : Nat × Arc W) :
    ∀ l : List (Nat × Arc W), (insertArc x l).filter p = (x :: l).filter p
  | [] => rfl
  | y :: l => by
    unfold insertArc
    split
    · rfl
    · rename_i hc
      have ih := insertArc_filter p hp x l
      simp only [List.filter_cons] at ih ⊢
      rw [ih]
      by_cases hx : p x = true
      · have hy : ¬ p y = true := fun hy => hc (hp x y hx hy)
        simp [hx, hy]
      · simp [hx]

theorem sortArcs_filter (p : Nat × Arc W → Bool)
    (hp : ∀ x y, p x = true → p y = true → keyLe x y = true) :
    ∀ l : List (Nat × Arc W), (sortArcs l).filter p = l.filter p
  | [] => rfl
  | x :: l => by
    unfold sortArcs
    rw [insertArc_filter p hp, List.filter_cons, List.filter_cons, sortArcs_filter p hp l]

/-- The groups of a converted transducer. -/
def groups (t : Transducer W) : List (List (Arc W)) :=
  (List.range' 0 t.states.length).map (groupOf (sortedArcs t))

theorem sortedArcs_perm (t : Transducer W) : (sortedArcs t).Perm (rawArcs t.states 0) :=
  sortArcs_perm _

theorem sortedArcs_sorted (t : Transducer W) : (sortedArcs t).Pairwise (fun x y => keyLe x y = true) :=
  sortArcs_sorted _

theorem sortedArcs_tag (t : Transducer W) : sortedArcs t = tag (groups t) 0 := by
  apply tag_of_sorted
  · refine (sortedArcs_sorted t).imp ?_
    intro x y h
    unfold keyLe at h
    simp only [Bool.or_eq_true, decide_eq_true_eq, Bool.and_eq_true, beq_iff_eq] at h
    omega
  · intro x hx
    have hx' := (sortedArcs_perm t).mem_iff.mp hx
    rw [rawArcs_tag] at hx'
    have := mem_tag _ _ _ hx'
    simpa using this

theorem groups_length (t : Transducer W) : (groups t).length = t.states.length := by
  simp [groups]

/-- The arrays the converter produces, in terms of the groups. -/
def fstOf (t : Transducer W) : Fst W where
  start := t.start
  arcs := (groups t).flatten
  stateIdx := idxOf (groups t) 0
  finals := t.states.map (·.1)

/-- The converter never fails and produces the group layout. -/
theorem convert_layout (t : Transducer W) : convert t = .ok (fstOf t) := by
  unfold convert
  have h := fillIdx_tag (groups t) 0 []
  simp only [List.length_nil, List.nil_append, groups_length] at h
  simp only
  rw [sortedArcs_tag, show ((0 : Int)) = ((0 : Nat) : Int) from rfl, h, ok_bind, tag_map_snd]
  rfl

theorem groups_get {t : Transducer W} {s : Nat} {w : W} {as : List (Arc W)}
    (h : t.states[s]? = some (w, as)) : (groups t)[s]? = some (groupOf (sortedArcs t) s) := by
  have hlt := (List.getElem?_eq_some_iff.mp h).1
  unfold groups
  rw [List.getElem?_map, List.getElem?_range' hlt]
  simp

theorem group_sorted (t : Transducer W) (s : Nat) :
    (groupOf (sortedArcs t) s).Pairwise (fun a b => a.ilabel ≤ b.ilabel) := by
  unfold groupOf
  rw [List.pairwise_map]
  refine ((sortedArcs_sorted t).filter _).imp_of_mem ?_
  intro x y hx hy h
  simp only [List.mem_filter, beq_iff_eq] at hx hy
  unfold keyLe at h
  simp only [Bool.or_eq_true, decide_eq_true_eq, Bool.and_eq_true, beq_iff_eq] at h
  omega

/-- Sorting is stable: the arcs of a state with a given label keep their order. -/
theorem group_filter {t : Transducer W} {s : Nat} {w : W} {as : List (Arc W)}
    (h : t.states[s]? = some (w, as)) (l : Int) :
    (groupOf (sortedArcs t) s).filter (fun a => decide (a.ilabel = l))
      = as.filter (fun a => decide (a.ilabel = l)) := by
  let p : Nat × Arc W → Bool := fun x => x.1 == s && decide (x.2.ilabel = l)
  have heq : (sortedArcs t).filter p = (rawArcs t.states 0).filter p := by
    apply sortArcs_filter
    intro x y hx hy
    simp only [p, Bool.and_eq_true, beq_iff_eq, decide_eq_true_eq] at hx hy
    unfold keyLe
    simp only [Bool.or_eq_true, decide_eq_true_eq, Bool.and_eq_true, beq_iff_eq]
    omega
  have key : ∀ A : List (Nat × Arc W), (groupOf A s).filter (fun a => decide (a.ilabel = l))
      = (A.filter p).map (·.2) := by
    intro A
    unfold groupOf
    rw [List.filter_map, List.filter_filter]
    congr 1
    apply List.filter_congr
    intro x _
    simp [p, Bool.and_comm]
  rw [key, heq, ← key]
  unfold groupOf
  rw [rawArcs_tag]
  have := filter_tag (t.states.map (·.2)) 0 s
  simp only [Nat.zero_add, List.getElem?_map, h, Option.map_some, Option.getD_some] at this
  rw [this]

theorem find?_filter_congr {α : Type} (p : α → Bool) {l1 l2 : List α}
    (h : l1.filter p = l2.filter p) : l1.find? p = l2.find? p := by
  rw [← List.head?_filter, ← List.head?_filter, h]

end Verif.Fst
