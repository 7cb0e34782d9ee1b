import Verif.FstProps

/-! # Lemmas about language model lookup, the unigram table and the arc cache -/

namespace Verif.Fst

open Verif

variable {W : Type}

theorem layout_fstOf {t : Transducer W} (h : arcCount t ≤ 2147483647) : Layout (fstOf t) (groups t) :=
  ⟨rfl, rfl, by show ((groups t).flatten.length : Int) ≤ _; rw [groups_flatten_length]; omega⟩

theorem state_of_firstArc {t : Transducer W} {s : Nat} {l : Int} {a : Arc W}
    (h : firstArc t s l = some a) : ∃ w as, t.states[s]? = some (w, as) := by
  unfold firstArc at h
  split at h
  · rename_i w as hs; exact ⟨w, as, hs⟩
  · cases h

theorem state_of_lt {t : Transducer W} {s : Nat} (h : s < t.states.length) :
    ∃ w as, t.states[s]? = some (w, as) :=
  ⟨t.states[s].1, t.states[s].2, by rw [List.getElem?_eq_getElem h]⟩

theorem getArc_fstOf {t : Transducer W} (h : arcCount t ≤ 2147483647) {s : Nat}
    (hs : s < t.states.length) (l : Int) : getArc (fstOf t) s l = .ok (firstArc t s l) := by
  obtain ⟨f, h1, h2⟩ := C12_get_arc_finds_first_arc t h
  rw [convert_layout] at h1
  cases h1
  exact h2 s hs l

theorem find?_head_sorted : ∀ (g : List (Arc W)), g.Pairwise (fun a b => a.ilabel ≤ b.ilabel) →
    (∀ a ∈ g, 0 ≤ a.ilabel) →
    g.head?.filter (fun a => decide (a.ilabel = 0)) = g.find? (fun a => decide (a.ilabel = 0))
  | [], _, _ => rfl
  | a :: g, hs, hl => by
    have h1 := List.pairwise_cons.mp hs
    by_cases hc : a.ilabel = 0
    · simp [hc]
    · have ha := hl a (by simp)
      rw [List.head?_cons, List.find?_cons]
      simp only [Option.filter_some, hc, decide_false]
      symm
      simp only [Bool.false_eq_true, if_false]
      rw [List.find?_eq_none]
      intro b hb
      have := h1.1 b hb
      simp; omega

theorem mem_group {t : Transducer W} {s : Nat} {a : Arc W} (h : a ∈ groupOf (sortedArcs t) s) :
    ∃ x ∈ t.states, a ∈ x.2 := by
  unfold groupOf at h
  obtain ⟨x, hx, rfl⟩ := List.mem_map.mp h
  exact mem_rawArcs _ _ _ ((sortedArcs_perm t).mem_iff.mp (List.mem_filter.mp hx).1)

theorem backoffArc_fstOf {t : Transducer W} (h : IsLm t) {s : Nat} (hs : s < t.states.length) :
    backoffArc (fstOf t) s = .ok (firstArc t s 0) := by
  obtain ⟨w, as, hst⟩ := state_of_lt hs
  rw [backoffArc_layout (layout_fstOf h.size) (groups_get hst)]
  rw [find?_head_sorted _ (group_sorted t s)
    (fun a ha => by obtain ⟨x, hx, hax⟩ := mem_group ha; exact h.labels x hx a hax)]
  rw [find?_filter_congr _ (group_filter hst 0)]
  unfold firstArc
  rw [hst]

theorem final_fstOf {t : Transducer W} {s : Nat} {w : W} (h : finalOf t s = some w) :
    final (fstOf t) s = .ok w := by
  unfold finalOf at h
  obtain ⟨x, hx, rfl⟩ := Option.map_eq_some_iff.mp h
  have hlt := (List.getElem?_eq_some_iff.mp hx).1
  unfold final fstOf
  simp only [List.length_map]
  rw [show decide ((0 : Int) ≤ s ∧ (s : Int) < t.states.length) = true by simp; omega,
    cassert_true, ok_bind]
  exact aget_nat (by rw [List.getElem?_map, hx]; rfl)

theorem bucketHit_nil (s l : Int) : bucketHit ([] : List (Option (Arc W))) s l = .ok none := by
  unfold bucketHit
  rw [if_neg (by simp)]

/-- One level of `lmGetArc` without the table. -/
theorem lmGetArc_step {o : FloatOps W} {t : Transducer W} (h : IsLm t) {s : Nat}
    (hs : s < t.states.length) {l : Int} (hl : l ≠ 0) (fuel : Nat) :
    lmGetArc o (fstOf t) [] (fuel + 1) s l =
      match firstArc t s l with
      | some a => .ok (some a)
      | none => match firstArc t s 0 with
        | none => .ok none
        | some b => (lmGetArc o (fstOf t) [] fuel b.next l >>= fun r =>
            .ok (r.map (fun a => ⟨a.next, a.ilabel, a.olabel, o.add a.weight b.weight⟩))) := by
  conv => lhs; unfold lmGetArc
  rw [show decide (l ≠ 0) = true by simpa using hl, cassert_true, ok_bind, bucketHit_nil, ok_bind]
  simp only
  rw [getArc_fstOf h.size hs, ok_bind]
  cases firstArc t s l with
  | some a => rfl
  | none =>
    simp only
    rw [backoffArc_fstOf h hs, ok_bind]
    cases firstArc t s 0 with
    | none => rfl
    | some b =>
      simp only
      congr 1
      funext r
      cases r <;> rfl

theorem lt_of_firstArc {t : Transducer W} {s : Nat} {l : Int} {a : Arc W}
    (h : firstArc t s l = some a) : s < t.states.length := by
  obtain ⟨w, as, hs⟩ := state_of_firstArc h
  exact (List.getElem?_eq_some_iff.mp hs).1

theorem lmGetArc_chain_some {o : FloatOps W} {t : Transducer W} (h : IsLm t) {l : Int} (hl : l ≠ 0)
    {s e : Nat} {bs : List (Arc W)} (hc : Chain t l s bs e) {a : Arc W}
    (ha : firstArc t e l = some a) (fuel : Nat) (hf : bs.length < fuel) :
    lmGetArc o (fstOf t) [] fuel s l
      = .ok (some { a with weight := backedWeight o bs a.weight }) := by
  induction hc generalizing fuel with
  | here s =>
    obtain ⟨fuel, rfl⟩ : ∃ k, fuel = k + 1 := ⟨fuel - 1, by simp at hf; omega⟩
    rw [lmGetArc_step h (lt_of_firstArc ha) hl, ha]
    rfl
  | @step s s' e b bs h1 h2 h3 _ ih =>
    obtain ⟨fuel, rfl⟩ : ∃ k, fuel = k + 1 := ⟨fuel - 1, by simp at hf; omega⟩
    rw [lmGetArc_step h (lt_of_firstArc h2) hl, h1, h2]
    simp only
    rw [h3, ih ha fuel (by simp at hf; omega), ok_bind]
    rfl

theorem lmGetArc_chain_none {o : FloatOps W} {t : Transducer W} (h : IsLm t) {l : Int} (hl : l ≠ 0)
    {s e : Nat} {bs : List (Arc W)} (hc : Chain t l s bs e) (he : e < t.states.length)
    (h1 : firstArc t e l = none) (h2 : firstArc t e 0 = none) (fuel : Nat) (hf : bs.length < fuel) :
    lmGetArc o (fstOf t) [] fuel s l = .ok none := by
  induction hc generalizing fuel with
  | here s =>
    obtain ⟨fuel, rfl⟩ : ∃ k, fuel = k + 1 := ⟨fuel - 1, by simp at hf; omega⟩
    rw [lmGetArc_step h he hl, h1, h2]
  | @step s s' e b bs g1 g2 g3 _ ih =>
    obtain ⟨fuel, rfl⟩ : ∃ k, fuel = k + 1 := ⟨fuel - 1, by simp at hf; omega⟩
    rw [lmGetArc_step h (lt_of_firstArc g2) hl, g1, g2]
    simp only
    rw [g3, ih he h1 h2 fuel (by simp at hf; omega), ok_bind]
    rfl

theorem lmFinal_step {o : FloatOps W} {t : Transducer W} (h : IsLm t) {s : Nat} {w : W}
    (hw : finalOf t s = some w) (fuel : Nat) :
    lmFinal o (fstOf t) (fuel + 1) s =
      if o.finite w then .ok w else
      match firstArc t s 0 with
      | none => .ok o.inf
      | some b => (lmFinal o (fstOf t) fuel b.next >>= fun w =>
          if o.finite w then .ok (o.add w b.weight) else .ok o.inf) := by
  have hs : s < t.states.length := by
    unfold finalOf at hw
    obtain ⟨x, hx, _⟩ := Option.map_eq_some_iff.mp hw
    exact (List.getElem?_eq_some_iff.mp hx).1
  conv => lhs; unfold lmFinal
  rw [final_fstOf hw, ok_bind, backoffArc_fstOf h hs, ok_bind]
  cases firstArc t s 0 <;> rfl

theorem lmFinal_chain {o : FloatOps W} {t : Transducer W} (h : IsLm t)
    {s e : Nat} {bs : List (Arc W)} (hc : FChain o t s bs e) {w : W}
    (hw : finalOf t e = some w) (hend : o.finite w = true ∨ firstArc t e 0 = none)
    (fuel : Nat) (hf : bs.length < fuel) :
    lmFinal o (fstOf t) fuel s
      = .ok (backedFinal o bs (if o.finite w then w else o.inf)) := by
  induction hc generalizing fuel with
  | here s =>
    obtain ⟨fuel, rfl⟩ : ∃ k, fuel = k + 1 := ⟨fuel - 1, by simp at hf; omega⟩
    rw [lmFinal_step h hw]
    by_cases hfi : o.finite w = true
    · simp [hfi, backedFinal]
    · rw [hend.resolve_left hfi]
      simp [hfi, backedFinal]
  | @step s s' e w' b bs g0 g1 g2 g3 _ ih =>
    obtain ⟨fuel, rfl⟩ : ∃ k, fuel = k + 1 := ⟨fuel - 1, by simp at hf; omega⟩
    rw [lmFinal_step h g0, if_neg (by simp [g1]), g2]
    simp only
    rw [g3, ih hw hend fuel (by simp at hf; omega), ok_bind]
    unfold backedFinal
    rw [List.foldr_cons]
    generalize List.foldr _ _ bs = acc
    cases o.finite acc <;> rfl

/-! ## The unigram table -/

theorem fillBucket_ok : ∀ (as : List (Arc W)) (b : List (Option (Arc W))),
    (∀ a ∈ as, 0 ≤ a.ilabel ∧ a.ilabel < b.length) →
    as.Pairwise (fun a b => a.ilabel ≠ b.ilabel) →
    ∃ b', fillBucket as b = .ok b' ∧ b'.length = b.length ∧
      ∀ i : Nat, b'[i]? = match as.find? (fun a => decide (a.ilabel = (i : Int))) with
        | some a => some (some a)
        | none => b[i]?
  | [], b, _, _ => ⟨b, rfl, rfl, fun i => rfl⟩
  | a :: as, b, hb, hd => by
    have hd' := List.pairwise_cons.mp hd
    have ha := hb a (by simp)
    obtain ⟨b', h1, h2, h3⟩ := fillBucket_ok as (b.set a.ilabel.toNat (some a))
      (fun c hc => by rw [List.length_set]; exact hb c (by simp [hc])) hd'.2
    refine ⟨b', ?_, by rw [h2, List.length_set], ?_⟩
    · unfold fillBucket
      rw [aset_of ha.1 (by omega), ok_bind, h1]
    · intro i
      rw [h3 i, List.find?_cons]
      by_cases hc : a.ilabel = i
      · rw [show as.find? (fun c => decide (c.ilabel = (i : Int))) = none by
          rw [List.find?_eq_none]
          intro c hcm
          have := hd'.1 c hcm
          simp; omega]
        simp only [hc, decide_true]
        rw [show ((i : Int)).toNat = i by omega, List.getElem?_set_self (by omega)]
      · rw [show decide (a.ilabel = (i : Int)) = false by simpa using hc]
        cases as.find? (fun c => decide (c.ilabel = (i : Int))) with
        | some c => rfl
        | none =>
          simp only
          rw [List.getElem?_set_ne (by omega)]

theorem maxLabel_ge : ∀ (as : List (Arc W)) (m : Int), m ≤ maxLabel as m ∧
    (∀ a ∈ as, a.ilabel ≤ maxLabel as m) ∧ (maxLabel as m = m ∨ ∃ a ∈ as, maxLabel as m = a.ilabel)
  | [], m => by simp [maxLabel]
  | a :: as, m => by
    by_cases hc : a.ilabel > m
    · obtain ⟨h1, h2, h3⟩ := maxLabel_ge as a.ilabel
      have e : maxLabel (a :: as) m = maxLabel as a.ilabel := by
        show maxLabel as (if a.ilabel > m then a.ilabel else m) = _
        rw [if_pos hc]
      rw [e]
      refine ⟨by omega, ?_, ?_⟩
      · intro c hm
        rcases List.mem_cons.mp hm with rfl | hm
        · exact h1
        · exact h2 c hm
      · right
        rcases h3 with h3 | ⟨c, hm, h3⟩
        · exact ⟨a, by simp, h3⟩
        · exact ⟨c, by simp [hm], h3⟩
    · obtain ⟨h1, h2, h3⟩ := maxLabel_ge as m
      have e : maxLabel (a :: as) m = maxLabel as m := by
        show maxLabel as (if a.ilabel > m then a.ilabel else m) = _
        rw [if_neg hc]
      rw [e]
      refine ⟨by omega, ?_, ?_⟩
      · intro c hm
        rcases List.mem_cons.mp hm with rfl | hm
        · omega
        · exact h2 c hm
      · rcases h3 with h3 | ⟨c, hm, h3⟩
        · exact Or.inl h3
        · exact Or.inr ⟨c, by simp [hm], h3⟩

theorem pairwise_of_perm_filter {t : Transducer W} {w : W} {as : List (Arc W)} {s : Nat}
    (h : t.states[s]? = some (w, as)) (hd : as.Pairwise (fun a b => a.ilabel ≠ b.ilabel)) :
    (groupOf (sortedArcs t) s).Pairwise (fun a b => a.ilabel ≠ b.ilabel) := by
  rw [List.pairwise_iff_getElem]
  intro i j hi hj hij he
  -- two equal labels would both be in the filter by that label
  have hf := group_filter h (groupOf (sortedArcs t) s)[i].ilabel
  have hp : (as.filter (fun a => decide (a.ilabel = (groupOf (sortedArcs t) s)[i].ilabel))).Pairwise
      (fun a b => a.ilabel ≠ b.ilabel) := hd.filter _
  rw [← hf] at hp
  have hsub : [(groupOf (sortedArcs t) s)[i], (groupOf (sortedArcs t) s)[j]].Sublist
      ((groupOf (sortedArcs t) s).filter
        (fun a => decide (a.ilabel = (groupOf (sortedArcs t) s)[i].ilabel))) := by
    have h0 : [(groupOf (sortedArcs t) s)[i], (groupOf (sortedArcs t) s)[j]].Sublist
        (groupOf (sortedArcs t) s) := by
      have h1 : [(groupOf (sortedArcs t) s)[j]].Sublist ((groupOf (sortedArcs t) s).drop (i + 1)) := by
        rw [List.singleton_sublist, List.mem_drop_iff_getElem]
        exact ⟨j - (i + 1), by omega, by congr 1; omega⟩
      have h2 := h1.cons_cons (groupOf (sortedArcs t) s)[i]
      rw [← List.drop_eq_getElem_cons hi] at h2
      exact h2.trans (List.drop_sublist _ _)
    have := h0.filter (fun a => decide (a.ilabel = (groupOf (sortedArcs t) s)[i].ilabel))
    rwa [List.filter_eq_self.mpr (by simp [he])] at this
  have := hp.sublist hsub
  simp at this
  exact this he

theorem initBucket0_ok {t : Transducer W} (h : IsLm t) (hu : UnigramState t) :
    ∃ b, initBucket0 (fstOf t) = .ok b ∧
      ∀ s l : Int, bucketHit b s l
        = .ok (if s = 0 ∧ 0 ≤ l then firstArc t 0 l else none) := by
  have hlt : 0 < t.states.length := List.length_pos_iff.mpr hu.exists0
  obtain ⟨w, as, hst⟩ := state_of_lt hlt
  have hdist := pairwise_of_perm_filter hst (hu.distinct w as hst)
  have hmem : ∀ a ∈ groupOf (sortedArcs t) 0, 0 ≤ a.ilabel ∧ a.ilabel < 2147483647 := by
    intro a ha
    obtain ⟨x, hx, hax⟩ := mem_group ha
    refine ⟨h.labels x hx a hax, ?_⟩
    have : a ∈ (groupOf (sortedArcs t) 0).filter (fun c => decide (c.ilabel = a.ilabel)) := by
      simp [ha]
    rw [group_filter hst] at this
    exact hu.small w as hst a (List.mem_filter.mp this).1
  obtain ⟨m1, m2, m3⟩ := maxLabel_ge (groupOf (sortedArcs t) 0) 0
  have hm : maxLabel (groupOf (sortedArcs t) 0) 0 < 2147483647 := by
    rcases m3 with m3 | ⟨a, ha, m3⟩
    · omega
    · have := hmem a ha; omega
  have hit := iterArcs_layout (layout_fstOf h.size) (groups_get hst)
  obtain ⟨b, hb, hlen, hget⟩ := fillBucket_ok (groupOf (sortedArcs t) 0)
    (List.replicate (maxLabel (groupOf (sortedArcs t) 0) 0 + 1).toNat none)
    (fun a ha => by
      have := m2 a ha
      have := hmem a ha
      rw [List.length_replicate]; omega) hdist
  refine ⟨b, ?_, ?_⟩
  · unfold initBucket0
    rw [show iterArcs (fstOf t) 0 = _ from hit, ok_bind, i32_of (by unfold InI32; omega), ok_bind]
    exact hb
  · intro s l
    unfold bucketHit
    by_cases hs : s = 0
    · by_cases hl : 0 ≤ l
      · rw [if_pos (⟨hs, hl⟩ : s = 0 ∧ 0 ≤ l)]
        have hfa : firstArc t 0 l = (groupOf (sortedArcs t) 0).find? (fun a => decide (a.ilabel = l)) := by
          unfold firstArc
          rw [hst]
          exact (find?_filter_congr _ (group_filter hst l)).symm
        have hg := hget l.toNat
        rw [show ((l.toNat : Nat) : Int) = l by omega] at hg
        rw [← hfa] at hg
        by_cases hll : l < b.length
        · rw [if_pos ⟨hs, hl, hll⟩]
          cases hfa' : firstArc t 0 l with
          | some a =>
            rw [hfa'] at hg
            have hal : a.ilabel = l := by
              rw [hfa] at hfa'
              simpa using List.find?_some hfa'
            rw [aget_of hl (show b[l.toNat]? = some (some a) from hg), ok_bind]
            simp only [hal, if_true]
          | none =>
            rw [hfa'] at hg
            have : b[l.toNat]? = some none := by
              rw [hg, List.getElem?_replicate, if_pos (by rw [List.length_replicate] at hlen; omega)]
            rw [aget_of hl this, ok_bind]
        · rw [if_neg (by omega)]
          congr 1
          symm
          rw [hfa, List.find?_eq_none]
          intro a ha
          have := m2 a ha
          rw [List.length_replicate] at hlen
          simp; omega
      · rw [if_neg (by omega), if_neg (by omega)]
    · rw [if_neg (by omega), if_neg (by omega)]

theorem lmGetArc_bucket {o : FloatOps W} {t : Transducer W} (h : IsLm t) (hu : UnigramState t)
    {b : List (Option (Arc W))}
    (hb : ∀ s l : Int, bucketHit b s l = .ok (if s = 0 ∧ 0 ≤ l then firstArc t 0 l else none))
    (fuel : Nat) (s l : Int) :
    lmGetArc o (fstOf t) b fuel s l = lmGetArc o (fstOf t) [] fuel s l := by
  have hlt : 0 < t.states.length := List.length_pos_iff.mpr hu.exists0
  induction fuel generalizing s with
  | zero => rfl
  | succ fuel ih =>
    conv => lhs; unfold lmGetArc
    conv => rhs; unfold lmGetArc
    rw [hb, bucketHit_nil]
    congr 1
    funext _
    rw [ok_bind, ok_bind]
    by_cases hc : s = 0 ∧ 0 ≤ l
    · obtain ⟨rfl, hl⟩ := hc
      rw [if_pos ⟨rfl, hl⟩, show (0 : Int) = ((0 : Nat) : Int) from rfl, getArc_fstOf h.size hlt, ok_bind]
      cases firstArc t 0 l with
      | some a => rfl
      | none =>
        simp only
        rw [ok_bind]
        simp only [ih]
    · rw [if_neg hc]
      simp only [ih]

/-! ## Labels of returned arcs -/

theorem getArc_label {f : Fst W} {s l : Int} {a : Arc W} (h : getArc f s l = .ok (some a)) :
    a.ilabel = l := by
  unfold getArc at h
  obtain ⟨num, _, h⟩ := bind_ok h
  split at h
  · cases h
  obtain ⟨st, _, h⟩ := bind_ok h
  obtain ⟨_, _, h⟩ := bind_ok h
  obtain ⟨_, _, h⟩ := bind_ok h
  obtain ⟨p, _, h⟩ := bind_ok h
  split at h
  · cases h
  obtain ⟨c, _, h⟩ := bind_ok h
  split at h
  · cases h
  · rename_i hc
    cases h
    exact Decidable.not_not.mp hc

theorem bucketHit_label {b : List (Option (Arc W))} {s l : Int} {a : Arc W}
    (h : bucketHit b s l = .ok (some a)) : a.ilabel = l := by
  unfold bucketHit at h
  split at h
  · obtain ⟨e, _, h⟩ := bind_ok h
    cases e with
    | none => cases h
    | some c =>
      simp only at h
      split at h
      · cases h; assumption
      · cases h
  · cases h

theorem lmGetArc_label {o : FloatOps W} {f : Fst W} {b : List (Option (Arc W))} :
    ∀ (fuel : Nat) (s l : Int) (a : Arc W), lmGetArc o f b fuel s l = .ok (some a) → a.ilabel = l
  | 0, _, _, _, h => by cases h
  | fuel + 1, s, l, a, h => by
    unfold lmGetArc at h
    obtain ⟨_, _, h⟩ := bind_ok h
    obtain ⟨hit, h1, h⟩ := bind_ok h
    cases hit with
    | some c => cases h; exact bucketHit_label h1
    | none =>
      simp only at h
      obtain ⟨r, h2, h⟩ := bind_ok h
      cases r with
      | some c => cases h; exact getArc_label h2
      | none =>
        simp only at h
        obtain ⟨bo, h3, h⟩ := bind_ok h
        cases bo with
        | none => cases h
        | some bo =>
          simp only at h
          obtain ⟨r, h4, h⟩ := bind_ok h
          cases r with
          | none => cases h
          | some c =>
            have := lmGetArc_label fuel _ _ _ h4
            cases h
            exact this

theorem delta_label {o : FloatOps W} {v : List W} {lm : IFst W} {bos eos : Int}
    (hlm : ∀ s l a, lm.getArc s l = .ok (some a) → a.ilabel = l) (s l : Int) (a : Arc W)
    (h : (delta o v lm bos eos).getArc s l = .ok (some a)) : a.ilabel = l := by
  unfold delta at h
  obtain ⟨r, h1, h⟩ := bind_ok h
  cases r with
  | none => cases h
  | some c =>
    simp only at h
    obtain ⟨u, _, h⟩ := bind_ok h
    have := hlm _ _ _ h1
    cases h
    exact this

/-! ## Cache -/

/-- What the cache contains is true of the underlying FST. -/
def CacheInv (fst : IFst W) (c : Cache W) : Prop :=
  ∀ item ∈ c, item = (-1, none) ∨ ∃ a, item.2 = some a ∧ fst.getArc item.1 a.ilabel = .ok (some a)

theorem newCache_inv (fst : IFst W) (n : Nat) : CacheInv fst (newCache n) := by
  intro item h
  exact Or.inl (List.eq_of_mem_replicate h)

theorem cachedGetArc_spec {fst : IFst W}
    (hlab : ∀ s l a, fst.getArc s l = .ok (some a) → a.ilabel = l)
    {c : Cache W} (hinv : CacheInv fst c) (hn : c ≠ []) {s l : Int} (hs : s ≠ -1)
    (hov1 : InI32 (589 + s)) (hov2 : InI32 ((589 + s) * 31)) (hov3 : InI32 ((589 + s) * 31 + l)) :
    (∃ r c', cachedGetArc fst c s l = .ok (r, c') ∧ fst.getArc s l = .ok r ∧ CacheInv fst c' ∧
        c'.length = c.length) ∨
      (∃ e, cachedGetArc fst c s l = .error e ∧ fst.getArc s l = .error e) := by
  have hlen : 0 < c.length := List.length_pos_iff.mpr hn
  unfold cachedGetArc
  by_cases h0 : s = 0
  · rw [if_pos h0]
    cases hg : fst.getArc s l with
    | error e => right; exact ⟨e, rfl, rfl⟩
    | ok r => left; exact ⟨r, c, rfl, rfl, hinv, rfl⟩
  · rw [if_neg h0]
    have hidx : cacheIdx c.length s l
        = .ok (((589 + s) * 31 + l) % 18446744073709551616 % c.length) := by
      unfold cacheIdx hash
      rw [show (19 * 31 + s : Int) = 589 + s by omega, i32_of hov1, ok_bind, i32_of hov2, ok_bind,
        i32_of hov3, ok_bind, if_neg (by omega)]
    have hnn : 0 ≤ ((589 + s) * 31 + l) % 18446744073709551616 % (c.length : Int) :=
      Int.emod_nonneg _ (by omega)
    have hltn : ((589 + s) * 31 + l) % 18446744073709551616 % (c.length : Int) < c.length :=
      Int.emod_lt_of_pos _ (by omega)
    rw [hidx, ok_bind]
    generalize ((589 + s) * 31 + l) % 18446744073709551616 % (c.length : Int) = idx at hnn hltn
    have hlt : idx.toNat < c.length := by omega
    rw [aget_of hnn (List.getElem?_eq_getElem hlt), ok_bind]
    have hitem := hinv c[idx.toNat] (List.getElem_mem hlt)
    have hhit : (∃ a, cacheHit c[idx.toNat] s l = .ok (some a) ∧ fst.getArc s l = .ok (some a)) ∨
        cacheHit c[idx.toNat] s l = .ok none := by
      unfold cacheHit
      split
      · rename_i heq
        rcases hitem with hi | ⟨a, ha, hga⟩
        · rw [hi] at heq
          exact absurd heq.symm hs
        · rw [ha]
          simp only
          split
          · rename_i hl
            left
            refine ⟨a, rfl, ?_⟩
            rw [← heq, ← hl]; exact hga
          · exact Or.inr rfl
      · exact Or.inr rfl
    rcases hhit with ⟨a, h1, h2⟩ | h1
    · rw [h1, ok_bind]
      left
      exact ⟨some a, c, rfl, h2, hinv, rfl⟩
    · rw [h1, ok_bind]
      simp only
      cases hg : fst.getArc s l with
      | error e => right; exact ⟨e, rfl, rfl⟩
      | ok r =>
        rw [ok_bind]
        left
        cases r with
        | none => exact ⟨none, c, rfl, rfl, hinv, rfl⟩
        | some a =>
          simp only
          rw [aset_of hnn hlt, ok_bind]
          refine ⟨some a, _, rfl, rfl, ?_, List.length_set ..⟩
          intro item hi
          rcases List.mem_or_eq_of_mem_set hi with hi | rfl
          · exact hinv item hi
          · right
            refine ⟨a, rfl, ?_⟩
            show fst.getArc s a.ilabel = _
            rw [hlab s l a hg]; exact hg

end Verif.Fst
