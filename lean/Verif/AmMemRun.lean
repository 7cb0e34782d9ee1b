import Verif.AmMemBatch

/-!
# Frames, the end of the stream and whole utterances in memory
-/

namespace Verif.AmMem

open Mat (Heap Addr View peek)
open VecMem (Vec copyVec addVec)
open Nnet (Ops)
open Nnet.Spec (RowWise Built series)
open Am (seg seg_length seg_get seg_drop seg_append scored Setup Inv toSize toSize_nat)
open NetMem
open NetMem.Spec (Line Shows VShows Stored Live InOrder block)
open Spec

variable {F : Type}

/-- After `k` frames of which `p` are scored, the buffer has the vectors of `q`. -/
structure State (h : Heap F) (I : InstM) (q : List (Nat × List F)) (L R c : Nat) (x : Int → List F) (k p : Nat) :
    Prop where
  feats : I.feats = q.map vecOf
  held : Held h q
  inv : Inv L R c x k p ⟨I.started, q.map Prod.snd⟩
  due : p = Am.due R c k

theorem held_append {h : Heap F} {q r : List (Nat × List F)} (a : Held h q) (b : Held h r)
    (hd : ∀ c, Owns q c → ¬ Owns r c) : Held h (q ++ r) := by
  refine ⟨?_, ?_, ?_⟩
  · intro p hp
    rcases List.mem_append.mp hp with g | g
    · exact a.line p g
    · exact b.line p g
  · intro p hp
    rcases List.mem_append.mp hp with g | g
    · exact a.some p g
    · exact b.some p g
  · rw [List.map_append, List.nodup_append]
    refine ⟨a.nodup, b.nodup, ?_⟩
    rintro u hu v hv rfl
    exact hd u hu hv

/-- New vectors beside those of `q`. -/
theorem Spec.Effect.more {h h' : Heap F} {q new : List (Nat × List F)} (E : Effect h h' (fun _ => False) (Owns new))
    (H : Held h q) (H' : Held h' new) : Held h' (q ++ new) :=
  held_append (E.held H (fun _ _ => id)) H' (fun c hc => E.not (live_lt (H.live hc)) id)

theorem Spec.Effect.grow {h h' : Heap F} {q new : List (Nat × List F)} (E : Effect h h' (fun _ => False) (Owns new))
    (X : Nat → Prop) (hX : ∀ c, X c → Live h c) (H : Held h q) :
    Effect h h' (fun c => Owns q c ∨ X c) (fun c => Owns (q ++ new) c ∨ X c) :=
  (E.frame (fun c => Owns q c ∨ X c) (fun c hc => ⟨hc.elim (fun g => H.live g) (hX c), id⟩)).of
    (fun c => ⟨fun g => g.elim (fun g => absurd g id) id, .inr⟩)
    (fun c => by
      rw [owns_append]
      constructor
      · rintro (g | g | g)
        · exact .inl (.inr g)
        · exact .inl (.inl g)
        · exact .inr g
      · rintro ((g | g) | g)
        · exact .inr (.inl g)
        · exact .inl g
        · exact .inr (.inr g))

section
variable {o : Ops F} {vm : List F → List (List F) → List F} {am : Am.Model F} {M : ModelM} {d e L R c w : Nat}
  {x : Int → List F}

theorem enter_ok (S : Setup o vm am d e L R c w x) (hw : w ≤ 536870911) (hML : M.left = am.left) {h : Heap F} {I : InstM}
    {q : List (Nat × List F)} {k p : Nat} (st : State h I q L R c x k p) {a : Addr} (hl : Line h a (x k)) :
    ∃ I' new h', enter o M I ⟨some a, (x k).length⟩ h = .ok (I', h') ∧ I'.feats = (q ++ new).map vecOf ∧
      I'.started = true ∧ (q ++ new).map Prod.snd = seg x ((p : Int) - L) (L + (k + 1) - p) ∧ Held h' new ∧
      Effect h h' (fun _ => False) (Owns new) := by
  have hd : 1 ≤ d ∧ d ≤ w := Nnet.Built.in_size S.hb
  have hxl := S.hx k
  have hne : x k ≠ [] := by
    intro g
    rw [g] at hxl
    simp at hxl
    omega
  have h4 : (x k).length * 4 ≤ 2147483647 := by omega
  have hseg := (Am.enter_seg S.hleft S.hedge st.inv).2
  unfold Am.enter Am.appendFrame at hseg
  unfold enter
  by_cases hs : I.started = true
  · rw [if_pos hs] at hseg ⊢
    obtain ⟨h1, e1, l1, E1⟩ := appendFrame_ok o I hl hne h4
    refine ⟨_, [(h.length, x k)], h1, e1, ?_, hs, ?_, ?_, ?_⟩
    · show I.feats ++ _ = _
      rw [st.feats, List.map_append]
      rfl
    · rw [List.map_append]
      exact hseg
    · exact held_cons l1 hne ⟨by simp, by simp, by simp⟩ (owns_nil _)
    · exact E1.of (fun _ => Iff.rfl) (fun c => by rw [owns_cons]; exact ⟨.inl, fun g => g.elim id (fun g => absurd g (owns_nil c))⟩)
  · rw [if_neg hs] at hseg ⊢
    obtain ⟨new, h1, e1, s1, H1, E1⟩ := appendTimes_ok o hne h4 M.left.toNat I h hl
    obtain ⟨h2, e2, l2, E2⟩ := appendFrame_ok o { ({ I with feats := I.feats ++ new.map vecOf } : InstM) with started := true }
      (E1.line hl id) hne h4
    have hlt : ∀ c, Owns new c → c ≠ h1.length := fun c hc => by have := live_lt (H1.live hc); omega
    refine ⟨{ started := true, feats := (I.feats ++ new.map vecOf) ++ [⟨some ⟨h1.length, 0⟩, (x k).length⟩] },
      new ++ [(h1.length, x k)], h2, ?_, ?_, rfl, ?_, ?_, ?_⟩
    · rw [e1, ok_bind]
      exact e2
    · show (I.feats ++ new.map vecOf) ++ _ = _
      rw [st.feats, List.map_append, List.map_append, List.append_assoc]
      rfl
    · rw [← hseg, Am.appendTimes_feats, List.map_append, List.map_append, s1, hML]
      show _ = (_ ++ _) ++ [x k]
      rw [List.append_assoc]
      rfl
    · refine held_append (E2.held H1 (fun _ _ => id)) (held_cons l2 hne ⟨by simp, by simp, by simp⟩ (owns_nil _)) ?_
      intro c hc g
      rw [owns_cons] at g
      exact g.elim (hlt c hc) (owns_nil c)
    · have F2 := E2.frame (Owns new) (fun c hc => ⟨H1.live hc, id⟩)
      exact (E1.trans (F2.of (P' := Owns new) (fun c => ⟨fun g => g.elim (fun g => absurd g id) id, .inr⟩)
        (fun _ => Iff.rfl))).of (fun _ => Iff.rfl) (fun c => by
          rw [owns_append, owns_cons]
          constructor
          · rintro (g | g)
            · exact .inr (.inl g)
            · exact .inl g
          · rintro (g | g | g)
            · exact .inr g
            · exact .inl g
            · exact absurd g (owns_nil c))

theorem none_block {v : View} (hv : v = .empty) (c : Nat) : ¬ some c = block v := by
  subst hv
  intro g
  cases g

/-- `Process`. -/
theorem process_ok (S : Setup o vm am d e L R c w x) (hw : w ≤ 536870911) {hp hf h : Heap F} (hM : Loaded hp M am)
    {I : InstM} {q : List (Nat × List F)} {k p : Nat} (st : State h I q L R c x k p) {a : Addr} (hl : Line hf a (x k))
    {out : View} (hout : InOrder h out) (hqo : ∀ c, Owns q c → some c ≠ block out)
    (hsub : Sub hp h (fun c => Owns q c ∨ some c = block out))
    (hsf : Sub hf h (fun c => Owns q c ∨ some c = block out)) :
    ∃ v I' q' h' p', process o M I ⟨some a, (x k).length⟩ out h = .ok (v, I', h') ∧
      Rows h' v (seg (score o vm am x) p (p' - p)) ∧ p ≤ p' ∧ State h' I' q' L R c x (k + 1) p' ∧
      (∀ c, Owns q' c → some c ≠ block v) ∧
      Effect h h' (fun c => Owns q c ∨ some c = block out) (fun c => Owns q' c ∨ some c = block v) := by
  have hpk : p ≤ k ∧ k < p + R + c := by
    have := S.hc
    rcases st.inv with ⟨h1, h2, _⟩ | ⟨_, h2, h3, _⟩
    · omega
    · omega
  have hbig := S.hbig
  have hc := S.hc
  obtain ⟨I1, new, h1, e1, f1, t1, g1, H1, E1⟩ := enter_ok S hw hM.left st (hsf.line hl)
  have F1 := E1.grow (fun c => some c = block out) (fun c hc => hout.live hc.symm) st.held
  have H1' := E1.more st.held H1
  have hout1 : InOrder h1 out := E1.inOrder hout (fun _ _ => id)
  have hqo1 : ∀ c, Owns (q ++ new) c → some c ≠ block out := by
    intro c hc
    rw [owns_append] at hc
    rcases hc with g | g
    · exact hqo c g
    · intro g'
      exact E1.not (live_lt (hout.live g'.symm)) id g
  have hlen : (q ++ new).length = L + (k + 1) - p := by
    have := congrArg List.length g1
    rwa [List.length_map, seg_length] at this
  have hav : batchAvailable M I1 = .ok (decide (R + c ≤ k + 1 - p)) := by
    unfold batchAvailable
    rw [hM.left, hM.right, hM.chunk, S.hleft, S.hright, S.hchunk, i32_of (by unfold InI32; omega), ok_bind,
      i32_of (by unfold InI32; omega), ok_bind, f1, List.length_map, hlen]
    congr 1
    apply decide_eq_decide.mpr
    omega
  unfold process
  rw [e1]
  simp only [ok_bind]
  rw [hav, ok_bind]
  by_cases ha : R + c ≤ k + 1 - p
  · rw [decide_eq_true ha, if_pos rfl]
    obtain ⟨v, b', h2, e2, s2, E2⟩ := runBatch_ok (b := c) S hw hM f1 H1' g1 hc (by omega) (by omega) hout1
      ((hsub.step F1).mono (fun _ g => .inr g)) hqo1
    have H2 : Held h2 (q ++ new) := E2.held H1' hqo1
    obtain ⟨h3, e3, H3, E3⟩ := popFront_ok c (q ++ new) h2 H2 (by omega)
    have hbv : block v = some b' := s2.block
    have hnb : ∀ c, Owns (q ++ new) c → c ≠ b' := fun c hc => E2.not (live_lt (H1'.live hc)) (hqo1 c hc)
    have hsubset : ∀ k, Owns ((q ++ new).drop c) k → Owns (q ++ new) k := fun k hk => by
      unfold Owns at *
      rw [List.map_drop] at hk
      exact List.mem_of_mem_drop hk
    have s3 : Shows h3 v ⟨b', 0⟩ _ := E3.shows s2 (fun g => hnb b' g rfl)
    refine ⟨v, { I1 with feats := ((q ++ new).drop c).map vecOf }, (q ++ new).drop c, h3, p + c, ?_, ?_, by omega, ?_, ?_, ?_⟩
    · unfold computeBatch
      rw [hM.chunk, S.hchunk, if_neg (by omega), e2]
      simp only [ok_bind]
      rw [Int.toNat_natCast, f1, e3, ok_bind]
    · refine .inr ⟨b', ?_⟩
      rw [show p + c - p = c by omega]
      rw [show ((p : Int) - L + L) = p by omega] at s3
      exact s3
    · refine ⟨rfl, H3, .inr ⟨by omega, by omega, by omega, t1, ?_⟩, by rw [Am.due_step hc, ← st.due, if_pos ha]⟩
      show ((q ++ new).drop c).map Prod.snd = _
      rw [List.map_drop, g1, seg_drop _ _ _ _ (by omega)]
      congr 1
      · omega
      · omega
    · intro k hk g
      rw [hbv] at g
      exact hnb k (hsubset k hk) (Option.some.inj g)
    · have F2 := (E2.frame (Owns (q ++ new)) (fun c hc => ⟨H1'.live hc, hqo1 c hc⟩)).of
        (P' := fun c => Owns (q ++ new) c ∨ some c = block out) (Q' := fun c => Owns (q ++ new) c ∨ c = b')
        (fun _ => Or.comm) (fun _ => Or.comm)
      have F3 := E3.frame (fun k => k = b') (by rintro k rfl; exact ⟨s2.live, fun g => hnb k g rfl⟩)
      refine ((F1.trans F2).trans F3).of (fun _ => Iff.rfl) (fun k => ?_)
      rw [hbv, Option.some.injEq]
  · rw [decide_eq_false ha, if_neg (by decide)]
    obtain ⟨h2, e2, E2⟩ := resizeZero_ok o hout1
    refine ⟨.empty, I1, q ++ new, h2, p, ?_, ?_, Nat.le_refl _, ?_, fun c _ => none_block rfl c, ?_⟩
    · rw [e2]
      rfl
    · refine .inl ⟨?_, rfl⟩
      rw [show p - p = 0 by omega]
      rfl
    · exact ⟨f1, E2.held H1' hqo1, .inr ⟨by omega, by omega, by omega, t1, g1⟩, by rw [Am.due_step hc, ← st.due, if_neg ha]⟩
    · have F2 := (E2.frame (Owns (q ++ new)) (fun c hc => ⟨H1'.live hc, hqo1 c hc⟩)).of
        (P' := fun c => Owns (q ++ new) c ∨ some c = block out)
        (Q' := fun c => Owns (q ++ new) c ∨ some c = block .empty)
        (fun _ => Or.comm) (fun c => ⟨fun g => g.elim (fun g => absurd g id) .inl,
          fun g => g.elim .inr (fun g => absurd g (none_block rfl c))⟩)
      exact F1.trans F2

/-- `EndOfStream`. -/
theorem endOfStream_ok (S : Setup o vm am d e L R c w x) (hw : w ≤ 536870911) {hp h : Heap F} (hM : Loaded hp M am)
    {I : InstM} {q : List (Nat × List F)} {k p : Nat} (st : State h I q L R c x k p) (hk : 0 < k)
    (hlast : ∀ t : Int, (k : Int) ≤ t → x t = x ((k : Int) - 1))
    {out : View} (hout : InOrder h out) (hqo : ∀ c, Owns q c → some c ≠ block out)
    (hsub : Sub hp h (fun c => Owns q c ∨ some c = block out)) :
    ∃ v I' q' h', endOfStream o M I out h = .ok (v, I', h') ∧
      Rows h' v (seg (score o vm am x) p (k - p)) ∧ p ≤ k ∧ I'.feats = q'.map vecOf ∧ Held h' q' ∧
      (∀ c, Owns q' c → some c ≠ block v) ∧
      Effect h h' (fun c => Owns q c ∨ some c = block out) (fun c => Owns q' c ∨ some c = block v) := by
  have hbig := S.hbig
  have hd : 1 ≤ d ∧ d ≤ w := Nnet.Built.in_size S.hb
  rcases st.inv with ⟨h1, _, _⟩ | ⟨_, h2, h3, h4, h5⟩
  · omega
  simp only at h4 h5
  have hlen : q.length = L + k - p := by
    have := congrArg List.length h5
    rwa [List.length_map, seg_length] at this
  -- nothing to compute: an empty matrix
  have nothing : ∀ {h1 : Heap F} {q1 : List (Nat × List F)} (_ : Held h1 q1) (_ : InOrder h1 out)
      (_ : ∀ c, Owns q1 c → some c ≠ block out), ∃ h', resizeTo o out 0 0 h1 = .ok (.empty, h') ∧ Held h' q1 ∧
        Effect h1 h' (fun c => Owns q1 c ∨ some c = block out) (fun c => Owns q1 c ∨ some c = block .empty) := by
    intro h1 q1 H1 hout1 hqo1
    obtain ⟨h2, e2, E2⟩ := resizeZero_ok o hout1
    refine ⟨h2, e2, E2.held H1 hqo1, ?_⟩
    exact (E2.frame (Owns q1) (fun c hc => ⟨H1.live hc, hqo1 c hc⟩)).of (fun _ => Or.comm)
      (fun c => ⟨fun g => g.elim (fun g => absurd g id) .inl, fun g => g.elim .inr (fun g => absurd g (none_block rfl c))⟩)
  unfold endOfStream
  by_cases hz : L + k - p = 0
  · have hq : q = [] := List.length_eq_zero_iff.mp (by omega)
    obtain ⟨h1, e1, H1, E1⟩ := nothing st.held hout hqo
    refine ⟨.empty, I, q, h1, ?_, .inl ⟨?_, rfl⟩, h2, st.feats, H1, fun c _ => none_block rfl c, E1⟩
    · rw [st.feats, hq]
      simp only [List.map_nil, List.getLast?_nil]
      rw [e1]
      rfl
    · rw [show k - p = 0 by omega]
      rfl
  · have hgl : ∃ b, q.getLast? = some (b, x ((k : Int) - 1)) := by
      have := congrArg (fun l => l[L + k - p - 1]?) h5
      simp only [List.getElem?_map] at this
      rw [seg_get _ _ (by omega), List.getElem?_eq_getElem (by omega)] at this
      rw [List.getLast?_eq_getElem?, hlen, List.getElem?_eq_getElem (by omega)]
      generalize q[L + k - p - 1]'(by omega) = z at this ⊢
      obtain ⟨b, y⟩ := z
      simp only [Option.map_some, Option.some.injEq] at this
      refine ⟨b, ?_⟩
      rw [this]
      congr 3
      omega
    obtain ⟨b, hgl⟩ := hgl
    have hmem : (b, x ((k : Int) - 1)) ∈ q := List.mem_of_getLast? hgl
    have hxl := S.hx ((k : Int) - 1)
    have hx4 : (x ((k : Int) - 1)).length * 4 ≤ 2147483647 := by omega
    obtain ⟨new, h1, e1, s1, H1, E1⟩ := appendTimes_ok o (st.held.some _ hmem) hx4 M.right.toNat I h
      (st.held.line _ hmem)
    have F1 := E1.grow (fun c => some c = block out) (fun c hc => hout.live hc.symm) st.held
    have H1' := E1.more st.held H1
    have hout1 : InOrder h1 out := E1.inOrder hout (fun _ _ => id)
    have hqo1 : ∀ c, Owns (q ++ new) c → some c ≠ block out := by
      intro c hc
      rw [owns_append] at hc
      rcases hc with g | g
      · exact hqo c g
      · intro g'
        exact E1.not (live_lt (hout.live g'.symm)) id g
    have hfe : (q ++ new).map Prod.snd = seg x ((p : Int) - L) (L + k - p + R) := by
      rw [List.map_append, h5, s1, hM.right, S.hright, Int.toNat_natCast, ← seg_append]
      congr 1
      apply Am.seg_ext (by rw [List.length_replicate])
      intro i hi
      rw [List.getElem?_replicate_of_lt hi]
      congr 1
      exact (hlast _ (by omega)).symm
    have hlen1 : (q ++ new).length = L + k - p + R := by
      have := congrArg List.length hfe
      rwa [List.length_map, seg_length] at this
    have f1 : I.feats ++ new.map vecOf = (q ++ new).map vecOf := by rw [st.feats, List.map_append]
    rw [st.feats, List.getLast?_map, hgl]
    simp only [Option.map_some]
    have e1' : appendTimes o (vecOf (b, x ((k : Int) - 1))) M.right.toNat I h =
        .ok ({ I with feats := I.feats ++ new.map vecOf }, h1) := e1
    rw [e1', ok_bind, hM.left, hM.right, S.hleft, S.hright, i32_of (by unfold InI32; omega), ok_bind]
    simp only
    rw [show (L : Int) + (R : Int) = ((L + R : Nat) : Int) by omega, toSize_nat (by omega), f1, List.length_map, hlen1]
    by_cases he : L + k - p + R ≤ L + R
    · rw [if_pos he]
      obtain ⟨h2', e2, H2, E2⟩ := nothing H1' hout1 hqo1
      refine ⟨.empty, { I with feats := (q ++ new).map vecOf }, q ++ new, h2', ?_, .inl ⟨?_, rfl⟩, h2, rfl, H2, fun c _ => none_block rfl c, F1.trans E2⟩
      · rw [e2]
        rfl
      · rw [show k - p = 0 by omega]
        rfl
    · rw [if_neg he]
      obtain ⟨v, b', h2', e2, s2, E2⟩ := runBatch_ok (b := k - p) S hw hM
        (inst := { I with feats := (q ++ new).map vecOf }) rfl H1' hfe (by omega) (by omega) (by omega) hout1
        ((hsub.step F1).mono (fun _ g => .inr g)) hqo1
      have hbv : block v = some b' := s2.block
      have hnb : ∀ c, Owns (q ++ new) c → c ≠ b' := fun c hc => E2.not (live_lt (H1'.live hc)) (hqo1 c hc)
      refine ⟨v, { I with feats := (q ++ new).map vecOf }, q ++ new, h2', ?_, .inr ⟨b', ?_⟩, h2, rfl,
        E2.held H1' hqo1, ?_, ?_⟩
      · unfold computeBatch
        rw [if_pos rfl]
        simp only [List.length_map, hlen1]
        rw [hM.left, hM.right, S.hleft, S.hright,
          show ((L + k - p + R : Nat) : Int) - L - R = ((k - p : Nat) : Int) by omega,
          wrap32_of ⟨by omega, by omega⟩, decide_eq_true (by omega), cassert_true, ok_bind, e2]
        rfl
      · rw [show ((p : Int) - L + L) = p by omega] at s2
        exact s2
      · intro c hc g
        rw [hbv] at g
        exact hnb c hc (Option.some.inj g)
      · have F2 := (E2.frame (Owns (q ++ new)) (fun c hc => ⟨H1'.live hc, hqo1 c hc⟩)).of
          (P' := fun c => Owns (q ++ new) c ∨ some c = block out) (Q' := fun c => Owns (q ++ new) c ∨ some c = block v)
          (fun _ => Or.comm) (fun c => by
            rw [hbv, Option.some.injEq]
            exact Or.comm)
        exact F1.trans F2

theorem readMat_ok {h : Heap F} {v : View} {m : List (List F)} (s : Rows h v m) : readMat v h = .ok m := by
  rcases s with ⟨rfl, rfl⟩ | ⟨b, s⟩
  · rfl
  · unfold readMat
    rw [s.data]
    exact readRows_ok s

theorem rows_inOrder {h : Heap F} {v : View} {m : List (List F)} (s : Rows h v m) : InOrder h v := by
  rcases s with ⟨_, rfl⟩ | ⟨b, s⟩
  · exact .inl rfl
  · exact s.inOrder

/-- The frames `x k`, `x (k + 1)`, … are in memory. -/
def Given (hp : Heap F) (x : Int → List F) (k : Nat) (fs : List Vec) : Prop :=
  ∀ (i : Nat) (f : Vec), fs[i]? = some f → VShows hp f (x ((k + i : Nat) : Int))

theorem Given.tail {hp : Heap F} {x : Int → List F} {k : Nat} {f : Vec} {fs : List Vec} (g : Given hp x k (f :: fs)) :
    Given hp x (k + 1) fs := by
  intro i v hv
  have := g (i + 1) v (by rw [List.getElem?_cons_succ]; exact hv)
  rwa [show k + (i + 1) = k + 1 + i by omega] at this

theorem frames_ok (S : Setup o vm am d e L R c w x) (hw : w ≤ 536870911) {hp hf : Heap F} (hM : Loaded hp M am) :
    ∀ (fs : List Vec) {h : Heap F} {I : InstM} {q : List (Nat × List F)} {k p : Nat} {out : View},
      State h I q L R c x k p → Given hf x k fs → InOrder h out → (∀ c, Owns q c → some c ≠ block out) →
      Sub hp h (fun c => Owns q c ∨ some c = block out) → Sub hf h (fun c => Owns q c ∨ some c = block out) →
      ∃ I' q' v h' p', frames o M I out fs h = .ok (seg (score o vm am x) p (p' - p), I', v, h') ∧ p ≤ p' ∧
        State h' I' q' L R c x (k + fs.length) p' ∧ InOrder h' v ∧ (∀ c, Owns q' c → some c ≠ block v) ∧
        Effect h h' (fun c => Owns q c ∨ some c = block out) (fun c => Owns q' c ∨ some c = block v)
  | [], h, I, q, k, p, out, st, _, hout, hqo, hsub, _ => by
    refine ⟨I, q, out, h, p, ?_, Nat.le_refl _, st, hout, hqo, Effect.refl h ?_⟩
    · unfold frames
      rw [show p - p = 0 by omega]
      rfl
    · rintro c (g | g)
      · exact st.held.live g
      · exact hout.live g.symm
  | f :: fs, h, I, q, k, p, out, st, hg, hout, hqo, hsub, hsf => by
    obtain ⟨hfd, a, hfa, hl⟩ := hg 0 f rfl
    rw [show ((k + 0 : Nat) : Int) = (k : Int) from rfl] at hfd hl
    have hfe : f = ⟨some a, (x k).length⟩ := by rw [← hfd, ← hfa]
    subst hfe
    obtain ⟨v1, I1, q1, h1, p1, e1, r1, l1, st1, n1, E1⟩ := process_ok S hw hM st hl hout hqo hsub hsf
    obtain ⟨I2, q2, v2, h2, p2, e2, l2, st2, o2, n2, E2⟩ := frames_ok S hw hM fs st1 hg.tail (rows_inOrder r1) n1
      (hsub.step E1) (hsf.step E1)
    refine ⟨I2, q2, v2, h2, p2, ?_, by omega, ?_, o2, n2, E1.trans E2⟩
    · unfold frames
      rw [e1]
      simp only [ok_bind]
      rw [readMat_ok r1, ok_bind, e2]
      simp only [ok_bind]
      have := seg_append (score o vm am x) p (p1 - p) (p2 - p1)
      rw [show (p : Int) + ((p1 - p : Nat) : Int) = p1 by omega, show p1 - p + (p2 - p1) = p2 - p by omega] at this
      rw [this]
    · rw [List.length_cons, show k + (fs.length + 1) = k + 1 + fs.length by omega]
      exact st2

/-- The block `b` of a memory, alone. -/
def only (h : Heap F) (b : Nat) : Heap F := List.replicate b none ++ [h[b]?.join]

theorem peek_only (h : Heap F) (b : Nat) (off : Int) : peek (only h b) ⟨b, off⟩ = peek h ⟨b, off⟩ := by
  unfold only peek
  rw [List.getElem?_append_right (by rw [List.length_replicate]), List.length_replicate, Nat.sub_self]
  simp only [List.getElem?_cons_zero]
  cases h[b]? with
  | none => rfl
  | some z => cases z <;> rfl

theorem only_sub {h : Heap F} {b : Nat} {P : Nat → Prop} (hP : ¬ P b) : Sub (only h b) h P := by
  rintro ⟨k, off⟩ c hc
  by_cases hk : k = b
  · subst hk
    rw [peek_only] at hc
    exact ⟨hc, hP⟩
  · exfalso
    unfold only peek at hc
    simp only at hc
    by_cases hlt : k < b
    · rw [List.getElem?_append_left (by rw [List.length_replicate]; exact hlt),
        List.getElem?_eq_getElem (by rw [List.length_replicate]; exact hlt), List.getElem_replicate] at hc
      cases hc
    · rw [List.getElem?_eq_none (by rw [List.length_append, List.length_replicate, List.length_singleton]; omega)] at hc
      cases hc

theorem bring_ok (o : Ops F) (h : Heap F) {fs : List (List F)} (hn : fs ≠ []) {d : Nat} (hd1 : 1 ≤ d)
    (hd2 : d ≤ 2147483632) (hfs : ∀ f ∈ fs, f.length = d) (hsz : fs.length * d ≤ 2147483647) :
    ∃ t h', bring o d fs h = .ok (t, h') ∧ Shows h' t ⟨h.length, 0⟩ fs ∧
      Effect h h' (fun _ => False) (fun c => c = h.length) := by
  obtain ⟨t, b, h1, e1, s1, c1, m1⟩ := resize_ok o (h := h) (v := .empty) (.inl rfl) (List.length_pos_iff.mpr hn) hd1 hsz
    hd2
  have hb : b = h.length := by
    rcases m1.fresh with g | g
    · cases g
    · exact g
  subst hb
  have hzl : fs.length = (zeros o fs.length d).length := by unfold zeros; rw [List.length_replicate]
  have hc : ∀ y ∈ fs, (y.length : Int) = t.cols := fun y hy => by rw [hfs y hy, c1]
  obtain ⟨h2, e2, s2, a2⟩ := rows_loop (f := fun i g => do
      let row ← aget fs i
      Mat.loop (d : Int) (fun j g => do
        let x ← aget row j
        Mat.poke g ⟨h.length, 0 + i * t.stride + j⟩ (some x)) g) s1 hzl hc (by
    intro i x y hh hzi hyi l1 _
    unfold Turns
    beta_reduce
    rw [aget_nat hyi]
    simp only [ok_bind]
    have e1 := s1.cols x (List.mem_of_getElem? hzi)
    have e2 := hc y (List.mem_of_getElem? hyi)
    refine loop_line l1 (by omega) (by omega) ?_
    intro j h2 u w hu hw _ _
    left
    rw [aget_nat hw, ok_bind]
    rfl)
  refine ⟨t, h2, ?_, s2, (m1.then a2).effect.of (fun c => ⟨fun g => (by cases g), fun g => absurd g id⟩)
    (fun _ => Iff.rfl)⟩
  unfold bring
  rw [if_neg hn, e1, ok_bind]
  simp only
  rw [s1.data]
  simp only
  have : NetMem.writeRows ⟨h.length, 0⟩ fs.length d t.stride fs h1 = .ok h2 := by
    unfold NetMem.writeRows
    rw [← e2, s1.rows, ← hzl]
  rw [this, ok_bind]

theorem rowsOf_ok {h : Heap F} {t : View} {b : Nat} {fs : List (List F)} (s : Shows h t ⟨b, 0⟩ fs) {k : Nat}
    (hx : ∀ (i : Nat) (f : List F), fs[i]? = some f → f = x ((k + i : Nat) : Int)) :
    ∃ vs, rowsOf t = .ok vs ∧ vs.length = fs.length ∧ Given (only h b) x k vs := by
  refine ⟨(List.range fs.length).map fun i : Nat => ⟨some (rowAt t ⟨b, 0⟩ i), t.cols⟩, ?_, ?_, ?_⟩
  · unfold rowsOf
    rw [s.rows, Int.toNat_natCast]
    refine mapM_range (by rw [List.length_map, List.length_range]) ?_
    intro i v hv
    rw [List.getElem?_map] at hv
    by_cases hi : i < fs.length
    · rw [List.getElem?_eq_getElem (by rw [List.length_range]; exact hi), List.getElem_range] at hv
      cases hv
      exact rowOf_ok s.proper (by rw [s.rows]; omega)
    · rw [List.getElem?_eq_none (by rw [List.length_range]; omega)] at hv
      cases hv
  · rw [List.length_map, List.length_range]
  · intro i v hv
    rw [List.getElem?_map] at hv
    by_cases hi : i < fs.length
    · rw [List.getElem?_eq_getElem (by rw [List.length_range]; exact hi), List.getElem_range] at hv
      cases hv
      have hf := List.getElem?_eq_getElem hi
      have he := hx i _ hf
      rw [← he]
      refine ⟨(s.cols _ (List.getElem_mem hi)).symm, rowAt t ⟨b, 0⟩ i, rfl, ?_⟩
      intro j y hy
      rw [show (⟨(rowAt t ⟨b, 0⟩ i).block, (rowAt t ⟨b, 0⟩ i).off + (j : Int)⟩ : Addr) =
        ⟨b, (rowAt t ⟨b, 0⟩ i).off + (j : Int)⟩ from rfl, peek_only]
      exact s.line i _ hf j y hy
    · rw [List.getElem?_eq_none (by rw [List.length_range]; omega)] at hv
      cases hv

theorem owns_empty (q : List (Nat × List F)) (c : Nat) : Owns q c ∨ some c = block .empty ↔ Owns q c :=
  ⟨fun g => g.elim id (fun g => absurd g (none_block rfl c)), .inl⟩

/-- The frames `x k`, `x (k + 1)`, … -/
def Series (x : Int → List F) (k : Nat) (fs : List (List F)) : Prop :=
  ∀ (i : Nat) (f : List F), fs[i]? = some f → f = x ((k + i : Nat) : Int)

theorem piece_ok (S : Setup o vm am d e L R c w x) (hw : w ≤ 536870911) {hp : Heap F} (hM : Loaded hp M am)
    (fs : List (List F)) (hsz : fs.length * d ≤ 2147483647) {h : Heap F} {I : InstM} {q : List (Nat × List F)} {k p : Nat}
    (st : State h I q L R c x k p) (hg : Series x k fs) (hsub : Sub hp h (Owns q)) :
    ∃ I' q' h' p', piece o M d I fs h = .ok (seg (score o vm am x) p (p' - p), I', h') ∧ p ≤ p' ∧
      State h' I' q' L R c x (k + fs.length) p' ∧ Effect h h' (Owns q) (Owns q') := by
  by_cases hn : fs = []
  · subst hn
    refine ⟨I, q, h, p, ?_, Nat.le_refl _, st, Effect.refl h (fun _ g => st.held.live g)⟩
    unfold piece bring
    rw [if_pos rfl, ok_bind, show p - p = 0 by omega]
    rfl
  · have hd : 1 ≤ d ∧ d ≤ w := Nnet.Built.in_size S.hb
    have hfs : ∀ f ∈ fs, f.length = d := by
      intro f hf
      obtain ⟨i, hi⟩ := List.mem_iff_getElem?.mp hf
      rw [hg i f hi]
      exact S.hx _
    obtain ⟨t, h0, e0, s0, E0⟩ := bring_ok o h hn hd.1 (by omega) hfs hsz
    obtain ⟨vs, ev, lv, gv⟩ := rowsOf_ok s0 hg
    have hqb : ¬ Owns q h.length := fun g => by have := live_lt (st.held.live g); omega
    have hbt : block t = some h.length := s0.block
    have F0 := (E0.frame (Owns q) (fun c hc => ⟨st.held.live hc, id⟩)).of (P' := Owns q)
      (Q' := fun c => c = h.length ∨ Owns q c) (fun c => ⟨fun g => g.elim (fun g => absurd g id) id, .inr⟩)
      (fun _ => Iff.rfl)
    have st0 : State h0 I q L R c x k p := ⟨st.feats, E0.held st.held (fun _ _ => id), st.inv, st.due⟩
    obtain ⟨I', q', v, h1, p', e1, l1, st1, o1, n1, E1⟩ := frames_ok S hw hM vs (out := .empty) st0 gv (.inl rfl)
      (fun c _ => none_block rfl c) ((hsub.step F0).mono (fun c g => .inr ((owns_empty q c).mp g)))
      (only_sub (fun g => hqb ((owns_empty q _).mp g)))
    have hnb : ¬ (Owns q h.length ∨ some h.length = block .empty) := fun g => hqb ((owns_empty q _).mp g)
    have hnb' : ¬ (Owns q' h.length ∨ some h.length = block v) := E1.not (live_lt s0.live) hnb
    have s1 := E1.shows s0 hnb
    obtain ⟨h2, e2, E2⟩ := destroyMat_effect o1
    have s2 := E2.shows s1 (fun g => hnb' (.inr g))
    obtain ⟨h3, e3, E3⟩ := destroyMat_effect s2.inOrder
    have F1 := (E1.frame (fun c => c = h.length) (by rintro c rfl; exact ⟨s0.live, hnb⟩)).of
      (P' := fun c => c = h.length ∨ Owns q c) (Q' := fun c => (Owns q' c ∨ some c = block v) ∨ c = h.length)
      (fun c => by rw [owns_empty]; exact Or.comm) (fun _ => Iff.rfl)
    have F2 := (E2.frame (fun c => Owns q' c ∨ c = h.length) (by
        rintro c (hc | rfl)
        · exact ⟨st1.held.live hc, n1 c hc⟩
        · exact ⟨s1.live, fun g => hnb' (.inr g)⟩)).of
      (P' := fun c => (Owns q' c ∨ some c = block v) ∨ c = h.length) (Q' := fun c => Owns q' c ∨ c = h.length)
      (fun c => by
        constructor
        · rintro (g | g | g)
          · exact .inl (.inr g)
          · exact .inl (.inl g)
          · exact .inr g
        · rintro ((g | g) | g)
          · exact .inr (.inl g)
          · exact .inl g
          · exact .inr (.inr g))
      (fun c => ⟨fun g => g.elim (fun g => absurd g id) id, .inr⟩)
    have H2 := E2.held st1.held n1
    have hq3 : ∀ c, Owns q' c → ¬ some c = block t := fun c hc g => by
      rw [hbt] at g
      rw [Option.some.inj g] at hc
      exact hnb' (.inl hc)
    have F3 := (E3.frame (Owns q') (fun c hc => ⟨H2.live hc, hq3 c hc⟩)).of
      (P' := fun c => Owns q' c ∨ c = h.length) (Q' := Owns q')
      (fun c => by rw [hbt, Option.some.injEq]; exact Or.comm)
      (fun c => ⟨fun g => g.elim (fun g => absurd g id) id, .inr⟩)
    refine ⟨I', q', h3, p', ?_, l1, ⟨st1.feats, E3.held H2 hq3, ?_, ?_⟩, ((F0.trans F1).trans F2).trans F3⟩
    · unfold piece
      rw [e0]
      simp only [ok_bind]
      rw [ev]
      simp only [ok_bind]
      rw [e1]
      simp only [ok_bind]
      rw [e2, ok_bind, e3, ok_bind]
    · rw [← lv]
      exact st1.inv
    · rw [← lv]
      exact st1.due

theorem pieces_ok (S : Setup o vm am d e L R c w x) (hw : w ≤ 536870911) {hp : Heap F} (hM : Loaded hp M am) :
    ∀ (ps : List (List (List F))) {h : Heap F} {I : InstM} {q : List (Nat × List F)} {k p : Nat},
      (∀ fs ∈ ps, fs.length * d ≤ 2147483647) → State h I q L R c x k p → Series x k ps.flatten → Sub hp h (Owns q) →
      ∃ I' q' h' p', pieces o M d I ps h = .ok (seg (score o vm am x) p (p' - p), I', h') ∧ p ≤ p' ∧
        State h' I' q' L R c x (k + ps.flatten.length) p' ∧ Effect h h' (Owns q) (Owns q')
  | [], h, I, q, k, p, _, st, _, _ => by
    refine ⟨I, q, h, p, ?_, Nat.le_refl _, st, Effect.refl h (fun _ g => st.held.live g)⟩
    unfold pieces
    rw [show p - p = 0 by omega]
    rfl
  | fs :: ps, h, I, q, k, p, hsz, st, hg, hsub => by
    rw [List.flatten_cons] at hg
    obtain ⟨I1, q1, h1, p1, e1, l1, st1, E1⟩ := piece_ok S hw hM fs (hsz fs (List.mem_cons_self ..)) st
      (fun i f hf => hg i f (by
        rw [List.getElem?_append_left (List.getElem?_eq_some_iff.mp hf).1]; exact hf)) hsub
    obtain ⟨I2, q2, h2, p2, e2, l2, st2, E2⟩ := pieces_ok S hw hM ps
      (fun f hf => hsz f (List.mem_cons_of_mem _ hf)) st1 (fun i f hf => by
      have := hg (fs.length + i) f (by rw [List.getElem?_append_right (by omega), Nat.add_sub_cancel_left]; exact hf)
      rwa [show k + (fs.length + i) = k + fs.length + i by omega] at this) (hsub.step E1)
    refine ⟨I2, q2, h2, p2, ?_, by omega, ?_, E1.trans E2⟩
    · unfold pieces
      rw [e1]
      simp only [ok_bind]
      rw [e2]
      simp only [ok_bind]
      have := seg_append (score o vm am x) p (p1 - p) (p2 - p1)
      rw [show (p : Int) + ((p1 - p : Nat) : Int) = p1 by omega, show p1 - p + (p2 - p1) = p2 - p by omega] at this
      rw [this]
    · rw [List.flatten_cons, List.length_append, ← Nat.add_assoc]
      exact st2

theorem utterance_ok (S : Setup o vm am d e L R c w x) (hw : w ≤ 536870911) {h : Heap F} (hM : Loaded h M am)
    (ps : List (List (List F))) (hsz : ∀ fs ∈ ps, fs.length * d ≤ 2147483647) (hg : Series x 0 ps.flatten)
    (hn : 0 < ps.flatten.length)
    (hlast : ∀ t : Int, (ps.flatten.length : Int) ≤ t → x t = x ((ps.flatten.length : Int) - 1)) :
    ∃ h', utterance o M d ps h = .ok (seg (score o vm am x) 0 ps.flatten.length, h') ∧
      Effect h h' (fun _ => False) (fun _ => False) := by
  have st : State h InstM.new ([] : List (Nat × List F)) L R c x 0 0 :=
    ⟨rfl, ⟨by simp, by simp, by simp⟩, .inl ⟨rfl, rfl, rfl⟩, (Am.due_zero _ _).symm⟩
  have hs0 : Sub h h (Owns ([] : List (Nat × List F))) := fun a c ha => ⟨ha, owns_nil _⟩
  obtain ⟨I1, q1, h1, p1, e1, l1, st1, E1⟩ := pieces_ok S hw hM ps hsz st hg hs0
  rw [Nat.zero_add] at st1
  have he : ∀ q : List (Nat × List F), ∀ c, Owns q c ∨ some c = block .empty ↔ Owns q c := fun q c =>
    ⟨fun g => g.elim id (fun g => absurd g (none_block rfl c)), .inl⟩
  obtain ⟨v, I2, q2, h2, e2, r2, l2, f2, H2, n2, E2⟩ := endOfStream_ok S hw hM (out := .empty) st1 hn hlast (.inl rfl)
    (fun c _ => none_block rfl c) ((hs0.step E1).mono (fun c g => (he q1 c).mp g))
  obtain ⟨h3, e3, E3⟩ := destroyMat_effect (rows_inOrder r2)
  have H3 : Held h3 q2 := E3.held H2 n2
  obtain ⟨h4, e4, _, E4⟩ := popFront_ok q2.length q2 h3 H3 (Nat.le_refl _)
  have F2 : Effect h1 h2 (Owns q1) _ := E2.of (he q1) (fun _ => Iff.rfl)
  have F3 := (E3.frame (Owns q2) (fun c hc => ⟨H2.live hc, n2 c hc⟩)).of
    (P' := fun c => Owns q2 c ∨ some c = block v) (Q' := Owns q2) (fun _ => Or.comm)
    (fun c => ⟨fun g => g.elim (fun g => absurd g id) id, .inr⟩)
  have F4 : Effect h3 h4 (Owns q2) (fun _ => False) := E4.of (fun _ => Iff.rfl) (fun c => by
    rw [List.drop_length]
    exact ⟨owns_nil c, fun g => absurd g id⟩)
  have F1 : Effect h h1 (fun _ => False) (Owns q1) := E1.of (fun c => ⟨owns_nil c, fun g => absurd g id⟩)
    (fun _ => Iff.rfl)
  refine ⟨h4, ?_, ((F1.trans F2).trans F3).trans F4⟩
  unfold utterance
  rw [e1]
  simp only [ok_bind]
  rw [e2]
  simp only [ok_bind]
  rw [readMat_ok r2, ok_bind, e3, ok_bind, f2, List.length_map, e4]
  simp only [ok_bind]
  have := seg_append (score o vm am x) 0 (p1 - 0) (ps.flatten.length - p1)
  rw [show ((0 : Int)) + ((p1 - 0 : Nat) : Int) = p1 by omega,
    show p1 - 0 + (ps.flatten.length - p1) = ps.flatten.length by omega] at this
  rw [← this]
  rfl

end

end Verif.AmMem
