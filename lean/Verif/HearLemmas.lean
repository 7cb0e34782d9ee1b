import Verif.HearModel
import Verif.FbankMemStream
import Verif.AmMemRun

/-!
# From samples to scores in memory: one call after the other
-/

namespace Verif.Hear

open Mat (Heap Addr View peek)
open VecMem (Vec destroy)
open NetMem
open NetMem.Spec (Line Shows VShows Live InOrder block)
open AmMem.Spec (Effect Sub Rows Held Owns vecOf)
open AmMem (ModelM InstM State Series Given score rowsOf rowsOf_ok frames_ok only only_sub none_block owns_nil owns_empty
  destroyMat_effect rows_inOrder readMat_ok popFront_ok endOfStream_ok)
open Am (Setup seg seg_append seg_length)
open FbankMem (TabM samplesM processM begin_ok tables_step rest_short no_frames)
open FbankMem.Spec (Has Clear)
open Fbank.Spec (Tables ScratchOnly row numFrames)

variable {F : Type} {o : Fbank.Ops F} {a : Nnet.Ops F} {vm : List F → List (List F) → List F} {am : Am.Model F}
  {M : ModelM} {e L R c w : Nat} {x : Int → List F}

/-- The rows of a matrix that may be empty, for the acoustic model. -/
theorem rows_given {h : Heap F} {v : View} {rows : List (List F)} (s : Rows h v rows) {k : Nat} (hg : Series x k rows) :
    ∃ vs hf, rowsOf v = .ok vs ∧ vs.length = rows.length ∧ Given hf x k vs ∧
      ∀ P : Nat → Prop, (∀ b, P b → some b ≠ block v) → Sub hf h P := by
  rcases s with ⟨rfl, rfl⟩ | ⟨b, s⟩
  · refine ⟨[], [], rfl, rfl, ?_, ?_⟩
    · intro i f hf
      cases hf
    · intro P _ b c hc
      cases hc
  · obtain ⟨vs, e1, l1, g1⟩ := rowsOf_ok s hg
    exact ⟨vs, only h b, e1, l1, g1, fun P hP => only_sub (fun g => hP b g s.block.symm)⟩

/-- One call: both buffers are as they should be, and nothing else is left. -/
theorem hear_ok (S : Setup a vm am 40 e L R c w x) (hw : w ≤ 536870911) {hp : Heap F} (hM : AmMem.Spec.Loaded hp M am)
    {t : TabM} (htab : Tables o) (hf : ScratchOnly o) (wild : Nat → F) {h : Heap F} {u : Utt} {z y : List F}
    {P : Nat → Prop} {q : List (Nat × List F)} {k p : Nat} (hb : Has h u.buf z P) (st : State h u.am q L R c x k p)
    (hPq : ∀ b, P b → ¬ Owns q b) (ht : FbankMem.Spec.Loaded h t o) (hclear : Clear t (fun b => P b ∨ Owns q b))
    (hsub : Sub hp h (fun b => P b ∨ Owns q b)) (hz : numFrames z.length = 0) (hbig : z.length + y.length < 536870912)
    {rows : List (List F)} (hrows : (Fbank.Spec.frames (z ++ y)).mapM (row o) = .ok rows) (hg : Series x k rows) :
    ∃ u' h' Q q' p', hear o a t M wild u y h = .ok (seg (score a vm am x) p (p' - p), u', h') ∧ p ≤ p' ∧
      Has h' u'.buf ((z ++ y).drop (160 * numFrames (z ++ y).length)) Q ∧ State h' u'.am q' L R c x (k + rows.length) p' ∧
      (∀ b, Q b → ¬ Owns q' b) ∧ Effect h h' (fun b => P b ∨ Owns q b) (fun b => Q b ∨ Owns q' b) := by
  unfold hear
  by_cases hy : y = []
  · subst hy
    rw [List.append_nil, no_frames hz] at hrows
    cases hrows
    rw [List.append_nil, hz]
    refine ⟨u, h, P, q, p, ?_, Nat.le_refl _, hb, st, hPq, Effect.refl h (fun b g => g.elim hb.live st.held.live)⟩
    rw [show p - p = 0 by omega]
    rfl
  · obtain ⟨s, h1, e1, hs, r1, -⟩ := begin_ok o wild htab hf hb hy ht
      ⟨fun b hb g => hclear.window b hb (.inl g), fun b hb d hd g => hclear.bins b hb d hd (.inl g)⟩ hbig
    obtain ⟨buf', v, h2, Q, S1, e2, hb2, s2, hs2, hQv, hSv, hSQ, E2⟩ := r1 rows hrows
    obtain ⟨vs, hfr, ev, lv, gv, sv⟩ := rows_given s2 hg
    have hq2 : ∀ b, Owns q b → ¬ ((Q b ∨ some b = block v) ∨ S1 b) := fun b hbq =>
      E2.not (live_lt (st.held.live hbq)) (fun g => hPq b g hbq)
    have st2 : State h2 u.am q L R c x k p := ⟨st.feats, E2.held st.held (fun b g g' => hPq b g' g), st.inv, st.due⟩
    have F2 : Effect h h2 (fun b => P b ∨ Owns q b) (fun b => ((Q b ∨ some b = block v) ∨ S1 b) ∨ Owns q b) :=
      E2.frame (Owns q) (fun b g => ⟨st.held.live g, fun g' => hPq b g' g⟩)
    obtain ⟨I', q', v1, h3, p', e3, l3, st3, o3, n3, E3⟩ := frames_ok S hw hM vs (out := .empty) st2 gv (.inl rfl)
      (fun b _ => none_block rfl b) ((hsub.step F2).mono (fun b g => .inr ((owns_empty q b).mp g)))
      (sv _ (fun b g g' => hq2 b ((owns_empty q b).mp g) (.inl (.inr g'))))
    have E3' : Effect h2 h3 (Owns q) (fun b => Owns q' b ∨ some b = block v1) := E3.of (owns_empty q) (fun _ => Iff.rfl)
    have live2 : ∀ b, (Q b ∨ some b = block v) ∨ S1 b → Live h2 b := fun b g => (E2.live b).mpr (.inr g)
    have hA : ∀ b, (Q b ∨ some b = block v) ∨ S1 b → ¬ (Owns q' b ∨ some b = block v1) := fun b g =>
      E3'.not (live_lt (live2 b g)) (fun g' => hq2 b g' g)
    obtain ⟨h4, e4, E4⟩ := destroyMat_effect o3
    have ov3 : InOrder h3 v := E3'.inOrder (rows_inOrder s2) (fun b g g' => hq2 b g' (.inl (.inr g)))
    have ov4 : InOrder h4 v := E4.inOrder ov3 (fun b g g' => hA b (.inl (.inr g)) (.inr g'))
    obtain ⟨h5, e5, E5⟩ := destroyMat_effect ov4
    have hs5 : Has h5 s y S1 := ((hs2.step E3' (fun b g g' => hq2 b g' (.inr g))).step E4
      (fun b g g' => hA b (.inr g) (.inr g'))).step E5 hSv
    obtain ⟨h6, e6, E6⟩ := hs5.free
    have hb6 := (((hb2.step E3' (fun b g g' => hq2 b g' (.inl (.inl g)))).step E4
      (fun b g g' => hA b (.inl (.inl g)) (.inr g'))).step E5 hQv).step E6 (fun b g g' => hSQ b g' g)
    have H4 := E4.held st3.held n3
    have H5 := E5.held H4 (fun b g g' => hA b (.inl (.inr g')) (.inl g))
    have H6 := E6.held H5 (fun b g g' => hA b (.inr g') (.inl g))
    refine ⟨⟨buf', I'⟩, h6, Q, q', p', ?_, l3, hb6, ⟨st3.feats, H6, ?_, ?_⟩, fun b g g' => hA b (.inl (.inl g)) (.inl g'), ?_⟩
    · rw [e1, ok_bind]
      simp only
      rw [if_neg hs, e2, ok_bind]
      simp only
      rw [ev, ok_bind, e3, ok_bind]
      simp only
      rw [e4, ok_bind, e5, ok_bind, e6, ok_bind]
    · rw [← lv]
      exact st3.inv
    · rw [← lv]
      exact st3.due
    · have F3 := F2.then E3' (fun b g => .inr g)
      have F4 := F3.then E4 (fun b g => .inl (.inr g))
      have F5 := F4.then E5 (fun b g => .inr ⟨.inr ⟨.inl (.inl (.inr g)), fun g' => hq2 b g' (.inl (.inr g))⟩,
        fun g' => hA b (.inl (.inr g)) (.inr g')⟩)
      have F6 := F5.then E6 (fun b g => .inr ⟨.inr ⟨.inr ⟨.inl (.inr g), fun g' => hq2 b g' (.inr g)⟩,
        fun g' => hA b (.inr g) (.inr g')⟩, hSv b g⟩)
      refine F6.of (fun _ => Iff.rfl) (fun b => ?_)
      have i1 := hq2 b
      have i2 := hA b
      have i3 := hQv b
      have i4 := hSv b
      have i5 := hSQ b
      have i6 := n3 b
      constructor
      · rintro (g | ⟨g | ⟨g | ⟨(g | g) | ⟨((g | g) | g) | g, g1⟩, g2⟩, g3⟩, g4⟩)
        · exact absurd g id
        · exact absurd g id
        · exact absurd g id
        · exact .inr g
        · exact absurd g g2
        · exact .inl g
        · exact absurd g g3
        · exact absurd g g4
        · exact absurd g g1
      · rintro (g | g)
        · exact .inr ⟨.inr ⟨.inr ⟨.inr ⟨.inl (.inl (.inl g)), fun g' => i1 g' (.inl (.inl g))⟩,
            fun g' => i2 (.inl (.inl g)) (.inr g')⟩, i3 g⟩, fun g' => i5 g' g⟩
        · exact .inr ⟨.inr ⟨.inr ⟨.inl (.inl g), i6 g⟩, fun g' => i2 (.inl (.inr g')) (.inl g)⟩,
            fun g' => i2 (.inr g') (.inl g)⟩

theorem hearAll_ok (S : Setup a vm am 40 e L R c w x) (hw : w ≤ 536870911) {hp : Heap F} (hM : AmMem.Spec.Loaded hp M am)
    {t : TabM} (htab : Tables o) (hf : ScratchOnly o) :
    ∀ (cs : List ((Nat → F) × List F)) {h : Heap F} {u : Utt} {z : List F} {P : Nat → Prop} {q : List (Nat × List F)}
      {k p : Nat} {rows : List (List F)}, Has h u.buf z P → State h u.am q L R c x k p → (∀ b, P b → ¬ Owns q b) →
      FbankMem.Spec.Loaded h t o → Clear t (fun b => P b ∨ Owns q b) → Sub hp h (fun b => P b ∨ Owns q b) →
      numFrames z.length = 0 → (∀ y ∈ cs, y.2.length < 536870500) →
      (Fbank.Spec.frames (z ++ (cs.map Prod.snd).flatten)).mapM (row o) = .ok rows → Series x k rows →
      ∃ u' h' Q q' p', hearAll o a t M u cs h = .ok (seg (score a vm am x) p (p' - p), u', h') ∧ p ≤ p' ∧
        Has h' u'.buf ((z ++ (cs.map Prod.snd).flatten).drop (160 * numFrames (z ++ (cs.map Prod.snd).flatten).length)) Q ∧
        State h' u'.am q' L R c x (k + rows.length) p' ∧ (∀ b, Q b → ¬ Owns q' b) ∧
        Effect h h' (fun b => P b ∨ Owns q b) (fun b => Q b ∨ Owns q' b)
  | [], h, u, z, P, q, k, p, rows, hb, st, hPq, ht, hc, hsub, hz, _, hrows, hg => by
    rw [List.map_nil, List.flatten_nil, List.append_nil] at hrows ⊢
    rw [no_frames hz] at hrows
    cases hrows
    rw [hz]
    refine ⟨u, h, P, q, p, ?_, Nat.le_refl _, hb, st, hPq, Effect.refl h (fun b g => g.elim hb.live st.held.live)⟩
    unfold hearAll
    rw [show p - p = 0 by omega]
    rfl
  | (wild, y) :: cs, h, u, z, P, q, k, p, rows, hb, st, hPq, ht, hc, hsub, hz, hcs, hrows, hg => by
    have hy := hcs (wild, y) (List.mem_cons_self ..)
    have hzl : z.length < 400 := by have := Fbank.leftover_bound z.length; omega
    obtain ⟨f1, f2⟩ := Fbank.frames_split (z ++ y) (cs.map Prod.snd).flatten
    rw [List.map_cons, List.flatten_cons, ← List.append_assoc] at hrows ⊢
    rw [f1, Fbank.mapM_append_exec] at hrows
    rw [f2]
    cases hm : (Fbank.Spec.frames (z ++ y)).mapM (row o) with
    | error e0 => rw [hm] at hrows; cases hrows
    | ok rows0 =>
      cases hm2 : (Fbank.Spec.frames ((z ++ y).drop (160 * numFrames (z ++ y).length) ++
          (cs.map Prod.snd).flatten)).mapM (row o) with
      | error e0 => rw [hm, hm2] at hrows; cases hrows
      | ok rows1 =>
        rw [hm, hm2] at hrows
        have hr : rows0 ++ rows1 = rows := Except.ok.inj hrows
        subst hr
        obtain ⟨u1, h1, Q1, q1, p1, e1, l1, hb1, st1, d1, E1⟩ := hear_ok S hw hM htab hf wild hb st hPq ht hc hsub hz
          (by simp only at hy; omega) hm (fun i f hf => hg i f (by
            rw [List.getElem?_append_left (List.getElem?_eq_some_iff.mp hf).1]; exact hf))
        obtain ⟨t1, k1⟩ := tables_step E1 htab ht hc
        obtain ⟨u2, h2, Q2, q2, p2, e2, l2, hb2, st2, d2, E2⟩ := hearAll_ok S hw hM htab hf cs hb1 st1 d1 t1 k1
          (hsub.step E1) (rest_short _) (fun d hd => hcs d (List.mem_cons_of_mem _ hd)) hm2 (fun i f hf => by
            have := hg (rows0.length + i) f (by
              rw [List.getElem?_append_right (by omega), Nat.add_sub_cancel_left]; exact hf)
            rwa [show k + (rows0.length + i) = k + rows0.length + i by omega] at this)
        refine ⟨u2, h2, Q2, q2, p2, ?_, by omega, hb2, ?_, d2, E1.trans E2⟩
        · unfold hearAll
          rw [e1]
          simp only [ok_bind]
          rw [e2]
          simp only [ok_bind]
          have := seg_append (score a vm am x) p (p1 - p) (p2 - p1)
          rw [show (p : Int) + ((p1 - p : Nat) : Int) = p1 by omega, show p1 - p + (p2 - p1) = p2 - p by omega] at this
          rw [this]
        · rw [List.length_append, ← Nat.add_assoc]
          exact st2

/-- The end of the stream, with or without frames. -/
theorem end_ok (S : Setup a vm am 40 e L R c w x) (hw : w ≤ 536870911) {hp h : Heap F} (hM : AmMem.Spec.Loaded hp M am)
    {I : InstM} {q : List (Nat × List F)} {k p : Nat} (st : State h I q L R c x k p)
    (hlast : 0 < k → ∀ t : Int, (k : Int) ≤ t → x t = x ((k : Int) - 1)) (hsub : Sub hp h (Owns q)) :
    ∃ v I' q' h', AmMem.endOfStream a M I .empty h = .ok (v, I', h') ∧ Rows h' v (seg (score a vm am x) p (k - p)) ∧
      p ≤ k ∧ I'.feats = q'.map vecOf ∧ Held h' q' ∧ (∀ b, Owns q' b → some b ≠ block v) ∧
      Effect h h' (Owns q) (fun b => Owns q' b ∨ some b = block v) := by
  by_cases hk : 0 < k
  · obtain ⟨v, I', q', h', g1, g2, g3, g4, g5, g6, E⟩ := endOfStream_ok S hw hM (out := .empty) st hk (hlast hk) (.inl rfl)
      (fun b _ => none_block rfl b) (hsub.mono (fun b g => (owns_empty q b).mp g))
    exact ⟨v, I', q', h', g1, g2, g3, g4, g5, g6, E.of (owns_empty q) (fun _ => Iff.rfl)⟩
  · rcases st.inv with ⟨h1, h2, h3⟩ | ⟨h1, h2, h3, h4, h5⟩
    · have hq : q = [] := by
        have := congrArg (fun i : Am.Inst F => i.feats.length) h3
        simp only [List.length_map] at this
        exact List.length_eq_zero_iff.mp this
      have hI : I.feats = [] := by rw [st.feats, hq]; rfl
      obtain ⟨h', e', E'⟩ := AmMem.resizeZero_ok a (h := h) (v := .empty) (.inl rfl)
      have E : Effect h h' (Owns q) (fun b => Owns q b ∨ some b = block .empty) :=
        E'.of (fun b => ⟨fun g => absurd g (none_block rfl b), fun g => absurd (by rw [hq] at g; exact g) (owns_nil b)⟩)
          (fun b => ⟨fun g => absurd g id, fun g => by
            rw [owns_empty, hq] at g
            exact absurd g (owns_nil b)⟩)
      refine ⟨.empty, I, q, h', ?_, .inl ⟨?_, rfl⟩, by omega, st.feats, ?_, fun b _ => none_block rfl b, E⟩
      · unfold AmMem.endOfStream
        rw [hI]
        simp only [List.getLast?_nil]
        rw [e', ok_bind]
      · rw [show k - p = 0 by omega]
        rfl
      · rw [hq]
        exact ⟨by simp, by simp, by simp⟩
    · omega

theorem utterance_ok (S : Setup a vm am 40 e L R c w x) (hw : w ≤ 536870911) {h : Heap F} (hM : AmMem.Spec.Loaded h M am)
    {t : TabM} (htab : Tables o) (hf : ScratchOnly o) (ht : FbankMem.Spec.Loaded h t o) (cs : List ((Nat → F) × List F))
    (hcs : ∀ y ∈ cs, y.2.length < 536870500) {rows : List (List F)}
    (hrows : (Fbank.Spec.frames (cs.map Prod.snd).flatten).mapM (row o) = .ok rows) (hg : Series x 0 rows)
    (hlast : 0 < rows.length → ∀ t : Int, (rows.length : Int) ≤ t → x t = x ((rows.length : Int) - 1)) :
    ∃ h', utterance o a t M cs h = .ok (seg (score a vm am x) 0 rows.length, h') ∧
      Effect h h' (fun _ => False) (fun _ => False) := by
  have st : State h InstM.new ([] : List (Nat × List F)) L R c x 0 0 :=
    ⟨rfl, ⟨by simp, by simp, by simp⟩, .inl ⟨rfl, rfl, rfl⟩, (Am.due_zero _ _).symm⟩
  have hn : ∀ b, ¬ (False ∨ Owns ([] : List (Nat × List F)) b) := fun b g => g.elim id (owns_nil b)
  obtain ⟨u1, h1, Q1, q1, p1, e1, l1, hb1, st1, d1, E1⟩ := hearAll_ok S hw hM htab hf cs (u := ⟨.empty, .new⟩) (z := [])
    (.empty (h := h)) st (fun b g => absurd g id) ht ⟨fun b _ => hn _, fun b _ d _ => hn _⟩ (fun b d hd => ⟨hd, hn _⟩)
    rfl hcs hrows hg
  rw [Nat.zero_add] at st1
  have s1 : Sub h h1 (fun b => Q1 b ∨ Owns q1 b) := Sub.step (fun b d hd => ⟨hd, hn _⟩) E1
  obtain ⟨v, I2, q2, h2, e2, r2, l2, f2, H2, n2, E2⟩ := end_ok S hw hM st1 hlast (s1.mono (fun b g => .inr g))
  obtain ⟨h3, e3, E3⟩ := destroyMat_effect (rows_inOrder r2)
  have H3 : Held h3 q2 := E3.held H2 n2
  obtain ⟨h4, e4, _, E4⟩ := popFront_ok q2.length q2 h3 H3 (Nat.le_refl _)
  have hQ2 : ∀ b, Q1 b → ¬ (Owns q2 b ∨ some b = block v) := fun b g => E2.not (live_lt (hb1.live g)) (d1 b g)
  have E4' : Effect h3 h4 (Owns q2) (fun _ => False) := E4.of (fun _ => Iff.rfl) (fun b => by
    rw [List.drop_length]
    exact ⟨owns_nil b, fun g => absurd g id⟩)
  have hb4 := ((hb1.step E2 d1).step E3 (fun b g g' => hQ2 b g (.inr g'))).step E4' (fun b g g' => hQ2 b g (.inl g'))
  obtain ⟨h5, e5, E5⟩ := hb4.free
  have F1 : Effect h h1 (fun _ => False) (fun b => Q1 b ∨ Owns q1 b) :=
    E1.of (fun b => ⟨fun g => absurd g (hn b), fun g => absurd g id⟩) (fun _ => Iff.rfl)
  have F2 := F1.then E2 (fun b g => .inr g)
  have F3 := F2.then E3 (fun b g => .inl (.inr g))
  have F4 := F3.then E4' (fun b g => .inr ⟨.inl (.inl g), n2 b g⟩)
  have F5 := F4.then E5 (fun b g => .inr ⟨.inr ⟨.inr ⟨.inl g, d1 b g⟩, fun g' => hQ2 b g (.inr g')⟩,
    fun g' => hQ2 b g (.inl g')⟩)
  refine ⟨h5, ?_, F5.of (fun _ => Iff.rfl) (fun b => ⟨?_, fun g => absurd g id⟩)⟩
  · unfold utterance
    rw [e1]
    simp only [ok_bind]
    rw [e2]
    simp only [ok_bind]
    rw [readMat_ok r2, ok_bind, e3, ok_bind, f2, List.length_map, e4]
    simp only [ok_bind]
    rw [e5, ok_bind]
    have := seg_append (score a vm am x) 0 (p1 - 0) (rows.length - p1)
    rw [show ((0 : Int)) + ((p1 - 0 : Nat) : Int) = p1 by omega,
      show p1 - 0 + (rows.length - p1) = rows.length by omega] at this
    rw [← this]
    rfl
  · rintro (g | ⟨g | ⟨g | ⟨(g | g) | ⟨g | g, g1⟩, g2⟩, g3⟩, g4⟩)
    · exact g
    · exact g
    · exact g
    · exact g3 g
    · exact g2 g
    · exact g4 g
    · exact g1 g

end Verif.Hear
