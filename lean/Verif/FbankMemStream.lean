import Verif.FbankMemRun

/-!
# Calls of the feature extraction one after the other, in memory
-/

namespace Verif.FbankMem

open Mat (Heap Addr View load poke loop peek)
open VecMem (Vec resizePlain destroy)
open NetMem
open NetMem.Spec (Line Shows VShows Live InOrder block)
open AmMem.Spec (Effect Sub Rows)
open AmMem
open Fbank (Ops)
open Fbank.Spec (Tables ScratchOnly row frame frames numFrames)
open Spec

variable {F : Type}

theorem Spec.Has.step {h h' : Heap F} {v : Vec} {x : List F} {P A B : Nat → Prop} (s : Has h v x P) (E : Effect h h' A B)
    (hA : ∀ c, P c → ¬ A c) : Has h' v x P := by
  cases s with
  | empty => exact .empty
  | full hx hl => exact .full hx (E.line hl (hA _ rfl))

theorem Spec.Has.free {h : Heap F} {v : Vec} {x : List F} {P : Nat → Prop} (s : Has h v x P) :
    ∃ h', destroy v h = .ok h' ∧ Effect h h' P (fun _ => False) := by
  cases s with
  | empty => exact ⟨h, rfl, Effect.refl h (fun _ g => absurd g id)⟩
  | full hx hl => exact free_ok (line_live hl hx)

theorem samples_ok (o : Ops F) (h : Heap F) {y : List F} (hy : y ≠ []) (hbig : y.length < 536870912) :
    ∃ h', samplesM o y h = .ok (⟨some ⟨h.length, 0⟩, y.length⟩, h') ∧ Line h' ⟨h.length, 0⟩ y ∧
      Effect h h' (fun _ => False) (fun c => c = h.length) := by
  have hpos := List.length_pos_iff.mpr hy
  obtain ⟨h1, e1, l1, E1⟩ := newZero_ok o.zero h (n := y.length) hpos (by omega)
  obtain ⟨h2, e2, l2, ol⟩ := writeVec_ok (line_cells l1) (y := y) (by simp) (n := y.length) (by simp)
  refine ⟨h2, ?_, l2, E1.trans (ol.apart.effect ((E1.live _).mpr (.inr rfl)))⟩
  unfold samplesM
  rw [e1, ok_bind]
  simp only
  rw [e2, ok_bind]

theorem samples_nil (o : Ops F) (h : Heap F) : samplesM o [] h = .ok (.empty, h) := rfl

/-- The samples of a call and the features. -/
theorem begin_ok (o : Ops F) (wild : Nat → F) {t : TabM} {h : Heap F} (htab : Tables o) (hf : ScratchOnly o)
    {buf : Vec} {x y : List F} {P : Nat → Prop} (hb : Has h buf x P) (hy : y ≠ []) (ht : Loaded h t o)
    (hclear : Clear t P) (hbig : x.length + y.length < 536870912) :
    ∃ s h1, samplesM o y h = .ok (s, h1) ∧ ¬ s.dim = 0 ∧
    (∀ rows, (frames (x ++ y)).mapM (row o) = .ok rows → ∃ buf' v h' Q S,
      processM o t wild buf s .empty h1 = .ok (buf', v, h') ∧
      Has h' buf' ((x ++ y).drop (160 * numFrames (x ++ y).length)) Q ∧ Rows h' v rows ∧ Has h' s y S ∧
      (∀ c, Q c → some c ≠ block v) ∧ (∀ c, S c → some c ≠ block v) ∧ (∀ c, S c → ¬ Q c) ∧
      Effect h h' P (fun c => (Q c ∨ some c = block v) ∨ S c)) ∧
    (∀ e, (frames (x ++ y)).mapM (row o) = .error e → processM o t wild buf s .empty h1 = .error e) := by
  have hpos := List.length_pos_iff.mpr hy
  obtain ⟨h1, e1, l1, E1⟩ := samples_ok o h hy (by omega)
  have hPl : ∀ c, P c → c ≠ h.length := fun c hc g => by have := live_lt (hb.live hc); omega
  have E1P : Effect h h1 P (fun c => c = h.length ∨ P c) :=
    (E1.frame P (fun c hc => ⟨hb.live hc, id⟩)).of (fun c => ⟨fun g => g.elim (fun g => absurd g id) id, .inr⟩)
      (fun _ => Iff.rfl)
  obtain ⟨t1, k1⟩ := tables_step E1P htab ht hclear
  have he : ∀ c, P c ∨ some c = block .empty ↔ P c := fun c =>
    ⟨fun g => g.elim id (fun g => absurd g (none_block rfl c)), .inl⟩
  have k1' : Clear t (fun c => P c ∨ some c = block .empty) :=
    ⟨fun a ha g => k1.window a ha (.inr ((he _).mp g)), fun q hq a ha g => k1.bins q hq a ha (.inr ((he _).mp g))⟩
  obtain ⟨r1, r2⟩ := process_ok o wild htab hf (hb.step E1 (fun _ _ => id)) (wave := ⟨some ⟨h.length, 0⟩, y.length⟩)
    ⟨rfl, _, rfl, l1⟩ hy (feats := .empty) (.inl rfl) (fun c _ => none_block rfl c) t1 k1'
    (fun a ha g => by cases ha; exact hPl _ g rfl) hbig
  refine ⟨_, h1, e1, by show ¬ (y.length : Int) = 0; omega, fun rows hrows => ?_, r2⟩
  obtain ⟨buf', v, h', Q, e2, hb2, s2, hQ, E2⟩ := r1 rows hrows
  have E2' : Effect h1 h' P (fun c => Q c ∨ some c = block v) := E2.of he (fun _ => Iff.rfl)
  have hS : ¬ (Q h.length ∨ some h.length = block v) :=
    E2'.not (live_lt (line_live l1 hy)) (fun g => hPl _ g rfl)
  refine ⟨buf', v, h', Q, fun c => c = h.length, e2, hb2, s2, .full hy (E2'.line l1 (fun g => hPl _ g rfl)), hQ, ?_, ?_, ?_⟩
  · rintro c rfl g
    exact hS (.inr g)
  · rintro c rfl g
    exact hS (.inl g)
  · refine (E1P.then E2' (fun c hc => .inr hc)).of (fun _ => Iff.rfl) (fun c => ?_)
    constructor
    · rintro (g | ⟨g | g, g'⟩)
      · exact .inl g
      · exact .inr g
      · exact absurd g g'
    · rintro (g | g)
      · exact .inl g
      · exact .inr ⟨.inl g, fun g' => hPl c g' g⟩

theorem no_frames {x : List F} (hx : numFrames x.length = 0) : frames x = [] := by
  unfold Fbank.Spec.frames
  rw [hx]
  rfl

theorem rest_short (x : List F) : numFrames (x.drop (160 * numFrames x.length)).length = 0 := by
  rw [List.length_drop]
  have := Fbank.leftover_bound x.length
  unfold numFrames at this ⊢
  rw [if_pos this]

/-- The features of a piece; what the call needed is gone. -/
theorem features_ok (o : Ops F) (wild : Nat → F) {t : TabM} {h : Heap F} (htab : Tables o) (hf : ScratchOnly o)
    {buf : Vec} {x y : List F} {P : Nat → Prop} (hb : Has h buf x P) (ht : Loaded h t o)
    (hclear : Clear t P) (hx : numFrames x.length = 0) (hbig : x.length + y.length < 536870912) :
    (∀ rows, (frames (x ++ y)).mapM (row o) = .ok rows → ∃ buf' h' Q, featuresM o t wild buf y h = .ok (rows, buf', h') ∧
      Has h' buf' ((x ++ y).drop (160 * numFrames (x ++ y).length)) Q ∧ Effect h h' P Q) ∧
    (∀ e, (frames (x ++ y)).mapM (row o) = .error e → featuresM o t wild buf y h = .error e) := by
  unfold featuresM
  by_cases hy : y = []
  · subst hy
    rw [List.append_nil, no_frames hx, hx]
    refine ⟨fun rows hrows => ?_, fun e he => by cases he⟩
    cases hrows
    exact ⟨buf, h, P, rfl, hb, Effect.refl h (fun c hc => hb.live hc)⟩
  · obtain ⟨s, h1, e1, hs, r1, r2⟩ := begin_ok o wild htab hf hb hy ht hclear hbig
    rw [e1, ok_bind]
    simp only
    rw [if_neg hs]
    refine ⟨fun rows hrows => ?_, fun e he => by rw [r2 e he, error_bind]⟩
    obtain ⟨buf', v, h2, Q, S, e2, hb2, s2, hs2, hQ, hSv, hSQ, E2⟩ := r1 rows hrows
    obtain ⟨h3, e3, E3⟩ := destroyMat_effect (rows_inOrder s2)
    obtain ⟨h4, e4, E4⟩ := (hs2.step E3 hSv).free
    refine ⟨buf', h4, Q, ?_, (hb2.step E3 hQ).step E4 (fun c hc g => hSQ c g hc), ?_⟩
    · rw [e2, ok_bind]
      simp only
      rw [readMat_ok s2, ok_bind, e3, ok_bind, e4, ok_bind]
    · refine ((E2.then E3 (fun c hc => .inl (.inr hc))).then E4 (fun c hc => .inr ⟨.inr hc, hSv c hc⟩)).of
        (fun _ => Iff.rfl) (fun c => ?_)
      constructor
      · rintro (g | ⟨g | ⟨(g | g) | g, g1⟩, g2⟩)
        · exact absurd g id
        · exact absurd g id
        · exact g
        · exact absurd g g1
        · exact absurd g g2
      · exact fun g => .inr ⟨.inr ⟨.inl (.inl g), hQ c g⟩, fun g' => hSQ c g' g⟩

theorem feed_mem (o : Ops F) {t : TabM} (htab : Tables o) (hf : ScratchOnly o) :
    ∀ (cs : List ((Nat → F) × List F)) {h : Heap F} {buf : Vec} {x : List F} {P : Nat → Prop}, Has h buf x P →
      Loaded h t o → Clear t P → numFrames x.length = 0 → (∀ c ∈ cs, c.2.length < 536870500) →
      (∀ rows, (frames (x ++ (cs.map Prod.snd).flatten)).mapM (row o) = .ok rows → ∃ buf' h' Q,
        feedM o t buf cs h = .ok (rows, buf', h') ∧ Has h' buf' ((x ++ (cs.map Prod.snd).flatten).drop
          (160 * numFrames (x ++ (cs.map Prod.snd).flatten).length)) Q ∧ Effect h h' P Q) ∧
      (∀ e, (frames (x ++ (cs.map Prod.snd).flatten)).mapM (row o) = .error e → feedM o t buf cs h = .error e)
  | [], h, buf, x, P, hb, ht, hc, hx, _ => by
    rw [List.map_nil, List.flatten_nil, List.append_nil, no_frames hx, hx]
    refine ⟨fun rows hrows => ?_, fun e he => by cases he⟩
    cases hrows
    exact ⟨buf, h, P, rfl, hb, Effect.refl h (fun c hc => hb.live hc)⟩
  | (wild, y) :: cs, h, buf, x, P, hb, ht, hc, hx, hcs => by
    have hy := hcs (wild, y) (List.mem_cons_self ..)
    have hxl : x.length < 400 := by have := Fbank.leftover_bound x.length; omega
    obtain ⟨r1, r2⟩ := features_ok o wild htab hf hb ht hc hx (y := y) (by simp only at hy; omega)
    obtain ⟨f1, f2⟩ := Fbank.frames_split (x ++ y) (cs.map Prod.snd).flatten
    rw [List.map_cons, List.flatten_cons, ← List.append_assoc, f1, Fbank.mapM_append_exec, f2]
    unfold feedM
    cases hm : (frames (x ++ y)).mapM (row o) with
    | error e0 =>
      rw [error_bind, r2 e0 hm, error_bind]
      exact ⟨fun rows g => (by cases g), fun e g => by cases g; rfl⟩
    | ok rows0 =>
      obtain ⟨buf1, h1, Q1, e1, hb1, E1⟩ := r1 rows0 hm
      obtain ⟨t1, k1⟩ := tables_step E1 htab ht hc
      obtain ⟨g1, g2⟩ := feed_mem o htab hf cs hb1 t1 k1 (rest_short _) (fun d hd => hcs d (List.mem_cons_of_mem _ hd))
      rw [ok_bind, e1, ok_bind]
      simp only
      generalize (frames (List.drop (160 * numFrames (x ++ y).length) (x ++ y) ++ (cs.map Prod.snd).flatten)).mapM
        (row o) = res at g1 g2 ⊢
      cases res with
      | error e =>
        rw [error_bind, g2 e rfl, error_bind]
        exact ⟨fun rows g => (by cases g), fun e g => by cases g; rfl⟩
      | ok rows' =>
        rw [ok_bind]
        refine ⟨fun rows hrows => ?_, fun e g => by cases g⟩
        obtain ⟨buf2, h2, Q2, e2, hb2, E2⟩ := g1 rows' rfl
        cases hrows
        exact ⟨buf2, h2, Q2, by rw [e2, ok_bind], hb2, E1.trans E2⟩

end Verif.FbankMem
