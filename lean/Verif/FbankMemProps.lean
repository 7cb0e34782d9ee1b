import Verif.FbankMemStream
import Verif.FbankProps
import Verif.NetMemProps

/-!
# Property C110: the feature extraction in memory
-/

namespace Verif.FbankMem

open Mat (Heap Addr View peek)
open VecMem (Vec destroy)
open NetMem (line_of lines_of)
open NetMem.Spec (Line Shows VShows Live InOrder block)
open AmMem.Spec (Effect Rows)
open Fbank (Ops toyOps toyOps_tables toyOps_scratch)
open Fbank.Spec (Tables ScratchOnly row frame frames numFrames)
open Spec

variable {F : Type}

/-- **C110, a call.**  The tables are somewhere in memory, `wave_buffer` holds the samples `x` that the calls before have
left (nothing at the start), `wave` shows the samples `y`, and the matrix for the features is empty or has a block of its
own.  Then, whatever the memory that is allocated without being written contains,

* when all frames of `x ++ y` have features, the call meets no undefined behaviour; the rows of the matrix are these
  features, the ones of C27; the buffer has the samples from the start of the first frame that is not complete, fewer
  than 400, in one block or none; the buffer and the matrix have exchanged their blocks for those they have now, no
  other block in use has come or gone, and no other has changed;
* when a frame has none because of a NaN, the call aborts. -/
theorem C110_call (o : Ops F) (wild : Nat → F) {t : TabM} {h : Heap F} (htab : Tables o) (hf : ScratchOnly o)
    {buf wave : Vec} {x y : List F} {P : Nat → Prop} (hb : Has h buf x P) (hw : VShows h wave y) (hy : y ≠ [])
    {feats : View} (hv : InOrder h feats) (hPv : ∀ c, P c → some c ≠ block feats) (ht : Loaded h t o)
    (hclear : Clear t (fun c => P c ∨ some c = block feats)) (hwave : ∀ a, wave.data = some a → ¬ P a.block)
    (hbig : x.length + y.length < 536870912) :
    (∀ rows, (frames (x ++ y)).mapM (row o) = .ok rows → ∃ buf' feats' h' Q,
      processM o t wild buf wave feats h = .ok (buf', feats', h') ∧ Rows h' feats' rows ∧
      Has h' buf' ((x ++ y).drop (160 * (frames (x ++ y)).length)) Q ∧
      ((x ++ y).drop (160 * (frames (x ++ y)).length)).length < 400 ∧ (∀ c, Q c → some c ≠ block feats') ∧
      Effect h h' (fun c => P c ∨ some c = block feats) (fun c => Q c ∨ some c = block feats')) ∧
    (∀ e, (frames (x ++ y)).mapM (row o) = .error e → processM o t wild buf wave feats h = .error e) := by
  obtain ⟨r1, r2⟩ := process_ok o wild htab hf hb hw hy hv hPv ht hclear hwave hbig
  refine ⟨fun rows hrows => ?_, r2⟩
  obtain ⟨buf', feats', h', Q, e1, hb1, hr, hQ, E⟩ := r1 rows hrows
  have hl : (frames (x ++ y)).length = numFrames (x ++ y).length := by
    unfold Fbank.Spec.frames
    rw [List.length_map, List.length_range]
  rw [hl]
  exact ⟨buf', feats', h', Q, e1, hr, hb1, by rw [List.length_drop]; exact Fbank.leftover_bound _, hQ, E⟩

/-- **C110, calls after each other.**  The samples come in any pieces; those of a piece are in a vector that is gone
before the next piece comes, and so is the matrix of features.  When all frames of the whole signal have features, the
calls meet no undefined behaviour and give these features, and

* the only memory in use besides what was before is the buffer: one block, with fewer than 400 samples, or none;
* no block that was there before has changed;

and when a frame has none because of a NaN, a call aborts. -/
theorem C110_stream (o : Ops F) {t : TabM} {h : Heap F} (htab : Tables o) (hf : ScratchOnly o) (ht : Loaded h t o)
    (cs : List ((Nat → F) × List F)) (hcs : ∀ c ∈ cs, c.2.length < 536870500) (signal : List F)
    (hs : signal = (cs.map Prod.snd).flatten) :
    (∀ rows, (frames signal).mapM (row o) = .ok rows → ∃ buf h' Q, feedM o t .empty cs h = .ok (rows, buf, h') ∧
      Has h' buf (signal.drop (160 * (frames signal).length)) Q ∧
      (signal.drop (160 * (frames signal).length)).length < 400 ∧
      (∀ a : Addr, a.block < h.length → peek h' a = peek h a) ∧ (∀ k, Live h' k ↔ Live h k ∨ Q k) ∧
      ∀ k, Q k → h.length ≤ k) ∧
    (∀ e, (frames signal).mapM (row o) = .error e → feedM o t .empty cs h = .error e) := by
  subst hs
  obtain ⟨r1, r2⟩ := feed_mem o htab hf cs (.empty (h := h)) ht ⟨fun _ _ => id, fun _ _ _ _ => id⟩ rfl hcs
  rw [List.nil_append] at r1 r2
  refine ⟨fun rows hrows => ?_, r2⟩
  obtain ⟨buf', h', Q, e1, hb1, E⟩ := r1 rows hrows
  have hl : (frames (cs.map Prod.snd).flatten).length = numFrames (cs.map Prod.snd).flatten.length := by
    unfold Fbank.Spec.frames
    rw [List.length_map, List.length_range]
  rw [hl]
  refine ⟨buf', h', Q, e1, hb1, by rw [List.length_drop]; exact Fbank.leftover_bound _, fun a ha => E.kept a ha id,
    fun k => ?_, fun k hk => (E.fresh k hk).elim (fun g => absurd g id) id⟩
  rw [E.live]
  exact ⟨fun g => g.elim (fun g => .inl g.1) .inr, fun g => g.elim (fun g => .inl ⟨g, id⟩) .inr⟩

/-- **C110, an utterance.**  With the destructor of the instance at the end nothing is left: the blocks in use are those
that were in use before, with the same content. -/
theorem C110_utterance (o : Ops F) {t : TabM} {h : Heap F} (htab : Tables o) (hf : ScratchOnly o) (ht : Loaded h t o)
    (cs : List ((Nat → F) × List F)) (hcs : ∀ c ∈ cs, c.2.length < 536870500) {rows : List (List F)}
    (hrows : (frames (cs.map Prod.snd).flatten).mapM (row o) = .ok rows) :
    ∃ h', utteranceM o t cs h = .ok (rows, h') ∧ (∀ a : Addr, a.block < h.length → peek h' a = peek h a) ∧
      ∀ k, Live h' k ↔ Live h k := by
  obtain ⟨r1, _⟩ := feed_mem o htab hf cs (.empty (h := h)) ht ⟨fun _ _ => id, fun _ _ _ _ => id⟩ rfl hcs
  rw [List.nil_append] at r1
  obtain ⟨buf, h1, Q, e1, hb, E1⟩ := r1 rows hrows
  obtain ⟨h2, e2, E2⟩ := hb.free
  have E := E1.trans E2
  refine ⟨h2, ?_, fun a ha => E.kept a ha id, fun k => ?_⟩
  · unfold utteranceM
    rw [e1, ok_bind]
    simp only
    rw [e2, ok_bind]
  · rw [E.live]
    exact ⟨fun g => g.elim And.left (fun g => absurd g id), fun g => .inl ⟨g, id⟩⟩

/-- A call without samples aborts, as in C27: the matrix of 0 × 40 cannot be made. -/
theorem C110_no_samples (o : Ops F) (t : TabM) (wild : Nat → F) (buf wave : Vec) {feats : View} {h : Heap F}
    (hv : InOrder h feats) (hw : wave.dim = 0) : processM o t wild buf wave feats h = .error .assert := by
  obtain ⟨h1, e1, _⟩ := AmMem.destroyMat_effect hv
  unfold processM Mat.resizePlain
  rw [if_pos hw, if_neg, e1, ok_bind]
  · rfl
  · rintro ⟨g1, g2, g3⟩
    rcases hv with g | ⟨_, _, p, _⟩
    · rw [g] at g1; exact g1 rfl
    · have := p.rows; omega

/-! ## A case -/

/-- The window, the weights that all filters share, what an earlier call has left in the buffer, the samples of this one,
and a matrix with features of before. -/
def tabHeap : Heap Int :=
  [some (List.replicate 400 (some 1)), some [some 1, some 2], some [some 7, some 8, some 9],
   some (List.replicate 602 (some 3)), some [some 5, none, some 6, none]]

/-- The tables of `toyOps` in `tabHeap`. -/
def toyTab : TabM := ⟨⟨some ⟨0, 0⟩, 400⟩, (List.range 40).map fun i : Nat => ((3 * i : Nat), ⟨some ⟨1, 0⟩, 2⟩)⟩

theorem line_cells_of {h : Heap Int} {b : Nat} {blk : List (Option Int)} {x : List Int} (hb : h[b]? = some (some blk))
    (hx : x.map some = blk) : Line h ⟨b, 0⟩ x := by
  subst hx
  intro i y hy
  unfold peek
  simp only [hb, Int.zero_add]
  rw [if_pos (by omega), Int.toNat_natCast, List.getElem?_map, hy]
  rfl

theorem toyTab_loaded {h : Heap Int} (h0 : h[0]? = some (some (List.replicate 400 (some 1))))
    (h1 : h[1]? = some (some [some 1, some 2])) : Loaded h toyTab toyOps := by
  refine ⟨⟨?_, ⟨0, 0⟩, rfl, ?_⟩, ?_⟩
  · show (400 : Int) = ((List.replicate 400 (1 : Int)).length : Nat)
    rw [List.length_replicate]
    rfl
  · refine line_cells_of h0 ?_
    show List.map some (List.replicate 400 (1 : Int)) = _
    rw [List.map_replicate]
  · unfold toyTab Fbank.toyOps
    simp only
    rw [List.forall₂_map_left_iff, List.forall₂_map_right_iff]
    refine List.forall₂_same.mpr fun i _ => ⟨rfl, by simp, rfl, ⟨1, 0⟩, rfl, line_cells_of h1 rfl⟩

theorem toy_rows (x : List Int) : ∃ rows, (frames x).mapM (row toyOps) = .ok rows ∧ rows.length = (frames x).length :=
  ⟨_, Fbank.mapM_ok _ (fun f => (Fbank.toyOps_row f).choose) _ (fun f _ => (Fbank.toyOps_row f).choose_spec),
    List.length_map ..⟩

/-- The hypotheses of `C110_call` are met: three samples from before and 602 new ones. -/
example (wild : Nat → Int) : ∃ buf feats h', ∃ Q : Nat → Prop, processM toyOps toyTab wild ⟨some ⟨2, 0⟩, 3⟩ ⟨some ⟨3, 0⟩, 602⟩
      ⟨some ⟨4, 0⟩, 2, 1, 2⟩ tabHeap = .ok (buf, feats, h') ∧ feats.rows = 2 ∧
    Effect tabHeap h' (fun c => c = 2 ∨ some c = some 4) (fun c => Q c ∨ some c = block feats) := by
  have hlen : ((602 : Int)) = ((List.replicate 602 (3 : Int)).length : Nat) := by rw [List.length_replicate]; rfl
  have hb : Has tabHeap ⟨some ⟨2, 0⟩, 3⟩ [7, 8, 9] (fun c => c = 2) := .full (x := [7, 8, 9]) (by simp) (line_cells_of rfl rfl)
  have hw : VShows tabHeap ⟨some ⟨3, 0⟩, 602⟩ (List.replicate 602 3) :=
    ⟨hlen, ⟨3, 0⟩, rfl, line_cells_of rfl (by rw [List.map_replicate])⟩
  have hn : (frames ([7, 8, 9] ++ List.replicate 602 (3 : Int))).length = 2 := by
    rw [(Fbank.C27_frames _).1, List.length_append, List.length_replicate]
    rfl
  have hv : InOrder tabHeap ⟨some ⟨4, 0⟩, 2, 1, 2⟩ := by
    refine .inr ⟨4, rfl, ⟨rfl, by decide, by decide, by decide, by decide⟩, ?_⟩
    rintro i j ⟨h1, h2, h3, h4⟩
    have h2 : i < 2 := h2
    have h4 : j < 1 := h4
    have hi : i = 0 ∨ i = 1 := by omega
    have hj : j = 0 := by omega
    subst hj
    rcases hi with rfl | rfl <;> decide +kernel
  have hc : Clear toyTab (fun c => c = 2 ∨ some c = block ⟨some ⟨4, 0⟩, 2, 1, 2⟩) := by
    constructor
    · intro a ha
      cases ha
      decide
    · intro q hq a ha
      obtain ⟨i, _, rfl⟩ := List.mem_map.mp hq
      cases ha
      decide
  obtain ⟨rows, hrows, hl⟩ := toy_rows ([7, 8, 9] ++ List.replicate 602 (3 : Int))
  obtain ⟨buf, feats, h', Q, e, hr, _, _, _, E⟩ := (C110_call toyOps wild toyOps_tables toyOps_scratch hb hw
    (fun g => by have := congrArg List.length g; rw [List.length_replicate] at this; cases this) hv
    (by rintro c rfl; decide) (toyTab_loaded rfl rfl) hc (by intro a ha; cases ha; decide)
    (by rw [List.length_replicate]; decide)).1 rows hrows
  refine ⟨buf, feats, h', Q, e, ?_, E⟩
  rw [hn] at hl
  rcases hr with ⟨g, _⟩ | ⟨b, s⟩
  · rw [g] at hl
    cases hl
  · rw [s.rows, hl]
    rfl

/-- Those of `C110_stream` and `C110_utterance` as well, with the pieces of the example of C27 and one without samples. -/
example (wild : Nat → Int) : ∃ rows h', utteranceM toyOps toyTab [(wild, List.replicate 300 1), (wild, []), (wild, [5]),
    (wild, List.replicate 301 2)] tabHeap = .ok (rows, h') ∧ ∀ k, Live h' k ↔ Live tabHeap k := by
  obtain ⟨rows, hrows, _⟩ := toy_rows (([(wild, List.replicate 300 1), (wild, []), (wild, [5]),
    (wild, List.replicate 301 2)] : List ((Nat → Int) × List Int)).map Prod.snd).flatten
  obtain ⟨h', e, _, v⟩ := C110_utterance toyOps toyOps_tables toyOps_scratch (toyTab_loaded (h := tabHeap) rfl rfl) _ (by
    intro c hc
    simp only [List.mem_cons, List.not_mem_nil, or_false] at hc
    rcases hc with rfl | rfl | rfl | rfl
    · rw [List.length_replicate]; decide
    · show 0 < 536870500; decide
    · show 1 < 536870500; decide
    · rw [List.length_replicate]; decide) hrows
  exact ⟨rows, h', e, v⟩

/-- Two more samples make no frame: the buffer has moved to a new block, the old one is gone, and so is the matrix. -/
example : (processM toyOps toyTab (fun i => (i : Int)) ⟨some ⟨2, 0⟩, 3⟩ ⟨some ⟨1, 0⟩, 2⟩ ⟨some ⟨4, 0⟩, 2, 1, 2⟩ tabHeap).map
    (fun r => ([r.1.dim, r.2.1.rows], r.2.2.drop 2)) =
    .ok ([5, 0], [none, some (List.replicate 602 (some 3)), none, some ([7, 8, 9, 1, 2].map some)]) := by decide +kernel

end Verif.FbankMem
