import Verif.HearLemmas
import Verif.FbankMemProps
import Verif.AmMemProps

/-!
# Property C111: from samples to scores in memory
-/

namespace Verif.Hear

open Mat (Heap Addr View peek)
open VecMem (Vec)
open NetMem.Spec (VShows Live)
open AmMem.Spec (Effect Held Owns vecOf)
open AmMem (ModelM InstM State Series score owns_nil series_of edge_of)
open Am (Setup seg seg_length seg_get)
open Nnet.Spec (RowWise Built series edge)
open FbankMem (TabM line_cells_of tabHeap toyTab toyTab_loaded toy_rows)
open FbankMem.Spec (Has)
open Fbank.Spec (Tables ScratchOnly row frames)

variable {F : Type}

theorem row_forty {o : Fbank.Ops F} (htab : Tables o) {f r : List F} (h : row o f = .ok r) : r.length = 40 := by
  unfold row at h
  cases hs : Fbank.Spec.spectrum o f with
  | error e => rw [hs] at h; cases h
  | ok s =>
    rw [hs, ok_bind] at h
    split at h
    · have := Except.ok.inj h
      rw [← this, List.length_map]
      exact htab.2.1
    · cases h

theorem rows_forty {o : Fbank.Ops F} (htab : Tables o) : ∀ {fs rows : List (List F)}, fs.mapM (row o) = .ok rows →
    ∀ r ∈ rows, r.length = 40
  | [], rows, h => by
    cases h
    simp
  | f :: fs, rows, h => by
    rw [List.mapM_cons] at h
    cases hf : row o f with
    | error e => rw [hf] at h; cases h
    | ok r0 =>
      rw [hf, ok_bind] at h
      cases hm : fs.mapM (row o) with
      | error e => rw [hm] at h; cases h
      | ok rs =>
        rw [hm, ok_bind] at h
        have := Except.ok.inj h
        subst this
        intro r hr
        rcases List.mem_cons.mp hr with rfl | hr
        · exact row_forty htab hf
        · exact rows_forty htab hm r hr

/-- The features `fs`, and then `more`, as a series that goes on at both ends; when there are none, any series. -/
theorem setup_of {a : Nnet.Ops F} {vm : List F → List (List F) → List F} (hvm : RowWise a vm) {am : Am.Model F}
    {e L R w c : Nat} (hb : Built am.layers 40 e L R w) (hprior : am.logPrior.length = e) (hl : am.left = L)
    (hr : am.right = R) (hch : am.chunk = c) (hc : 1 ≤ c) (hsize : (c + L + R + R) * w ≤ 2147483647)
    (hbig : c + L + R + R ≤ 1073741823) (zero : F) (fs : List (List F)) (hd : ∀ f ∈ fs, f.length = 40) :
    ∃ x, Setup a vm am 40 e L R c w x ∧ (fs ≠ [] → x = edge fs) ∧ Series x 0 fs ∧
      (0 < fs.length → ∀ t : Int, (fs.length : Int) ≤ t → x t = x ((fs.length : Int) - 1)) := by
  by_cases hn : fs = []
  · subst hn
    refine ⟨fun _ => List.replicate 40 zero, ⟨hvm, hb, hprior, hl, hr, hch, hc, hsize, hbig,
      fun _ => List.length_replicate, fun _ _ => rfl⟩, fun g => absurd rfl g, fun i f hf => (by cases hf), fun _ _ _ => rfl⟩
  · have hx := edge_of fs hn hd
    have hlast := hx.last
    rw [List.length_map] at hlast
    refine ⟨edge fs, ⟨hvm, hb, hprior, hl, hr, hch, hc, hsize, hbig, hx.size, hx.first⟩, fun _ => rfl, ?_,
      fun _ => hlast⟩
    have := series_of fs []
    rwa [List.append_nil] at this

/-- **C111, an utterance.**  The tables of the feature extraction and the parameters of the acoustic model are somewhere
in memory.  The samples come in any pieces.  When all frames of the whole signal have features `fs` (the ones of C27; no
NaN), the calls of `ce_stt_process` up to the scores, the end of the stream and the destructors meet no undefined
behaviour, whatever uninitialised memory contains, and

* there is one row of scores for every frame, and row `t` is the one of C28 for the features `fs`: the network at time
  `t`, minus the log of the prior, where the first and the last feature go on for ever;
* no block that was there before has changed;
* the blocks in use are those that were in use before. -/
theorem C111_utterance {o : Fbank.Ops F} {a : Nnet.Ops F} {vm : List F → List (List F) → List F} (hvm : RowWise a vm)
    {h : Heap F} {t : TabM} (htab : Tables o) (hf : ScratchOnly o) (ht : FbankMem.Spec.Loaded h t o)
    {am : Am.Model F} {M : ModelM} (hM : AmMem.Spec.Loaded h M am) {e L R w c : Nat} (hb : Built am.layers 40 e L R w)
    (hprior : am.logPrior.length = e) (hl : am.left = L) (hr : am.right = R) (hch : am.chunk = c) (hc : 1 ≤ c)
    (hsize : (c + L + R + R) * w ≤ 2147483647) (hbig : c + L + R + R ≤ 1073741823) (hw : w ≤ 536870911)
    (cs : List ((Nat → F) × List F)) (hcs : ∀ y ∈ cs, y.2.length < 536870500) {fs : List (List F)}
    (hfs : (frames (cs.map Prod.snd).flatten).mapM (row o) = .ok fs) :
    ∃ rows h', utterance o a t M cs h = .ok (rows, h') ∧ rows.length = fs.length ∧
      (∀ t : Nat, t < fs.length → rows[t]? = some (List.zipWith (fun u v => a.add u (a.mul a.negOne v))
        (series a vm am.layers (edge fs) t) am.logPrior)) ∧
      (∀ b : Addr, b.block < h.length → peek h' b = peek h b) ∧ ∀ k, Live h' k ↔ Live h k := by
  obtain ⟨x, S, hx, hg, hlast⟩ := setup_of hvm hb hprior hl hr hch hc hsize hbig o.zero fs (rows_forty htab hfs)
  obtain ⟨h', e1, E⟩ := utterance_ok S hw hM htab hf ht cs hcs hfs hg hlast
  refine ⟨_, h', e1, seg_length _ _ _, ?_, fun b hb => E.kept b hb id, fun k => ?_⟩
  · intro t ht
    have hn : fs ≠ [] := by rintro rfl; cases ht
    rw [seg_get _ _ ht, Int.zero_add, hx hn]
    rfl
  · rw [E.live]
    exact ⟨fun g => g.elim And.left (fun g => absurd g id), fun g => .inl ⟨g, id⟩⟩

/-- **C111, on the way.**  After any number of calls for some pieces,

* the rows so far are final: whatever features `more` follow, they are the first rows of the whole utterance;
* fewer than `R + c` frames are still without scores;
* the memory in use besides what was before is the wave buffer, one block of fewer than 400 samples or none, and the
  buffer of frames, fewer than `L + R + c` vectors in blocks of their own: a bound that does not depend on how much has
  been said.  No block from before has changed. -/
theorem C111_on_the_way {o : Fbank.Ops F} {a : Nnet.Ops F} {vm : List F → List (List F) → List F} (hvm : RowWise a vm)
    {h : Heap F} {t : TabM} (htab : Tables o) (hf : ScratchOnly o) (ht : FbankMem.Spec.Loaded h t o)
    {am : Am.Model F} {M : ModelM} (hM : AmMem.Spec.Loaded h M am) {e L R w c : Nat} (hb : Built am.layers 40 e L R w)
    (hprior : am.logPrior.length = e) (hl : am.left = L) (hr : am.right = R) (hch : am.chunk = c) (hc : 1 ≤ c)
    (hsize : (c + L + R + R) * w ≤ 2147483647) (hbig : c + L + R + R ≤ 1073741823) (hw : w ≤ 536870911)
    (cs : List ((Nat → F) × List F)) (hcs : ∀ y ∈ cs, y.2.length < 536870500) {fs : List (List F)}
    (hfs : (frames (cs.map Prod.snd).flatten).mapM (row o) = .ok fs) :
    ∃ rows u Q q h' rest, hearAll o a t M ⟨.empty, .new⟩ cs h = .ok (rows, u, h') ∧ rows.length ≤ fs.length ∧
      fs.length < rows.length + R + c ∧
      (∀ more : List (List F), (∀ f ∈ more, f.length = 40) → ∀ t : Nat, t < rows.length →
        rows[t]? = some (List.zipWith (fun u v => a.add u (a.mul a.negOne v))
          (series a vm am.layers (edge (fs ++ more)) t) am.logPrior)) ∧
      Has h' u.buf rest Q ∧ rest.length < 400 ∧
      u.am.feats = q.map vecOf ∧ Held h' q ∧ q.length < L + R + c ∧
      (∀ b : Addr, b.block < h.length → peek h' b = peek h b) ∧
      (∀ k, Live h' k ↔ Live h k ∨ Q k ∨ Owns q k) ∧ ∀ k, Q k ∨ Owns q k → h.length ≤ k := by
  have hn : ∀ b, ¬ (False ∨ Owns ([] : List (Nat × List F)) b) := fun b g => g.elim id (owns_nil b)
  have h40 := rows_forty htab hfs
  have go : ∀ more : List (List F), (∀ f ∈ more, f.length = 40) → ∃ x u Q q h' p,
      (fs ++ more ≠ [] → x = edge (fs ++ more)) ∧
      hearAll o a t M ⟨.empty, .new⟩ cs h = .ok (seg (score a vm am x) 0 p, u, h') ∧
      Has h' u.buf ((cs.map Prod.snd).flatten.drop (160 * Fbank.Spec.numFrames (cs.map Prod.snd).flatten.length)) Q ∧
      State h' u.am q L R c x fs.length p ∧
      Effect h h' (fun b => False ∨ Owns ([] : List (Nat × List F)) b) (fun b => Q b ∨ Owns q b) := by
    intro more hmore
    obtain ⟨x, S, hx, hg, -⟩ := setup_of hvm hb hprior hl hr hch hc hsize hbig o.zero (fs ++ more) (by
      intro f hf
      rcases List.mem_append.mp hf with g | g
      · exact h40 f g
      · exact hmore f g)
    have st : State h InstM.new ([] : List (Nat × List F)) L R c x 0 0 :=
      ⟨rfl, ⟨by simp, by simp, by simp⟩, .inl ⟨rfl, rfl, rfl⟩, (Am.due_zero _ _).symm⟩
    obtain ⟨u1, h1, Q1, q1, p1, e1, l1, hb1, st1, d1, E1⟩ := hearAll_ok S hw hM htab hf cs (u := ⟨.empty, .new⟩) (z := [])
      (.empty (h := h)) st (fun b g => absurd g id) ht ⟨fun b _ => hn _, fun b _ d _ => hn _⟩ (fun b d hd => ⟨hd, hn _⟩)
      rfl hcs hfs (fun i f hi => hg i f (by
        rw [List.getElem?_append_left (List.getElem?_eq_some_iff.mp hi).1]; exact hi))
    rw [Nat.zero_add] at st1
    rw [List.nil_append] at hb1
    exact ⟨x, u1, Q1, q1, h1, p1, hx, e1, hb1, st1, E1⟩
  obtain ⟨x, u, Q, q, h', p, hx, e1, hb1, st, E⟩ := go [] (by simp)
  have hinv : p ≤ fs.length ∧ fs.length < p + R + c ∧ q.length < L + R + c := by
    rcases st.inv with ⟨g1, g2, g3⟩ | ⟨_, g1, g2, _, g3⟩
    · have := congrArg (fun i : Am.Inst F => i.feats.length) g3
      simp only [List.length_map] at this
      have hz : (Am.Inst.new : Am.Inst F).feats.length = 0 := rfl
      omega
    · have := congrArg List.length g3
      simp only [List.length_map, seg_length] at this
      omega
  refine ⟨_, u, Q, q, h', _, e1, by rw [seg_length]; exact hinv.1, by rw [seg_length]; exact hinv.2.1, ?_, hb1, ?_,
    st.feats, st.held, hinv.2.2, fun b hb => E.kept b hb (hn _), fun k => ?_, fun k hk => ?_⟩
  · intro more hmore t ht
    obtain ⟨x', _, _, _, _, p', hx', e2, _, _, _⟩ := go more hmore
    rw [e1] at e2
    have hs := (Prod.mk.inj (Except.ok.inj e2)).1
    have hne : fs ++ more ≠ [] := by
      rw [seg_length] at ht
      intro g
      have := congrArg List.length g
      rw [List.length_append, List.length_nil] at this
      omega
    rw [hs] at ht ⊢
    rw [seg_length] at ht
    rw [seg_get _ _ ht, Int.zero_add, hx' hne]
    rfl
  · rw [List.length_drop]
    exact Fbank.leftover_bound _
  · rw [E.live]
    exact ⟨fun g => g.elim (fun g => .inl g.1) .inr, fun g => g.elim (fun g => .inl ⟨g, hn _⟩) .inr⟩
  · exact (E.fresh k hk).elim (fun g => absurd g (hn _)) id

/-! ## A case -/

/-- A network that puts three frames together and scales them. -/
def wide : List (Nnet.Layer Int) := [.splice [-1, 0, 1], .narrow 1 1, .batchNorm (List.replicate 120 2) (List.replicate 120 1)]

/-- With it a model for batches of two. -/
def wideModel : Am.Model Int := ⟨wide, List.replicate 120 1, 1, 1, 2⟩

/-- The tables of the example of C110 with two more blocks: the scales, and the offsets, which are the priors as well. -/
def hearHeap : Heap Int := tabHeap ++ [some (List.replicate 120 (some 2)), some (List.replicate 120 (some 1))]

/-- `wideModel` in `hearHeap`. -/
def wideM : ModelM :=
  ⟨[.splice [-1, 0, 1], .narrow 1 1, .batchNorm ⟨some ⟨5, 0⟩, 120⟩ ⟨some ⟨6, 0⟩, 120⟩], ⟨some ⟨6, 0⟩, 120⟩, 1, 1, 2⟩

theorem wide_built : Built wide 40 120 1 1 120 := by
  refine Built.context (l := 1) (r := 1) (L := 0) (R := 0) (by decide) (by decide) (by decide) (by decide)
    (by decide) (.inr (by decide)) (.inr (by decide)) ?_
  refine Built.row (e := 120) (by decide) (by decide) (.batchNorm List.length_replicate List.length_replicate) ?_
  exact Built.nil (by decide) (by decide)

theorem wide_shows (b : Nat) (v : Int) (hb : hearHeap[b]? = some (some (List.replicate 120 (some v)))) :
    VShows hearHeap ⟨some ⟨b, 0⟩, 120⟩ (List.replicate 120 v) := by
  refine ⟨?_, ⟨b, 0⟩, rfl, line_cells_of hb (by rw [List.map_replicate])⟩
  show (120 : Int) = ((List.replicate 120 v).length : Nat)
  rw [List.length_replicate]
  rfl

theorem wide_loaded : AmMem.Spec.Loaded hearHeap wideM wideModel := by
  refine ⟨?_, wide_shows 6 1 rfl, rfl, rfl, rfl⟩
  exact .cons (.splice _) (.cons (.narrow _ _) (.cons (.batchNorm (wide_shows 5 2 rfl) (wide_shows 6 1 rfl)) .nil))

/-- The pieces of an utterance of 722 samples, one of them empty. -/
def hearPieces (wild : Nat → Int) : List ((Nat → Int) × List Int) :=
  [(wild, List.replicate 300 1), (wild, []), (wild, [5]), (wild, List.replicate 421 2)]

theorem hearPieces_short (wild : Nat → Int) : ∀ y ∈ hearPieces wild, y.2.length < 536870500 := by
  intro y hy
  simp only [hearPieces, List.mem_cons, List.not_mem_nil, or_false] at hy
  rcases hy with rfl | rfl | rfl | rfl
  · rw [List.length_replicate]; decide
  · show 0 < 536870500; decide
  · show 1 < 536870500; decide
  · rw [List.length_replicate]; decide

theorem hearPieces_frames (wild : Nat → Int) : (frames ((hearPieces wild).map Prod.snd).flatten).length = 3 := by
  rw [(Fbank.C27_frames _).1]
  simp only [hearPieces, List.map_cons, List.map_nil, List.flatten_cons, List.flatten_nil, List.length_append,
    List.length_replicate, List.length_nil, List.length_cons]
  rfl

/-- The hypotheses of `C111_utterance` are met: three rows of scores, and nothing is left. -/
example (wild : Nat → Int) : ∃ rows h', utterance Fbank.toyOps Nnet.toyOps toyTab wideM (hearPieces wild) hearHeap =
    .ok (rows, h') ∧ rows.length = 3 ∧ ∀ k, Live h' k ↔ Live hearHeap k := by
  obtain ⟨fs, hfs, hl⟩ := toy_rows ((hearPieces wild).map Prod.snd).flatten
  obtain ⟨rows, h', e, l, _, _, v⟩ := C111_utterance Nnet.toyOps_rowWise Fbank.toyOps_tables Fbank.toyOps_scratch
    (toyTab_loaded (h := hearHeap) rfl rfl) wide_loaded wide_built List.length_replicate rfl rfl (c := 2) rfl (by decide)
    (by decide) (by decide) (by decide) (hearPieces wild) (hearPieces_short wild) hfs
  exact ⟨rows, h', e, by rw [l, hl, hearPieces_frames], v⟩

/-- Those of `C111_on_the_way` as well: at least one row of the three is there, the buffers are small. -/
example (wild : Nat → Int) : ∃ rows u h', hearAll Fbank.toyOps Nnet.toyOps toyTab wideM ⟨.empty, .new⟩ (hearPieces wild)
    hearHeap = .ok (rows, u, h') ∧ 1 ≤ rows.length ∧ u.am.feats.length < 4 := by
  obtain ⟨fs, hfs, hl⟩ := toy_rows ((hearPieces wild).map Prod.snd).flatten
  obtain ⟨rows, u, Q, q, h', rest, e, _, l, _, _, _, hq, _, hlen, _⟩ := C111_on_the_way Nnet.toyOps_rowWise
    Fbank.toyOps_tables Fbank.toyOps_scratch (toyTab_loaded (h := hearHeap) rfl rfl) wide_loaded wide_built
    List.length_replicate rfl rfl (c := 2) rfl (by decide) (by decide) (by decide) (by decide) (hearPieces wild)
    (hearPieces_short wild) hfs
  have h3 := hearPieces_frames wild
  exact ⟨rows, u, h', e, by omega, by rw [hq, List.length_map]; omega⟩

end Verif.Hear
