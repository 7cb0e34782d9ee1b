import Verif.OverflowSpec
import Verif.NanLemmas
import Verif.SttProps

/-!
# What becomes of an utterance one frame of which leaves no hope
-/

namespace Verif.Stt

open Verif Verif.Nnet.Spec Verif.Decoder

variable {F D : Type} {sl cl : F → Bool} {dl : D → Bool}

/-- The rows of an utterance, seen by the decoder. -/
theorem decodeRows_run {r : Rec F D} : ∀ {rows fs : List (List F)} {bs : List Bool} {cs : List (Option (Cutoffs F D))}
    {d d' : Dec F}, Run r.dec fs bs cs d → decodeRows r rows d = .ok d' → ∃ bs cs, Run r.dec (fs ++ rows) bs cs d'
  | [], fs, bs, cs, d, d', h, hd => by
    cases hd
    rw [List.append_nil]
    exact ⟨bs, cs, h⟩
  | row :: rows, fs, bs, cs, d, d', h, hd => by
    unfold decodeRows at hd
    rw [List.foldlM_cons] at hd
    obtain ⟨d1, h1, h2⟩ := bind_ok hd
    obtain ⟨⟨b, c, d2⟩, h3, h4⟩ := bind_ok h1
    cases h4
    obtain ⟨bs, cs, h5⟩ := decodeRows_run (.frame h h3) h2
    rw [List.append_assoc] at h5
    exact ⟨bs, cs, h5⟩

theorem decodeRows_cons {r : Rec F D} {row : List F} {rows : List (List F)} {d d' : Dec F}
    (h : decodeRows r (row :: rows) d = .ok d') : ∃ b c d1, process r.dec r.fuel row d = .ok (b, c, d1) ∧
      decodeRows r rows d1 = .ok d' := by
  unfold decodeRows at h
  rw [List.foldlM_cons] at h
  obtain ⟨d1, h1, h2⟩ := bind_ok h
  obtain ⟨⟨b, c, d2⟩, h3, h4⟩ := bind_ok h1
  cases h4
  exact ⟨b, c, _, h3, h2⟩

/-- A row of scores without hope: at most one more row can follow, and there is no answer. -/
theorem lost_rows {r : Rec F D} (hl : LostLaws r.dec sl cl dl) {rows : List (List F)} {t : Nat} {row : List F}
    (hrow : rows[t]? = some row) (hlost : ∀ x ∈ row, sl x = true) {d0 d : Dec F}
    (h0 : initDecoder r.dec r.fuel fresh = .ok d0) (h : decodeRows r rows d0 = .ok d) :
    rows.length ≤ t + 2 ∧ ∀ eos res, bestPath r.dec { d with eos := eos } = .ok res → res = ([], r.dec.ar.zero) := by
  obtain ⟨ht, hget⟩ := List.getElem?_eq_some_iff.mp hrow
  have hsplit : rows = rows.take t ++ row :: rows.drop (t + 1) := by
    rw [← hget, List.getElem_cons_drop, List.take_append_drop]
  have hlen : rows.length = t + 1 + (rows.drop (t + 1)).length := by rw [List.length_drop]; omega
  rw [hsplit, decodeRows_append] at h
  obtain ⟨d1, h1, h2⟩ := bind_ok h
  obtain ⟨bs, cs, h3⟩ := decodeRows_run (.init h0) h1
  obtain ⟨b, c, d2, h4, h5⟩ := decodeRows_cons h2
  obtain ⟨_, h6, h7⟩ := process_lost hl hlost h3.inv.prev h4
  cases hr : rows.drop (t + 1) with
  | nil =>
    rw [hr] at h5 hlen
    cases h5
    exact ⟨by rw [hlen]; simp, fun eos res he => bestPath_lost hl (d := { d with eos := eos }) h6 he⟩
  | cons x l =>
    rw [hr] at h5 hlen
    obtain ⟨b', c', d3, h8, h9⟩ := decodeRows_cons h5
    obtain ⟨_, _, h10⟩ := process_after_lost hl h6 h7 h8
    cases l with
    | nil =>
      cases h9
      exact ⟨by rw [hlen]; simp, fun eos res he => bestPath_lost hl (d := { d with eos := eos })
        (fun t ht => by rw [show ({ d with eos := eos } : Dec F).toks = [] from h10] at ht; cases ht) he⟩
    | cons y l =>
      obtain ⟨_, _, _, h11, _⟩ := decodeRows_cons h9
      rw [process_nil h10] at h11
      cases h11

theorem series_append {o : Nnet.Ops F} {vm : List F → List (List F) → List F} : ∀ (ls ms : List (Nnet.Layer F))
    (x : Int → List F), series o vm (ls ++ ms) x = series o vm ms (series o vm ls x)
  | [], _, _ => rfl
  | l :: ls, ms, x => series_append ls ms (layerOn o vm x l)

variable {o : Nnet.Ops F} {num pos big lost : F → Prop} {pinf : F}

/-- A sum that has become infinite stays so. -/
theorem exp_sum_inf (L : OverflowLaws o num pos big lost pinf) : ∀ {x : List F}, (∀ v ∈ x, num v) →
    (x.map o.exp).foldl o.add pinf = pinf
  | [], _ => rfl
  | v :: x, h => by
    rw [List.map_cons, List.foldl_cons]
    have hv : o.add pinf (o.exp v) = pinf := by
      rcases L.exp (h v (by simp)) with h | h
      · exact L.add_infl h
      · rw [h]; exact L.add_inf
    rw [hv]
    exact exp_sum_inf L fun w hw => h w (by simp [hw])

theorem exp_sum_big (L : OverflowLaws o num pos big lost pinf) : ∀ {x : List F} {acc : F}, pos acc → (∀ v ∈ x, num v) →
    (∃ v ∈ x, big v) → (x.map o.exp).foldl o.add acc = pinf
  | [], _, _, _, ⟨_, h, _⟩ => by cases h
  | v :: x, acc, ha, h, hb => by
    rw [List.map_cons, List.foldl_cons]
    have hx : ∀ w ∈ x, num w := fun w hw => h w (by simp [hw])
    have hinf : o.exp v = pinf → (x.map o.exp).foldl o.add (o.add acc (o.exp v)) = pinf := fun hp => by
      rw [hp, L.add_infr ha]; exact exp_sum_inf L hx
    obtain ⟨w, hw, hbw⟩ := hb
    rcases List.mem_cons.mp hw with rfl | hw
    · exact hinf (L.exp_big hbw)
    · rcases L.exp (h v (by simp)) with hp | hp
      · rcases L.add ha hp with hs | hs
        · exact exp_sum_big L hs hx ⟨w, hw, hbw⟩
        · rw [hs]; exact exp_sum_inf L hx
      · exact hinf hp

/-- A last log-softmax layer whose input has an entry that is too large: the whole row of scores is lost. -/
theorem scoreRow_lost (L : OverflowLaws o num pos big lost pinf) {vm : List F → List (List F) → List F}
    {ls : List (Nnet.Layer F)} {prior : List F} {feats : List (List F)} {t : Nat}
    (hnum : ∀ v ∈ series o vm ls (edge feats) t, num v) (hbig : ∃ v ∈ series o vm ls (edge feats) t, big v) :
    ∀ v ∈ scoreRow o vm (ls ++ [.logSoftmax]) prior feats t, lost v := by
  intro v hv
  unfold scoreRow at hv
  rw [series_append] at hv
  have hs := exp_sum_big L L.zero hnum hbig
  have e : series o vm [.logSoftmax] (series o vm ls (edge feats)) t =
      (series o vm ls (edge feats) t).map fun v => o.sub v pinf := by
    show (series o vm ls (edge feats) t).map (fun v => o.sub v (o.log (((series o vm ls (edge feats) t).map o.exp).foldl o.add
      o.zero))) = _
    rw [hs, L.log_inf]
  rw [e] at hv
  obtain ⟨i, hi, rfl⟩ := List.mem_iff_getElem.mp hv
  rw [List.getElem_zipWith, List.getElem_map]
  exact L.lost_add _ (L.sub_inf (hnum _ (List.getElem_mem _)))

end Verif.Stt
