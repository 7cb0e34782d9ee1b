import Verif.FbankSpec

/-!
# Lemmas about feature extraction
-/

namespace Verif.Fbank

open Spec

variable {F : Type}

/-! ## Arrays read with a default -/

theorem aget_at (o : Ops F) {x : List F} {i : Nat} (h : i < x.length) :
    aget x (i : Int) = .ok (at_ o x i) := by
  apply aget_nat
  unfold at_
  rw [List.getD_eq_getElem?_getD, List.getElem?_eq_getElem h]
  rfl

theorem at_set (o : Ops F) (x : List F) (i : Nat) (v : F) (k : Nat) :
    at_ o (x.set i v) k = if i = k ∧ k < x.length then v else at_ o x k := by
  unfold at_
  rw [List.getD_eq_getElem?_getD, List.getD_eq_getElem?_getD, List.getElem?_set]
  by_cases h : i = k
  · subst h
    by_cases h1 : i < x.length
    · simp [h1]
    · simp [h1]
  · simp [h]

theorem ext_at (o : Ops F) {x y : List F} (hl : x.length = y.length)
    (h : ∀ i, i < x.length → at_ o x i = at_ o y i) : x = y := by
  apply List.ext_getElem hl
  intro i h1 h2
  have := h i h1
  unfold at_ at this
  rw [List.getD_eq_getElem?_getD, List.getD_eq_getElem?_getD, List.getElem?_eq_getElem h1,
    List.getElem?_eq_getElem h2] at this
  exact this

theorem at_map_range (o : Ops F) (f : Nat → F) {n i : Nat} (h : i < n) :
    at_ o ((List.range n).map f) i = f i := by
  unfold at_
  rw [List.getD_eq_getElem?_getD, List.getElem?_map, List.getElem?_range h]
  rfl

theorem at_eq (o : Ops F) {x : List F} {i : Nat} (h : i < x.length) : at_ o x i = x[i] := by
  unfold at_
  rw [List.getD_eq_getElem?_getD, List.getElem?_eq_getElem h]
  rfl

theorem at_map (o : Ops F) (f : F → F) {x : List F} {i : Nat} (h : i < x.length) :
    at_ o (x.map f) i = f (at_ o x i) := by
  rw [at_eq o (by simpa using h), at_eq o h, List.getElem_map]

theorem at_zipWith (o : Ops F) (f : F → F → F) {x y : List F} {i : Nat} (h1 : i < x.length)
    (h2 : i < y.length) : at_ o (List.zipWith f x y) i = f (at_ o x i) (at_ o y i) := by
  rw [at_eq o (by rw [List.length_zipWith]; omega), at_eq o h1, at_eq o h2, List.getElem_zipWith]

theorem at_drop_take (o : Ops F) {x : List F} {a n i : Nat} (h : i < n) :
    at_ o ((x.drop a).take n) i = at_ o x (a + i) := by
  unfold at_
  rw [List.getD_eq_getElem?_getD, List.getD_eq_getElem?_getD, List.getElem?_take_of_lt h,
    List.getElem?_drop]

/-! ## One frame -/

theorem preemphLoop_ok (o : Ops F) : ∀ (i : Nat) (x : List F), i < x.length →
    ∃ x', preemphLoop o i x = .ok x' ∧ x'.length = x.length ∧
      ∀ k, k < x.length → at_ o x' k =
        if k ≤ i then o.preemph (at_ o x k) (at_ o x (k - 1)) else at_ o x k
  | 0, x, h => by
    refine ⟨x.set 0 (o.preemph (at_ o x 0) (at_ o x 0)), ?_, List.length_set, ?_⟩
    · unfold preemphLoop
      rw [decide_eq_true h, cassert_true, ok_bind, show (0 : Int) = ((0 : Nat) : Int) from rfl,
        aget_at o h, ok_bind, aset_nat h]
    · intro k hk
      rw [at_set]
      by_cases hk0 : k = 0
      · subst hk0; simp [h]
      · rw [if_neg (by omega), if_neg (by omega)]
  | i + 1, x, h => by
    have hl : (x.set (i + 1) (o.preemph (at_ o x (i + 1)) (at_ o x i))).length = x.length := List.length_set
    obtain ⟨x', h1, h2, h3⟩ := preemphLoop_ok o i (x.set (i + 1) (o.preemph (at_ o x (i + 1)) (at_ o x i)))
      (by rw [hl]; omega)
    refine ⟨x', ?_, by rw [h2, hl], ?_⟩
    · unfold preemphLoop
      rw [aget_at o h, ok_bind, aget_at o (by omega), ok_bind, aset_nat h, ok_bind]
      exact h1
    · intro k hk
      rw [h3 k (by rw [hl]; exact hk), at_set, at_set]
      by_cases hki : k ≤ i
      · rw [if_pos hki, if_neg (by omega), if_neg (by omega), if_pos (by omega)]
      · rw [if_neg hki]
        by_cases hk1 : k = i + 1
        · subst hk1; rw [if_pos ⟨rfl, hk⟩, if_pos (by omega)]; rfl
        · rw [if_neg (by omega), if_neg (by omega)]

theorem processWindow_ok (o : Ops F) {x : List F} (h0 : 0 < x.length) (hw : o.window.length = x.length) :
    processWindow o x = .ok (windowed o x) := by
  have hpos : x.length - 1 < (x.map fun v => o.sub v (o.div (x.foldl o.add o.zero) (o.ofInt x.length))).length := by
    rw [List.length_map]; omega
  obtain ⟨x', h1, h2, h3⟩ := preemphLoop_ok o _ _ hpos
  rw [List.length_map] at h2
  unfold processWindow
  simp only [List.length_map]
  rw [h1, ok_bind, decide_eq_true (by omega), cassert_true, ok_bind]
  congr 1
  apply ext_at o
  · unfold windowed; rw [List.length_zipWith, List.length_map, List.length_range]; omega
  · intro i hi
    rw [List.length_zipWith] at hi
    have hix : i < x.length := by omega
    unfold windowed
    rw [at_zipWith o _ (by omega) (by omega), at_map_range o _ hix, h3 i (by simpa using hix),
      if_pos (by omega), at_map o _ hix, at_map o _ (by omega)]

theorem windowed_length (o : Ops F) (x : List F) : (windowed o x).length = x.length := by
  unfold windowed; rw [List.length_map, List.length_range]

theorem powerLoop_ok (o : Ops F) : ∀ (n i : Nat) (w : List F), 1 ≤ i → 2 * (i + n) ≤ w.length →
    ∃ w', powerLoop o n i w = .ok w' ∧ w'.length = w.length ∧
      ∀ k, k < w.length → at_ o w' k =
        if i ≤ k ∧ k < i + n then
          o.add (o.mul (at_ o w (2 * k)) (at_ o w (2 * k))) (o.mul (at_ o w (2 * k + 1)) (at_ o w (2 * k + 1)))
        else at_ o w k
  | 0, i, w, _, _ => by
    refine ⟨w, rfl, rfl, ?_⟩
    intro k _
    rw [if_neg (by omega)]
  | n + 1, i, w, hi, h => by
    let w1 := w.set i (o.add (o.mul (at_ o w (i * 2)) (at_ o w (i * 2)))
        (o.mul (at_ o w (i * 2 + 1)) (at_ o w (i * 2 + 1))))
    have hl : w1.length = w.length := List.length_set
    obtain ⟨w', h1, h2, h3⟩ := powerLoop_ok o n (i + 1) w1 (by omega) (by rw [hl]; omega)
    refine ⟨w', ?_, by rw [h2, hl], ?_⟩
    · unfold powerLoop
      rw [aget_at o (by omega), ok_bind, aget_at o (by omega), ok_bind, aset_nat (by omega), ok_bind]
      exact h1
    · intro k hk
      have hset : ∀ j, at_ o w1 j = if i = j ∧ j < w.length then
          o.add (o.mul (at_ o w (i * 2)) (at_ o w (i * 2))) (o.mul (at_ o w (i * 2 + 1)) (at_ o w (i * 2 + 1)))
          else at_ o w j := fun j => at_set o w i _ j
      rw [h3 k (by rw [hl]; exact hk), hset, hset, hset]
      by_cases hki : i = k
      · subst hki
        rw [if_neg (by omega), if_pos ⟨rfl, hk⟩, if_pos (by omega), Nat.mul_comm i 2]
      · by_cases hr : i + 1 ≤ k ∧ k < i + 1 + n
        · rw [if_pos hr, if_neg (by omega), if_neg (by omega), if_pos (by omega)]
        · rw [if_neg hr, if_neg (by omega), if_neg (by omega)]

/-- The in-place power spectrum. -/
theorem powerSpectrum_ok (o : Ops F) {w : List F} (he : w.length % 2 = 0) (h2 : 2 ≤ w.length) :
    ∃ w', powerSpectrum o w = .ok w' ∧ w'.length = w.length ∧
      ∀ k, k ≤ w.length / 2 → at_ o w' k = power o w k := by
  obtain ⟨w1, h1, hl1, h3⟩ := powerLoop_ok o (w.length / 2 - 1) 1 w (by omega) (by omega)
  let w2 := w1.set 0 (o.mul (at_ o w 0) (at_ o w 0))
  have hl2 : w2.length = w.length := by rw [← hl1]; exact List.length_set
  refine ⟨w2.set (w.length / 2) (o.mul (at_ o w 1) (at_ o w 1)), ?_, by rw [List.length_set, hl2], ?_⟩
  · unfold powerSpectrum
    rw [decide_eq_true (by omega), cassert_true, ok_bind, show (0 : Int) = ((0 : Nat) : Int) from rfl,
      show (1 : Int) = ((1 : Nat) : Int) from rfl, aget_at o (by omega), ok_bind, aget_at o (by omega), ok_bind,
      h1, ok_bind, aset_nat (by omega), ok_bind, aset_nat (by rw [List.length_set]; omega)]
  · intro k hk
    rw [at_set, hl2]
    unfold power
    by_cases hk2 : w.length / 2 = k
    · subst hk2
      rw [if_pos ⟨rfl, by omega⟩, if_neg (by omega), if_pos rfl]
    · have h4 : at_ o w2 k = if 0 = k ∧ k < w1.length then o.mul (at_ o w 0) (at_ o w 0) else at_ o w1 k :=
        at_set o w1 0 _ k
      rw [if_neg (by omega), h4]
      by_cases hk0 : k = 0
      · subst hk0
        rw [if_pos ⟨rfl, by omega⟩, if_pos rfl]
      · rw [if_neg (by omega), if_neg hk0, if_neg (fun h => hk2 h.symm), h3 k (by omega), if_pos (by omega)]

theorem zipWith_range (o : Ops F) (f : F → F → F) (x y : List F) (h : x.length ≤ y.length) :
    List.zipWith f x y = (List.range x.length).map fun j => f (at_ o x j) (at_ o y j) := by
  apply ext_at o
  · rw [List.length_zipWith, List.length_map, List.length_range]; omega
  · intro i hi
    rw [List.length_zipWith] at hi
    rw [at_zipWith o _ (by omega) (by omega), at_map_range o _ (by omega)]

theorem melBin_ok (o : Ops F) {w s : List F} (hs : s.length = 512) (hl : w.length = 512)
    (h : ∀ k, k ≤ 256 → at_ o w k = power o s k) {b : Nat × List F} (hb : b.1 + b.2.length ≤ 257) :
    melBin o w b = .ok (energy o s b) := by
  unfold melBin
  rw [decide_eq_true (by omega), cassert_true, ok_bind]
  congr 1
  unfold dot energy
  rw [zipWith_range o _ _ _ (by rw [List.length_take, List.length_drop]; omega)]
  congr 1
  apply List.map_congr_left
  intro j hj
  have hj : j < b.2.length := by simpa using hj
  rw [at_drop_take o hj, h _ (by omega)]

theorem mapM_ok {α β : Type} (f : α → Exec β) (g : α → β) : ∀ (l : List α), (∀ x ∈ l, f x = .ok (g x)) →
    l.mapM f = .ok (l.map g)
  | [], _ => rfl
  | x :: l, h => by
    rw [List.mapM_cons, h x (by simp), ok_bind, mapM_ok f g l (fun y hy => h y (by simp [hy])), ok_bind]
    rfl

theorem mapM_floorLog (o : Ops F) (s : List F) : ∀ (bs : List (Nat × List F)),
    (bs.map (energy o s)).mapM (floorLog o) =
      if bs.all (fun b => o.nonneg (if o.lt (energy o s b) o.eps then o.eps else energy o s b)) then
        .ok (bs.map (feature o s))
      else .error .assert
  | [] => rfl
  | b :: bs => by
    rw [List.map_cons, List.mapM_cons, mapM_floorLog o s bs, List.all_cons]
    by_cases hn : o.nonneg (if o.lt (energy o s b) o.eps then o.eps else energy o s b) = true
    · have h1 : floorLog o (energy o s b) = .ok (feature o s b) := by
        unfold floorLog
        simp only
        rw [hn, cassert_true, ok_bind]
        rfl
      rw [h1, ok_bind, hn, Bool.true_and]
      split
      · rfl
      · rfl
    · have hn' := Bool.eq_false_iff.mpr hn
      have h1 : floorLog o (energy o s b) = .error .assert := by
        unfold floorLog
        simp only
        rw [hn', cassert_false]
        rfl
      rw [h1, hn', Bool.false_and, error_bind]
      rfl

theorem computeFrame_row (o : Ops F) (ht : Tables o) (hf : ScratchOnly o) (x b : List F)
    (hx : x.length = 400) (hb : b.length = 512) :
    (∀ r w' b', computeFrame o (windowed o x ++ List.replicate 112 o.zero) b = .ok (r, w', b') →
      row o x = .ok r ∧ w'.length = 512 ∧ b'.length = 512 ∧ r.length = 40) ∧
    (∀ e, computeFrame o (windowed o x ++ List.replicate 112 o.zero) b = .error e → row o x = .error e) := by
  obtain ⟨_, hn, hbins⟩ := ht
  have hw : (windowed o x ++ List.replicate 112 o.zero).length = 512 := by
    rw [List.length_append, windowed_length, List.length_replicate, hx]
  have hi := hf.indep _ b (List.replicate 512 o.zero) hw hb List.length_replicate
  have hs : spectrum o x = (o.fft (windowed o x ++ List.replicate 112 o.zero) b).map Prod.fst := hi.symm
  unfold computeFrame row
  rw [hs]
  cases hc : o.fft (windowed o x ++ List.replicate 112 o.zero) b with
  | error e =>
    refine ⟨fun r w' b' h => (by cases h), fun e' h => ?_⟩
    rw [error_bind] at h
    cases h
    rfl
  | ok p =>
    obtain ⟨s, b1⟩ := p
    obtain ⟨hl1, hl2⟩ := hf.size _ _ _ _ hw hb hc
    obtain ⟨w1, hp1, hp2, hp3⟩ := powerSpectrum_ok o (w := s) (by omega) (by omega)
    have hm : melCompute o w1 = .ok (o.bins.map (energy o s)) := by
      unfold melCompute
      exact mapM_ok _ _ _ (fun bin hbin => melBin_ok o hl1 (by omega)
        (fun k hk => hp3 k (by omega)) (hbins bin hbin))
    rw [ok_bind]
    simp only
    rw [hp1, ok_bind, hm, ok_bind, mapM_floorLog]
    have hrow : ((Except.ok (s, b1) : Exec (List F × List F)).map Prod.fst >>= fun s =>
        if loggable o s then (.ok (o.bins.map (feature o s)) : Exec (List F)) else .error .assert) =
        if loggable o s then .ok (o.bins.map (feature o s)) else .error .assert := rfl
    rw [hrow]
    unfold loggable
    split
    · refine ⟨fun r w' b' h => ?_, fun e h => by cases h⟩
      rw [ok_bind] at h
      cases h
      exact ⟨rfl, by omega, hl2, by rw [List.length_map, hn]⟩
    · refine ⟨fun r w' b' h => (by cases h), fun e h => ?_⟩
      rw [error_bind] at h
      cases h
      rfl

theorem extractWindow_ok (o : Ops F) (ht : Tables o) {wave window : List F} {i : Nat}
    (hl : window.length = 512) (hi : 160 * i + 400 ≤ wave.length) (hbig : wave.length < 536870912) :
    extractWindow o wave i window =
      .ok (windowed o (frame wave i) ++ List.replicate 112 o.zero) := by
  have hfl : (frame wave i).length = 400 := by
    unfold frame; rw [List.length_take, List.length_drop]; omega
  unfold extractWindow frameShift frameLength
  rw [show ((i : Int) * ((160 : Nat) : Int)) = ((160 * i : Nat) : Int) by omega,
    i32_of (by unfold InI32; omega), ok_bind, i32_of (by unfold InI32; omega), ok_bind,
    decide_eq_true (by omega), cassert_true, ok_bind, decide_eq_true (by omega), cassert_true, ok_bind,
    Int.toNat_natCast]
  have := processWindow_ok o (x := frame wave i) (by omega) (by rw [hfl]; exact ht.1)
  unfold frame at this
  rw [this, ok_bind, hl]
  rfl

theorem frameLoop_ok (o : Ops F) (ht : Tables o) (hf : ScratchOnly o) (wave : List F)
    (hbig : wave.length < 536870912) :
    ∀ (n i : Nat) (window buffer : List F), window.length = 512 → buffer.length = 512 →
      (n = 0 ∨ 160 * (i + n - 1) + 400 ≤ wave.length) →
      frameLoop o wave n i window buffer =
        ((List.range n).map fun j => frame wave (i + j)).mapM (row o)
  | 0, i, window, buffer, _, _, _ => rfl
  | n + 1, i, window, buffer, hw, hb, hn => by
    have hfl : (frame wave i).length = 400 := by
      unfold frame; rw [List.length_take, List.length_drop]; omega
    obtain ⟨h1, h2⟩ := computeFrame_row o ht hf (frame wave i) buffer hfl hb
    unfold frameLoop
    rw [extractWindow_ok o ht hw (by omega) hbig, ok_bind, List.range_succ_eq_map, List.map_cons,
      List.map_map, List.mapM_cons, show frame wave (i + 0) = frame wave i from rfl]
    cases hc : computeFrame o (windowed o (frame wave i) ++ List.replicate 112 o.zero) buffer with
    | error e => rw [h2 e hc]; rfl
    | ok p =>
      obtain ⟨r, w', b'⟩ := p
      obtain ⟨hr, hw', hb', hr4⟩ := h1 r w' b' hc
      rw [ok_bind, hr, ok_bind]
      simp only
      rw [decide_eq_true hr4, cassert_true, ok_bind,
        frameLoop_ok o ht hf wave hbig n (i + 1) w' b' hw' hb' (by omega)]
      have he : (List.range n).map (fun j => frame wave (i + 1 + j)) =
          (List.range n).map ((fun j => frame wave (i + j)) ∘ Nat.succ) := by
        apply List.map_congr_left
        intro j _
        simp only [Function.comp_apply]
        congr 1
        omega
      rw [he]
      rfl

/-! ## Streams -/

theorem calcNumFrames_eq (n : Nat) : calcNumFrames (n : Int) = (numFrames n : Nat) := by
  unfold calcNumFrames numFrames frameLength frameShift
  by_cases h : n < 400
  · rw [if_pos (by omega), if_pos h]; rfl
  · rw [if_neg (by omega), if_neg h, Int.tdiv_eq_ediv_of_nonneg (by omega)]
    omega

theorem frames_split (x y : List F) :
    frames (x ++ y) = frames x ++ frames (x.drop (160 * numFrames x.length) ++ y) ∧
    (x ++ y).drop (160 * numFrames (x ++ y).length) =
      (x.drop (160 * numFrames x.length) ++ y).drop
        (160 * numFrames (x.drop (160 * numFrames x.length) ++ y).length) := by
  have hle : 160 * numFrames x.length ≤ x.length := by unfold numFrames; split <;> omega
  have hn : numFrames (x ++ y).length =
      numFrames x.length + numFrames (x.drop (160 * numFrames x.length) ++ y).length := by
    rw [List.length_append, List.length_append, List.length_drop]
    unfold numFrames
    split <;> split <;> split <;> omega
  constructor
  · unfold frames
    rw [hn, List.range_add, List.map_append, List.map_map]
    congr 1
    · apply List.map_congr_left
      intro i hi
      have hi : i < numFrames x.length := by simpa using hi
      have hx : 160 * i + 400 ≤ x.length := by
        unfold numFrames at hi; split at hi <;> omega
      unfold frame
      rw [List.drop_append_of_le_length (by omega), List.take_append_of_le_length (by
        rw [List.length_drop]; omega)]
    · apply List.map_congr_left
      intro i _
      simp only [Function.comp_apply]
      unfold frame
      rw [Nat.mul_add, ← List.drop_drop, List.drop_append_of_le_length hle]
  · rw [hn, Nat.mul_add, ← List.drop_drop, List.drop_append_of_le_length hle]

theorem process_ok (o : Ops F) (ht : Tables o) (hf : ScratchOnly o) (j : Junk F) (buf wave : List F)
    (h0 : wave ≠ []) (hbig : buf.length + wave.length < 536870912) :
    process o j buf wave = (do
      let rows ← (frames (buf ++ wave)).mapM (row o)
      .ok (rows, (buf ++ wave).drop (160 * numFrames (buf ++ wave).length))) := by
  have hpos : 0 < wave.length := List.length_pos_iff.mpr h0
  have hlen : (buf ++ wave).length = buf.length + wave.length := List.length_append
  unfold process
  rw [if_neg (by omega), i32_of (by unfold InI32; omega), ok_bind, vecInit_ok (by omega) (by omega), ok_bind]
  simp only [calcNumFrames_eq]
  by_cases hz : numFrames (buf ++ wave).length = 0
  · rw [hz, if_pos (show (((0 : Nat) : Int)) = 0 from rfl)]
    unfold frames
    rw [hz]
    simp
  · have hle : 160 * numFrames (buf ++ wave).length + 240 ≤ (buf ++ wave).length := by
      unfold numFrames at hz ⊢; split at hz <;> split <;> omega
    rw [if_neg (by omega), matInit_ok (by omega) (by unfold fbankDim; omega) (by unfold fbankDim; omega), ok_bind,
      Int.toNat_natCast, frameLoop_ok o ht hf _ (by omega) _ _ _ _ j.hw j.hb (by omega)]
    have he : ((List.range (numFrames (buf ++ wave).length)).map fun k => frame (buf ++ wave) (0 + k)) =
        frames (buf ++ wave) := by
      unfold frames
      apply List.map_congr_left
      intro k _
      rw [Nat.zero_add]
    rw [he]
    congr 1
    funext rows
    rw [show ((frameShift : Nat) : Int) * (numFrames (buf ++ wave).length : Nat) =
        ((160 * numFrames (buf ++ wave).length : Nat) : Int) by unfold frameShift; omega,
      i32_of (by unfold InI32; omega), ok_bind, vecInit_ok (by omega) (by omega), ok_bind,
      Int.toNat_natCast, List.take_of_length_le (by rw [List.length_drop]; omega)]

theorem mapM_append_exec {α β : Type} (f : α → Exec β) (l m : List α) :
    (l ++ m).mapM f = (do let x ← l.mapM f; let y ← m.mapM f; .ok (x ++ y)) := by
  rw [List.mapM_append]; rfl

theorem leftover_bound (n : Nat) : n - 160 * numFrames n < 400 := by
  unfold numFrames; split <;> omega

theorem feed_ok (o : Ops F) (ht : Tables o) (hf : ScratchOnly o) :
    ∀ (cs : List (Junk F × List F)) (buf : List F), numFrames buf.length = 0 →
      (∀ c ∈ cs, c.2 ≠ [] ∧ c.2.length < 536870500) →
      feed o buf cs = (do
        let rows ← (frames (buf ++ (cs.map Prod.snd).flatten)).mapM (row o)
        .ok (rows, (buf ++ (cs.map Prod.snd).flatten).drop
          (160 * numFrames (buf ++ (cs.map Prod.snd).flatten).length)))
  | [], buf, hz, _ => by
    unfold feed
    simp only [List.map_nil, List.flatten_nil, List.append_nil]
    unfold frames
    rw [hz]
    rfl
  | (j, c) :: cs, buf, hz, hcs => by
    obtain ⟨h0, h1⟩ := hcs (j, c) (by simp)
    have hbl : buf.length < 400 := by have := leftover_bound buf.length; omega
    unfold feed
    rw [process_ok o ht hf j buf c h0 (by simp only at h1; omega)]
    obtain ⟨e1, e2⟩ := frames_split (buf ++ c) (cs.map Prod.snd).flatten
    rw [List.map_cons, List.flatten_cons, ← List.append_assoc, e1, mapM_append_exec, e2]
    have hz' : numFrames ((buf ++ c).drop (160 * numFrames (buf ++ c).length)).length = 0 := by
      rw [List.length_drop]
      have := leftover_bound (buf ++ c).length
      unfold numFrames at this ⊢
      rw [if_pos this]
    cases (frames (buf ++ c)).mapM (row o) with
    | error e => rfl
    | ok rows =>
      rw [ok_bind, ok_bind, ok_bind]
      simp only
      rw [feed_ok o ht hf cs _ hz' (fun d hd => hcs d (by simp [hd]))]
      cases (frames ((buf ++ c).drop (160 * numFrames (buf ++ c).length) ++ (cs.map Prod.snd).flatten)).mapM
          (row o) with
      | error e => rfl
      | ok rows' => rfl

end Verif.Fbank
