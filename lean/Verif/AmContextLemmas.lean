import Verif.AmLemmas

/-!
# Facts about contexts in the configuration that are not those of the network
-/

namespace Verif.Am

open Nnet (Ops Layer Shows)
open Nnet.Spec

variable {F : Type} {o : Ops F} {vm : List F → List (List F) → List F} {am : Model F} {d e L R l r c w : Nat}
  {x : Int → List F}

/-- A batch that is longer than the context of the network: it is scored at the times the network gives if the contexts
have the same sum, and stopped by the assertion otherwise. -/
theorem runBatch_any (hvm : RowWise o vm) (hB : Built am.layers d e L R w) (hprior : am.logPrior.length = e)
    (hl : am.left = l) (hr : am.right = r) (hx : ∀ t, (x t).length = d) {inst : Inst F} {a : Int} {N b : Nat}
    (out : List (List F)) (hf : inst.feats = seg x a N) (hb1 : 1 ≤ b) (hN : b + l + r ≤ N)
    (hs : (b + l + r) * w ≤ 2147483647) (hbig : b + l + r ≤ 1073741823) (hlr : L + R < b + l + r) :
    runBatch o am inst b out = if l + r = L + R then
      .ok (seg (fun t => scored o am.logPrior (series o vm am.layers x (t + L - l))) (a + l) b) else .error .assert := by
  have hd : 1 ≤ d ∧ d ≤ w := Nnet.Built.in_size hB
  have hszd : (b + l + r) * d ≤ 2147483647 := Nat.le_trans (Nat.mul_le_mul_left _ hd.2) hs
  have hsh : Shows (seg x a (b + l + r)) x a d := by
    refine ⟨?_, ?_, ?_⟩
    · intro h
      have := congrArg List.length h
      rw [seg_length] at this
      simp only [List.length_nil] at this
      omega
    · intro v hv
      obtain ⟨i, _, rfl⟩ := List.mem_map.mp hv
      exact hx _
    · intro i hi
      rw [seg_length] at hi
      exact seg_get x a hi
  obtain ⟨y, h1, h2, h3⟩ := Nnet.propagate_ok hvm hB (out := out) (by rw [seg_length]; exact hs)
    (by rw [seg_length]; omega) hsh (by rw [seg_length]; omega)
  rw [seg_length] at h2
  unfold runBatch
  rw [if_neg (by omega), hl, hr, i32_of (by unfold InI32; omega), ok_bind, i32_of (by unfold InI32; omega), ok_bind,
    show ((b : Int) + l + r) = ((b + l + r : Nat) : Int) by omega, toSize_nat (by omega), hf, seg_length,
    decide_eq_true (by omega), cassert_true, ok_bind, show (0 : Int) = ((0 : Nat) : Int) from rfl,
    aget_nat (seg_get x a (by omega)), ok_bind, hx, matInit_ok (by omega) (by omega) (by
      have : ((b + l + r : Nat) : Int) * (d : Int) = (((b + l + r) * d : Nat) : Int) := (Int.natCast_mul ..).symm
      omega), ok_bind, Int.toNat_natCast, fillBatch_ok hx hN, ok_bind, h1, ok_bind]
  by_cases hsum : l + r = L + R
  · rw [if_pos hsum, decide_eq_true (by omega), cassert_true, ok_bind]
    rw [Nnet.mapM_ok _ (scored o am.logPrior)]
    · congr 1
      apply seg_ext
      · rw [List.length_map]; omega
      · intro i hi
        rw [List.getElem?_map, h3.2.2 i (by omega)]
        show some _ = some (scored o am.logPrior (series o vm am.layers x (a + l + i + L - l)))
        rw [show a + (l : Int) + i + L - l = a + L + i by omega]
    · intro v hv
      unfold Nnet.subVec
      rw [h3.2.1 v hv, decide_eq_true hprior.symm]
      rfl
  · rw [if_neg hsum, decide_eq_false (by omega)]
    rfl

/-- Contexts with the right sum: the scores are those of other frames. -/
theorem shifted_batches (hvm : RowWise o vm) (hB : Built am.layers d e L R w) (hprior : am.logPrior.length = e)
    (hl : am.left = l) (hr : am.right = r) (hch : am.chunk = c) (hc : 1 ≤ c) (hs : (c + l + r + r) * w ≤ 2147483647)
    (hbig : c + l + r + r ≤ 1073741823) (hsum : l + r = L + R) (hx : ∀ t, (x t).length = d)
    (he : ∀ t : Int, t < 0 → x t = x 0) :
    Batches o am l r c x (fun t => scored o am.logPrior (series o vm am.layers x (t + L - l))) :=
  ⟨hl, hr, hch, hc, hbig, he, fun {_ _ _ b} out hf hb1 hN hsz => by
    have hle : b + l + r ≤ c + l + r + r := by omega
    rw [runBatch_any hvm hB hprior hl hr hx out hf hb1 hN (Nat.le_trans (Nat.mul_le_mul_right w hle) hs) (by omega)
      (by omega), if_pos hsum]⟩

/-- Contexts with a wrong sum: a batch that is longer than the context of the network is stopped. -/
structure Wrong (o : Ops F) (am : Model F) (l r c n : Nat) (x : Int → List F) : Prop where
  hleft : am.left = l
  hright : am.right = r
  hchunk : am.chunk = c
  hc : 1 ≤ c
  hbig : c + l + r + r ≤ 1073741823
  hedge : ∀ t : Int, t < 0 → x t = x 0
  batch : ∀ {inst : Inst F} {a : Int} {N b : Nat} (out : List (List F)), inst.feats = seg x a N → b = c ∨ b = n →
    1 ≤ b → b + l + r ≤ N → b ≤ c + r → runBatch o am inst b out = .error .assert

theorem wrong_batches {n : Nat} (hvm : RowWise o vm) (hB : Built am.layers d e L R w) (hprior : am.logPrior.length = e)
    (hl : am.left = l) (hr : am.right = r) (hch : am.chunk = c) (hc : 1 ≤ c) (hs : (c + l + r + r) * w ≤ 2147483647)
    (hbig : c + l + r + r ≤ 1073741823) (hsum : l + r ≠ L + R) (hlc : L + R < c + l + r) (hln : L + R < n + l + r)
    (hx : ∀ t, (x t).length = d) (he : ∀ t : Int, t < 0 → x t = x 0) : Wrong o am l r c n x :=
  ⟨hl, hr, hch, hc, hbig, he, fun {_ _ _ b} out hf hbn hb1 hN hsz => by
    have hle : b + l + r ≤ c + l + r + r := by omega
    rw [runBatch_any hvm hB hprior hl hr hx out hf hb1 hN (Nat.le_trans (Nat.mul_le_mul_right w hle) hs) (by omega)
      (by omega), if_neg hsum]⟩

section
variable {n : Nat}

theorem Wrong.process (S : Wrong o am l r c n x) {k : Nat} {inst : Inst F} (h : Inv l r c x k 0 inst) :
    (r + c ≤ k + 1 → ∀ out, process o am inst (x k) out = .error .assert) ∧
    (k + 1 < r + c → ∃ inst', (∀ out, process o am inst (x k) out = .ok ([], inst')) ∧ Inv l r c x (k + 1) 0 inst') := by
  obtain ⟨h1, h2⟩ := enter_seg S.hleft S.hedge h
  have hpk : k < r + c := by
    have := S.hc
    rcases h with ⟨h1, h2, _⟩ | ⟨_, h2, h3, _⟩
    · omega
    · omega
  have hbig := S.hbig
  have hav : batchAvailable am (enter am inst (x k)) = .ok (decide (r + c ≤ k + 1)) := by
    unfold batchAvailable
    rw [S.hleft, S.hright, S.hchunk, i32_of (by unfold InI32; omega), ok_bind, i32_of (by unfold InI32; omega), ok_bind,
      h2, seg_length]
    congr 1
    apply decide_eq_decide.mpr
    omega
  constructor
  · intro ha out
    have hc := S.hc
    unfold Am.process
    simp only
    rw [hav, ok_bind, decide_eq_true ha, if_pos rfl]
    have : computeBatch o am (enter am inst (x k)) am.chunk out = .error .assert := by
      unfold computeBatch
      rw [S.hchunk, if_neg (by omega), S.batch out h2 (.inl rfl) hc (by omega) (by omega)]
    rw [this]
    rfl
  · intro ha
    refine ⟨enter am inst (x k), fun out => ?_, .inr ⟨by omega, by omega, by omega, h1, h2⟩⟩
    unfold Am.process
    simp only
    rw [hav, ok_bind, decide_eq_false (by omega), if_neg (by decide)]

theorem Wrong.feed (S : Wrong o am l r c n x) :
    ∀ (fs : List (List (List F) × List F)) {k : Nat} {inst : Inst F}, Inv l r c x k 0 inst → k < r + c →
      (∀ i : Nat, i < fs.length → (fs[i]?).map Prod.snd = some (x ((k + i : Nat) : Int))) →
      (r + c ≤ k + fs.length → feed o am inst fs = .error .assert) ∧
      (k + fs.length < r + c → ∃ inst', feed o am inst fs = .ok ([], inst') ∧ Inv l r c x (k + fs.length) 0 inst')
  | [], k, inst, h, hk, _ => by
    refine ⟨fun hh => ?_, fun _ => ⟨inst, rfl, h⟩⟩
    rw [List.length_nil] at hh
    omega
  | (out, f) :: fs, k, inst, h, hk, hx => by
    have hf : f = x k := by
      have := hx 0 (by simp)
      simpa using this
    subst hf
    obtain ⟨g1, g2⟩ := S.process h
    unfold Am.feed
    by_cases ha : r + c ≤ k + 1
    · rw [g1 ha out]
      refine ⟨fun _ => rfl, fun hh => ?_⟩
      rw [List.length_cons] at hh
      omega
    · obtain ⟨inst', h1, h2⟩ := g2 (by omega)
      rw [h1 out, ok_bind]
      simp only
      obtain ⟨k1, k2⟩ := S.feed fs h2 (by omega) (by
        intro i hi
        have := hx (i + 1) (by simpa using hi)
        rw [List.getElem?_cons_succ] at this
        rw [this]
        congr 2
        omega)
      rw [List.length_cons]
      constructor
      · intro hh
        rw [k1 (by omega)]
        rfl
      · intro hh
        obtain ⟨inst2, i1, i2⟩ := k2 (by omega)
        refine ⟨inst2, by rw [i1]; rfl, ?_⟩
        rw [show k + (fs.length + 1) = k + 1 + fs.length by omega]
        exact i2

theorem Wrong.utterance (S : Wrong o am l r c n x) {fs : List (List (List F) × List F)} (hn : fs ≠ [])
    (hx : Frames fs d x) (hlen : fs.length = n) : utterance o am fs = .error .assert := by
  have hpos : 0 < fs.length := List.length_pos_iff.mpr hn
  obtain ⟨h1, h2⟩ := S.feed fs (k := 0) (inst := Inst.new) (.inl ⟨rfl, rfl, rfl⟩) (by have := S.hc; omega)
    (fun i hi => by rw [Nat.zero_add]; exact hx.get i hi)
  unfold Am.utterance
  by_cases ha : r + c ≤ fs.length
  · rw [h1 (by omega)]
    rfl
  · obtain ⟨inst, i1, i2⟩ := h2 (by omega)
    rw [i1, ok_bind]
    simp only
    rw [Nat.zero_add] at i2
    rcases i2 with ⟨h1, _, _⟩ | ⟨_, h2, h3, h4, h5⟩
    · omega
    have hbig := S.hbig
    have hgl : inst.feats.getLast? = some (x ((fs.length : Int) - 1)) := by
      rw [List.getLast?_eq_getElem?, h5, seg_length, seg_get _ _ (by omega)]
      congr 2
      omega
    unfold endOfStream
    rw [hgl]
    simp only
    rw [appendTimes_feats, S.hleft, S.hright, Int.toNat_natCast, i32_of (by unfold InI32; omega), ok_bind]
    have hfe : inst.feats ++ List.replicate r (x ((fs.length : Int) - 1)) =
        seg x (((0 : Nat) : Int) - l) (l + fs.length + r) := by
      rw [h5, ← seg_append]
      congr 1
      apply seg_ext (by rw [List.length_replicate])
      intro i hi
      rw [List.getElem?_replicate_of_lt hi]
      congr 1
      exact (hx.last _ (by omega)).symm
    simp only [hfe, seg_length]
    rw [show (l : Int) + (r : Int) = ((l + r : Nat) : Int) by omega, toSize_nat (by omega), if_neg (by omega)]
    have hcb : ∀ out, computeBatch o am { inst with feats := seg x (((0 : Nat) : Int) - l) (l + fs.length + r) } (-1) out =
        .error .assert := by
      intro out
      unfold computeBatch
      rw [if_pos rfl]
      simp only [seg_length]
      rw [S.hleft, S.hright, show ((l + fs.length + r : Nat) : Int) - l - r = ((fs.length : Nat) : Int) by omega,
        wrap32_of ⟨by omega, by omega⟩, decide_eq_true (by omega), cassert_true, ok_bind,
        S.batch out rfl (.inr hlen) (by omega) (by omega) (by omega)]
    rw [hcb]
    rfl

end

end Verif.Am
