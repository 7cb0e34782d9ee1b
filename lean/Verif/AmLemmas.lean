import Verif.AmModel
import Verif.NnetLemmas

/-!
# Facts about the batching of frames
-/

namespace Verif.Am

open Nnet (Ops Layer Shows)
open Nnet.Spec

variable {F : Type}

/-- `n` values of a sequence from `a` on. -/
def seg {α : Type} (x : Int → α) (a : Int) (n : Nat) : List α := (List.range n).map fun i : Nat => x (a + i)

theorem seg_length {α : Type} (x : Int → α) (a : Int) (n : Nat) : (seg x a n).length = n := by
  unfold seg; rw [List.length_map, List.length_range]

theorem seg_get {α : Type} (x : Int → α) (a : Int) {n i : Nat} (h : i < n) : (seg x a n)[i]? = some (x (a + i)) := by
  unfold seg; rw [List.getElem?_map, List.getElem?_range h]; rfl

theorem seg_ext {α : Type} {l : List α} {x : Int → α} {a : Int} {n : Nat} (hl : l.length = n)
    (h : ∀ i : Nat, i < n → l[i]? = some (x (a + i))) : l = seg x a n := by
  apply List.ext_getElem?
  intro i
  by_cases hi : i < n
  · rw [h i hi, seg_get x a hi]
  · rw [List.getElem?_eq_none (by omega), List.getElem?_eq_none (by rw [seg_length]; omega)]

theorem seg_append {α : Type} (x : Int → α) (a : Int) (m n : Nat) :
    seg x a m ++ seg x (a + m) n = seg x a (m + n) := by
  unfold seg
  rw [List.range_add, List.map_append, List.map_map]
  congr 1
  apply List.map_congr_left
  intro i _
  simp only [Function.comp_apply]
  congr 1
  omega

theorem seg_snoc {α : Type} (x : Int → α) (a : Int) (m : Nat) (v : α) (h : x (a + m) = v) :
    seg x a m ++ [v] = seg x a (m + 1) := by
  rw [← seg_append, ← h]
  congr 1
  show [x (a + m)] = [x (a + m + ((0 : Nat) : Int))]
  congr 2
  omega

theorem seg_drop {α : Type} (x : Int → α) (a : Int) (m n : Nat) (h : m ≤ n) :
    (seg x a n).drop m = seg x (a + m) (n - m) := by
  have e : n = m + (n - m) := by omega
  rw [e, ← seg_append, List.drop_append_of_le_length (by rw [seg_length]; omega), List.drop_of_length_le
    (by rw [seg_length]; omega), List.nil_append]
  congr 1
  omega

theorem seg_take {α : Type} (x : Int → α) (a : Int) (m n : Nat) (h : m ≤ n) :
    (seg x a n).take m = seg x a m := by
  have e : n = m + (n - m) := by omega
  rw [e, ← seg_append, List.take_append_of_le_length (by rw [seg_length]; omega), List.take_of_length_le
    (by rw [seg_length]; omega)]

theorem appendTimes_feats (f : List F) : ∀ (n : Nat) (inst : Inst F),
    appendTimes inst f n = { inst with feats := inst.feats ++ List.replicate n f }
  | 0, inst => by unfold appendTimes; simp
  | n + 1, inst => by
    unfold appendTimes appendFrame
    rw [appendTimes_feats f n]
    simp [List.replicate_succ]

theorem popFront_ok : ∀ (n : Nat) (fs : List (List F)), n ≤ fs.length → popFront n fs = .ok (fs.drop n)
  | 0, fs, _ => by unfold popFront; rfl
  | n + 1, [], h => by simp at h
  | n + 1, f :: fs, h => by
    unfold popFront
    rw [popFront_ok n fs (by simpa using h)]
    rfl

theorem fillBatch_ok {x : Int → List F} {a : Int} {N n d : Nat} (hx : ∀ t, (x t).length = d) (h : n ≤ N) :
    fillBatch (seg x a N) d n = .ok (seg x a n) := by
  unfold fillBatch
  rw [Nnet.mapM_ok _ (fun i : Nat => x (a + i))]
  · rfl
  · intro i hi
    have hi : i < n := by simpa using hi
    rw [aget_nat (seg_get x a (by omega)), ok_bind, decide_eq_true (hx _), cassert_true]
    rfl

theorem toSize_nat {n : Nat} (h : n < 18446744073709551616) : toSize (n : Int) = n := by
  unfold toSize
  omega

/-- The score of one frame: the network, minus the prior. -/
def scored (o : Ops F) (prior v : List F) : List F := List.zipWith (fun a b => o.add a (o.mul o.negOne b)) v prior

/-- What is fixed throughout an utterance. -/
structure Setup (o : Ops F) (vm : List F → List (List F) → List F) (am : Model F) (d e L R c w : Nat)
    (x : Int → List F) : Prop where
  hvm : RowWise o vm
  hb : Built am.layers d e L R w
  hprior : am.logPrior.length = e
  hleft : am.left = L
  hright : am.right = R
  hchunk : am.chunk = c
  hc : 1 ≤ c
  hsize : (c + L + R + R) * w ≤ 2147483647
  hbig : c + L + R + R ≤ 1073741823
  hx : ∀ t, (x t).length = d
  hedge : ∀ t : Int, t < 0 → x t = x 0

section
variable {o : Ops F} {vm : List F → List (List F) → List F} {am : Model F} {d e L R c w : Nat} {x : Int → List F}

theorem runBatch_ok (S : Setup o vm am d e L R c w x) {inst : Inst F} {a : Int} {N b : Nat} (out : List (List F))
    (hf : inst.feats = seg x a N) (hb1 : 1 ≤ b) (hN : b + L + R ≤ N) (hsz : b ≤ c + R) :
    runBatch o am inst b out =
      .ok (seg (fun t => scored o am.logPrior (series o vm am.layers x t)) (a + L) b) := by
  obtain ⟨hvm, hB, hprior, hl, hr, hch, hc, hs, hbig, hx, _⟩ := S
  have hd : 1 ≤ d ∧ d ≤ w := Nnet.Built.in_size hB
  have hle : b + L + R ≤ c + L + R + R := by omega
  have hsz' : (b + L + R) * w ≤ 2147483647 := Nat.le_trans (Nat.mul_le_mul_right w hle) hs
  have hszd : (b + L + R) * d ≤ 2147483647 := Nat.le_trans (Nat.mul_le_mul_left _ hd.2) hsz'
  have hsh : Shows (seg x a (b + L + R)) x a d := by
    refine ⟨?_, ?_, ?_⟩
    · intro h
      have := congrArg List.length h
      rw [seg_length] at this
      simp only [List.length_nil] at this
      omega
    · intro v hv
      obtain ⟨i, _, rfl⟩ := List.mem_map.mp hv
      exact hx _
    · intro i hi
      rw [seg_length] at hi
      exact seg_get x a hi
  obtain ⟨y, h1, h2, h3⟩ := Nnet.propagate_ok hvm hB (out := out) (by rw [seg_length]; exact hsz')
    (by rw [seg_length]; omega) hsh (by rw [seg_length]; omega)
  rw [seg_length] at h2
  unfold runBatch
  rw [if_neg (by omega), hl, hr, i32_of (by unfold InI32; omega), ok_bind, i32_of (by unfold InI32; omega), ok_bind,
    show ((b : Int) + L + R) = ((b + L + R : Nat) : Int) by omega, toSize_nat (by omega), hf, seg_length,
    decide_eq_true (by omega), cassert_true, ok_bind, show (0 : Int) = ((0 : Nat) : Int) from rfl,
    aget_nat (seg_get x a (by omega)), ok_bind, hx, matInit_ok (by omega) (by omega) (by
      have : ((b + L + R : Nat) : Int) * (d : Int) = (((b + L + R) * d : Nat) : Int) := (Int.natCast_mul ..).symm
      omega), ok_bind, Int.toNat_natCast, fillBatch_ok hx hN, ok_bind, h1, ok_bind, decide_eq_true (by omega),
    cassert_true, ok_bind]
  rw [Nnet.mapM_ok _ (scored o am.logPrior)]
  · congr 1
    apply seg_ext
    · rw [List.length_map]; omega
    · intro i hi
      rw [List.getElem?_map, h3.2.2 i (by omega)]
      rfl
  · intro v hv
    unfold Nnet.subVec
    rw [h3.2.1 v hv, decide_eq_true hprior.symm]
    rfl

/-- What is known of a model whose batches are right: a batch of the frames from `a` on gives the scores from `a + l`
on. -/
structure Batches (o : Ops F) (am : Model F) (L R c : Nat) (x score : Int → List F) : Prop where
  hleft : am.left = L
  hright : am.right = R
  hchunk : am.chunk = c
  hc : 1 ≤ c
  hbig : c + L + R + R ≤ 1073741823
  hedge : ∀ t : Int, t < 0 → x t = x 0
  batch : ∀ {inst : Inst F} {a : Int} {N b : Nat} (out : List (List F)), inst.feats = seg x a N → 1 ≤ b →
    b + L + R ≤ N → b ≤ c + R → runBatch o am inst b out = .ok (seg score (a + L) b)

theorem Setup.batches (S : Setup o vm am d e L R c w x) :
    Batches o am L R c x (fun t => scored o am.logPrior (series o vm am.layers x t)) :=
  ⟨S.hleft, S.hright, S.hchunk, S.hc, S.hbig, S.hedge, fun out => runBatch_ok S out⟩

/-- The state after `k` frames of which `p` are scored. -/
def Inv (L R c : Nat) (x : Int → List F) (k p : Nat) (inst : Inst F) : Prop :=
  (k = 0 ∧ p = 0 ∧ inst = Inst.new) ∨
  (0 < k ∧ p ≤ k ∧ k < p + R + c ∧ inst.started = true ∧ inst.feats = seg x ((p : Int) - L) (L + k - p))

variable {score : Int → List F}

theorem enter_seg (hl : am.left = L) (he : ∀ t : Int, t < 0 → x t = x 0) {k p : Nat} {inst : Inst F} (h : Inv L R c x k p inst) :
    (enter am inst (x k)).started = true ∧
      (enter am inst (x k)).feats = seg x ((p : Int) - L) (L + (k + 1) - p) := by
  rcases h with ⟨h1, h2, h3⟩ | ⟨h1, h2, h3, h4, h5⟩
  · subst h1 h2 h3
    have hs : Inst.new.started (F := F) = false := rfl
    unfold enter
    rw [hs, appendTimes_feats, hl, Int.toNat_natCast]
    refine ⟨rfl, ?_⟩
    show (([] : List (List F)) ++ List.replicate L (x (0 : Nat))) ++ [x (0 : Nat)] = _
    rw [List.nil_append]
    have : List.replicate L (x ((0 : Nat) : Int)) = seg x (((0 : Nat) : Int) - L) L := by
      apply seg_ext (by rw [List.length_replicate])
      intro i hi
      rw [List.getElem?_replicate_of_lt hi]
      congr 1
      exact (he _ (by omega)).symm
    rw [this]
    rw [show L + (0 + 1) - 0 = L + 1 by omega]
    apply seg_snoc
    congr 1
    omega
  · unfold enter
    rw [h4]
    refine ⟨h4, ?_⟩
    show inst.feats ++ [x k] = _
    rw [h5, show L + (k + 1) - p = (L + k - p) + 1 by omega]
    apply seg_snoc
    congr 1
    omega

theorem Batches.enter_ok (S : Batches o am L R c x score) {k p : Nat} {inst : Inst F} (h : Inv L R c x k p inst) :
    (enter am inst (x k)).started = true ∧
      (enter am inst (x k)).feats = seg x ((p : Int) - L) (L + (k + 1) - p) :=
  enter_seg S.hleft S.hedge h

/-- How many of `k` frames are scored before the end of the stream. -/
def due (R c k : Nat) : Nat := (k - R) / c * c

theorem due_zero (R c : Nat) : due R c 0 = 0 := by
  unfold due
  rw [Nat.zero_sub, Nat.zero_div, Nat.zero_mul]

theorem due_step {R c k : Nat} (hc : 1 ≤ c) :
    due R c (k + 1) = if R + c ≤ k + 1 - due R c k then due R c k + c else due R c k := by
  unfold due
  by_cases hk : k + 1 ≤ R
  · rw [show k + 1 - R = 0 by omega, show k - R = 0 by omega, Nat.zero_div, Nat.zero_mul, if_neg (by omega)]
  · obtain ⟨n, rfl⟩ : ∃ n, k = R + n := ⟨k - R, by omega⟩
    rw [show R + n + 1 - R = n + 1 by omega, show R + n - R = n by omega]
    have h1 := Nat.div_add_mod n c
    have h2 := Nat.mod_lt n (show 0 < c by omega)
    rw [Nat.mul_comm] at h1
    by_cases ha : R + c ≤ R + n + 1 - n / c * c
    · rw [if_pos ha, ← Nat.succ_mul]
      congr 1
      refine Nat.div_eq_of_lt_le ?_ ?_
      · rw [Nat.succ_mul]; omega
      · rw [Nat.succ_mul, Nat.succ_mul]; omega
    · rw [if_neg ha]
      congr 1
      refine Nat.div_eq_of_lt_le ?_ ?_
      · omega
      · rw [Nat.succ_mul]; omega

theorem Batches.process_exact (S : Batches o am L R c x score) {k p : Nat} {inst : Inst F} (h : Inv L R c x k p inst) :
    ∃ p' inst', (∀ out, process o am inst (x k) out =
        .ok (seg score p (p' - p), inst')) ∧
      p ≤ p' ∧ Inv L R c x (k + 1) p' inst' ∧ p' = if R + c ≤ k + 1 - p then p + c else p := by
  obtain ⟨h1, h2⟩ := Batches.enter_ok S h
  have hpk : p ≤ k ∧ k < p + R + c := by
    have := S.hc
    rcases h with ⟨h1, h2, _⟩ | ⟨_, h2, h3, _⟩
    · omega
    · omega
  have hbig := S.hbig
  have hav : batchAvailable am (enter am inst (x k)) = .ok (decide (R + c ≤ k + 1 - p)) := by
    unfold batchAvailable
    rw [S.hleft, S.hright, S.hchunk, i32_of (by unfold InI32; omega), ok_bind, i32_of (by unfold InI32; omega), ok_bind,
      h2, seg_length]
    congr 1
    apply decide_eq_decide.mpr
    omega
  have hun : ∀ out, process o am inst (x k) out = (do
      let inst := enter am inst (x k)
      if decide (R + c ≤ k + 1 - p) then do
        let rows ← computeBatch o am inst am.chunk out
        let feats ← popFront am.chunk.toNat inst.feats
        .ok (rows, { inst with feats := feats })
      else .ok ([], inst)) := by
    intro out
    unfold process
    simp only
    rw [hav, ok_bind]
  simp only [hun]
  by_cases ha : R + c ≤ k + 1 - p
  · rw [decide_eq_true ha]
    have hc := S.hc
    have hcb : ∀ out, computeBatch o am (enter am inst (x k)) am.chunk out =
        .ok (seg score p c) := by
      intro out
      unfold computeBatch
      rw [S.hchunk, if_neg (by omega), S.batch out h2 hc (by omega) (by omega)]
      congr 2
      omega
    have hpf := popFront_ok c (enter am inst (x k)).feats (by rw [h2, seg_length]; omega)
    refine ⟨p + c, { enter am inst (x k) with feats := (enter am inst (x k)).feats.drop c }, ?_, by omega,
      .inr ⟨by omega, by omega, by omega, h1, ?_⟩, by rw [if_pos ha]⟩
    · intro out
      rw [if_pos rfl, hcb, ok_bind, S.hchunk, Int.toNat_natCast, hpf, ok_bind, show p + c - p = c by omega]
    · show (enter am inst (x k)).feats.drop c = _
      rw [h2, seg_drop _ _ _ _ (by omega)]
      congr 1
      · omega
      · omega
  · rw [decide_eq_false ha]
    refine ⟨p, enter am inst (x k), fun out => ?_, Nat.le_refl _, .inr ⟨by omega, by omega, by omega, h1, h2⟩,
      by rw [if_neg ha]⟩
    rw [if_neg (by decide), show p - p = 0 by omega]
    rfl

theorem Batches.process_any (S : Batches o am L R c x score) {k p : Nat} {inst : Inst F} (h : Inv L R c x k p inst) :
    ∃ p' inst', (∀ out, process o am inst (x k) out =
        .ok (seg score p (p' - p), inst')) ∧
      p ≤ p' ∧ Inv L R c x (k + 1) p' inst' := by
  obtain ⟨p', inst', h1, h2, h3, _⟩ := Batches.process_exact S h
  exact ⟨p', inst', h1, h2, h3⟩

theorem Batches.process_ok (S : Batches o am L R c x score) {k p : Nat} {inst : Inst F} (h : Inv L R c x k p inst)
    (out : List (List F)) :
    ∃ p' inst', process o am inst (x k) out =
        .ok (seg score p (p' - p), inst') ∧
      p ≤ p' ∧ Inv L R c x (k + 1) p' inst' := by
  obtain ⟨p', inst', h1, h2, h3⟩ := Batches.process_any S h
  exact ⟨p', inst', h1 out, h2, h3⟩

theorem Batches.feed_ok (S : Batches o am L R c x score) :
    ∀ (fs : List (List (List F) × List F)) {k p : Nat} {inst : Inst F}, Inv L R c x k p inst →
      (∀ i : Nat, i < fs.length → (fs[i]?).map Prod.snd = some (x ((k + i : Nat) : Int))) →
      ∃ p' inst', feed o am inst fs =
        .ok (seg score p (p' - p), inst') ∧
        p ≤ p' ∧ Inv L R c x (k + fs.length) p' inst'
  | [], k, p, inst, h, _ => by
    refine ⟨p, inst, ?_, Nat.le_refl _, h⟩
    unfold feed
    rw [show p - p = 0 by omega]
    rfl
  | (out, f) :: fs, k, p, inst, h, hx => by
    have hf : f = x k := by
      have := hx 0 (by simp)
      simpa using this
    subst hf
    obtain ⟨p1, inst1, g1, g2, g3⟩ := Batches.process_ok S h out
    obtain ⟨p2, inst2, k1, k2, k3⟩ := Batches.feed_ok S fs g3 (by
      intro i hi
      have := hx (i + 1) (by simpa using hi)
      rw [List.getElem?_cons_succ] at this
      rw [this]
      congr 2
      omega)
    refine ⟨p2, inst2, ?_, by omega, ?_⟩
    · unfold feed
      rw [g1, ok_bind]
      simp only
      rw [k1, ok_bind]
      simp only
      have := seg_append score p (p1 - p) (p2 - p1)
      rw [show (p : Int) + ((p1 - p : Nat) : Int) = p1 by omega, show p1 - p + (p2 - p1) = p2 - p by omega] at this
      rw [this]
    · rw [List.length_cons, show k + (fs.length + 1) = k + 1 + fs.length by omega]
      exact k3

/-- The frames that are scored after so many frames. -/
theorem Batches.feed_due (S : Batches o am L R c x score) :
    ∀ (fs : List (List (List F) × List F)) {k : Nat} {inst : Inst F}, Inv L R c x k (due R c k) inst →
      (∀ i : Nat, i < fs.length → (fs[i]?).map Prod.snd = some (x ((k + i : Nat) : Int))) →
      ∃ inst', feed o am inst fs =
        .ok (seg score (due R c k) (due R c (k + fs.length) - due R c k), inst') ∧
        due R c k ≤ due R c (k + fs.length) ∧ Inv L R c x (k + fs.length) (due R c (k + fs.length)) inst'
  | [], k, inst, h, _ => by
    refine ⟨inst, ?_, Nat.le_refl _, h⟩
    unfold feed
    rw [show due R c (k + ([] : List (List (List F) × List F)).length) - due R c k = 0 by
      rw [List.length_nil, Nat.add_zero]; omega]
    rfl
  | (out, f) :: fs, k, inst, h, hx => by
    have hf : f = x k := by
      have := hx 0 (by simp)
      simpa using this
    subst hf
    obtain ⟨p1, inst1, g1, g2, g3, g4⟩ := Batches.process_exact S h
    rw [← due_step S.hc] at g4
    subst g4
    obtain ⟨inst2, k1, k2, k3⟩ := Batches.feed_due S fs g3 (by
      intro i hi
      have := hx (i + 1) (by simpa using hi)
      rw [List.getElem?_cons_succ] at this
      rw [this]
      congr 2
      omega)
    rw [List.length_cons, show k + (fs.length + 1) = k + 1 + fs.length by omega]
    refine ⟨inst2, ?_, by omega, k3⟩
    unfold feed
    rw [g1 out, ok_bind]
    simp only
    rw [k1, ok_bind]
    simp only
    have := seg_append score (due R c k) (due R c (k + 1) - due R c k) (due R c (k + 1 + fs.length) - due R c (k + 1))
    rw [show ((due R c k : Nat) : Int) + ((due R c (k + 1) - due R c k : Nat) : Int) = (due R c (k + 1) : Nat) by omega,
      show due R c (k + 1) - due R c k + (due R c (k + 1 + fs.length) - due R c (k + 1)) =
        due R c (k + 1 + fs.length) - due R c k by omega] at this
    rw [this]

theorem Batches.endOfStream_ok (S : Batches o am L R c x score) {k p : Nat} {inst : Inst F} (h : Inv L R c x k p inst)
    (hk : 0 < k) (hlast : ∀ t : Int, (k : Int) ≤ t → x t = x ((k : Int) - 1)) (out : List (List F)) :
    ∃ inst', endOfStream o am inst out =
      .ok (seg score p (k - p), inst') ∧ p ≤ k := by
  rcases h with ⟨h1, _, _⟩ | ⟨_, h2, h3, h4, h5⟩
  · omega
  have hbig := S.hbig
  unfold endOfStream
  by_cases hz : L + k - p = 0
  · rw [h5, hz]
    refine ⟨inst, ?_, h2⟩
    rw [show k - p = 0 by omega]
    rfl
  · have hgl : inst.feats.getLast? = some (x ((k : Int) - 1)) := by
      rw [List.getLast?_eq_getElem?, h5, seg_length, seg_get _ _ (by omega)]
      congr 2
      omega
    rw [hgl]
    simp only
    rw [appendTimes_feats, S.hleft, S.hright, Int.toNat_natCast, i32_of (by unfold InI32; omega), ok_bind]
    have hfe : inst.feats ++ List.replicate R (x ((k : Int) - 1)) = seg x ((p : Int) - L) (L + k - p + R) := by
      rw [h5, ← seg_append]
      congr 1
      apply seg_ext (by rw [List.length_replicate])
      intro i hi
      rw [List.getElem?_replicate_of_lt hi]
      congr 1
      exact (hlast _ (by omega)).symm
    simp only [hfe, seg_length]
    rw [show (L : Int) + (R : Int) = ((L + R : Nat) : Int) by omega, toSize_nat (by omega)]
    by_cases he : L + k - p + R ≤ L + R
    · rw [if_pos he]
      refine ⟨{ inst with feats := seg x ((p : Int) - L) (L + k - p + R) }, ?_, h2⟩
      rw [show k - p = 0 by omega]
      rfl
    · rw [if_neg he]
      have hcb : computeBatch o am { inst with feats := seg x ((p : Int) - L) (L + k - p + R) } (-1) out =
          .ok (seg score p (k - p)) := by
        unfold computeBatch
        rw [if_pos rfl]
        simp only [seg_length]
        rw [S.hleft, S.hright, show ((L + k - p + R : Nat) : Int) - L - R = ((k - p : Nat) : Int) by omega,
          wrap32_of ⟨by omega, by omega⟩, decide_eq_true (by omega), cassert_true, ok_bind,
          S.batch out rfl (by omega) (by omega) (by omega)]
        congr 2
        omega
      rw [hcb, ok_bind]
      exact ⟨_, rfl, h2⟩

end

/-- The frames of an utterance, continued at both ends. -/
structure Frames (fs : List (List (List F) × List F)) (d : Nat) (x : Int → List F) : Prop where
  get : ∀ i : Nat, i < fs.length → (fs[i]?).map Prod.snd = some (x i)
  last : ∀ t : Int, (fs.length : Int) ≤ t → x t = x ((fs.length : Int) - 1)
  first : ∀ t : Int, t < 0 → x t = x 0
  size : ∀ t, (x t).length = d

theorem edge_frames {d : Nat} (fs : List (List (List F) × List F)) (hn : fs ≠ []) (hd : ∀ f ∈ fs, f.2.length = d) :
    Frames fs d (edge (fs.map Prod.snd)) := by
  have hlen : 0 < fs.length := List.length_pos_iff.mpr hn
  let x := edge (fs.map Prod.snd)
  have hget : ∀ i : Nat, i < fs.length → (fs[i]?).map Prod.snd = some (x i) := by
    intro i hi
    show _ = some (edge (fs.map Prod.snd) i)
    unfold edge
    rw [if_neg (by omega), Int.toNat_natCast, List.getElem?_map, List.getElem?_eq_getElem hi]
    rfl
  have hlast : ∀ t : Int, (fs.length : Int) ≤ t → x t = (fs.map Prod.snd).getLastD [] := by
    intro t ht
    show edge (fs.map Prod.snd) t = _
    unfold edge
    rw [if_neg (by omega), List.getElem?_eq_none (by rw [List.length_map]; omega)]
    rfl
  have hlast' : x ((fs.length : Int) - 1) = (fs.map Prod.snd).getLastD [] := by
    have := hget (fs.length - 1) (by omega)
    rw [show ((fs.length - 1 : Nat) : Int) = (fs.length : Int) - 1 by omega] at this
    rw [List.getLastD_eq_getLast?, List.getLast?_eq_getElem?, List.getElem?_map, List.length_map, this]
    rfl
  have hfirst : ∀ t : Int, t < 0 → x t = x 0 := by
    intro t ht
    show edge (fs.map Prod.snd) t = edge (fs.map Prod.snd) 0
    unfold edge
    rw [if_pos ht, if_neg (by omega)]
    cases fs with
    | nil => exact absurd rfl hn
    | cons f fs => rfl
  have hxd : ∀ t, (x t).length = d := by
    intro t
    by_cases h0 : t < 0
    · rw [hfirst t h0]
      have := hget 0 hlen
      rw [List.getElem?_eq_getElem hlen] at this
      have h2 := hd _ (List.getElem_mem hlen)
      simp only [Option.map_some, Option.some.injEq] at this
      rw [show ((0 : Int)) = ((0 : Nat) : Int) from rfl, ← this, h2]
    · have key : ∀ i : Nat, i < fs.length → (x i).length = d := by
        intro i hi
        have := hget i hi
        rw [List.getElem?_eq_getElem hi] at this
        simp only [Option.map_some, Option.some.injEq] at this
        rw [← this, hd _ (List.getElem_mem hi)]
      by_cases h1 : t < fs.length
      · have := key t.toNat (by omega)
        rw [Int.toNat_of_nonneg (by omega)] at this
        exact this
      · rw [hlast t (by omega), ← hlast']
        have := key (fs.length - 1) (by omega)
        rw [show ((fs.length - 1 : Nat) : Int) = (fs.length : Int) - 1 by omega] at this
        exact this
  exact ⟨hget, fun t ht => (hlast t ht).trans hlast'.symm, hfirst, hxd⟩

/-- An utterance, if the batches are right. -/
theorem Batches.utterance_ok {o : Ops F} {am : Model F} {L R c d : Nat} {x score : Int → List F}
    (S : Batches o am L R c x score) {fs : List (List (List F) × List F)} (hn : fs ≠ []) (hx : Frames fs d x) :
    ∃ inst, utterance o am fs = .ok (seg score 0 fs.length, inst) := by
  have hlen : 0 < fs.length := List.length_pos_iff.mpr hn
  obtain ⟨p, inst, h1, h2, h3⟩ := S.feed_ok fs (k := 0) (p := 0) (inst := Inst.new) (.inl ⟨rfl, rfl, rfl⟩)
    (fun i hi => by rw [Nat.zero_add]; exact hx.get i hi)
  rw [Nat.zero_add] at h3
  obtain ⟨inst', h4, h5⟩ := S.endOfStream_ok h3 hlen hx.last []
  refine ⟨inst', ?_⟩
  unfold utterance
  rw [h1, ok_bind]
  simp only
  rw [h4, ok_bind]
  simp only
  have := seg_append score 0 p (fs.length - p)
  rw [Int.zero_add, show p + (fs.length - p) = fs.length by omega] at this
  rw [← this, Nat.sub_zero]
  rfl

end Verif.Am
