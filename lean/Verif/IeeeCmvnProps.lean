import Verif.IeeeCmvnDrift

/-!
# Property C105: the normalisation in machine numbers
-/

namespace Verif.Ieee

open Verif Verif.Ieee.Spec Verif.Cmvn Verif.Srfft

variable {raw : List (List F32)} {global : List F32} {X : ℕ → ℕ → ℚ} {g : ℕ → ℚ} {M : ℚ}

theorem new_state {s : Cmvn.State F32} (hs : Cmvn.new global raw = .ok s) : s = ⟨raw, global, [], -1⟩ := by
  unfold Cmvn.new at hs
  obtain ⟨_, _, hs⟩ := bind_ok hs
  obtain ⟨_, _, hs⟩ := bind_ok hs
  cases hs
  rfl

theorem tide_new {L : ℕ} {M : ℚ} (hG : Global global g M) (h0 : 0 < L) (hL : L ≤ 50000000) :
    Cmvn.new global (tideRaw L) = .ok ⟨tideRaw L, global, [], -1⟩ := by
  unfold Cmvn.new
  have hlen : (tideRaw L).length = L := by simp [tideRaw]
  have h1 : ((tideRaw L).headD []).length = 40 := by
    obtain ⟨m, rfl⟩ : ∃ m, L = m + 1 := ⟨L - 1, by omega⟩
    simp [tideRaw, List.range_succ_eq_map]
  rw [h1, hlen, matInit_ok (by omega) (by norm_num) (by push_cast; omega), ok_bind, hG.width]
  rfl

/-- **C105.** With the arithmetic of the machine, for frames and global means up to `M`: the first 2^22 frames (more than
eleven hours) can be requested in order, every coefficient comes out as a number, and that number is the coefficient minus
the sliding mean, up to `(1000 (t + 1) / n + 20) M / 2^24`.  Here `n` is the number of frames the mean is taken over, so
the bound grows with the number `t` of the frame. -/
theorem C105_close (hF : Frames raw X M) (hG : Global global g M) (hM : 1 ≤ M) (hM' : M ≤ 2 ^ 100)
    (hsm : raw.length ≤ 2147483647) {s : Cmvn.State F32} (hs : Cmvn.new global raw = .ok s) {n : ℕ} (hn : n ≤ raw.length)
    (hn' : n ≤ 2 ^ 22) :
    ∃ ys s', getFrames cmvn n 0 s = .ok (ys, s') ∧ ys.length = n ∧ ∀ t y, ys[t]? = some y → ∀ i, i < 40 →
      ∃ v q, y[i]? = some v ∧ Is v q ∧ |q - (X t i - slideMean X g t i)| ≤
        (1000 * (t + 1) / ((slideOwn t + slideExtra t : ℕ) : ℚ) + 20) * M / 2 ^ 24 := by
  obtain rfl := new_state hs
  have hu : 0 ≤ 1000 * M / 2 ^ 24 := by positivity
  have := frames_all (o := cmvn) (L := n) (Inv := fun t s => ∃ C, Summed raw global X t (t * (1000 * M / 2 ^ 24)) s C)
    (P := fun t y => ∀ i, i < 40 → ∃ v q, y[i]? = some v ∧ Is v q ∧ |q - (X t i - slideMean X g t i)| ≤
        (1000 * (t + 1) / ((slideOwn t + slideExtra t : ℕ) : ℚ) + 20) * M / 2 ^ 24) ?_ n 0 ⟨raw, global, [], -1⟩
    ⟨fun _ => fit _ 0, rfl, rfl, rfl, fun h => absurd h (by omega), fun h => absurd h (by omega), fun h => absurd h (by omega)⟩ (by omega)
  · simpa only [Nat.zero_add] using this
  · intro t s ht H
    obtain ⟨C, H⟩ := H
    have ht' : ((t : ℚ) + 1) ≤ 4194304 := by exact_mod_cast (by omega : t + 1 ≤ 4194304)
    have e1 : (t : ℚ) * (1000 * M / 2 ^ 24) + 1000 * M / 2 ^ 24 = ((t : ℚ) + 1) * (1000 * M / 2 ^ 24) := by ring
    obtain ⟨y, s', C', h1, h2, h3⟩ := getFrame_off hF hG hM hM' hsm (by omega) (by positivity)
      (by
        rw [e1]
        refine (mul_le_mul_of_nonneg_right ht' hu).trans (le_of_eq ?_)
        ring)
      (by
        intro h6
        rw [e1]
        have h7 : ((t : ℚ) + 1) ≤ 600 := by exact_mod_cast (by omega : t + 1 ≤ 600)
        refine (mul_le_mul_of_nonneg_right h7 hu).trans ?_
        have e2 : M - 600 * (1000 * M / 2 ^ 24) = M * (1 - 600000 / 2 ^ 24) := by ring
        have : 0 ≤ M * (1 - 600000 / 2 ^ 24) := mul_nonneg (by linarith) (by norm_num)
        linarith) H
    refine ⟨y, s', h1, ⟨C', by push_cast; rw [← e1]; exact h2⟩, fun i hi => ?_⟩
    obtain ⟨v, q, g1, g2, g3⟩ := h3 i hi
    refine ⟨v, q, g1, g2, g3.trans (le_of_eq ?_)⟩
    rw [e1]
    ring

/-- **C105, the growth is real.**  There are frames that stay between 14 and 14 + 1/1024, the last 600 of which are all 14,
for which every coefficient of the last frame comes out as -k/1024 up to 1/2^14: `k` is the number of times 18 seconds have
passed.  Without rounding it would be 0.  Hence no bound that does not grow with the length of the audio holds. -/
theorem C105_drift (k : ℕ) (hk : k ≤ 13000) (hG : Global global g 28) : ∃ (raw : List (List F32)) (X : ℕ → ℕ → ℚ),
    raw.length = 1800 * k + 600 ∧ Frames raw X (14 + 1 / 1024) ∧ (∀ t i, 14 ≤ X t i) ∧
    (∀ t i, 1800 * k ≤ t → t < 1800 * k + 600 → X t i = 14) ∧ (∀ i, slideMean X g (1800 * k + 599) i = 14) ∧
    ∃ s ys s' y, Cmvn.new global raw = .ok s ∧ getFrames cmvn raw.length 0 s = .ok (ys, s') ∧ ys[1800 * k + 599]? = some y ∧
      ∀ i, i < 40 → ∃ v q, y[i]? = some v ∧ Is v q ∧ |q - -(k / 1024)| ≤ 1 / 2 ^ 14 := by
  obtain ⟨L, hL⟩ : ∃ L, L = 1800 * k + 600 := ⟨_, rfl⟩
  have hlen : (tideRaw L).length = L := by simp [tideRaw]
  have hF := Frames.wider (tide_frames L) (show (14 : ℚ) + 1 / 1024 ≤ 28 by norm_num)
  have hnew := tide_new (L := L) hG (by omega) (by omega)
  have := frames_all (o := cmvn) (L := L)
    (Inv := fun t s => ∃ C, s.raw = tideRaw L ∧ s.global = global ∧ s.frame = (t : Int) - 1 ∧ (0 < t → s.stats = vec 41 C) ∧
      (0 < t → Is (C 40) (slideOwn (t - 1))) ∧ (0 < t → ∀ i, i < 40 → Is (C i) (reached (t - 1) / 1024)))
    (P := fun t y => ∀ i, i < 40 → ∃ v q, y[i]? = some v ∧ Is v q ∧
      |q - (tide t i - ((reached t : ℚ) / 1024 + slideExtra t * g i) / ((slideOwn t + slideExtra t : ℕ) : ℚ))| ≤
        20 * 28 / 2 ^ 24) ?_ L 0 ⟨tideRaw L, global, [], -1⟩
    ⟨fun _ => fit _ 0, rfl, rfl, rfl, fun h => absurd h (by omega), fun h => absurd h (by omega), fun h => absurd h (by omega)⟩ (by omega)
  · obtain ⟨ys, s', h1, h2, h3⟩ := this
    refine ⟨tideRaw L, tide, hlen.trans hL, tide_frames L, fun t i => ?_, fun t i h4 h5 => ?_, fun i => tide_mean g k i,
      ⟨tideRaw L, global, [], -1⟩, ys, s', ys[1800 * k + 599]'(by omega), hnew, by rw [hlen]; exact h1,
      List.getElem?_eq_getElem (by omega), fun i hi => ?_⟩
    · have h : (14680064 : ℚ) ≤ wave t := by exact_mod_cast (wave_range t).1
      unfold tide
      rw [le_div_iff₀ (by norm_num)]
      linarith
    · unfold tide wave
      rw [if_pos (by omega)]
      norm_num
    · obtain ⟨v, q, g1, g2, g3⟩ := h3 (1800 * k + 599) _ (List.getElem?_eq_getElem (by omega)) i hi
      refine ⟨v, q, g1, g2, ?_⟩
      rw [Nat.zero_add, reached_end, show slideOwn (1800 * k + 599) = 600 by unfold slideOwn; omega,
        show slideExtra (1800 * k + 599) = 0 by unfold slideExtra slideOwn; omega,
        show tide (1800 * k + 599) i = 14 by unfold tide wave; rw [if_pos (by omega)]; norm_num] at g3
      have e : (14 : ℚ) - (((8601600 + 600 * k : ℕ) : ℚ) / 1024 + ((0 : ℕ) : ℚ) * g i) / ((600 + 0 : ℕ) : ℚ) = -(k / 1024) := by
        push_cast
        ring
      rw [e] at g3
      exact g3.trans (by norm_num)
  · intro t s ht H
    obtain ⟨C, i1, i2, i3, i4, i5, i6⟩ := H
    obtain ⟨N, hN⟩ : ∃ N, N = nextStats cmvn t C (cell (tideRaw L) t) (cell (tideRaw L) (t - 600)) := ⟨_, rfl⟩
    have hc : Is (N 40) (slideOwn t) := by rw [hN]; exact count_next i5
    have hsum : ∀ i, i < 40 → Is (N i) (reached t / 1024) := by
      intro i hi
      rw [hN]
      exact tide_next (by omega) ht hi (fun h => i6 h i hi)
    obtain ⟨y, r1, r2⟩ := getFrame_core hF hG (by norm_num) (by norm_num) (by omega) (by omega) le_rfl (by norm_num)
      (fun _ => by norm_num) i1 i2 i3 i4 hN hc (S := fun _ => (reached t : ℚ) / 1024)
      (fun i _ => by
        have h : (reached t : ℚ) ≤ 28672 * slideOwn t := by exact_mod_cast (reached_high (t := t) (by omega)).2
        rw [abs_of_nonneg (by positivity), div_le_iff₀ (by norm_num)]
        linarith) (fun i hi => ⟨_, hsum i hi, by rw [sub_self, abs_zero]⟩)
    refine ⟨y, _, r1, ⟨N, i1, i2, by push_cast; ring, fun _ => rfl, fun _ => hc, fun _ => hsum⟩, fun i hi => ?_⟩
    obtain ⟨v, q, g1, g2, g3⟩ := r2 i hi
    refine ⟨v, q, g1, g2, ?_⟩
    rw [zero_div, zero_add] at g3
    exact g3

/-! ## Examples -/

/-- Global statistics of 50 frames with mean 2. -/
def someGlobal : List F32 := List.replicate 40 (fit binary32 (100 : ℕ)) ++ [fit binary32 (50 : ℕ)]

theorem someGlobal_ok : Global someGlobal (fun _ => 2) 28 where
  width := by simp [someGlobal]
  value := by
    refine ⟨50, by norm_num, by norm_num, ⟨fit binary32 (50 : ℕ), ?_, ?_⟩, fun i hi => ⟨by norm_num, fit binary32 (100 : ℕ), ?_, ?_⟩⟩
    · rw [someGlobal, List.getElem?_append_right (by simp), List.length_replicate]
      rfl
    · exact fit_is (rep_small (n := 50) (by norm_num))
    · rw [someGlobal, List.getElem?_append_left (by simpa using hi), List.getElem?_replicate, if_pos hi]
    · have := fit_is (rep_small (n := 100) (by norm_num))
      norm_num at this ⊢
      exact this

/-- The hypotheses of `C105_close` hold for the 2400 frames of `C105_drift` with `k = 1`. -/
example : ∃ s, Frames (tideRaw 2400) tide 28 ∧ Global someGlobal (fun _ => 2) 28 ∧ Cmvn.new someGlobal (tideRaw 2400) = .ok s :=
  ⟨_, Frames.wider (tide_frames 2400) (by norm_num), someGlobal_ok, tide_new someGlobal_ok (by norm_num) (by norm_num)⟩

/-- After an hour (`k = 200`) the frame that should be 0 is at most -0.19. -/
example : ∃ (raw : List (List F32)) (s s' : Cmvn.State F32) (ys : List (List F32)) (y : List F32) (v : F32) (q : ℚ),
    raw.length = 360600 ∧ Cmvn.new someGlobal raw = .ok s ∧ getFrames cmvn raw.length 0 s = .ok (ys, s') ∧
    ys[360599]? = some y ∧ y[0]? = some v ∧ Is v q ∧ q ≤ -19 / 100 := by
  obtain ⟨raw, X, h1, -, -, -, -, s, ys, s', y, h2, h3, h4, h5⟩ := C105_drift 200 (by norm_num) someGlobal_ok
  obtain ⟨v, q, g1, g2, g3⟩ := h5 0 (by norm_num)
  refine ⟨raw, s, s', ys, y, v, q, by rw [h1], h2, h3, h4, g1, g2, ?_⟩
  obtain ⟨-, g4⟩ := abs_le.mp g3
  norm_num at g4 ⊢
  linarith

end Verif.Ieee
