import Verif.IeeeScoreSoft
import Verif.IeeeFeatProps
import Verif.IeeeNnetProps
import Verif.NnetProps

/-!
# C106: the acoustic scores are those of the network, up to rounding
-/

namespace Verif.Ieee

open Verif Verif.Ieee.Spec Verif.Fbank Verif.Fbank.Spec Verif.Nnet Verif.Nnet.Spec Verif.Main.Spec

variable {lib : Lib} {nlib : NnLib} {vm : List F32 → List (List F32) → List F32}

/-- **C106, network.** A network of the kind the converter writes, with the arithmetic of the machine: if its input is within `e` of
`X`, its output at every time is within `e'` of the output without rounding on `X`, where `e'` is told layer by layer from the
weights and from the size of the exact numbers. -/
theorem C106_network (hl : ScoreLaws nlib vm) {ls : List (Layer F32)} {d f L R w : ℕ} (hb : Built ls d f L R w) {ms : List (Layer ℝ)}
    (hm : List.Forall₂ Means ls ms) {x : ℤ → List F32} {X : ℤ → List ℝ} {e e' : ℝ} (he : BlursTo ms X e e')
    (hx : ∀ t, (x t).length = d ∧ CloseTo e (x t) (X t)) :
    ∀ t, CloseTo e' (series (nnet nlib) vm ls x t) (sharpAll ms X t) :=
  fun t => (series_close hl hb hm he hx t).2

/-- **C106, `Nnet::Propagate`.** The same of the program: for a matrix whose rows are within `e` of `X`, `Propagate` returns a matrix
whose rows are within `e'` of the exact output. (`X` is given for every time; only its values beside the rows of the matrix are used,
and `hX` asks no more of the others than that some row of numbers comes as near to them.) -/
theorem C106_propagate (hl : ScoreLaws nlib vm) {ls : List (Layer F32)} {d f L R w : ℕ} (hb : Built ls d f L R w) {ms : List (Layer ℝ)}
    (hm : List.Forall₂ Means ls ms) {m : List (List F32)} (out : List (List F32)) {X : ℤ → List ℝ} {e e' : ℝ} (he : BlursTo ms X e e')
    (hrow : ∀ x ∈ m, x.length = d) (hX : ∀ t : ℤ, ∃ x : List F32, x.length = d ∧ CloseTo e x (X t))
    (hx : ∀ (i : ℕ) (x : List F32), m[i]? = some x → CloseTo e x (X i))
    (hsize : m.length * w ≤ 2147483647) (hbig : m.length ≤ 1073741823) (hlr : L + R < m.length) :
    ∃ y, propagate (nnet nlib) ls m out = .ok y ∧ y.length = m.length - (L + R) ∧
      ∀ (t : ℕ) (v : List F32), y[t]? = some v → CloseTo e' v (sharpAll ms X ((t + L : ℕ) : ℤ)) := by
  choose x h1 h2 using hX
  let z : ℤ → List F32 := fun t => if 0 ≤ t then (m[t.toNat]?).getD (x t) else x t
  obtain ⟨y, g1, g2, g3⟩ := Nnet.C30_rows hl.rows hb m out z hrow (fun i hi => by
    show m[i]? = some (if (0 : ℤ) ≤ (i : ℤ) then (m[(i : ℤ).toNat]?).getD (x i) else x i)
    rw [if_pos (Int.natCast_nonneg i), Int.toNat_natCast, List.getElem?_eq_getElem hi]
    rfl) hsize hbig hlr
  have hz : ∀ t, (z t).length = d ∧ CloseTo e (z t) (X t) := by
    intro t
    show (if 0 ≤ t then (m[t.toNat]?).getD (x t) else x t).length = d ∧ _
    by_cases ht : 0 ≤ t
    · rw [show z t = (m[t.toNat]?).getD (x t) from if_pos ht, if_pos ht]
      cases e1 : m[t.toNat]? with
      | none => exact ⟨h1 t, h2 t⟩
      | some v =>
        refine ⟨hrow v (List.mem_of_getElem? e1), ?_⟩
        have := hx _ v e1
        rwa [Int.toNat_of_nonneg ht] at this
    · rw [show z t = x t from if_neg ht, if_neg ht]
      exact ⟨h1 t, h2 t⟩
  refine ⟨y, g1, g2, fun t v hv => ?_⟩
  have ht : t < y.length := (List.getElem?_eq_some_iff.mp hv).1
  rw [Option.some.inj (hv.symm.trans (g3 t ht))]
  exact C106_network hl hb hm he hz _

theorem prior_close {e N D : ℝ} {x P : List F32} {X Q : List ℝ} (hx : CloseTo e x X) (hP : List.Forall₂ Worth P Q)
    (hN : ∀ v ∈ X, |v| ≤ N) (hD : ∀ v ∈ Q, |v| ≤ D) (hfit : N + e + D + 1 ≤ 2 ^ 100) :
    CloseTo (e + (N + e + D + 1) / 2 ^ 24) (List.zipWith (fun x y => (nnet nlib).add x ((nnet nlib).mul (nnet nlib).negOne y)) x P)
      (List.zipWith (· - ·) X Q) := by
  refine beside_zip ?_ (beside_and hx hN) (beside_and hP hD)
  rintro v V p Q ⟨⟨r, h1, h2⟩, h3⟩ ⟨⟨q, h4, rfl⟩, h5⟩
  have hr : Rep binary32 (-1) := by have := rep_minus (rep_small (n := 1) (by norm_num)); simpa using this
  have hneg : Is ((nnet nlib).mul (nnet nlib).negOne p) (-q) := by
    have e1 : (nnet nlib).mul (nnet nlib).negOne p = fit binary32 (-1 * q) := mul_is (fit_is hr) h4
    rw [e1, neg_one_mul]
    obtain ⟨hrep, -⟩ := h4
    exact fit_is (rep_minus hrep)
  have he0 : 0 ≤ e := (abs_nonneg _).trans h2
  have hN0 : 0 ≤ N := (abs_nonneg _).trans h3
  have hD0 : 0 ≤ D := (abs_nonneg _).trans h5
  have hsum : |r + ((-q : ℚ) : ℝ)| ≤ N + e + D + 1 := by
    refine (sum_le (near_le h2 h3) (n := D) ?_).trans (by linarith)
    push_cast
    rwa [abs_neg]
  obtain ⟨t, e1, e2⟩ := add_worth h1 ⟨-q, hneg, rfl⟩ hsum ((show (1 : ℝ) / 2 ^ 100 ≤ 1 by norm_num).trans (by linarith))
    (hfit.trans (by norm_num))
  refine ⟨t, e1, ?_⟩
  push_cast at e2
  have h6 : |r + -(q : ℝ) - (V - q)| ≤ e := by rwa [show r + -(q : ℝ) - (V - q) = r - V by ring]
  have := near_trans e2 h6
  linarith

theorem mapM_none {α β : Type} {f : α → Exec β} {l : List α} (h : l.mapM f = .ok []) : l = [] := by
  cases l with
  | nil => rfl
  | cons a l =>
    rw [List.mapM_cons] at h
    cases e : f a with
    | error _ => rw [e] at h; cases h
    | ok b =>
      cases e' : l.mapM f with
      | error _ => rw [e, e'] at h; cases h
      | ok bs => rw [e, e'] at h; cases h

/-- **C106, scores.** If the features of an utterance are within `e` of `Fs`, every acoustic score is within
`e' + (N + e' + D + 1) / 2^24` of the output of the network without rounding on `Fs` less the logarithm of the prior, where
`e'` is as in `C106_network`, no exact output is larger than `N` and no logarithm of a prior larger than `D`. -/
theorem C106_scores (hl : ScoreLaws nlib vm) {r : Stt.Rec F32 F64} (hnn : r.nn = nnet nlib) {f L R w : ℕ}
    (hb : Built r.am.layers 40 f L R w) {ms : List (Layer ℝ)} (hm : List.Forall₂ Means r.am.layers ms) {Q : List ℝ}
    (hQ : List.Forall₂ Worth r.am.logPrior Q) {b : ℕ} {data : List UInt8} {feats : List (List F32)} {Fs : List (List ℝ)} {e e' N D : ℝ}
    (hf : (frames ((Pcm.Spec.samples b data).map r.conv)).mapM (row r.fb) = .ok feats) (h40 : ∀ x ∈ feats, x.length = 40)
    (hF : List.Forall₂ (CloseTo e) feats Fs) (he : BlursTo ms (edge Fs) e e')
    (hN : ∀ t, ∀ v ∈ sharpAll ms (edge Fs) t, |v| ≤ N) (hD : ∀ v ∈ Q, |v| ≤ D) (hfit : N + e' + D + 1 ≤ 2 ^ 100)
    {rows : List (List F32)} (hs : Scores r vm b data rows) (t : ℕ) (y : List F32) (hy : rows[t]? = some y) :
    CloseTo (e' + (N + e' + D + 1) / 2 ^ 24) y (List.zipWith (· - ·) (sharpAll ms (edge Fs) t) Q) := by
  obtain ⟨feats', h1, h2, h3⟩ := hs
  obtain rfl : feats = feats' := Except.ok.inj (hf.symm.trans h1)
  have ht : t < rows.length := (List.getElem?_eq_some_iff.mp hy).1
  have hne : feats ≠ [] := by
    rintro rfl
    have := congrArg List.length (mapM_none h1)
    rw [h2] at ht
    unfold frames at this
    rw [List.length_map, List.length_range, List.length_nil] at this
    omega
  have e1 := Option.some.inj (hy.symm.trans (h3 t ht))
  rw [e1, hnn]
  exact prior_close (C106_network hl hb hm he (fun t => ⟨h40 _ (edge_mem hne t), edge_close hF t⟩) t) hQ (hN t) hD hfit

/-- A row of forty numbers that is known element by element. -/
theorem row_close {e : ℝ} {r : List F32} {F : ℕ → ℝ} (hr : r.length = 40) (h : ∀ b, b < 40 → NearAt r b (F b) e) :
    CloseTo e r ((List.range 40).map F) := by
  refine beside_at (by rw [hr, List.length_map, List.length_range]) fun i V hV => ?_
  have hi : i < 40 := by
    have := (List.getElem?_eq_some_iff.mp hV).1
    rwa [List.length_map, List.length_range] at this
  rw [List.getElem?_map, List.getElem?_range hi] at hV
  obtain ⟨v, q, e1, e2, e3⟩ := h i hi
  exact ⟨v, e1, q, e2, by rwa [← Option.some.inj hV]⟩

theorem signed_abs_le {b : ℕ} (hb2 : b = 1 ∨ b = 2) {bs : List UInt8} (hb : bs.length = b) : |Pcm.Spec.signed b bs| ≤ 2 ^ 15 := by
  rcases hb2 with rfl | rfl
  · have h1 := leVal_lt bs
    rw [hb] at h1
    unfold Pcm.Spec.signed
    rw [abs_le]
    split <;> constructor <;> omega
  · exact signed_abs2 hb

/-- **C106, from bytes to scores.** Audio of 8 or 16 bits and any length: there are features `Fs` that are exact for a spectrum right up to
32768 (full scale being 52 million), and the scores of the program are those of the network without rounding on `Fs`, less the
logarithms of the priors, up to the bound of `C106_scores` for features that are 1/10000 off. -/
theorem C106_audio (hb : LibLaws lib) (ht : TrigLaws lib) (hg : LogLaws lib) (hl : ScoreLaws nlib vm) {r : Stt.Rec F32 F64}
    (ho : make (fbank lib) = .ok r.fb) (hc : r.conv = fun n : ℤ => fit binary32 (n : ℚ)) (hnn : r.nn = nnet nlib) {f L R w : ℕ}
    (hB : Built r.am.layers 40 f L R w) {ms : List (Layer ℝ)} (hm : List.Forall₂ Means r.am.layers ms) {Q : List ℝ}
    (hQ : List.Forall₂ Worth r.am.logPrior Q) {b : ℕ} (hb2 : b = 1 ∨ b = 2) :
    ∃ u, NearTriangles u ∧ ∀ data : List UInt8, ∃ Fs,
      FeaturesOf u 32768 (fun n => ((Pcm.Spec.samples b data).getD n 0 : ℤ))
        (if data.length / b < 400 then 0 else (data.length / b - 400) / 160 + 1) Fs ∧
      (∀ F ∈ Fs, ∀ v ∈ F, |v| ≤ 129) ∧ ∀ e' N D : ℝ, BlursTo ms (edge Fs) (1 / 10000) e' →
        (∀ t, ∀ v ∈ sharpAll ms (edge Fs) t, |v| ≤ N) → (∀ v ∈ Q, |v| ≤ D) → N + e' + D + 1 ≤ 2 ^ 100 →
        ∃ rows, Scores r vm b data rows ∧ rows.length = Fs.length ∧ ∀ (t : ℕ) (y : List F32), rows[t]? = some y →
          CloseTo (e' + (N + e' + D + 1) / 2 ^ 24) y (List.zipWith (· - ·) (sharpAll ms (edge Fs) t) Q) := by
  obtain ⟨u, hu, h⟩ := C104_features hb ht hg ho
  refine ⟨u, hu, fun data => ?_⟩
  have hlen : ((Pcm.Spec.samples b data).map r.conv).length = data.length / b := by
    rw [List.length_map, Pcm.Spec.samples, List.length_map, List.length_range]
  obtain ⟨feats, h1, h2, h3⟩ := h 32768 (by norm_num) (by norm_num) ((Pcm.Spec.samples b data).map r.conv)
    (fun n => ((Pcm.Spec.samples b data).getD n 0 : ℤ)) (by
    rw [hc]
    intro n hn
    rw [← hc, hlen] at hn
    have hs : (Pcm.Spec.samples b data)[n]? = some (Pcm.Spec.signed b ((data.drop (b * n)).take b)) := by
      rw [Pcm.Spec.samples, List.getElem?_map, List.getElem?_range hn]
      rfl
    have hb : |Pcm.Spec.signed b ((data.drop (b * n)).take b)| ≤ 2 ^ 15 := signed_abs_le hb2 (by
      rw [List.length_take, List.length_drop]
      rcases hb2 with rfl | rfl <;> omega)
    have hd : (Pcm.Spec.samples b data).getD n 0 = Pcm.Spec.signed b ((data.drop (b * n)).take b) := by
      rw [List.getD_eq_getElem?_getD, hs]
      rfl
    rw [hd]
    refine ⟨?_, _, _, by rw [List.getElem?_map, hs]; rfl, sample_worth hb, by simp⟩
    have : ((|Pcm.Spec.signed b ((data.drop (b * n)).take b)| : ℤ) : ℝ) ≤ ((2 ^ 15 : ℤ) : ℝ) := Int.cast_le.mpr hb
    push_cast at this
    linarith)
  rw [hlen] at h2
  obtain ⟨feats', k1, k2, k3⟩ := C99_finite hb ho (b := b) (by omega) data _ rfl
  have hff : feats' = feats := by
    rw [hc] at h1
    exact Except.ok.inj (k1.symm.trans h1)
  rw [hff] at k3
  -- the exact features
  have hex : ∀ i, ∃ F : ℕ → ℝ, i < feats.length → ∃ x, feats[i]? = some x ∧ CloseTo (1 / 10000) x ((List.range 40).map F) ∧
      ∃ m : ℕ → ℝ, (∀ k, k ≤ 256 → 0 ≤ m k ∧ |m k - Real.sqrt (powerOf (fun j => ((Pcm.Spec.samples b data).getD (160 * i + j) 0 : ℤ)) k)| ≤ 32768) ∧
        ∀ b, b < 40 → F b = Real.log (max (1 / 2 ^ 23) (∑ k ∈ Finset.range 257, u b k * m k ^ 2)) := by
    intro i
    by_cases hi : i < feats.length
    · obtain ⟨x, e1, e2, m, e3, e4⟩ := h3 i hi
      exact ⟨_, fun _ => ⟨x, e1, row_close e2 e4, m, e3, fun b _ => rfl⟩⟩
    · exact ⟨fun _ => 0, fun c => absurd c hi⟩
  choose F hF using hex
  have hclose : List.Forall₂ (CloseTo (1 / 10000)) feats ((List.range feats.length).map fun i => (List.range 40).map (F i)) := by
    refine beside_at (by rw [List.length_map, List.length_range]) fun i V hV => ?_
    have hi : i < feats.length := by
      have := (List.getElem?_eq_some_iff.mp hV).1
      rwa [List.length_map, List.length_range] at this
    rw [List.getElem?_map, List.getElem?_range hi] at hV
    obtain ⟨x, e1, e2, -⟩ := hF i hi
    exact ⟨x, e1, by rw [← Option.some.inj hV]; exact e2⟩
  have hbound : ∀ v ∈ feats, ∀ V, CloseTo (1 / 10000) v V → ∀ r ∈ V, |r| ≤ 129 := by
    intro v hv V hV
    have := (k3 v hv).2
    clear hv
    induction hV with
    | nil => intro r hr; cases hr
    | cons h _ ih =>
      intro r hr
      rcases List.mem_cons.mp hr with rfl | hr
      · obtain ⟨q, e1, e2⟩ := between_atMost (this _ List.mem_cons_self)
        obtain ⟨s, ⟨q', e3, rfl⟩, e4⟩ := h
        obtain rfl := Is.unique e1 e3
        have : |(q : ℝ)| ≤ 128 := by exact_mod_cast e2.trans (by norm_num : (2 : ℚ) ^ 7 ≤ 128)
        rw [abs_sub_comm] at e4
        exact (near_le e4 this).trans (by norm_num)
      · exact ih (fun a ha => this a (List.mem_cons_of_mem _ ha)) r hr
  refine ⟨(List.range feats.length).map fun i => (List.range 40).map (F i), ⟨?_, ?_⟩, ?_, ?_⟩
  · rw [List.length_map, List.length_range, h2]
  · intro i V hV
    have hi : i < feats.length := by
      have := (List.getElem?_eq_some_iff.mp hV).1
      rwa [List.length_map, List.length_range] at this
    rw [List.getElem?_map, List.getElem?_range hi] at hV
    obtain ⟨x, -, -, m, e1, e2⟩ := hF i hi
    rw [← Option.some.inj hV]
    refine ⟨by rw [List.length_map, List.length_range], m, e1, fun b hb => ?_⟩
    rw [List.getElem?_map, List.getElem?_range hb, ← e2 b hb]
    rfl
  · intro V hV v hv
    obtain ⟨i, hi, rfl⟩ := List.mem_map.mp hV
    obtain ⟨x, e1, e2, -⟩ := hF i (List.mem_range.mp hi)
    exact hbound x (List.mem_of_getElem? e1) _ e2 v hv
  · intro e' N D he hN hD hfit
    let g : ℤ → List F32 := fun t => List.zipWith (fun x y => r.nn.add x (r.nn.mul r.nn.negOne y))
      (series r.nn vm r.am.layers (edge feats) t) r.am.logPrior
    have hsc : Scores r vm b data ((List.range feats.length).map fun t : ℕ => g (t : ℤ)) := by
      refine ⟨feats, h1, ?_, fun t ht => ?_⟩
      · rw [List.length_map, List.length_range, h2, hlen]
        rfl
      · rw [List.length_map, List.length_range] at ht
        rw [List.getElem?_map, List.getElem?_range ht]
        rfl
    refine ⟨_, hsc, by rw [List.length_map, List.length_map], fun t y hy => ?_⟩
    exact C106_scores hl hnn hB hm hQ h1 (fun x hx => (k3 x hx).1) hclose he hN hD hfit hsc t y hy

end Verif.Ieee
