import Verif.IeeeFeatMel

/-!
# C104: the accuracy of the features in machine numbers
-/

namespace Verif.Ieee

open Verif Verif.Srfft Verif.Ieee.Spec Verif.Fbank Verif.Fbank.Spec Finset

/-- C104, a frame.  In IEEE 754 arithmetic, with a C library whose `cos`, `sin` and `log` are right up to their last bits,
every object that the constructor of `Fbank` makes has filters near the triangles of C61, and the row of features it computes
for any 400 samples up to `A` is that of C104: a logarithm that is right up to 1/10000, of the energy that the filters pass
of a spectrum each magnitude of which is right up to `A` (where the magnitudes go up to 1600 `A`).  The
filters do not depend on the samples. -/
theorem C104_frame {lib : Lib} (hl : LibLaws lib) (ht : TrigLaws lib) (hg : LogLaws lib) {o : Fbank.Ops F32} (ho : make (fbank lib) = .ok o) :
    ∃ w, NearTriangles w ∧ ∀ A : ℝ, 1 ≤ A → A ≤ 2 ^ 31 → ∀ (x : List F32) (f : ℕ → ℝ), x.length = 400 →
      (∀ i, i < 400 → |f i| ≤ A ∧ NearAt x i (f i) 0) → ∃ r, row o x = .ok r ∧ RowNear w A f r := by
  obtain ⟨g, v, hb, hs⟩ := filters_near hl
  have e : o = builtWith lib ((List.range 40).map g) := Except.ok.inj (ho.symm.trans (make_built hb))
  rw [e]
  refine ⟨v, fun b k hb hk => ⟨((hs b hb).unit k).1, ((hs b hb).unit k).2, (hs b hb).close k hk, fun h => (hs b hb).local_ k hk (by
    rwa [place_eq, corner_eq, corner_eq] at h)⟩, fun A h1 h2 x f hx h => ?_⟩
  obtain ⟨bins, eb⟩ : ∃ bins, bins = (List.range 40).map g := ⟨_, rfl⟩
  rw [← eb]
  obtain ⟨s, es, hsl, hp⟩ := spectrum_near (bins := bins) ht h1 h2 hx h
  have hpow : ∀ k, ∃ p, k ≤ 256 → Worth (power (builtWith lib bins) s k) p ∧ 0 ≤ p ∧ p ≤ 2 ^ 90 ∧
      |Real.sqrt p - Real.sqrt (powerOf f k)| ≤ A := by
    intro k
    by_cases hk : k ≤ 256
    · obtain ⟨p, q⟩ := power_near (lib := lib) (bins := bins) h1 h2 (fun i hi => (h i hi).1) hsl hp hk
      exact ⟨p, fun _ => q⟩
    · exact ⟨0, fun c => absurd c hk⟩
  choose p hpw using hpow
  have hfl : ∀ b, b < 40 → ∃ q : ℚ, Is (if (fbank lib).lt (energy (builtWith lib bins) s (g b)) (fbank lib).eps = true then (fbank lib).eps
      else energy (builtWith lib bins) s (g b)) q ∧ 1 / 2 ^ 23 ≤ q ∧
      |Real.log (q : ℝ) - Real.log (max (1 / 2 ^ 23) (∑ k ∈ range 257, v b k * p k))| ≤ 800 / 2 ^ 24 := by
    intro b hb
    obtain ⟨e, ⟨q, eq, rfl⟩, e0, ke⟩ := energy_near (bins := bins) (hs b hb) (s := s) (p := p)
      (fun k hk => ⟨(hpw k hk).1, (hpw k hk).2.1, (hpw k hk).2.2.1⟩)
    have kl := log_floor ke
    have hlt : (fbank lib).lt (energy (builtWith lib bins) s (g b)) (fbank lib).eps = decide (q < 1 / 2 ^ 23) := lt_is eq (eps_is lib)
    rw [hlt]
    by_cases c : q < 1 / 2 ^ 23
    · rw [if_pos (by simpa using c)]
      refine ⟨_, eps_is lib, le_rfl, ?_⟩
      have c' : (q : ℝ) ≤ 1 / 2 ^ 23 := by
        have := (Rat.cast_le (K := ℝ)).mpr c.le
        push_cast at this
        exact this
      rw [max_eq_left c'] at kl
      push_cast
      exact kl
    · rw [if_neg (by simpa using c)]
      refine ⟨q, eq, not_lt.mp c, ?_⟩
      have c' : (1 : ℝ) / 2 ^ 23 ≤ q := by
        have := (Rat.cast_le (K := ℝ)).mpr (not_lt.mp c)
        push_cast at this
        exact this
      rwa [max_eq_right c'] at kl
  have e1 : (builtWith lib bins).nonneg = (fbank lib).nonneg := by simp only [builtWith]
  have e2 : (builtWith lib bins).lt = (fbank lib).lt := by simp only [builtWith]
  have e3 : (builtWith lib bins).eps = (fbank lib).eps := by simp only [builtWith]
  have e4 : (builtWith lib bins).log = lib.log := by simp only [builtWith, fbank]
  have hlog : loggable (builtWith lib bins) s = true := by
    unfold loggable
    rw [List.all_eq_true]
    intro r hr
    have hr' : r ∈ (List.range 40).map g := by rw [← eb]; exact hr
    obtain ⟨b, hb, rfl⟩ := List.mem_map.mp hr'
    obtain ⟨q, eq, hq, -⟩ := hfl b (List.mem_range.mp hb)
    rw [e1, e2, e3]
    exact nonneg_is (lib := lib) eq (le_trans (by positivity) hq)
  refine ⟨bins.map (feature (builtWith lib bins) s), ?_, ?_, fun k => Real.sqrt (p k), fun k hk => ⟨Real.sqrt_nonneg _, (hpw k hk).2.2.2⟩, ?_⟩
  · unfold row
    rw [es, ok_bind, if_pos hlog]
    rfl
  · rw [List.length_map, eb, List.length_map, List.length_range]
  · intro b hb
    obtain ⟨q, eq, hq, kq⟩ := hfl b hb
    obtain ⟨l, el, kl⟩ := hg.log eq hq
    have hsum : ∑ k ∈ range 257, v b k * Real.sqrt (p k) ^ 2 = ∑ k ∈ range 257, v b k * p k :=
      sum_congr rfl fun k hk => by rw [Real.sq_sqrt (hpw k (by have := mem_range.mp hk; omega)).2.1]
    refine ⟨feature (builtWith lib bins) s (g b), l, ?_, ?_, ?_⟩
    · have hgb : bins[b]? = some (g b) := by
        rw [eb, List.getElem?_map, List.getElem?_range hb]
        rfl
      rw [List.getElem?_map, hgb]
      rfl
    · unfold feature
      simp only
      rw [e2, e3, e4]
      exact ⟨l, el, rfl⟩
    · simp only
      rw [hsum]
      exact (near_trans kl kq).trans (by norm_num)

/-- C104, a signal.  The frames of a signal of samples up to `A`: row `i` is the one of the samples `160 i` to `160 i + 399`. -/
theorem C104_features {lib : Lib} (hl : LibLaws lib) (ht : TrigLaws lib) (hg : LogLaws lib) {o : Fbank.Ops F32} (ho : make (fbank lib) = .ok o) :
    ∃ w, NearTriangles w ∧ ∀ A : ℝ, 1 ≤ A → A ≤ 2 ^ 31 → ∀ (x : List F32) (u : ℕ → ℝ),
      (∀ n, n < x.length → |u n| ≤ A ∧ NearAt x n (u n) 0) →
      ∃ rows, (frames x).mapM (row o) = .ok rows ∧ rows.length = (if x.length < 400 then 0 else (x.length - 400) / 160 + 1) ∧
        ∀ i, i < rows.length → ∃ r, rows[i]? = some r ∧ RowNear w A (fun j => u (160 * i + j)) r := by
  obtain ⟨w, hw, h⟩ := C104_frame hl ht hg ho
  refine ⟨w, hw, fun A h1 h2 x u hx => ?_⟩
  obtain ⟨hn, hf⟩ := C27_frames x
  have hrow : ∀ i, ∃ r, i < (frames x).length → ∃ f, (frames x)[i]? = some f ∧ row o f = .ok r ∧ RowNear w A (fun j => u (160 * i + j)) r := by
    intro i
    by_cases hi : i < (frames x).length
    · obtain ⟨f, e, hl, hk⟩ := hf i hi
      obtain ⟨r, er, hr⟩ := h A h1 h2 f (fun j => u (160 * i + j)) hl (by
        intro j hj
        have hin : 160 * i + j < x.length := by
          rw [hn] at hi
          split at hi <;> omega
        obtain ⟨a, v, q, b1, b2, b3⟩ := hx (160 * i + j) hin
        exact ⟨a, v, q, by rw [hk j hj]; exact b1, b2, b3⟩)
      exact ⟨r, fun _ => ⟨f, e, er, hr⟩⟩
    · exact ⟨[], fun c => absurd c hi⟩
  choose R hR using hrow
  have hmap : ∀ l : List (List F32), (∀ i f, l[i]? = some f → row o f = .ok (R i)) →
      l.mapM (row o) = .ok ((List.range l.length).map R) := by
    intro l
    induction l using List.reverseRecOn with
    | nil => intro _; rfl
    | append_singleton l f ih =>
      intro hl
      have h1 := ih (fun i g hg => hl i g (by
        have : i < l.length := (List.getElem?_eq_some_iff.mp hg).1
        rw [List.getElem?_append_left this]
        exact hg))
      have h2 := hl l.length f (by simp)
      rw [List.mapM_append, h1]
      rw [show ∀ k : List (List F32) → Exec (List (List F32)), (Except.ok ((List.range l.length).map R) >>= k) = k ((List.range l.length).map R) from fun _ => rfl,
        List.mapM_cons, h2, List.length_append, List.length_singleton, List.range_succ, List.map_append]
      rfl
  have hm := hmap (frames x) (fun i f hi => by
    have hi' : i < (frames x).length := (List.getElem?_eq_some_iff.mp hi).1
    obtain ⟨f', e, er, -⟩ := hR i hi'
    rw [e] at hi
    obtain rfl := Option.some.inj hi
    exact er)
  refine ⟨_, hm, by rw [List.length_map, List.length_range, hn], fun i hi => ?_⟩
  rw [List.length_map, List.length_range] at hi
  obtain ⟨f, -, -, hr⟩ := hR i hi
  refine ⟨R i, ?_, hr⟩
  rw [List.getElem?_map, List.getElem?_range hi]
  rfl

theorem sample_worth {n : ℤ} (h : |n| ≤ 2 ^ 15) : Worth (fit binary32 (n : ℚ)) n := by
  refine ⟨n, ?_, by push_cast; rfl⟩
  rcases Int.le_total 0 n with c | c
  · obtain ⟨k, rfl⟩ := Int.eq_ofNat_of_zero_le c
    rw [abs_of_nonneg c] at h
    have := fit_is (rep_small (n := k) (by omega))
    simpa using this
  · obtain ⟨k, hk⟩ := Int.eq_ofNat_of_zero_le (a := -n) (by omega)
    rw [abs_of_nonpos c] at h
    have := fit_is (rep_minus (rep_small (n := k) (by omega)))
    rw [show n = -(k : ℤ) by omega]
    simpa using this

theorem signed_abs2 {bs : List UInt8} (hb : bs.length = 2) : |Pcm.Spec.signed 2 bs| ≤ 2 ^ 15 := by
  have h1 := leVal_lt bs
  rw [hb] at h1
  unfold Pcm.Spec.signed
  rw [abs_le]
  split <;> constructor <;> omega

/-- C104, from bytes to features.  16-bit audio of any length, in whatever non-empty pieces of fewer than
536870500 samples it is given to `Fbank::Process`: the rows that come out are, one after the other, those of the samples in
the file, with magnitudes right up to 32768 (full scale being 52 million) and logarithms right up to 1/10000. -/
theorem C104_audio {lib : Lib} (hl : LibLaws lib) (ht : TrigLaws lib) (hg : LogLaws lib) {o : Fbank.Ops F32} (ho : make (fbank lib) = .ok o) :
    ∃ w, NearTriangles w ∧ ∀ (data : List UInt8) (cs : List (Junk F32 × List F32)), (∀ c ∈ cs, c.2 ≠ [] ∧ c.2.length < 536870500) →
      (cs.map Prod.snd).flatten = (Pcm.Spec.samples 2 data).map (fun n : ℤ => fit binary32 (n : ℚ)) →
      ∃ rows rest, feed o [] cs = .ok (rows, rest) ∧
        rows.length = (if data.length / 2 < 400 then 0 else (data.length / 2 - 400) / 160 + 1) ∧
        ∀ i, i < rows.length → ∃ r, rows[i]? = some r ∧
          RowNear w 32768 (fun j => ((Pcm.Spec.samples 2 data).getD (160 * i + j) 0 : ℤ)) r := by
  obtain ⟨w, hw, h⟩ := C104_features hl ht hg ho
  refine ⟨w, hw, fun data cs hcs hx => ?_⟩
  have hlen : ((Pcm.Spec.samples 2 data).map (fun n : ℤ => fit binary32 (n : ℚ))).length = data.length / 2 := by
    rw [List.length_map, Pcm.Spec.samples, List.length_map, List.length_range]
  obtain ⟨rows, h1, h2, h3⟩ := h 32768 (by norm_num) (by norm_num) (cs.map Prod.snd).flatten (fun n => ((Pcm.Spec.samples 2 data).getD n 0 : ℤ)) (by
    rw [hx]
    intro n hn
    rw [hlen] at hn
    have hs : (Pcm.Spec.samples 2 data)[n]? = some (Pcm.Spec.signed 2 ((data.drop (2 * n)).take 2)) := by
      rw [Pcm.Spec.samples, List.getElem?_map, List.getElem?_range hn]
      rfl
    have hb : |Pcm.Spec.signed 2 ((data.drop (2 * n)).take 2)| ≤ 2 ^ 15 := signed_abs2 (by
      rw [List.length_take, List.length_drop]
      omega)
    rw [getD_of _ hs]
    refine ⟨?_, _, _, by rw [List.getElem?_map, hs]; rfl, sample_worth hb, by simp⟩
    have : ((|Pcm.Spec.signed 2 ((data.drop (2 * n)).take 2)| : ℤ) : ℝ) ≤ ((2 ^ 15 : ℤ) : ℝ) := by exact_mod_cast hb
    push_cast at this
    norm_num at this
    exact this)
  have e := C27_constructed_partial ho cs hcs _ rfl
  rw [h1] at e
  rw [hx, hlen] at h2
  exact ⟨rows, _, e, h2, h3⟩

/-! ## A library -/

theorem someLib_log : LogLaws someLib := by
  refine ⟨fun {x q} h hq => ?_⟩
  have e : someLib.log x = fit binary32 (cut (Real.log q)) := lift_is h
  have hlt := is_lt h
  have h2 := Real.log_two_lt_d9
  have h2' := Real.log_two_gt_d9
  have hq' : (1 : ℝ) / 2 ^ 23 ≤ q := by
    have := (Rat.cast_le (K := ℝ)).mpr hq
    push_cast at this
    exact this
  have q0 : (0 : ℝ) < q := lt_of_lt_of_le (by positivity) hq'
  have hq2 : (q : ℝ) ≤ 2 ^ 128 := by
    have := (Rat.cast_le (K := ℝ)).mpr ((le_abs_self q).trans hlt.le)
    push_cast at this
    exact this
  have hm : |Real.log (q : ℝ)| ≤ 88.75 := by
    rw [abs_le]
    constructor
    · have := Real.log_le_log (by positivity) hq'
      rw [Real.log_div (by norm_num) (by positivity), Real.log_one, Real.log_pow] at this
      norm_num at this h2 ⊢
      linarith
    · have := Real.log_le_log q0 hq2
      rw [Real.log_pow] at this
      norm_num at this h2 ⊢
      linarith
  have k0 := cut_err (Real.log (q : ℝ))
  obtain ⟨r, ⟨l, el, rfl⟩, kl⟩ := fit_worth (q := cut (Real.log q)) (m := 89) ((near_le k0 hm).trans (by norm_num)) (by norm_num) (by norm_num)
  rw [e]
  exact ⟨l, el, (near_trans kl k0).trans (by norm_num)⟩

theorem ramp_near (n : ℕ) (hn : n ≤ 1000) : ∀ i, i < ((List.range n).map fun i : ℕ => fit binary32 ((((i : ℤ) - 500 : ℤ)) : ℚ)).length →
    |(i : ℝ) - 500| ≤ 500 ∧ NearAt ((List.range n).map fun i : ℕ => fit binary32 ((((i : ℤ) - 500 : ℤ)) : ℚ)) i ((i : ℝ) - 500) 0 := by
  intro i hi
  rw [List.length_map, List.length_range] at hi
  have hi' : (i : ℝ) ≤ 1000 := by exact_mod_cast (by omega : i ≤ 1000)
  have h0 : (0 : ℝ) ≤ i := Nat.cast_nonneg i
  refine ⟨by rw [abs_le]; constructor <;> linarith, fit binary32 ((((i : ℤ) - 500 : ℤ)) : ℚ), (i : ℝ) - 500, ?_, ?_, by simp⟩
  · rw [List.getElem?_map, List.getElem?_range hi]
    rfl
  · have := sample_worth (n := (i : ℤ) - 500) (by rw [abs_le]; constructor <;> omega)
    push_cast at this ⊢
    exact this

/-- A frame: the samples -500, -499, ..., -101. -/
example : ∃ (o : Fbank.Ops F32) (w : ℕ → ℕ → ℝ) (r : List F32), make (fbank someLib) = .ok o ∧ NearTriangles w ∧
    row o ((List.range 400).map fun i : ℕ => fit binary32 ((((i : ℤ) - 500 : ℤ)) : ℚ)) = .ok r ∧
    RowNear w 500 (fun i => (i : ℝ) - 500) r := by
  obtain ⟨o, ho⟩ := C99_constructed someLib_laws
  obtain ⟨w, hw, h⟩ := C104_frame someLib_laws someLib_trig someLib_log ho
  have hr := ramp_near 400 (by norm_num)
  obtain ⟨x, hx⟩ : ∃ x, x = (List.range 400).map fun i : ℕ => fit binary32 ((((i : ℤ) - 500 : ℤ)) : ℚ) := ⟨_, rfl⟩
  have hl : x.length = 400 := by rw [hx, List.length_map, List.length_range]
  rw [← hx, hl] at hr
  rw [← hx]
  obtain ⟨r, h1, h2⟩ := h 500 (by norm_num) (by norm_num) x (fun i => (i : ℝ) - 500) hl hr
  exact ⟨o, w, r, ho, hw, h1, h2⟩

/-- A signal: the samples -500, -499, ..., 499, four frames. -/
example : ∃ (o : Fbank.Ops F32) (w : ℕ → ℕ → ℝ) (rows : List (List F32)), make (fbank someLib) = .ok o ∧ NearTriangles w ∧
    (frames ((List.range 1000).map fun i : ℕ => fit binary32 ((((i : ℤ) - 500 : ℤ)) : ℚ))).mapM (row o) = .ok rows ∧ rows.length = 4 ∧
    ∀ i, i < 4 → ∃ r, rows[i]? = some r ∧ RowNear w 500 (fun j => ((160 * i + j : ℕ) : ℝ) - 500) r := by
  obtain ⟨o, ho⟩ := C99_constructed someLib_laws
  obtain ⟨w, hw, h⟩ := C104_features someLib_laws someLib_trig someLib_log ho
  have hr := ramp_near 1000 le_rfl
  obtain ⟨x, hx⟩ : ∃ x, x = (List.range 1000).map fun i : ℕ => fit binary32 ((((i : ℤ) - 500 : ℤ)) : ℚ) := ⟨_, rfl⟩
  have hl : x.length = 1000 := by rw [hx, List.length_map, List.length_range]
  rw [← hx] at hr ⊢
  obtain ⟨rows, h1, h2, h3⟩ := h 500 (by norm_num) (by norm_num) x (fun i => (i : ℝ) - 500) hr
  rw [hl] at h2
  have h2' : rows.length = 4 := h2
  rw [h2'] at h3
  exact ⟨o, w, rows, ho, hw, h1, h2', h3⟩

/-- There is such a library, an object made with it, and two seconds of audio in two pieces, with 198 rows. -/
example : ∃ (o : Fbank.Ops F32) (w : ℕ → ℕ → ℝ) (cs : List (Junk F32 × List F32)) (rows : List (List F32)) (rest : List F32),
    make (fbank someLib) = .ok o ∧ NearTriangles w ∧ cs.length = 2 ∧ feed o [] cs = .ok (rows, rest) ∧ rows.length = 198 ∧
    ∀ i, i < 198 → ∃ r, rows[i]? = some r ∧
      RowNear w 32768 (fun j => ((Pcm.Spec.samples 2 (List.replicate 64000 128)).getD (160 * i + j) 0 : ℤ)) r := by
  obtain ⟨o, ho⟩ := C99_constructed someLib_laws
  obtain ⟨w, hw, h⟩ := C104_audio someLib_laws someLib_trig someLib_log ho
  obtain ⟨x, hx⟩ : ∃ x, x = (Pcm.Spec.samples 2 (List.replicate 64000 128)).map fun n : ℤ => fit binary32 (n : ℚ) := ⟨_, rfl⟩
  have hl : x.length = 32000 := by
    rw [hx, List.length_map, Pcm.Spec.samples, List.length_map, List.length_range, List.length_replicate]
  have j : Junk F32 := ⟨List.replicate 512 .nan, List.replicate 512 .nan, List.length_replicate, List.length_replicate⟩
  have ht : (x.take 300).length = 300 := by rw [List.length_take, hl]; rfl
  have hd : (x.drop 300).length = 31700 := by rw [List.length_drop, hl]
  obtain ⟨rows, rest, h1, h2, h3⟩ := h (List.replicate 64000 128) [(j, x.take 300), (j, x.drop 300)] (by
    intro c hc
    rcases List.mem_cons.mp hc with rfl | hc
    · exact ⟨List.ne_nil_of_length_pos (by rw [ht]; omega), by rw [ht]; omega⟩
    · rw [List.mem_singleton] at hc
      subst hc
      exact ⟨List.ne_nil_of_length_pos (by rw [hd]; omega), by rw [hd]; omega⟩) (by
    rw [← hx]
    simp only [List.map_cons, List.map_nil, List.flatten_cons, List.flatten_nil, List.append_nil, List.take_append_drop])
  rw [List.length_replicate] at h2
  have h2' : rows.length = 198 := h2
  rw [h2'] at h3
  exact ⟨o, w, _, rows, rest, ho, hw, rfl, h1, h2', h3⟩

end Verif.Ieee
