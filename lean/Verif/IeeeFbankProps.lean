import Verif.IeeeFbankRow
import Verif.FbankFullProps
import Mathlib.Analysis.SpecialFunctions.Trigonometric.Bounds
import Mathlib.Analysis.SpecialFunctions.Log.Deriv
import Mathlib.Analysis.Complex.ExponentialBounds

/-!
# C99: no audio makes the features infinite or NaN
-/

namespace Verif.Ieee

open Verif Verif.Srfft Verif.Ieee.Spec Verif.Fbank Verif.Fbank.Spec

/-! ## Samples -/

theorem leVal_lt : ∀ bs : List UInt8, Pcm.Spec.leVal bs < 256 ^ bs.length
  | [] => by decide
  | b :: bs => by
    have h1 := leVal_lt bs
    have h2 := b.toNat_lt
    rw [Pcm.Spec.leVal, List.length_cons, pow_succ]
    omega

theorem signed_abs {b : ℕ} {bs : List UInt8} (hb : bs.length = b) (h4 : b ≤ 4) : |Pcm.Spec.signed b bs| ≤ 2 ^ 31 := by
  have h1 := leVal_lt bs
  rw [hb] at h1
  have h2 : 256 ^ b ≤ 2 ^ 32 := (Nat.pow_le_pow_right (by omega) h4).trans (by norm_num)
  have h3 : ((256 ^ b : ℕ) : ℤ) = 256 ^ b := by push_cast; rfl
  unfold Pcm.Spec.signed
  rw [← h3, abs_le]
  split <;> constructor <;> omega

theorem sample_mag {b : ℕ} (h0 : 1 ≤ b) (h4 : b ≤ 4) {data : List UInt8} {n : ℤ} (h : n ∈ Pcm.Spec.samples b data) :
    Mag 31 (fit binary32 n) := by
  obtain ⟨i, hi, rfl⟩ := List.mem_map.mp h
  rw [List.mem_range] at hi
  refine fit_mag (by rw [top32]; omega) ?_
  have hl : ((data.drop (b * i)).take b).length = b := by
    rw [List.length_take, List.length_drop]
    have h1 : b * (i + 1) ≤ b * (data.length / b) := Nat.mul_le_mul_left _ hi
    have h2 := Nat.mul_div_le data.length b
    rw [Nat.mul_add] at h1
    omega
  exact_mod_cast signed_abs hl h4

theorem frames_mag {x : List F32} (hx : ∀ v ∈ x, Mag 31 v) {f : List F32} (hf : f ∈ frames x) :
    f.length = 400 ∧ ∀ v ∈ f, Mag 31 v := by
  obtain ⟨-, h⟩ := C27_frames x
  obtain ⟨i, hi, e⟩ := List.mem_iff_getElem.mp hf
  obtain ⟨g, eg, hg, -⟩ := h i hi
  rw [List.getElem?_eq_getElem hi, e] at eg
  obtain rfl := Option.some.inj eg
  refine ⟨hg, fun v hv => hx v ?_⟩
  obtain ⟨j, -, rfl⟩ := List.mem_map.mp hf
  exact List.mem_of_mem_drop (List.mem_of_mem_take hv)

theorem rows_between {lib : Lib} {bins : List (ℕ × List F32)} (hl : LibLaws lib) (hlen : bins.length = 40)
    (hbins : ∀ b ∈ bins, b.1 + b.2.length ≤ 256 ∧ ∀ w ∈ b.2, Pos 0 w) : ∀ {xs : List (List F32)},
    (∀ x ∈ xs, x.length = 400 ∧ ∀ v ∈ x, Mag 31 v) →
    ∃ rows, xs.mapM (row (builtWith lib bins)) = .ok rows ∧ rows.length = xs.length ∧
      ∀ r ∈ rows, r.length = 40 ∧ ∀ v ∈ r, Between (-16) 89 v
  | [], _ => ⟨[], rfl, rfl, by simp⟩
  | x :: xs, h => by
    obtain ⟨r, er, hr⟩ := row_between hl hlen hbins (h x List.mem_cons_self).1 (h x List.mem_cons_self).2
    obtain ⟨rows, es, h1, h2⟩ := rows_between hl hlen hbins (xs := xs) fun y hy => h y (List.mem_cons_of_mem _ hy)
    refine ⟨r :: rows, ?_, by rw [List.length_cons, List.length_cons, h1], ?_⟩
    · rw [List.mapM_cons, er]
      show (xs.mapM (row (builtWith lib bins)) >>= fun ys => (.ok (r :: ys) : Exec _)) = _
      rw [es]
      rfl
    · intro y hy
      rcases List.mem_cons.mp hy with rfl | hy
      · exact hr
      · exact h2 y hy

/-! ## C99 -/

/-- C99, the constructor.  With rounding, too, the mel filters are not empty: the constructor of `Fbank` never stops at its
assertion. -/
theorem C99_constructed {lib : Lib} (hl : LibLaws lib) : ∃ o, make (fbank lib) = .ok o := by
  obtain ⟨bins, hb, -⟩ := filters_ok hl
  exact ⟨_, make_built hb⟩

/-- C99, the features.  Whatever the bytes of the audio are, with one, two or four bytes to a sample, the computation of the
features of all frames comes to its end: no `assert` of `ApplyLog` fires, and every feature is a number between -16 and 89,
neither infinite nor NaN. -/
theorem C99_finite {lib : Lib} (hl : LibLaws lib) {o : Fbank.Ops F32} (ho : make (fbank lib) = .ok o) {b : ℕ}
    (hb : b = 1 ∨ b = 2 ∨ b = 4) (data : List UInt8) (x : List F32)
    (hx : x = (Pcm.Spec.samples b data).map fun n : ℤ => fit binary32 (n : ℚ)) :
    ∃ rows, (frames x).mapM (row o) = .ok rows ∧ rows.length = (frames x).length ∧
      ∀ r ∈ rows, r.length = 40 ∧ ∀ v ∈ r, Between (-16) 89 v := by
  obtain ⟨bins, h1, h2, h3⟩ := filters_ok hl
  have e : o = builtWith lib bins := Except.ok.inj (ho.symm.trans (make_built h1))
  rw [e]
  refine rows_between hl h2 h3 fun f hf => frames_mag (x := x) (fun v hv => ?_) hf
  rw [hx] at hv
  obtain ⟨n, hn, rfl⟩ := List.mem_map.mp hv
  exact sample_mag (by omega) (by omega) hn

/-- C99, as the audio comes in.  However the samples are cut into pieces of fewer than 536870500 samples, every call of
`Fbank::Process` comes to its end, and every feature is a number between -16 and 89.  Missing: larger pieces, whose buffer
does not fit `int`. -/
theorem C99_feed_partial {lib : Lib} (hl : LibLaws lib) {o : Fbank.Ops F32} (ho : make (fbank lib) = .ok o) {b : ℕ}
    (hb : b = 1 ∨ b = 2 ∨ b = 4) (data : List UInt8) (cs : List (Junk F32 × List F32))
    (hcs : ∀ c ∈ cs, c.2 ≠ [] ∧ c.2.length < 536870500)
    (hx : (cs.map Prod.snd).flatten = (Pcm.Spec.samples b data).map fun n : ℤ => fit binary32 (n : ℚ)) :
    ∃ rows rest, feed o [] cs = .ok (rows, rest) ∧ ∀ r ∈ rows, r.length = 40 ∧ ∀ v ∈ r, Between (-16) 89 v := by
  obtain ⟨rows, h1, -, h2⟩ := C99_finite hl ho hb data _ hx
  have e := C27_constructed_partial ho cs hcs _ rfl
  rw [h1] at e
  exact ⟨rows, _, e, h2⟩

/-! ## A library -/

/-- The largest multiple of 2^-30 that is not above a real number. -/
noncomputable def cut (r : ℝ) : ℚ := (⌊r * 2 ^ 30⌋ : ℚ) / 2 ^ 30

theorem cut_err (r : ℝ) : |(cut r : ℝ) - r| ≤ 1 / 2 ^ 30 := by
  have h1 := Int.floor_le (r * 2 ^ 30)
  have h2 := Int.lt_floor_add_one (r * 2 ^ 30)
  unfold cut
  push_cast
  rw [abs_le]
  constructor
  · rw [neg_le_sub_iff_le_add, ← add_div, le_div_iff₀ (by positivity)]
    exact h2.le
  · rw [sub_le_iff_le_add, div_le_iff₀ (by positivity), add_mul]
    have h3 : (0 : ℝ) ≤ 1 / 2 ^ 30 * 2 ^ 30 := by positivity
    exact h1.trans (le_add_of_nonneg_left h3)

theorem le_cut {n : ℤ} {r : ℝ} (h : (n : ℝ) / 2 ^ 6 ≤ r) : (n : ℚ) / 2 ^ 6 ≤ cut r := by
  unfold cut
  rw [div_le_div_iff₀ (by positivity) (by positivity)]
  have : n * 2 ^ 24 ≤ ⌊r * 2 ^ 30⌋ := Int.le_floor.mpr (by
    push_cast
    rw [div_le_iff₀ (by positivity)] at h
    linarith)
  have : (n : ℚ) * 2 ^ 24 ≤ ⌊r * 2 ^ 30⌋ := by exact_mod_cast this
  linarith

theorem cut_le {n : ℤ} {r : ℝ} (h : r ≤ (n : ℝ) / 2 ^ 6) : cut r ≤ (n : ℚ) / 2 ^ 6 := by
  have h1 := Int.floor_le (r * 2 ^ 30)
  have : (cut r : ℝ) ≤ ((n : ℚ) / 2 ^ 6 : ℚ) := by
    unfold cut
    push_cast
    rw [div_le_iff₀ (by positivity)]
    exact h1.trans (mul_le_mul_of_nonneg_right h (by positivity))
  exact_mod_cast this

/-- A function of the C library that works out the real function up to 2^-30 and rounds. -/
noncomputable def lift (g : Format) [Good g] (u : ℝ → ℝ) : F32 → Fl g
  | .num q _ => fit g (cut (u q))
  | _ => .nan

/-- A C library. -/
noncomputable def someLib : Lib where
  cos := lift _ Real.cos
  sin := lift _ Real.sin
  log := lift _ Real.log
  logf := lift _ Real.log

theorem lift_is {g : Format} [Good g] {u : ℝ → ℝ} {x : F32} {q : ℚ} (h : Is x q) : lift g u x = fit g (cut (u q)) := by
  obtain ⟨_, rfl⟩ := h
  rfl

theorem is_lt {x : F32} {q : ℚ} (h : Is x q) : |q| < 2 ^ 128 := by
  obtain ⟨h, -⟩ := h
  have := h.2
  rw [top32, pow2_eq] at this
  exact_mod_cast this

theorem someLib_laws : LibLaws someLib where
  cos := fun {x q} h => by
    have e : someLib.cos x = fit binary64 (cut (Real.cos q)) := lift_is h
    rw [e]
    have r1 : Rep binary64 1 := by have := rep64 (n := 1) (by norm_num); simpa using this
    refine fit_le r1 (abs_le.mpr ⟨?_, ?_⟩)
    · have := le_cut (n := -64) (r := Real.cos q) (by have := Real.neg_one_le_cos (q : ℝ); norm_num; linarith)
      norm_num at this; exact this
    · have := cut_le (n := 64) (r := Real.cos q) (by have := Real.cos_le_one (q : ℝ); norm_num; linarith)
      norm_num at this; exact this
  sin := fun {x q} h => by
    have e : someLib.sin x = fit binary64 (cut (Real.sin q)) := lift_is h
    rw [e]
    have r1 : Rep binary64 1 := by have := rep64 (n := 1) (by norm_num); simpa using this
    have r2 : Rep binary64 (1 / 64) := by
      have := rep_scale (f := binary64) (n := 1) (k := -6) (by decide) (by decide) (by rw [top64]; decide)
      rw [show ((1 : ℕ) : ℚ) * pow2 (-6) = 1 / 64 by rw [pow2_eq]; norm_num] at this
      exact this
    have h1 : |cut (Real.sin q)| ≤ 1 := by
      refine abs_le.mpr ⟨?_, ?_⟩
      · have := le_cut (n := -64) (r := Real.sin q) (by have := Real.neg_one_le_sin (q : ℝ); norm_num; linarith)
        norm_num at this; exact this
      · have := cut_le (n := 64) (r := Real.sin q) (by have := Real.sin_le_one (q : ℝ); norm_num; linarith)
        norm_num at this; exact this
    obtain ⟨s, hs, hs1⟩ := fit_le r1 h1
    refine ⟨s, hs, hs1, fun hq => ?_⟩
    have hq' : |(q : ℝ)| ≤ 1 / 64 := by
      have : ((|q| : ℚ) : ℝ) ≤ ((1 / 64 : ℚ) : ℝ) := Rat.cast_le.mpr hq
      push_cast at this
      exact this
    have h2 := abs_le.mp ((Real.abs_sin_le_abs (x := (q : ℝ))).trans hq')
    have h3 : |cut (Real.sin q)| ≤ 1 / 64 := by
      refine abs_le.mpr ⟨?_, ?_⟩
      · have := le_cut (n := -1) (r := Real.sin q) (by norm_num; linarith [h2.1])
        norm_num at this; linarith
      · have := cut_le (n := 1) (r := Real.sin q) (by norm_num; linarith [h2.2])
        norm_num at this; linarith
    obtain ⟨t, ht, ht1⟩ := fit_le r2 h3
    rw [Is.unique hs ht]
    exact ht1
  log := fun {x q} h hq => by
    have e : someLib.log x = fit binary32 (cut (Real.log q)) := lift_is h
    rw [e]
    have hq' : ((1 / 2 ^ 23 : ℚ) : ℝ) ≤ q := Rat.cast_le.mpr hq
    have hq'' : (q : ℝ) ≤ ((2 ^ 128 : ℚ) : ℝ) := Rat.cast_le.mpr ((le_abs_self q).trans (is_lt h).le)
    push_cast at hq' hq''
    have q0 : (0 : ℝ) < q := lt_of_lt_of_le (by positivity) hq'
    have l2 := Real.log_two_lt_d9
    have l2' := Real.log_two_gt_d9
    have a1 : -16 ≤ Real.log (q : ℝ) := by
      have := Real.log_le_log (by positivity) hq'
      rw [Real.log_div (by norm_num) (by norm_num), Real.log_one, Real.log_pow] at this
      push_cast at this
      linarith
    have a2 : Real.log (q : ℝ) ≤ 89 := by
      have := Real.log_le_log q0 hq''
      rw [Real.log_pow] at this
      push_cast at this
      linarith
    have r1 : Rep binary32 (-16) := by have := rep_minus (rep_small (n := 16) (by norm_num)); simpa using this
    have r2 : Rep binary32 89 := by have := rep_small (n := 89) (by norm_num); simpa using this
    refine fit_between r1 r2 ?_ ?_
    · have := le_cut (n := -1024) (r := Real.log q) (by norm_num; linarith)
      norm_num at this; exact this
    · have := cut_le (n := 5696) (r := Real.log q) (by norm_num; linarith)
      norm_num at this; exact this
  logf := fun {x q} h h1 h16 => by
    have e : someLib.logf x = fit binary32 (cut (Real.log q)) := lift_is h
    rw [e]
    have q1 : (1 : ℝ) ≤ q := by exact_mod_cast h1
    have q2 : (q : ℝ) ≤ 2 ^ 4 := by
      have : (q : ℝ) ≤ 16 := by exact_mod_cast h16
      linarith
    have l2 := Real.log_two_lt_d9
    have a1 : 0 ≤ Real.log (q : ℝ) := Real.log_nonneg q1
    have a2 : Real.log (q : ℝ) ≤ 4 := by
      have := Real.log_le_log (by linarith) q2
      rw [Real.log_pow] at this
      push_cast at this
      linarith
    have hc : |cut (Real.log q)| ≤ 2 ^ 2 := by
      refine abs_le.mpr ⟨?_, ?_⟩
      · have := le_cut (n := 0) (r := Real.log q) (by norm_num; linarith)
        norm_num at this; linarith
      · have := cut_le (n := 256) (r := Real.log q) (by norm_num; linarith)
        norm_num at this; linarith
    obtain ⟨l, el, hl⟩ := fit_near (k := 2) (by omega) hc (cut_err (Real.log q))
    exact ⟨l, el, hl.trans (by norm_num)⟩

/-- There is such a library, an object made with it, and two seconds of audio, 64000 bytes 128. -/
example : ∃ o, make (fbank someLib) = .ok o ∧ ∃ rows,
    (frames ((Pcm.Spec.samples 2 (List.replicate 64000 128)).map fun n : ℤ => fit binary32 (n : ℚ))).mapM (row o) = .ok rows ∧
    rows.length = 198 := by
  obtain ⟨o, ho⟩ := C99_constructed someLib_laws
  obtain ⟨rows, h1, h2, -⟩ := C99_finite someLib_laws ho (b := 2) (by omega) (List.replicate 64000 128) _ rfl
  refine ⟨o, ho, rows, h1, ?_⟩
  rw [h2, (C27_frames _).1, List.length_map, Pcm.Spec.samples, List.length_map, List.length_range, List.length_replicate]
  rfl

/-- The same audio in two pieces. -/
example : ∃ o, make (fbank someLib) = .ok o ∧ ∃ cs : List (Junk F32 × List F32), cs.length = 2 ∧ ∃ rows rest,
    feed o [] cs = .ok (rows, rest) ∧ ∀ r ∈ rows, r.length = 40 ∧ ∀ v ∈ r, Between (-16) 89 v := by
  obtain ⟨o, ho⟩ := C99_constructed someLib_laws
  have hx : ∃ x, x = (Pcm.Spec.samples 2 (List.replicate 64000 128)).map fun n : ℤ => fit binary32 (n : ℚ) := ⟨_, rfl⟩
  obtain ⟨x, hx⟩ := hx
  have hl : x.length = 32000 := by
    rw [hx, List.length_map, Pcm.Spec.samples, List.length_map, List.length_range, List.length_replicate]
  have j : Junk F32 := ⟨List.replicate 512 .nan, List.replicate 512 .nan, List.length_replicate, List.length_replicate⟩
  refine ⟨o, ho, [(j, x.take 300), (j, x.drop 300)], rfl, ?_⟩
  refine C99_feed_partial someLib_laws ho (b := 2) (by omega) (List.replicate 64000 128) _ ?_ ?_
  · intro c hc
    have ht : (x.take 300).length = 300 := by rw [List.length_take, hl]; rfl
    have hd : (x.drop 300).length = 31700 := by rw [List.length_drop, hl]
    rcases List.mem_cons.mp hc with rfl | hc
    · exact ⟨List.ne_nil_of_length_pos (by rw [ht]; omega), by rw [ht]; omega⟩
    · rw [List.mem_singleton] at hc
      subst hc
      exact ⟨List.ne_nil_of_length_pos (by rw [hd]; omega), by rw [hd]; omega⟩
  · rw [← hx]
    simp only [List.map_cons, List.map_nil, List.flatten_cons, List.flatten_nil, List.append_nil, List.take_append_drop]

end Verif.Ieee
