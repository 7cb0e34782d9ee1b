import Verif.IdealProps
import Verif.IeeeTotalExample
import Verif.IeeeScoreExample

/-!
# C107: examples

The model directory and the machine of `IeeeEndExample.lean`; `a.wav` has two frames.
-/

namespace Verif.Ieee.End

open Verif Verif.Text Verif.App.Spec Verif.Main Verif.Main.Spec Verif.Main.Ex Verif.Decoder Verif.Decoder.Beam
open Verif.Ieee.Spec Verif.Ieee.Ex Verif.Nnet.Spec

theorem off_lm {s l s' : Int} {v : Rat} (h : LmCost (env false) s l s' v) : s' = s ∧ v = 0 := by
  cases h with
  | off _ => exact ⟨rfl, rfl⟩
  | silent h => cases h
  | word h => cases h
  | unknown h => cases h

/-- The value of `tenth`. -/
abbrev tn : Rat := 13421773 / 134217728

theorem ring_score {f : List ℝ} {v y : ℝ} (hv : f[0]? = some v) (h : IdealScore (env false) f 1 y) : y = tn * v := by
  obtain ⟨ti, pi, u, r, h1, h2, h3, h4, rfl⟩ := h
  obtain rfl : ti = 1 := by omega
  have : (0 : Int) = (pi : Int) := Option.some.inj h2
  obtain rfl : pi = 0 := by omega
  rw [hv] at h3
  cases h3
  rw [Is.unique h4 tenth_is]

theorem ring_scored {f : List ℝ} {v : ℝ} (hv : f[0]? = some v) : IdealScore (env false) f 1 (tn * v) :=
  ⟨1, 0, v, tn, rfl, rfl, hv, tenth_is, rfl⟩

/-- The paths over no frame and over one. -/
theorem ring_ideal {Y : List (List ℝ)} {f : List ℝ} {v : ℝ} (h0 : Y[0]? = some f) (hv : f[0]? = some v) {p : List (GArc F32)} {s : State}
    {x : ℝ} (h : IdealPath (env false) (0, 0) Y p s x) :
    (emitted p = 0 → s.1 = 0 ∧ x = 0) ∧ (emitted p = 1 → tn - tn * v ≤ x) := by
  have hs : (emitted p = 0 → s.1 = 0 ∧ x = 0) ∧ (emitted p = 1 → (s.1 ≠ 0 ∧ x = tn - tn * v) ∨ (s.1 = 0 ∧ x = tn - tn * v + 1)) := by
    induction h with
    | nil => exact ⟨fun _ => ⟨rfl, rfl⟩, fun h => by cases h⟩
    | @eps p s x w u a l h1 h2 h3 h4 h5 ih =>
      have hs : s.1 ≠ 0 := by
        intro c
        rw [show (env false).g.arcs s.1 = ring.arcs s.1 from rfl, c, ring_zero] at h2
        rw [List.mem_singleton.1 h2] at h3
        cases h3
      rw [show (env false).g.arcs s.1 = ring.arcs s.1 from rfl, ring_other hs] at h2
      obtain rfl : a = ⟨0, 0, one, 0⟩ := by
        rcases List.mem_cons.1 h2 with rfl | h
        · cases h3
        · exact List.mem_singleton.1 h
      obtain ⟨rfl, rfl⟩ := off_lm h5
      obtain rfl := Is.unique h4 one_is
      rw [emitted_eps h3]
      refine ⟨fun h => absurd (ih.1 h).1 hs, fun h => .inr ⟨rfl, ?_⟩⟩
      obtain ⟨-, rfl⟩ := (ih.2 h).resolve_right fun h => hs h.1
      push_cast
      ring
    | @emit p s x y w u a l g h1 h2 h3 h4 h5 h6 h7 ih =>
      rw [emitted_emit h3]
      refine ⟨fun h => by omega, fun h => ?_⟩
      have hp : emitted p = 0 := by omega
      obtain ⟨hs, rfl⟩ := ih.1 hp
      rw [show (env false).g.arcs s.1 = ring.arcs s.1 from rfl, hs, ring_zero] at h2
      obtain rfl := List.mem_singleton.1 h2
      obtain ⟨rfl, rfl⟩ := off_lm h7
      rw [hp, h0] at h4
      cases h4
      rw [ring_score hv h5, Is.unique h6 tenth_is]
      refine .inl ⟨show (1 : Int) ≠ 0 by decide, ?_⟩
      push_cast
      ring
  refine ⟨hs.1, fun h => ?_⟩
  rcases hs.2 h with ⟨-, rfl⟩ | ⟨-, rfl⟩
  · exact le_refl _
  · linarith

/-- Two frames: the word, and the loop once. -/
theorem ring_stays {Y : List (List ℝ)} {f g : List ℝ} {v u : ℝ} (hY : Y.length = 2) (h0 : Y[0]? = some f) (hv : f[0]? = some v)
    (h1 : Y[1]? = some g) (hu : g[0]? = some u) {width : ℝ} (hw : 0 ≤ width) :
    IdealStays (env false) (0, 0) Y width [⟨1, 1, tenth, 1⟩, ⟨1, 0, tenth, 1⟩] (2 * tn - tn * v - tn * u) := by
  have one' : ∀ {i : Nat} {k : List ℝ} {z o : ℝ}, Y[i]? = some k → k[0]? = some z → IdealReach (env false) (0, 0) Y i o →
      ∃ p s x, IdealPath (env false) (0, 0) Y p s x ∧ emitted p = i ∧ o = x + tn - tn * z := by
    rintro i k z o hk hz ⟨p, s, x, a, f', w, y, g1, g2, g3, g4, g5, g6, g7, rfl⟩
    rw [hk] at g5
    cases g5
    refine ⟨p, s, x, g1, g2, ?_⟩
    have ha : a.weight = tenth ∧ a.ilabel = 1 := by
      rcases ring_arc g3 with rfl | rfl | rfl
      · exact ⟨rfl, rfl⟩
      · exact ⟨rfl, rfl⟩
      · exact absurd rfl g4
    rw [ha.2] at g6
    rw [ha.1] at g7
    rw [ring_score hz g6, Is.unique g7 tenth_is]
  have i0 : IdealInside (env false) (0, 0) Y width ([] ++ [⟨1, 1, tenth, 1⟩]) (1, 0) (0 + (tn : Rat) - tn * v + (0 : Rat)) :=
    .emit .nil (show _ ∈ ring.arcs 0 by rw [ring_zero]; exact List.mem_cons_self) (by decide) h0 (ring_scored hv) tenth_is (.off rfl)
      (fun q t x' h e => by
        rw [((ring_ideal h0 hv h).1 e).2]
        linarith)
      (fun o ho => by
        obtain ⟨p, s, x, g1, g2, rfl⟩ := one' h0 hv ho
        rw [((ring_ideal h0 hv g1).1 g2).2]
        linarith)
  have i1 : IdealInside (env false) (0, 0) Y width ([⟨1, 1, tenth, 1⟩] ++ [⟨1, 0, tenth, 1⟩]) (1, 0)
      (0 + (tn : Rat) - tn * v + (0 : Rat) + (tn : Rat) - tn * u + (0 : Rat)) :=
    .emit i0 (show _ ∈ ring.arcs 1 by rw [ring_other (by decide)]; exact List.mem_cons_self) (by decide) h1 (ring_scored hu) tenth_is (.off rfl)
      (fun q t x' h e => by
        have := (ring_ideal h0 hv h).2 e
        push_cast at this ⊢
        linarith)
      (fun o ho => by
        obtain ⟨p, s, x, g1, g2, rfl⟩ := one' (i := 1) h1 hu ho
        have := (ring_ideal h0 hv g1).2 g2
        push_cast at this ⊢
        linarith)
  refine ⟨⟨(1, 0), _, 0, idealInside_path i1, hY.symm, none_is, .inl ⟨rfl, ?_⟩⟩, _, _, i1⟩
  push_cast
  ring

/-- The network of `model` in real numbers. -/
def net' : List (Nnet.Layer ℝ) := [.splice [-1, 0], .narrow 1 0, .relu]

theorem net_means : List.Forall₂ Means net net' := .cons .splice (.cons .narrow (.cons .relu .nil))

theorem net_blurs (X : ℤ → List ℝ) (e : ℝ) : BlursTo net' X e e := .cons .splice (.cons .narrow (.cons .relu .nil))

theorem net_sharp (X : ℤ → List ℝ) (t : ℤ) : sharpAll net' X t = (X (t + -1) ++ X t).map (max 0) := by
  simp [net', sharpAll, sharpOn, sharp]

-- the decoder, for two frames that are one, against frames that are 1.001
example : ∃ bs cs d ws w, Run (env false) (List.replicate 2 [one]) bs cs d ∧ bestPath (env false) { d with eos := true } = .ok (ws, w) ∧
    ∃ p y, IdealTotal (env false) (0, 0) (List.replicate 2 [1001 / 1000]) p y ∧ ws.reverse = wordsOf p ∧ y ≤ 1 / 10 := by
  have hc : Calm (env false) 1 (List.replicate 2 [one]) := ⟨_, tenth_is, fun f hf lp hlp => by
    rw [List.eq_of_mem_replicate hf] at hlp
    rw [List.mem_singleton.1 hlp]
    exact ⟨_, one_is, by norm_num [abs_le]⟩⟩
  have st := env_sturdy false 1 (by omega)
  obtain ⟨d0, d, bs, i1, i2, i3, i4, ws, w, i5⟩ := C101_decoder rfl st ring_lively (W := 1) (S := 1) (by norm_num) (by norm_num)
    (env_modest false) (List.replicate 2 [one]) hc (fun f hf => by rw [List.eq_of_mem_replicate hf]; rfl)
    (by rw [List.length_replicate]; omega) (by rw [List.length_replicate]; norm_num) (le_refl (2 ^ 62 * (2 + 1) ^ 1))
  obtain ⟨cs, hr⟩ := run_of_fold _ (.init i1) i2
  rw [List.nil_append] at hr
  refine ⟨bs, cs, d, ws, w, hr, i5, ?_⟩
  have hs : StartState (env false) (0, 0) := ⟨rfl, .inl ⟨rfl, rfl⟩⟩
  have hq : |((tn : Rat) : ℝ)| = 13421773 / 134217728 := by
    rw [abs_of_pos (by norm_num [tn])]
    norm_num [tn]
  have hst : IdealStays (env false) (0, 0) (List.replicate 2 [1001 / 1000]) 15 _ _ :=
    ring_stays (v := 1001 / 1000) (u := 1001 / 1000) List.length_replicate rfl rfl rfl rfl (by norm_num)
  obtain ⟨-, p, y, k1, k2, k3⟩ := C107_decoder (q := tn) (d := 1 / 1000) (n := 5) (B := 18) (Y := List.replicate 2 [1001 / 1000]) rfl (by norm_num)
    (by norm_num) (by norm_num) hr hs
    (C102_few st (env_compact false) (by decide) _) (modest_mild st (by norm_num) (by norm_num) (env_modest false) hc hs
      (by rw [List.length_replicate]) (by norm_num) true)
    (beside_replicate (.cons ⟨1, ⟨1, one_is, by norm_num⟩, by norm_num [abs_le]⟩ .nil) 2) tenth_is (by norm_num) i5 (width := 15)
    (by rw [List.length_replicate, hq]; norm_num) ⟨_, _, hst⟩
  refine ⟨p, y, k1, k2, (k3 _ _ hst).trans ?_⟩
  rw [List.length_replicate, hq]
  norm_num [tn]

-- `a.wav`, two frames
example (junk : Nat → Main.Junk F32) : ∃ r u Fs t p y ws Y, NearTriangles u ∧
    FeaturesOf u 32768 (fun n => ((Pcm.Spec.samples 1 (List.replicate 560 3)).getD n 0 : ℤ)) 2 Fs ∧
    Y = (List.range 2).map (fun t : ℕ => List.zipWith (· - ·) (((edge Fs (t + -1) ++ edge Fs t)).map (max 0)) (List.replicate 80 0)) ∧
    main pc world junk [[100, 47, 99], [97, 46, 119, 97, 118]] = ⟨[.line t], .ok ()⟩ ∧ IdealTotal (r : Stt.Rec F32 F64).dec (0, 0) Y p y ∧
    (∃ p' x, IdealStays r.dec (0, 0) Y 15 p' x) ∧ (∀ p' x, IdealStays r.dec (0, 0) Y 15 p' x → y ≤ x + 1 / 50) ∧
    (∀ (i : Nat) id word, (wordsOf p)[i]? = some id → ws[i]? = some word → Spells model.symbols id word) ∧
    ws.length = (wordsOf p).length ∧ t = join [32] ws := by
  have hq : |((tn : Rat) : ℝ)| = 13421773 / 134217728 := by
    rw [abs_of_pos (by norm_num [tn])]
    norm_num [tn]
  obtain ⟨r, u, Fs, hr, hu, hF, hb, h⟩ := C107_program someLib_laws someLib_trig someLib_log someNnLib_laws someNnLib_close pc rfl fbOf_made
    rfl rfl world [100, 47, 99] (App.Ex.confOf defs) defs model conf_file conf_ok installed model_ok 80 80 pc_fits (a := 7) (D := 0)
    net_robust
    (fun x hx => by
      rw [List.eq_of_mem_replicate hx]
      exact ⟨0, none_is, by norm_num⟩) (by omega) (ms := net') net_means (Q := List.replicate 80 0)
    (show List.Forall₂ Worth ((List.replicate 80 0).map _) _ by
      rw [List.map_replicate]
      exact beside_replicate ⟨0, none_is, by norm_num⟩ 80) [97, 46, 119, 97, 118] (header 48 2 ++ List.replicate 560 3)
    (List.replicate 560 3) 1 (.inl rfl) (isWav_of [97] rfl) rfl (header_ok _ _ _)
  have hn : (if (List.replicate 560 (3 : UInt8)).length / 1 < 400 then 0 else ((List.replicate 560 (3 : UInt8)).length / 1 - 400) / 160 + 1) = 2 := by
    rw [List.length_replicate]
    rfl
  rw [hn] at hF
  have hlen : Fs.length = 2 := hF.1
  have hne : Fs ≠ [] := fun c => by rw [c] at hlen; cases hlen
  have h40 : ∀ t, (edge Fs t).length = 40 := fun t => by
    obtain ⟨i, hi⟩ := List.getElem?_of_mem (edge_mem hne t)
    exact (hF.2 i _ hi).1
  have h129 : ∀ t, ∀ v ∈ sharpAll net' (edge Fs) t, |v| ≤ 129 := by
    intro t v hv
    rw [net_sharp] at hv
    obtain ⟨x, hx, rfl⟩ := List.mem_map.mp hv
    have : |x| ≤ 129 := by
      rcases List.mem_append.mp hx with hx | hx
      · exact hb _ (edge_mem hne _) x hx
      · exact hb _ (edge_mem hne _) x hx
    rw [abs_of_nonneg (le_max_left 0 x)]
    exact max_le (by norm_num) ((le_abs_self x).trans this)
  have hrow : ∀ t : ℕ, ∃ v, (List.zipWith (· - ·) (sharpAll net' (edge Fs) t) (List.replicate 80 0))[0]? = some v := by
    intro t
    refine ⟨_, List.getElem?_eq_getElem ?_⟩
    rw [List.length_zipWith, net_sharp, List.length_map, List.length_append, h40, h40, List.length_replicate]
    decide
  obtain ⟨v0, hv0⟩ := hrow 0
  obtain ⟨v1, hv1⟩ := hrow 1
  rw [pc_env hr] at h
  obtain ⟨t, t1, t2⟩ := h (1 / 10000) 129 0 (1 / 1000) _ (net_blurs _ _) h129
    (fun v hv => by rw [List.eq_of_mem_replicate hv]; norm_num) (by norm_num) (by norm_num) (by norm_num) rfl (0, 0) (· = 0) 2 1 2 1 1 _ 1000 5
    ⟨rfl, .inl ⟨rfl, rfl⟩⟩ (env_sturdy false 80 (by omega)) ring_lively
    (by norm_num) (env_modest false) tenth_is ring_words (by decide) (env_compact false) (by decide) (by rw [hlen]) (by decide)
    (by norm_num) (by norm_num) (by norm_num) 15 (by rw [hlen, hq]; norm_num) junk
  have hst := ring_stays (Y := (List.range Fs.length).map (fun t : ℕ => List.zipWith (· - ·) (sharpAll net' (edge Fs) t) (List.replicate 80 0)))
    (width := 15) (by rw [List.length_map, List.length_range, hlen]) (by rw [hlen]; rfl) hv0 (by rw [hlen]; rfl) hv1 (by norm_num)
  obtain ⟨p, y, ws, g1, g2, g3, g4, g5⟩ := t2 ⟨_, _, hst⟩
  refine ⟨r, u, Fs, t, p, y, ws, _, hu, hF, rfl, t1, ?_⟩
  rw [pc_env hr, show (fun t : ℕ => List.zipWith (· - ·) (((edge Fs (t + -1) ++ edge Fs t)).map (max 0)) (List.replicate 80 0)) =
    fun t : ℕ => List.zipWith (· - ·) (sharpAll net' (edge Fs) t) (List.replicate 80 0) from funext fun t => by rw [net_sharp], ← hlen]
  refine ⟨g1, ⟨_, _, hst⟩, fun p' x hx => (g2 p' x hx).trans ?_, g4, g3, g5⟩
  rw [hlen, hq]
  norm_num
  linarith

end Verif.Ieee.End
