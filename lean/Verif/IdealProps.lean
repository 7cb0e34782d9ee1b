import Verif.IdealLemmas
import Verif.IeeeScoreProps
import Verif.IeeeTotalProps

/-!
# C107: what is recognised, against recognition in real numbers

C106 says how far the scores are from those of the network without rounding, and C98 and C102 what the decoder makes of scores as
they are.  Together: what the program prints, against real numbers from the features on.  Cases that meet all hypotheses are in
`IdealExample.lean`.
-/

namespace Verif.Ieee

open Verif Verif.Text Verif.App.Spec Verif.Decoder Verif.Decoder.Beam Verif.Ieee.Spec Verif.Main Verif.Main.Spec Verif.Nnet Verif.Nnet.Spec
open Verif.Fbank

/-- **C107, the decoder.** The frames are within `d` of frames `Y` of real numbers, and the costs as in C98.  Then the answer of the
decoder is the words of a path which, by `Y` and without rounding, costs at most `2 * (n + 1) * B / 2 ^ 20` and twice what the scores
are off along a path more than any path that stays inside the beam less the margin, if there is one. -/
theorem C107_decoder {e : Env F32 F64} {s0 : State} {rows : List (List F32)} {Y : List (List ℝ)} {B q : Rat} {d : ℝ} {n : Nat}
    (he : e.ar = machine) (hB : 16 ≤ B) (hT : B ≤ 2 ^ 100) (hn : n ≤ 2 ^ 20) {bs : List Bool} {cs : List (Option (Cutoffs F32 F64))}
    {dec : Dec F32} (h : Run e rows bs cs dec) (hs : StartState e s0) (hfew : Few e rows) (hm : Mild e s0 rows true B n)
    (hY : List.Forall₂ (CloseTo d) rows Y) (hq : Is e.amScale q) (hd : 0 ≤ d) {ws : List Int} {w : F32}
    (ha : bestPath e { dec with eos := true } = .ok (ws, w)) {width : ℝ}
    (hw : width + 2 * (rows.length * (|(q : ℝ)| * d)) + (2 * n + 4) * (B / 2 ^ 20) ≤ 16) (hp : ∃ p x, IdealStays e s0 Y width p x) :
    (∀ b ∈ bs, b = true) ∧ ∃ p y, IdealTotal e s0 Y p y ∧ ws.reverse = wordsOf p ∧
      ∀ p' x, IdealStays e s0 Y width p' x → y ≤ x + 2 * (n + 1) * (B / 2 ^ 20) + 2 * (rows.length * (|(q : ℝ)| * d)) := by
  have hwide : width + 2 * (rows.length * (|(q : ℝ)| * d)) ≤ ((16 - (2 * n + 4) * (B / 2 ^ 20) : Rat) : ℝ) := by
    push_cast
    linarith
  obtain ⟨p0, x0, h0⟩ := hp
  obtain ⟨z0, k0, -⟩ := ideal_stays hY hq hd hm hwide h0
  obtain ⟨b1, p, y, g1, g2, g3⟩ := C98_answer he hB hT hn h hs hfew hm ha (width := 16 - (2 * n + 4) * (B / 2 ^ 20)) (by linarith)
    ⟨p0, z0, k0⟩
  obtain ⟨y', y1, y2⟩ := total_ideal hY hq g1
  refine ⟨b1, p, y', y1, g2, fun p' x hx => ?_⟩
  obtain ⟨z, k1, k2⟩ := ideal_stays hY hq hd hm hwide hx
  have k3 : (y : ℝ) ≤ ((z + 2 * (n + 1) * (B / 2 ^ 20) : Rat) : ℝ) := Rat.cast_le.mpr (g3 p' z k1)
  push_cast at k3
  linarith [(abs_le.mp y2).1, (abs_le.mp k2).2]

/-- **C107, the program.** A model as in `C102_program` whose network is that of C106, and audio of 8 or 16 bits: there are features
`Fs`, exact for a spectrum right up to 32768, so that the line the program writes is the words of a path which, by the network in real
numbers on `Fs` and with no rounding anywhere, costs at most `2 * (n + 1) * B / 2 ^ 20 + 2 * frames * |scale| * d` more than any path
that stays inside the beam less that margin, if there is one.  `d` is the bound of C106 on the error of a score. -/
theorem C107_program {G : Type} {lib : Lib} {nlib : NnLib} {vm : List F32 → List (List F32) → List F32} (hl : LibLaws lib)
    (ht : TrigLaws lib) (hlg : LogLaws lib) (hnl : NnLaws nlib vm) (hsl : ScoreLaws nlib vm) (mach : Machine G F32 F64)
    (har : mach.ar = machine) (hfb : Fbank.make (fbank lib) = .ok mach.fb)
    (hcv : mach.conv = fun n : ℤ => fit binary32 (n : ℚ)) (hnn : mach.nn = nnet nlib) (w : App.World G) (conf bytes : Str)
    (defs : List (Str × Str)) (m : App.Spec.Model G) (hf : w.file conf = some bytes) (hc : IsConf bytes defs)
    (hi : Installed w conf defs m) (ho : m.Ok w) (e wd : Nat) (hfit : Fits mach m vm e wd) {a D : ℕ}
    (hg : Robust (m.layers.map (valueLayer fun x => mach.word (some x))) 7 a)
    (hp : ∀ x ∈ m.prior, AtMost D (mach.word (some (w.log x)))) (had : max a D + 1 ≤ 126)
    {ms : List (Layer ℝ)} (hms : List.Forall₂ Means (m.layers.map (valueLayer fun x => mach.word (some x))) ms) {Q : List ℝ}
    (hQ : List.Forall₂ Worth (m.prior.map fun x => mach.word (some (w.log x))) Q)
    (input : Str) (file data : List UInt8) (b : Nat) (hb : b = 1 ∨ b = 2) (hwav : IsWav input) (hfile : w.file input = some file)
    (ha : IsAudio file b data) :
    ∃ r u Fs, IsRec mach w m r ∧ NearTriangles u ∧
      FeaturesOf u 32768 (fun n => ((Pcm.Spec.samples b data).getD n 0 : ℤ))
        (if data.length / b < 400 then 0 else (data.length / b - 400) / 160 + 1) Fs ∧ (∀ F ∈ Fs, ∀ v ∈ F, |v| ≤ 129) ∧
      ∀ (e' N C d : ℝ) (Y : List (List ℝ)), BlursTo ms (edge Fs) (1 / 10000) e' → (∀ t, ∀ v ∈ sharpAll ms (edge Fs) t, |v| ≤ N) →
      (∀ v ∈ Q, |v| ≤ C) → N + e' + C + 1 ≤ 2 ^ 100 → e' + (N + e' + C + 1) / 2 ^ 24 ≤ d → 0 ≤ d →
      Y = (List.range Fs.length).map (fun t : ℕ => List.zipWith (· - ·) (sharpAll ms (edge Fs) t) Q) →
      ∀ (s0 : State) (P : Int → Prop) (M k K L : Nat) (W q B : Rat) (n : Nat), StartState r.dec s0 → Sturdy r.dec P e M k →
      Lively r.dec.g → 0 ≤ W → Modest r.dec P W → Is mach.amScale q →
      (∀ s, ∀ a ∈ r.dec.g.arcs s, a.olabel ≠ 0 → ∃ v, Spells m.symbols a.olabel v) →
      2 ^ 62 * (M + 1) ^ k ≤ mach.fuel → Compact r.dec P K L → K * L ≤ 30000 →
      n = Fs.length * (k + 1) + k → n < 100000 →
      ((n + 1 : Nat) : Rat) * (2 * W + |q| * 2 ^ (max a D + 1)) ≤ B → 16 ≤ B → B ≤ 2 ^ 100 →
      ∀ width : ℝ, width + 2 * (Fs.length * (|(q : ℝ)| * d)) + (2 * n + 4) * (B / 2 ^ 20) ≤ 16 →
      ∀ junk : Nat → Main.Junk F32, ∃ t, main mach w junk [conf, input] = ⟨[.line t], .ok ()⟩ ∧
        ((∃ p x, IdealStays r.dec s0 Y width p x) → ∃ p y ws, IdealTotal r.dec s0 Y p y ∧
          (∀ p' x, IdealStays r.dec s0 Y width p' x → y ≤ x + 2 * (n + 1) * (B / 2 ^ 20) + 2 * (Fs.length * (|(q : ℝ)| * d))) ∧
          ws.length = (wordsOf p).length ∧
          (∀ (i : Nat) id word, (wordsOf p)[i]? = some id → ws[i]? = some word → Spells m.symbols id word) ∧
          t = join [32] ws) := by
  obtain ⟨r, rows, hir, hsc, key⟩ := C102_program hl hnl mach har hfb hcv hnn w conf bytes defs m hf hc hi ho e wd hfit hg hp had
    input file data b hwav hfile ha
  have S := sound_of_fits hir hfit
  obtain ⟨rows1, hsc1, hat⟩ := C100_all hl hnl (r := r) (by rw [hir.fb]; exact hfb) (by rw [hir.conv]; exact hcv)
    (by rw [hir.nn]; exact hnn) S.hb (by
      have h1 := S.hsize
      have h2 : 1 * wd ≤ (m.chunk + m.left + m.right + m.right) * wd := Nat.mul_le_mul_right _ (by have := S.hc; omega)
      omega) (by rw [hir.layers]; exact hg)
    (by
      rw [hir.prior]
      intro v hv
      obtain ⟨x, hx, rfl⟩ := List.mem_map.1 hv
      exact hp x hx) had ha.1 data
  obtain rfl := scores_unique hsc hsc1
  obtain ⟨u, hu, hfeat⟩ := C106_audio hl ht hlg hsl (r := r) (by rw [hir.fb]; exact hfb) (by rw [hir.conv]; exact hcv)
    (by rw [hir.nn]; exact hnn) S.hb (ms := ms) (by rw [hir.layers]; exact hms) (Q := Q) (by rw [hir.prior]; exact hQ) hb
  obtain ⟨Fs, f1, f2, f3⟩ := hfeat data
  refine ⟨r, u, Fs, hir, hu, f1, f2, fun e' N C d Y h1 h2 h3 h4 h5 h6 hYe s0 P M k K L W q B n hs hst hv hW hm hq hw hfu hK hKM hn hn1 hB hB1
    hB2 width hwd junk => ?_⟩
  obtain ⟨rows2, hsc2, hlen, hclose⟩ := f3 e' N C h1 h2 h3 h4
  obtain rfl := scores_unique hsc hsc2
  have hY : List.Forall₂ (CloseTo d) rows Y := by
    rw [hYe]
    refine beside_at (by rw [hlen, List.length_map, List.length_range]) fun t V hV => ?_
    have ht : t < Fs.length := by
      have := (List.getElem?_eq_some_iff.mp hV).1
      rwa [List.length_map, List.length_range] at this
    rw [List.getElem?_map, List.getElem?_range ht] at hV
    have hr : rows[t]? = some (rows[t]'(by omega)) := List.getElem?_eq_getElem _
    refine ⟨_, hr, ?_⟩
    rw [← Option.some.inj hV]
    refine (hclose t _ hr).imp fun x X hx => ?_
    obtain ⟨c, c1, c2⟩ := hx
    exact ⟨c, c1, c2.trans h5⟩
  have hqd : Is r.dec.amScale q := by rw [hir.amScale]; exact hq
  have hq0 : 0 ≤ |q| * 2 ^ (max a D + 1) := mul_nonneg (abs_nonneg q) (by positivity)
  have hcalm : Calm r.dec (|q| * 2 ^ (max a D + 1)) rows := by
    refine ⟨q, hqd, fun f hf lp hlp => ?_⟩
    obtain ⟨x, hx, hx'⟩ := hat f hf lp hlp
    exact ⟨x, hx, by rw [abs_mul]; exact mul_le_mul_of_nonneg_left hx' (abs_nonneg q)⟩
  have hmild : Mild r.dec s0 rows true B n := modest_mild hst hW hq0 hm hcalm hs (by rw [hlen, hn]) (by exact_mod_cast hB) true
  have hwide : width + 2 * (rows.length * (|(q : ℝ)| * d)) ≤ ((16 - (2 * n + 4) * (B / 2 ^ 20) : Rat) : ℝ) := by
    rw [hlen]
    push_cast
    linarith
  obtain ⟨t, t1, t2⟩ := key s0 P M k K L W q B n hs hst hv hW hm hq hw hfu hK hKM (by rw [hlen]; exact hn) hn1 hB hB1 hB2
    (16 - (2 * n + 4) * (B / 2 ^ 20)) (by linarith) junk
  refine ⟨t, t1, fun hex => ?_⟩
  obtain ⟨p0, x0, h0⟩ := hex
  obtain ⟨z0, k0, -⟩ := ideal_stays hY hqd h6 hmild hwide h0
  obtain ⟨p, y, ws, g1, g2, g3, g4, g5⟩ := t2 ⟨p0, z0, k0⟩
  obtain ⟨y', y1, y2⟩ := total_ideal hY hqd g1
  refine ⟨p, y', ws, y1, fun p' x hx => ?_, g3, g4, g5⟩
  obtain ⟨z, k1, k2⟩ := ideal_stays hY hqd h6 hmild hwide hx
  have k3 : (y : ℝ) ≤ ((z + 2 * (n + 1) * (B / 2 ^ 20) : Rat) : ℝ) := Rat.cast_le.mpr (g2 p' z k1)
  rw [hlen] at y2 k2
  push_cast at k3
  linarith [(abs_le.mp y2).1, (abs_le.mp k2).2]

end Verif.Ieee
