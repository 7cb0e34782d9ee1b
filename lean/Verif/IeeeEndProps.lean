import Verif.IeeeEndStt
import Verif.IeeeMainProps

/-!
# C101: with a sound model every recording is recognised to its end

The other theorems about what is recognised say what the line is, if the program gets as far as writing it.  Here it does.
Cases that meet all hypotheses are in `IeeeEndExample.lean`.
-/

namespace Verif.Ieee

open Verif Verif.Text Verif.App.Spec Verif.Decoder Verif.Decoder.Beam Verif.Ieee.Spec Verif.Main Verif.Main.Spec

/-- C101, the decoder.  Graph, transition map and language model fit together, some arc that consumes a frame leaves every
state, and all costs are moderate numbers: whatever the scores are, decoding starts, takes every frame, refuses none, and has
an answer at the end, for as many frames as leave room for 100000 words. -/
theorem C101_decoder {e : Env F32 F64} (he : e.ar = machine) {P : Int → Prop} {width N k : Nat} (h : Sturdy e P width N k)
    (hv : Lively e.g) {W S : Rat} (hW : 0 ≤ W) (hS : 0 ≤ S) (hm : Modest e P W) (rows : List (List F32)) (hc : Calm e S rows)
    (hl : ∀ f ∈ rows, f.length = width) (hn : rows.length * (k + 1) + k < 100000)
    (hB : ((rows.length * (k + 1) + k + 1 : Nat) : Rat) * (2 * W + S) ≤ 2 ^ 100) {fuel : Nat}
    (hfu : 2 ^ 62 * (N + 1) ^ k ≤ fuel) :
    ∃ d0 d bs, initDecoder e fuel fresh = .ok d0 ∧
      rows.foldlM (fun (x : Dec F32 × List Bool) f => (do
        let (b, _, d) ← process e fuel f x.1
        .ok (d, x.2 ++ [b]) : Exec (Dec F32 × List Bool))) (d0, []) = .ok (d, bs) ∧
      bs.length = rows.length ∧ (∀ b ∈ bs, b = true) ∧ ∃ ws w, bestPath e (endOfStream d) = .ok (ws, w) := by
  obtain ⟨s0, hs, _⟩ := h.startState
  obtain ⟨d0, i1, i2⟩ := initDecoder_ok h hfu
  have hmild := modest_mild h hW hS hm hc hs le_rfl (B := 2 ^ 100) (by push_cast at hB ⊢; exact hB) true
  have key : ∀ (xs : List (List F32)) {gs : List (List F32)} {bs : List Bool} {cs : List (Option (Cutoffs F32 F64))}
      {d : Dec F32}, gs ++ xs <+: rows → Run e gs bs cs d → Sane e P d →
      ∃ d' bs' cs', xs.foldlM (fun (x : Dec F32 × List Bool) f => (do
        let (b, _, d) ← process e fuel f x.1
        .ok (d, x.2 ++ [b]) : Exec (Dec F32 × List Bool))) (d, bs) = .ok (d', bs') ∧
        Run e (gs ++ xs) bs' cs' d' ∧ Sane e P d' := by
    intro xs
    induction xs with
    | nil => exact fun {gs bs cs d} _ hr hd => ⟨d, bs, cs, rfl, by rw [List.append_nil]; exact hr, hd⟩
    | cons f xs ih =>
      intro gs bs cs d hg hr hd
      rw [show gs ++ f :: xs = (gs ++ [f]) ++ xs by simp] at hg ⊢
      have hg' : gs ++ [f] <+: rows := (List.prefix_append _ xs).trans hg
      have hf : f ∈ rows := hg'.subset (List.mem_append_right _ List.mem_cons_self)
      obtain ⟨b, c, d1, h1, h2, h3⟩ := run_step h he (by norm_num) le_rfl (by omega) hmild hs hv hfu hg'
        (hl f hf) hr hd
      obtain ⟨d', bs', cs', k1, k2, k3⟩ := ih hg h2 h3
      refine ⟨d', bs', cs', ?_, k2, k3⟩
      rw [List.foldlM_cons, h1]
      exact k1
  obtain ⟨d, bs, cs, k1, k2, k3⟩ := key rows (List.prefix_refl _) (.init i1) i2
  rw [List.nil_append] at k2
  obtain ⟨⟨ws, w⟩, hw⟩ := run_answer h he (by norm_num) le_rfl hn hmild hs (List.prefix_refl _) k2 k3 true
  refine ⟨d0, d, bs, i1, k1, ?_, ?_, ws, w, hw⟩
  · exact run_bools k2
  · exact run_alive he (by norm_num) le_rfl (by omega) hmild hs hv rows bs cs d (List.prefix_refl _) k2

/-- C101, an utterance through the interface, in any pieces. -/
theorem C101_utterance {r : Stt.Rec F32 F64} {vm : List F32 → List (List F32) → List F32} {e' L R c wd : Nat}
    (hS : Stt.Sound r vm e' L R c wd) (he : r.dec.ar = machine) {P : Int → Prop} {N k : Nat} (h : Sturdy r.dec P e' N k)
    (hv : Lively r.dec.g) {W S : Rat} (hW : 0 ≤ W) (hS0 : 0 ≤ S) (hm : Modest r.dec P W)
    (hw : ∀ s, ∀ a ∈ r.dec.g.arcs s, a.olabel ≠ 0 → ∃ v, word? r.syms a.olabel = some v)
    (hfu : 2 ^ 62 * (N + 1) ^ k ≤ r.fuel) {b : Nat} (hb : b = 1 ∨ b = 2 ∨ b = 4) (data : List UInt8) (rows : List (List F32))
    (hsc : Scores r vm b data rows) (hc : Calm r.dec S rows) (hn : rows.length * (k + 1) + k < 100000)
    (hB : ((rows.length * (k + 1) + k + 1 : Nat) : Rat) * (2 * W + S) ≤ 2 ^ 100)
    (fill : Nat → UInt8) (ds : List (Stt.Mem F32 × List UInt8))
    (hds : ∀ p ∈ ds, p.2 ≠ [] ∧ p.2.length < 536870500) (hd : (ds.map Prod.snd).flatten = data) :
    ∃ u, Stt.recognise r ⟨1, 16000, 8 * b⟩ fill ds = .ok (.ready r u, .none) := by
  obtain ⟨s0, hs, _⟩ := h.startState
  have hmild := modest_mild h hW hS0 hm hc hs le_rfl (B := 2 ^ 100) (by push_cast at hB ⊢; exact hB) true
  have hfmt : Pcm.Reader.new.setFormat ⟨1, 16000, 8 * b⟩ = .ok ⟨true, ⟨1, 16000, 8 * b⟩, []⟩ := by
    rcases hb with rfl | rfl | rfl <;> rfl
  have hwid : Pcm.Width (Pcm.Format.bits ⟨1, 16000, 8 * b⟩) b := by
    rcases hb with rfl | rfl | rfl
    · exact .w8
    · exact .w16
    · exact .w32
  exact recognise_all hS h he (by norm_num) le_rfl hn hsc hmild hs hv hw hfu (scores_width hS hsc) hfmt hwid
    fill ds hds hd

/-- C101, the program.  A directory with a model whose network is robust (C100), whose graph, transition map and language model
fit together and have moderate costs, whose graph is lively, and whose words are in the symbol file: whatever the audio is,
the program runs to its end and writes one line, for as many frames as leave room for 100000 words. -/
theorem C101_program {G : Type} {lib : Lib} {nlib : NnLib} {vm : List F32 → List (List F32) → List F32} (hl : LibLaws lib)
    (hnl : NnLaws nlib vm) (mach : Machine G F32 F64) (har : mach.ar = machine) (hfb : Fbank.make (fbank lib) = .ok mach.fb)
    (hcv : mach.conv = fun n : ℤ => fit binary32 (n : ℚ)) (hnn : mach.nn = nnet nlib) (w : App.World G) (conf bytes : Str)
    (defs : List (Str × Str)) (m : App.Spec.Model G) (hf : w.file conf = some bytes) (hc : IsConf bytes defs)
    (hi : Installed w conf defs m) (ho : m.Ok w) (e wd : Nat) (hfit : Fits mach m vm e wd) {a d : ℕ}
    (hg : Robust (m.layers.map (valueLayer fun x => mach.word (some x))) 7 a)
    (hp : ∀ x ∈ m.prior, AtMost d (mach.word (some (w.log x)))) (had : max a d + 1 ≤ 126) :
    ∃ r, IsRec mach w m r ∧ ∀ (P : Int → Prop) (N k : Nat) (W q : Rat), Sturdy r.dec P e N k → Lively r.dec.g → 0 ≤ W →
      Modest r.dec P W → Is mach.amScale q →
      (∀ s, ∀ a ∈ r.dec.g.arcs s, a.olabel ≠ 0 → ∃ v, Spells m.symbols a.olabel v) →
      2 ^ 62 * (N + 1) ^ k ≤ mach.fuel →
      ∀ (input : Str) (file data : List UInt8) (b n : Nat), IsWav input → w.file input = some file → IsAudio file b data →
      n = Fbank.Spec.numFrames (data.length / b) * (k + 1) + k → n < 100000 →
      ((n + 1 : Nat) : Rat) * (2 * W + |q| * 2 ^ (max a d + 1)) ≤ 2 ^ 100 →
      ∀ junk : Nat → Junk F32, ∃ t, 0 ∉ t ∧ main mach w junk [conf, input] = ⟨[.line t], .ok ()⟩ := by
  obtain ⟨s, h', hx, hh⟩ := App.C65_load w conf bytes defs m ⟨0, []⟩ hf hc hi ho
  obtain ⟨r, hr, hir⟩ := recogniser_holds mach hh ho
  have S := sound_of_fits hir hfit
  refine ⟨r, hir, fun P N k W q hst hv hW hm hq hw hfu input file data b n hwav hfile ha hn hn1 hB junk => ?_⟩
  obtain ⟨rows, hsc, hat⟩ := C100_all hl hnl (r := r) (by rw [hir.fb]; exact hfb) (by rw [hir.conv]; exact hcv)
    (by rw [hir.nn]; exact hnn) S.hb (by
      have h1 := S.hsize
      have h2 : 1 * wd ≤ (m.chunk + m.left + m.right + m.right) * wd := Nat.mul_le_mul_right _ (by have := S.hc; omega)
      omega) (by rw [hir.layers]; exact hg)
    (by
      rw [hir.prior]
      intro v hv
      obtain ⟨x, hx, rfl⟩ := List.mem_map.1 hv
      exact hp x hx) had ha.1 data
  have hrl : rows.length = Fbank.Spec.numFrames (data.length / b) := by
    obtain ⟨feats, _, g2, _⟩ := hsc
    rw [g2]
    unfold Pcm.Spec.samples
    rw [List.length_map, List.length_map, List.length_range]
  have hcalm : Calm r.dec (|q| * 2 ^ (max a d + 1)) rows := by
    refine ⟨q, by rw [hir.amScale]; exact hq, fun f hf lp hlp => ?_⟩
    obtain ⟨x, hx, hx'⟩ := hat f hf lp hlp
    exact ⟨x, hx, by rw [abs_mul]; exact mul_le_mul_of_nonneg_left hx' (abs_nonneg q)⟩
  obtain ⟨ds, d1, d2⟩ := cut_exists ((junk 0).piece 0) data
  rw [hn, ← hrl] at hn1 hB
  obtain ⟨u, hu⟩ := C101_utterance S (hir.ar.trans har) hst hv hW (mul_nonneg (abs_nonneg q) (by positivity)) hm
    (fun s a ha h0 => (hw s a ha h0).imp fun v hv => (hir.words _ v).2 hv) (by
      rw [recogniser_fuel hr]; exact hfu) ha.1 data rows hsc hcalm hn1 hB (fun _ => 0) ds d1 d2
  obtain ⟨feats, rows', d0, d', u', words, weight, g1, g2, g3, g4, g5, g6, g7, g8, g9, g10⟩ :=
    Stt.C29_end_to_end_partial S ⟨1, 16000, 8 * b⟩ b rfl (fun _ => 0) ds d1 _ _ hu
  obtain ⟨ws, w1, w2, w3⟩ := storeHypText_ok g10
  cases g6
  refine ⟨join [32] ws, w3, ?_⟩
  rw [main_wav mach hx hwav, hr, say_iff]
  refine ⟨[], _, (processAudio_iff S hfile ha (junk 0) (fun _ => 0) ds d1 d2 [] _).mpr ⟨rfl, u, .none, hu, ?_⟩, rfl⟩
  rw [w2]
  exact fromC_hyp w3

end Verif.Ieee
