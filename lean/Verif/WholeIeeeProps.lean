import Verif.WholeProps
import Verif.IeeeTotalProps
import Verif.ShownLemmas

/-!
# Property C114: the program with all of its memory on a real machine

A case that meets all hypotheses is in `WholeIeeeExample.lean`.
-/

namespace Verif.Ieee

open Verif Verif.Decoder Verif.Decoder.Beam Verif.Ieee.Spec Verif.Main.Spec
open _root_.Verif.Mat (Heap Addr peek)
open _root_.Verif.NetMem.Spec (Live)
open _root_.Verif.AmMem (ModelM)
open _root_.Verif.FbankMem (TabM)

/-- The scores as C68 has them and as C88 has them. -/
theorem scores_memory {F D : Type} {r : Stt.Rec F D} {vm : List F → List (List F) → List F} {b : Nat} {data : List UInt8}
    {rows : List (List F)} (h : Scores r vm b data rows) : SttMem.Scores r vm b data rows := by
  obtain ⟨feats, g1, g2, g3⟩ := h
  have hl : feats.length = rows.length := by
    rw [Am.mapM_length g1, g2]
    unfold Fbank.Spec.frames
    rw [List.length_map, List.length_range]
  refine ⟨feats, g1, ?_⟩
  apply List.ext_getElem?
  intro t
  by_cases ht : t < rows.length
  · rw [g3 t ht, List.getElem?_map, List.getElem?_range (by omega)]
    rfl
  · rw [List.getElem?_eq_none (by omega), List.getElem?_eq_none]
    rw [List.length_map, List.length_range]
    omega

/-- **C114.**  The arithmetic of IEEE 754, a C library that obeys C99, tables and parameters somewhere in memory, and a model
whose network is robust, whose graph, transition map and language model fit together, have moderate costs and are few enough
for the decoder's tables, and whose words are all known: whatever the audio is and however it is cut, the program with all of
its memory ends with the text and the likelihood of the recogniser that works on values, whatever uninitialised memory
contains, and its front end leaves memory as it found it; unless the decoder follows a mark of a token that was freed (C71),
which takes more than twenty frames. -/
theorem C114_any_audio {lib : Lib} {nlib : NnLib} {vm : List F32 → List (List F32) → List F32} (hl : LibLaws lib)
    (hnl : NnLaws nlib vm) {r : Stt.Rec F32 F64} {e L R c w : Nat} (S : Stt.Sound r vm e L R c w) (hw : w ≤ 536870911)
    (har : r.dec.ar = machine) (hfb : Fbank.make (fbank lib) = .ok r.fb) (hcv : r.conv = fun n : ℤ => fit binary32 (n : ℚ))
    (hnn : r.nn = nnet nlib) {a d : ℕ} (hg : Robust r.am.layers 7 a) (hp : ∀ v ∈ r.am.logPrior, AtMost d v)
    (had : max a d + 1 ≤ 126) {P : Int → Prop} {N k : Nat} (hst : Sturdy r.dec P e N k) (hv : Lively r.dec.g) {W q : Rat}
    (hW : 0 ≤ W) (hm : Modest r.dec P W) (hq : Is r.dec.amScale q)
    (hwords : ∀ s, ∀ x ∈ r.dec.g.arcs s, x.olabel ≠ 0 → ∃ v, Text.word? r.syms x.olabel = some v)
    (hfu : 2 ^ 62 * (N + 1) ^ k ≤ r.fuel) {K C : Nat} (hK : Compact r.dec P K C) (hKC : K * C ≤ 46338)
    (hll : Mdec.LmLabels r.dec) (hsm : Mdec.Small r.dec) {h : Heap F32} {t : TabM} {M : ModelM}
    (hM : AmMem.Spec.Loaded h M r.am) (ht : FbankMem.Spec.Loaded h t r.fb) {b : Nat} (hb : b = 1 ∨ b = 2 ∨ b = 4)
    (data : List UInt8) (n : Nat) (hn : n = Fbank.Spec.numFrames (data.length / b) * (k + 1) + k) (hn1 : n < 100000)
    (hB : ((n + 1 : Nat) : Rat) * (2 * W + |q| * 2 ^ (max a d + 1)) ≤ 2 ^ 100) :
    ∃ rows, Scores r vm b data rows ∧
      (Fbank.Spec.numFrames (data.length / b) ≤ 20 → ¬ Mdec.Stale r.dec rows) ∧
      (¬ Mdec.Stale r.dec rows → ∃ text ll,
        (∀ (fill : Nat → UInt8) (cs : List (Stt.Mem F32 × List UInt8)), (∀ p ∈ cs, p.2 ≠ [] ∧ p.2.length < 536870500) →
          (cs.map Prod.snd).flatten = data →
          ∃ v, Stt.recognise r ⟨1, 16000, 8 * b⟩ fill cs = .ok (.ready r v, .none) ∧ v.back.hyp = text ∧ v.back.ll = ll) ∧
        ∀ (fill : Nat → UInt8) (cs : List (Whole.Wild F32 × List UInt8)), (∀ p ∈ cs, p.2 ≠ [] ∧ p.2.length < 536870500) →
          (cs.map Prod.snd).flatten = data →
          ∃ dec h', Whole.recognise r t M ⟨1, 16000, 8 * b⟩ fill cs h = .ok ((text, ll, dec, .none), h') ∧
            (∀ x : Addr, x.block < h.length → peek h' x = peek h x) ∧ ∀ j, Live h' j ↔ Live h j) := by
  obtain ⟨rows, hsc, hat⟩ := C100_all hl hnl hfb hcv hnn S.hb (by omega) hg hp had hb data
  have hrl : rows.length = Fbank.Spec.numFrames (data.length / b) := by
    obtain ⟨feats, _, g2, _⟩ := hsc
    rw [g2]
    unfold Pcm.Spec.samples
    rw [List.length_map, List.length_map, List.length_range]
  have hcalm : Calm r.dec (|q| * 2 ^ (max a d + 1)) rows := by
    refine ⟨q, hq, fun f hf lp hlp => ?_⟩
    obtain ⟨x, hx, hx'⟩ := hat f hf lp hlp
    exact ⟨x, hx, by rw [abs_mul]; exact mul_le_mul_of_nonneg_left hx' (abs_nonneg q)⟩
  rw [hn, ← hrl] at hn1 hB
  have hlen : rows.length ≤ 2147483647 := by
    have : rows.length * 1 ≤ rows.length * (k + 1) := Nat.mul_le_mul_left _ (by omega)
    omega
  have hval := C101_utterance S har hst hv hW (mul_nonneg (abs_nonneg q) (by positivity)) hm hwords hfu hb data rows hsc hcalm
    hn1 hB
  refine ⟨rows, hsc, fun h20 => (Mdec.C71_no_stale_mark hll 0 (by omega) fun i bs cs d _ h1 h2 => by omega).1, fun hns => ?_⟩
  have mem : Stt.Mem F32 := ⟨⟨List.replicate 512 (fit _ 0), List.replicate 512 (fit _ 0), List.length_replicate, List.length_replicate⟩,
    fun _ => 0⟩
  obtain ⟨ds, d1, d2⟩ := Main.cut_exists mem data
  obtain ⟨u, hu⟩ := hval (fun _ => 0) ds d1 d2
  have hone : ∀ (fill : Nat → UInt8) (cs : List (Stt.Mem F32 × List UInt8)), (∀ p ∈ cs, p.2 ≠ [] ∧ p.2.length < 536870500) →
      (cs.map Prod.snd).flatten = data → Stt.recognise r ⟨1, 16000, 8 * b⟩ fill cs = .ok (.ready r u, .none) :=
    fun fill cs h1 h2 =>
      (Stt.C29_chunk_independence_partial S _ fill (fun _ => 0) cs ds h1 d1 (h2.trans d2.symm) _).mpr hu
  refine ⟨u.back.hyp, u.back.ll, fun fill cs h1 h2 => ⟨u, hone fill cs h1 h2, rfl, rfl⟩, fun fill cs h1 h2 => ?_⟩
  have hsc' : SttMem.Scores r vm b (cs.map Prod.snd).flatten rows := by rw [h2]; exact scores_memory hsc
  obtain ⟨h', k1, k2, k3⟩ := Whole.C112_same S hw hM ht ⟨1, 16000, 8 * b⟩ b rfl fill cs h1 hsc'
  have hs : (cs.map fun p => (mem, p.2)).map Prod.snd = cs.map Prod.snd := by
    rw [List.map_map]
    rfl
  have hc : ∀ p ∈ cs.map fun p => (mem, p.2), p.2 ≠ [] ∧ p.2.length < 536870500 := by
    intro p hp
    obtain ⟨x, hx, rfl⟩ := List.mem_map.mp hp
    exact h1 x hx
  obtain ⟨v, x, e1, e2, e3⟩ := SttMem.C88_completes_partial S hll hsm ⟨1, 16000, 8 * b⟩ b rfl fill _ hc
    (by rw [hs]; exact hsc') (C102_few_memory hst hK hKC rows) hlen hns (hone fill _ hc (by rw [hs]; exact h2))
  injection e1 with _ e1
  subst e1
  refine ⟨x.back.dec, h', ?_, k1, k2⟩
  rw [k3 fill _ hs, e2, ok_bind, e3.hyp, e3.ll]

end Verif.Ieee
