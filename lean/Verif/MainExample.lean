import Verif.MainSpec
import Verif.InitExample

/-!
# A small model directory and audio files, for the examples about the program
-/

namespace Verif.Main.Ex

open Verif Verif.Text Verif.App.Spec Verif.App.Ex Verif.Main.Spec

/-- Exact integer arithmetic, with the stages of `Stt.toyRec`. -/
def mach : Machine Unit Int Int where
  graph _ := Stt.toyGraph
  word o := (o.getD 0 : Nat)
  conv := id
  fb := Stt.flatFb
  nn := Nnet.toyOps
  ar := Stt.toyArith
  lm := ⟨(· + ·), (· - ·), fun x => decide (x < 500000000), 1000000000⟩
  amScale := 1
  perFrame w n := w.tdiv n
  zero := 0
  fuel := 10
  lmFuel := 10

/-- The configuration. -/
def defs : List (Str × Str) :=
  [(App.kFst, [103]), (App.kNnet, [110]), (App.kPrior, [112]), (App.kLeft, [49]), (App.kRight, [48]),
    (App.kChunk, [50]), (App.kNumPdfs, [49]), (App.kTid2pdf, [116]), (App.kSymbols, [115])]

/-- The words `-`, `hi` and the sentence symbols. -/
def syms : List SymEntry :=
  [⟨[45], [48], 0, [10]⟩, ⟨[104, 105], [49], 1, [10]⟩, ⟨[60, 115, 62], [50], 2, [10]⟩, ⟨[60, 47, 115, 62], [51], 3, [10]⟩]

/-- The network: one frame of left context, a rectifier. -/
def layers : List (Nnet.Layer Nat) := [.splice [-1, 0], .narrow 1 0, .relu]

/-- The model. -/
def model : App.Spec.Model Unit :=
  ⟨(), 1, 0, layers, List.replicate 80 0, 1, 0, 2, 1, [0, 0], syms, none⟩

/-- The header of an audio file: one channel, 16 kHz, 8 bits, and the size of the data. -/
def header (b0 b1 : UInt8) : List UInt8 :=
  [82, 73, 70, 70, 0, 0, 0, 0, 87, 65, 86, 69, 102, 109, 116, 32, 16, 0, 0, 0, 1, 0, 1, 0,
    128, 62, 0, 0, 128, 62, 0, 0, 1, 0, 8, 0, 100, 97, 116, 97, b0, b1, 0, 0]

/-- The configuration is `d/c`, the audio files are `a.wav` with 560 bytes, `e.wav` with none, and `l.wav`, which
declares no data but has 560 bytes behind it; `s.scp` lists the first two, and `n.scp` lacks its last newline.
For C91: `o.wav` and `p.wav` end within the header, `q.wav` has two channels, `b.scp` lists `a.wav`, `o.wav` and `e.wav`,
and the second line of `m.scp` is no entry. -/
def files : List (Str × List UInt8) :=
  [([100, 47, 99], confOf defs), ([100, 47, 110], Ser.writeNnet 1 0 layers),
    ([100, 47, 112], Ser.writeVec (List.replicate 80 0)), ([100, 47, 116], Ser.writeVec [0, 0]),
    ([100, 47, 115], (syms.map (fun e => e.line ++ e.eol)).flatten),
    ([97, 46, 119, 97, 118], header 48 2 ++ List.replicate 560 3),
    ([101, 46, 119, 97, 118], header 0 0),
    ([108, 46, 119, 97, 118], header 0 0 ++ List.replicate 560 3),
    ([115, 46, 115, 99, 112], [120, 32, 97, 46, 119, 97, 118, 10, 121, 32, 101, 46, 119, 97, 118, 13, 10]),
    ([110, 46, 115, 99, 112], [120, 32, 97, 46, 119, 97, 118]),
    ([111, 46, 119, 97, 118], [82, 73, 70, 70]), ([112, 46, 119, 97, 118], [82, 73, 70, 70]),
    ([113, 46, 119, 97, 118], [82, 73, 70, 70, 0, 0, 0, 0, 87, 65, 86, 69, 102, 109, 116, 32, 16, 0, 0, 0, 1, 0, 2, 0,
      128, 62, 0, 0, 128, 62, 0, 0, 1, 0, 8, 0, 100, 97, 116, 97, 0, 0, 0, 0]),
    ([98, 46, 115, 99, 112], [120, 32, 97, 46, 119, 97, 118, 10] ++
      [121, 32, 111, 46, 119, 97, 118, 10, 122, 32, 101, 46, 119, 97, 118, 10]),
    ([109, 46, 115, 99, 112], [120, 32, 97, 46, 119, 97, 118, 10, 121, 10])]

/-- The world. -/
def world : App.World Unit :=
  ⟨fun n => (files.find? fun p => p.1 == n).map Prod.snd, fun n => if n = [100, 47, 103] then some () else none,
    fun _ => true, id⟩

/-- Uninitialised memory. -/
def junk (n : Nat) : Junk Int := ⟨fun i => Stt.toyMem (n + i) 7, fun _ => 9⟩

theorem conf_ok : IsConf (confOf defs) defs := isConf (by decide +kernel)

theorem conf_file : world.file [100, 47, 99] = some (confOf defs) := rfl

theorem syms_ok : ∀ e ∈ syms, e.Ok ∧ GoodLine e.line e.eol := by
  intro e he
  simp only [syms, List.mem_cons, List.not_mem_nil, or_false] at he
  rcases he with rfl | rfl | rfl | rfl <;>
    exact ⟨⟨by decide, ⟨by decide, by decide, by decide, by decide⟩, by decide⟩, by decide, by decide, by decide,
      .inl rfl, by decide⟩

theorem installed : Installed world [100, 47, 99] defs model := by
  refine ⟨⟨_, names_at 0 rfl (by decide) (by decide) (by decide), rfl⟩,
    ⟨_, [], names_at 1 rfl (by decide) (by decide) (by decide), by decide +kernel⟩,
    ⟨_, [], names_at 2 rfl (by decide) (by decide) (by decide), by decide +kernel⟩,
    sets_at 3 1 rfl (by decide) (by decide) (by decide) (by decide),
    sets_at 4 0 rfl (by decide) (by decide) (by decide) (by decide),
    sets_at 5 2 rfl (by decide) (by decide) (by decide) (by decide),
    sets_at 6 1 rfl (by decide) (by decide) (by decide) (by decide),
    ⟨_, [], names_at 7 rfl (by decide) (by decide) (by decide), by decide +kernel⟩,
    ⟨_, names_at 8 rfl (by decide) (by decide) (by decide), by decide +kernel⟩, ?_⟩
  show Undefined defs _
  unfold Undefined
  decide

theorem model_ok : model.Ok world := by
  refine ⟨⟨by decide, by decide⟩, ⟨by decide, by decide⟩, by decide, ?_, ⟨by decide, by decide, by decide⟩,
    fun _ _ => rfl, ⟨by decide, by decide, by decide⟩, syms_ok, by decide, ?_⟩
  · intro l hl
    simp only [model, layers, List.mem_cons, List.not_mem_nil, or_false] at hl
    rcases hl with rfl | rfl | rfl
    · refine ⟨by decide, ?_⟩
      intro i hi
      simp only [List.mem_cons, List.not_mem_nil, or_false] at hi
      rcases hi with rfl | rfl <;> exact ⟨by decide, by decide⟩
    · exact ⟨⟨by decide, by decide⟩, by decide, by decide⟩
    · trivial
  · intro u t h
    cases h

theorem fits : Fits mach model Nnet.toyVecMat 80 80 where
  rows := Nnet.toyOps_rowWise
  net := Stt.toyRec_sound.hb
  prior := List.length_replicate
  chunk := by decide
  size := by decide
  big := by decide
  tables := Fbank.toyOps_tables
  scratch := Stt.flatFb_scratch

/-- The symbol table in memory. -/
def table : Symbols := match readSymbols ((syms.map (fun e => e.line ++ e.eol)).flatten) with
  | .ok t => t
  | .error _ => ⟨[], [], 0, 0⟩

/-- The recogniser in memory. -/
def self : App.Self Unit :=
  ⟨some (1, ()), none, none, none,
    some (2, some ⟨⟨1, 0, layers.map Ser.Spec.full⟩, List.replicate 80 0, 1, 0, 2, 1, [0, 0]⟩), some (4, ()),
    some (3, some table)⟩

theorem loaded : ∃ h c, App.init world [100, 47, 99] ⟨0, []⟩ = .ok (some (0, self), h, c) := by
  have : (App.init world [100, 47, 99] ⟨0, []⟩).map Prod.fst = .ok (some (0, self)) := by decide +kernel
  cases h : App.init world [100, 47, 99] ⟨0, []⟩ with
  | error f => rw [h] at this; cases this
  | ok p =>
    rw [h] at this
    obtain ⟨q, h', c⟩ := p
    have hq : q = some (0, self) := by injection this
    subst hq
    exact ⟨h', c, rfl⟩

/-- The recogniser the stages see. -/
def rec : Stt.Rec Int Int := { Stt.toyRec with syms := table.words }

theorem recogniser_self : mach.recogniser self = some rec := by
  have : mach.amOf ⟨⟨1, 0, layers.map Ser.Spec.full⟩, List.replicate 80 0, 1, 0, 2, 1, [0, 0]⟩ = Stt.toyRec.am := by
    unfold Machine.amOf
    congr 1
  unfold Machine.recogniser self rec
  simp only [Machine.lmOf]
  rw [this]
  rfl

theorem rec_sound : Stt.Sound rec Nnet.toyVecMat 80 1 0 2 80 :=
  { Stt.toyRec_sound with }

/-- Recognition by stages; the stage of the features is known (`Stt.toy_features`). -/
theorem recognised {n : Nat} {cs : List (Stt.Mem Int × List UInt8)} (hcs : ∀ p ∈ cs, p.2 ≠ [] ∧ p.2.length < 536870500)
    (feats : (Fbank.Spec.frames ((Pcm.Spec.samples 1 (cs.map Prod.snd).flatten).map id)).mapM
      (Fbank.Spec.row Stt.flatFb) = .ok (List.replicate n Stt.flatRow)) (hyp : Str)
    (h : (do
      let d0 ← Decoder.initDecoder rec.dec rec.fuel Decoder.fresh
      let back ← (List.replicate n Stt.flatRow).foldlM (Stt.backStep rec) ⟨Am.Inst.new, d0, [0], 0⟩
      let v ← Stt.finish rec (fun _ => 1) ⟨⟨true, Stt.toyFormat, []⟩, [], back⟩
      .ok v.back.hyp) = .ok hyp) :
    ∃ u, Stt.recognise rec Stt.toyFormat (fun _ => 1) cs = .ok (.ready rec u, .none) ∧ u.back.hyp = hyp := by
  obtain ⟨d0, h0, h⟩ := bind_ok h
  obtain ⟨back, h1, h⟩ := bind_ok h
  obtain ⟨v, h2, h⟩ := bind_ok h
  obtain ⟨u, h3, h4⟩ := Stt.recognise_ok rec_sound (fmt := Stt.toyFormat) rfl (b := 1) .w8 (fun _ => 1) cs hcs h0 feats h1 h2
  injection h with h
  exact ⟨u, h3, by rw [h4, h]⟩

theorem header_ok (b0 b1 : UInt8) (data : List UInt8) : IsAudio (header b0 b1 ++ data) 1 data :=
  ⟨.inl rfl, header b0 b1, rfl,
    ⟨rfl, rfl, rfl, rfl, (by decide : Pcm.Spec.signed 4 [16, 0, 0, 0] = 16), (by decide : Pcm.Spec.signed 2 [1, 0] = 1),
      (by decide : Pcm.Spec.signed 2 [1, 0] = 1), (by decide : Pcm.Spec.signed 4 [128, 62, 0, 0] = 16000),
      (by decide : Pcm.Spec.signed 4 [128, 62, 0, 0] = 16000 * 1 * (8 * ((1 : Nat) : Int)) / 8),
      (by decide : Pcm.Spec.signed 2 [1, 0] = 1 * (8 * ((1 : Nat) : Int)) / 8),
      (by decide : Pcm.Spec.signed 2 [8, 0] = 8 * ((1 : Nat) : Int)), rfl⟩⟩

/-- 560 bytes are two frames, and are recognised as "hi". -/
theorem hears_hi (cs : List (Stt.Mem Int × List UInt8)) (hcs : ∀ p ∈ cs, p.2 ≠ [] ∧ p.2.length < 536870500)
    (hl : (cs.map Prod.snd).flatten.length = 560) :
    ∃ u, Stt.recognise rec Stt.toyFormat (fun _ => 1) cs = .ok (.ready rec u, .none) ∧ u.back.hyp = [104, 105, 0] :=
  recognised (n := 2) hcs (Stt.toy_features 1 _ hl) _ (by decide +kernel)

/-- No data is recognised as no text. -/
theorem hears_nothing :
    ∃ u, Stt.recognise rec Stt.toyFormat (fun _ => 1) [] = .ok (.ready rec u, .none) ∧ u.back.hyp = [0] :=
  recognised (n := 0) (by simp) rfl _ (by decide +kernel)

end Verif.Main.Ex
