import Verif.WholeLemmas

/-!
# Property C112: the interface with all of its memory
-/

namespace Verif.Whole

open Mat (Heap Addr View peek)
open NetMem.Spec (Live VShows)
open AmMem (ModelM)
open FbankMem (TabM tabHeap toyTab toyTab_loaded line_cells_of)
open Stt (Rec Msg Sound)
open SttMem (Scores)
open Mdec (Stale LmLabels Small FewTokens)
open Fbank.Spec (numFrames)

variable {F D : Type}

/-- **C112, the front end's memory.**  The tables of the feature extraction and the parameters of the acoustic model are
somewhere in memory, all frames of the audio have features (no NaN), and no piece is empty or has 536870500 bytes or more.
Then there is a memory `h'` in which no block from before has changed and the blocks in use are those from before, and the
program with all of its memory, from bytes to text, ends with `h'` and the text, the likelihood, the decoder's memory and the
message of the program whose front end works on values (C88), or with the same fault; whatever uninitialised memory contains
in either of them. -/
theorem C112_same {r : Rec F D} {vm : List F → List (List F) → List F} {e L R c w : Nat} (S : Sound r vm e L R c w)
    (hw : w ≤ 536870911) {h : Heap F} {t : TabM} {M : ModelM} (hM : AmMem.Spec.Loaded h M r.am)
    (ht : FbankMem.Spec.Loaded h t r.fb) (fmt : Pcm.Format) (b : Nat) (hb : fmt.bits = 8 * b) (fill : Nat → UInt8)
    (cs : List (Wild F × List UInt8)) (hcs : ∀ p ∈ cs, p.2 ≠ [] ∧ p.2.length < 536870500) {rows : List (List F)}
    (hrows : Scores r vm b (cs.map Prod.snd).flatten rows) :
    ∃ h', (∀ a : Addr, a.block < h.length → peek h' a = peek h a) ∧ (∀ k, Live h' k ↔ Live h k) ∧
      ∀ (fill' : Nat → UInt8) (cs' : List (Stt.Mem F × List UInt8)), cs'.map Prod.snd = cs.map Prod.snd →
        recognise r t M fmt fill cs h = (SttMem.recognise r fmt fill' cs' >>= fun x =>
          .ok ((x.1.back.hyp, x.1.back.ll, x.1.back.dec, x.2), h')) := by
  cases hs : Pcm.Reader.new.setFormat fmt with
  | error z =>
    refine ⟨h, fun _ _ => rfl, fun _ => Iff.rfl, fun fill' cs' _ => ?_⟩
    unfold recognise SttMem.recognise initApi SttMem.initApi
    cases (Mdec.new : Exec (Mdec.Mem F)) with
    | error x => rfl
    | ok m =>
      rw [ok_bind, ok_bind]
      cases Mdec.initDecoder r.dec r.fuel m with
      | error x => rfl
      | ok d =>
        rw [ok_bind, ok_bind, hs]
        cases z <;> rfl
  | ok reader =>
    obtain ⟨rfl, b', hw'⟩ := Stt.setFormat_ok hs
    obtain rfl := SttMem.width_of hw' hb
    obtain ⟨feats, hf, -⟩ := hrows
    obtain ⟨h', rows1, rows2, i1, i2, E, a1, a2, e1⟩ := recognise_rows S hw hM ht hs hw' fill cs hcs hf
    refine ⟨h', fun a ha => E.kept a ha id, fun k => ?_, ?_⟩
    · rw [E.live]
      exact ⟨fun g => g.elim And.left (fun g => absurd g id), fun g => .inl ⟨g, id⟩⟩
    · intro fill' cs' hcs'
      have hmem : ∀ p ∈ cs', p.2 ≠ [] ∧ p.2.length < 536870500 := by
        intro p hp
        have : p.2 ∈ cs.map Prod.snd := hcs' ▸ List.mem_map_of_mem hp
        obtain ⟨q, hq, hqp⟩ := List.mem_map.mp this
        rw [← hqp]
        exact hcs q hq
      rw [← hcs'] at hf
      rw [e1, SttMem.recognise_eq S hs hw' fill' cs' hmem hf a1 a2]
      have hfill : SttMem.decodeAll r fill' rows1 rows2 = SttMem.decodeAll r fill rows1 rows2 := by
        unfold SttMem.decodeAll
        simp only [SttMem.storeHyp_fill r fill' fill]
      rw [hfill]
      cases SttMem.decodeAll r fill rows1 rows2 with
      | error z => rfl
      | ok back => rfl

/-- **C112, short utterances.**  Up to twenty frames, with a language model whose labels are all right, numbers small enough
for the hash functions and few enough tokens, the program with all of its memory, the decoder's included, shows a text and a
likelihood exactly when the recogniser that works on values throughout does (of which C29, C42 and C54 speak), and the
front end leaves memory as it found it. -/
theorem C112_short {r : Rec F D} {vm : List F → List (List F) → List F} {e L R c w : Nat} (S : Sound r vm e L R c w)
    (hw : w ≤ 536870911) {h : Heap F} {t : TabM} {M : ModelM} (hM : AmMem.Spec.Loaded h M r.am)
    (ht : FbankMem.Spec.Loaded h t r.fb) (hl : LmLabels r.dec) (hS : Small r.dec) (fmt : Pcm.Format) (b : Nat)
    (hb : fmt.bits = 8 * b) (fill : Nat → UInt8) (cs : List (Wild F × List UInt8))
    (hcs : ∀ p ∈ cs, p.2 ≠ [] ∧ p.2.length < 536870500)
    (hshort : numFrames ((cs.map Prod.snd).flatten.length / b) ≤ 20) (hfew : ∀ rows, FewTokens r.dec rows)
    {rows : List (List F)} (hrows : Scores r vm b (cs.map Prod.snd).flatten rows) :
    ∃ h', (∀ a : Addr, a.block < h.length → peek h' a = peek h a) ∧ (∀ k, Live h' k ↔ Live h k) ∧
      ∀ (cs' : List (Stt.Mem F × List UInt8)), cs'.map Prod.snd = cs.map Prod.snd → ∀ (text : Text.Str) (ll : F),
        (∃ d, recognise r t M fmt fill cs h = .ok ((text, ll, d, .none), h')) ↔
        ∃ v, Stt.recognise r fmt fill cs' = .ok (.ready r v, .none) ∧ v.back.hyp = text ∧ v.back.ll = ll := by
  obtain ⟨h', h1, h2, h3⟩ := C112_same S hw hM ht fmt b hb fill cs hcs hrows
  refine ⟨h', h1, h2, fun cs' hcs' text ll => ?_⟩
  have hmem : ∀ p ∈ cs', p.2 ≠ [] ∧ p.2.length < 536870500 := by
    intro p hp
    have : p.2 ∈ cs.map Prod.snd := hcs' ▸ List.mem_map_of_mem hp
    obtain ⟨q, hq, hqp⟩ := List.mem_map.mp this
    rw [← hqp]
    exact hcs q hq
  rw [← hcs'] at hshort
  rw [← SttMem.C88_short_utterances S hl hS fmt b hb fill cs' hmem hshort hfew text ll, h3 fill cs' hcs']
  constructor
  · rintro ⟨d, g⟩
    obtain ⟨x, g1, g2⟩ := bind_ok g
    obtain ⟨u, msg⟩ := x
    have g3 := (Prod.mk.inj (Except.ok.inj g2)).1
    simp only [Prod.mk.injEq] at g3
    obtain ⟨rfl, rfl, _, rfl⟩ := g3
    exact ⟨u, g1, rfl, rfl⟩
  · rintro ⟨u, g1, rfl, rfl⟩
    exact ⟨u.back.dec, by rw [g1]; rfl⟩

/-! ## The recogniser of C88 -/

/-- The tables of the example of C110 and the log priors of `lostRec`. -/
def lostHeap : Heap Int := tabHeap ++ [some (Stt.flatRow.map some)]

/-- The acoustic model of `lostRec` in `lostHeap`. -/
def lostM : ModelM := ⟨[.relu], ⟨some ⟨5, 0⟩, 40⟩, 0, 0, 1⟩

theorem lost_tables : FbankMem.Spec.Loaded lostHeap toyTab SttMem.lostRec.fb := by
  have := toyTab_loaded (h := lostHeap) rfl rfl
  exact ⟨this.window, this.bins⟩

theorem lost_loaded : AmMem.Spec.Loaded lostHeap lostM SttMem.lostRec.am :=
  ⟨.cons .relu .nil, ⟨rfl, ⟨5, 0⟩, rfl, line_cells_of rfl rfl⟩, rfl, rfl, rfl⟩

theorem lost_scores (bs : List UInt8) : ∃ rows, Scores SttMem.lostRec Nnet.toyVecMat 1 bs rows :=
  ⟨_, _, SttMem.lostRec_feats bs, rfl⟩

/-- **C112, words lost.**  The fault of C88 is there with all of the memory: audio of 3600 bytes or more makes the program
read a word history that was collected, though the front end is in order. -/
theorem C112_words_lost (wild : Wild Int) (cs : List (List UInt8)) (hcs : ∀ p ∈ cs, p ≠ [] ∧ p.length < 536870500)
    (hlen : 3600 ≤ cs.flatten.length) (fill : Nat → UInt8) :
    recognise SttMem.lostRec toyTab lostM ⟨1, 16000, 8⟩ fill (cs.map fun p => (wild, p)) lostHeap = .error .ub := by
  have hsnd : ((cs.map fun p => (wild, p)).map Prod.snd) = cs := by
    rw [List.map_map]
    exact List.map_id cs
  obtain ⟨rows, hrows⟩ := lost_scores cs.flatten
  obtain ⟨h', -, -, h3⟩ := C112_same SttMem.lostRec_sound (by decide) lost_loaded lost_tables ⟨1, 16000, 8⟩ 1 rfl fill
    (cs.map fun p => (wild, p)) (by
      intro p hp
      obtain ⟨q, hq, rfl⟩ := List.mem_map.mp hp
      exact hcs q hq) (by rw [hsnd]; exact hrows)
  have hsnd' : ((cs.map fun p => (Stt.toyMem 4 9, p)).map Prod.snd) = cs := by
    rw [List.map_map]
    exact List.map_id cs
  rw [h3 fill (cs.map fun p => (Stt.toyMem 4 9, p)) (by rw [hsnd, hsnd']), SttMem.lostRec_lost fill _ (by
    intro p hp
    obtain ⟨q, hq, rfl⟩ := List.mem_map.mp hp
    exact hcs q hq) (by rw [hsnd']; exact hlen)]
  rfl

/-- The hypotheses of `C112_words_lost` are met. -/
example (wild : Wild Int) (fill : Nat → UInt8) : recognise SttMem.lostRec toyTab lostM ⟨1, 16000, 8⟩ fill
    ([List.replicate 600 3, List.replicate 3000 200].map fun p => (wild, p)) lostHeap = .error .ub :=
  C112_words_lost wild _ (by decide +kernel) (by decide +kernel) fill

/-- Twenty frames in two pieces. -/
def twenty (wild : Wild Int) : List (Wild Int × List UInt8) :=
  [(wild, List.replicate 1000 3), (wild, List.replicate 2440 200)]

/-- The hypotheses of `C112_short`, and with them those of `C112_same`, are met: twenty frames are heard, and the memory of
the front end is as before. -/
example (wild : Wild Int) : ∃ d h', recognise SttMem.lostRec toyTab lostM ⟨1, 16000, 8⟩ (fun _ => 1) (twenty wild) lostHeap =
    .ok (([104, 105, 32, 121, 111, 0], 0, d, .none), h') ∧ ∀ k, Live h' k ↔ Live lostHeap k := by
  have hsnd : (twenty wild).map Prod.snd = SttMem.twenty.map Prod.snd := rfl
  obtain ⟨rows, hrows⟩ := lost_scores ((twenty wild).map Prod.snd).flatten
  obtain ⟨h', _, h2, h3⟩ := C112_short SttMem.lostRec_sound (by decide) lost_loaded lost_tables Mdec.twoWords_labels
    Mdec.twoWords_small ⟨1, 16000, 8⟩ 1 rfl (fun _ => 1) (twenty wild) (by
      intro p hp
      have : p.2 ∈ SttMem.twenty.map Prod.snd := hsnd ▸ List.mem_map_of_mem hp
      obtain ⟨q, hq, hqp⟩ := List.mem_map.mp this
      rw [← hqp]
      exact SttMem.twenty_pieces q hq) (by rw [hsnd]; decide +kernel) Mdec.twoWords_few hrows
  obtain ⟨d, hd⟩ := (h3 SttMem.twenty hsnd.symm [104, 105, 32, 121, 111, 0] 0).mpr
    (SttMem.lostRec_hears _ SttMem.twenty SttMem.twenty_pieces (by decide +kernel))
  exact ⟨d, h', hd, h2⟩

end Verif.Whole
