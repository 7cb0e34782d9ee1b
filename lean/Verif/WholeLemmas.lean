import Verif.WholeModel
import Verif.HearProps
import Verif.SttMemProps

/-!
# All of the memory of the interface: the scores first, then the decoder
-/

namespace Verif.Whole

open Mat (Heap Addr View peek)
open VecMem (Vec destroy)
open NetMem
open NetMem.Spec (Live)
open AmMem.Spec (Effect Sub Owns Held)
open AmMem (ModelM InstM State Series score rowsOf readMat readMat_ok destroyMat_effect rows_inOrder popFront popFront_ok
  owns_nil)
open Am (seg seg_append seg_length due)
open FbankMem (TabM samplesM processM)
open Pcm (Width leftover samples_split)
open Stt (Rec Msg Sound zeros)
open SttMem (Back decodeRow decodeRow_fill storeHyp decodeAll processRows)
open Fbank.Spec (row)

variable {F D : Type} {r : Rec F D} {t : TabM} {M : ModelM}

theorem frameLoop_of (fill : Nat → UInt8) : ∀ {vs : List Vec} {I : InstM} {out : View} {h : Heap F} {rows : List (List F)}
    {I' : InstM} {v : View} {h' : Heap F} (b : Back F), AmMem.frames r.nn M I out vs h = .ok (rows, I', v, h') →
    frameLoop r M fill I out vs b h = (rows.foldlM (decodeRow r fill) b >>= fun b' => .ok (I', v, b', h'))
  | [], I, out, h, rows, I', v, h', b, e => by
    cases e
    rfl
  | f :: vs, I, out, h, rows, I', v, h', b, e => by
    unfold AmMem.frames at e
    obtain ⟨p, e1, e⟩ := bind_ok e
    obtain ⟨xs, e2, e⟩ := bind_ok e
    obtain ⟨q, e3, e⟩ := bind_ok e
    obtain ⟨ys, q2⟩ := q
    cases e
    unfold frameLoop
    rw [e1, ok_bind, e2, ok_bind, List.foldlM_append]
    cases xs.foldlM (decodeRow r fill) b with
    | error x => rfl
    | ok b1 =>
      rw [ok_bind, ok_bind]
      exact frameLoop_of fill b1 e3

theorem afterSamples_of (wild : Wild F) {u : Utt F} {y : List F} {h : Heap F} {rows : List (List F)} {w : Hear.Utt}
    {h' : Heap F} (e : Hear.hear r.fb r.nn t M wild.floats u.front y h = .ok (rows, w, h')) :
    afterSamples r t M wild u y h =
      (rows.foldlM (decodeRow r zeros) u.back >>= fun b' => .ok ({ u with front := w, back := b' }, h')) := by
  unfold Hear.hear at e
  obtain ⟨s, e1, e⟩ := bind_ok e
  unfold afterSamples
  rw [e1, ok_bind]
  split at e
  · rename_i hs
    obtain ⟨h1, e2, e⟩ := bind_ok e
    cases e
    rw [if_pos hs, e2]
    rfl
  · rename_i hs
    obtain ⟨p, e2, e⟩ := bind_ok e
    obtain ⟨vs, e3, e⟩ := bind_ok e
    obtain ⟨q, e4, e⟩ := bind_ok e
    obtain ⟨h1, e5, e⟩ := bind_ok e
    obtain ⟨h2, e6, e⟩ := bind_ok e
    obtain ⟨h3, e7, e⟩ := bind_ok e
    cases e
    obtain ⟨xs, I', v, h4⟩ := q
    rw [if_neg hs, e2, ok_bind, e3, ok_bind, frameLoop_of wild.chars u.back e4, decodeRow_fill]
    show _ = (xs.foldlM (decodeRow r zeros) u.back >>= _)
    cases xs.foldlM (decodeRow r zeros) u.back with
    | error x => rfl
    | ok b1 =>
      rw [ok_bind, ok_bind, ok_bind]
      simp only at e5 e6 e7 ⊢
      rw [e5, ok_bind, e6, ok_bind, e7, ok_bind]

/-- The samples that come from the pieces of bytes, when `buf` is left of those before. -/
def heard (conv : Int → F) (b : Nat) : List UInt8 → List (Wild F × List UInt8) → List ((Nat → F) × List F)
  | _, [] => []
  | buf, (wild, p) :: cs =>
    (wild.floats, (Pcm.Spec.samples b (buf ++ p)).map conv) :: heard conv b (leftover b (buf ++ p)) cs

theorem heard_flatten (conv : Int → F) {b : Nat} (hb : 0 < b) : ∀ (cs : List (Wild F × List UInt8)) {buf : List UInt8},
    buf.length < b → ((heard conv b buf cs).map Prod.snd).flatten =
      (Pcm.Spec.samples b (buf ++ (cs.map Prod.snd).flatten)).map conv
  | [], buf, hbuf => by
    rw [List.map_nil, List.flatten_nil, List.append_nil]
    unfold heard Pcm.Spec.samples
    rw [Nat.div_eq_of_lt hbuf]
    rfl
  | (wild, p) :: cs, buf, hbuf => by
    rw [heard, List.map_cons, List.flatten_cons, List.map_cons, List.flatten_cons, ← List.append_assoc,
      (samples_split hb (buf ++ p) (cs.map Prod.snd).flatten).1, List.map_append,
      heard_flatten conv hb cs (buf := leftover b (buf ++ p)) (by rw [Pcm.leftover_length]; exact Nat.mod_lt _ hb)]

theorem heard_short (conv : Int → F) {b : Nat} {bits : Int} (hb : Width bits b) : ∀ (cs : List (Wild F × List UInt8))
    {buf : List UInt8}, buf.length < b → (∀ p ∈ cs, p.2 ≠ [] ∧ p.2.length < 536870500) →
    ∀ y ∈ heard conv b buf cs, y.2.length < 536870500
  | [], buf, _, _ => by
    intro y hy
    cases hy
  | (wild, p) :: cs, buf, hbuf, hcs => by
    obtain ⟨h0, h1⟩ := hcs (wild, p) (by simp)
    intro y hy
    rw [heard] at hy
    rcases List.mem_cons.mp hy with rfl | hy
    · simp only at h0 h1 ⊢
      have hpos := List.length_pos_iff.mpr h0
      unfold Pcm.Spec.samples
      rw [List.length_map, List.length_map, List.length_range, List.length_append]
      have hp := hb.pos
      have h4 := hb.le
      have h5 : b = 1 ∨ b = 2 ∨ b = 3 ∨ b = 4 := by omega
      rcases h5 with rfl | rfl | rfl | rfl <;> omega
    · exact heard_short conv hb cs (by rw [Pcm.leftover_length]; exact Nat.mod_lt _ hb.pos)
        (fun q hq => hcs q (by simp [hq])) y hy

theorem feed_of {b : Nat} : ∀ {cs : List (Wild F × List UInt8)} {u : Utt F} {msg : Msg} {h : Heap F}
    {rows : List (List F)} {w : Hear.Utt} {h' : Heap F}, u.reader.ready = true → Width u.reader.format.bits b →
    u.reader.buffer.length < b → (∀ p ∈ cs, p.2 ≠ [] ∧ p.2.length < 536870500) →
    Hear.hearAll r.fb r.nn t M u.front (heard r.conv b u.reader.buffer cs) h = .ok (rows, w, h') →
    ∃ reader, feedApi r t M cs u msg h =
      (rows.foldlM (decodeRow r zeros) u.back >>= fun b' => .ok (⟨reader, w, b'⟩, msg, h'))
  | [], u, msg, h, rows, w, h', _, _, _, _, e => by
    cases e
    exact ⟨u.reader, rfl⟩
  | (wild, p) :: cs, u, msg, h, rows, w, h', hr, hw, hbuf, hcs, e => by
    obtain ⟨h0, h1⟩ := hcs (wild, p) (by simp)
    simp only at h0 h1
    rw [heard, Hear.hearAll] at e
    obtain ⟨x, e1, e⟩ := bind_ok e
    obtain ⟨y, e2, e⟩ := bind_ok e
    obtain ⟨xs, w1, h2⟩ := x
    obtain ⟨ys, w2⟩ := y
    cases e
    unfold feedApi processApi
    rw [Pcm.process_ok r.conv hr hw hbuf h0 (by omega)]
    simp only
    have e3 := afterSamples_of (r := r) (t := t) (M := M) wild
      (u := { u with reader := { u.reader with buffer := leftover b (u.reader.buffer ++ p) } }) e1
    rw [e3, List.foldlM_append]
    have ih := fun b1 : Back F => feed_of (msg := msg)
      (u := ⟨{ u.reader with buffer := leftover b (u.reader.buffer ++ p) }, w1, b1⟩) hr hw
      (by show (leftover b _).length < b; rw [Pcm.leftover_length]; exact Nat.mod_lt _ hw.pos)
      (fun q hq => hcs q (by simp [hq])) e2
    cases hx : xs.foldlM (decodeRow r zeros) u.back with
    | error z => exact ⟨u.reader, by simp only [hx]; rfl⟩
    | ok b1 =>
      obtain ⟨reader, ih⟩ := ih b1
      refine ⟨reader, ?_⟩
      simp only [hx, ok_bind]
      exact ih

variable {vm : List F → List (List F) → List F} {e L R c w : Nat}

/-- The acoustic model on values, with the number of rows before the end. -/
theorem am_rows (S : Sound r vm e L R c w) {feats : List (List F)} {x : Int → List F}
    (SX : Am.Setup r.nn vm r.am 40 e L R c w x) (hg : Series x 0 feats)
    (hlast : 0 < feats.length → ∀ t : Int, (feats.length : Int) ≤ t → x t = x ((feats.length : Int) - 1)) :
    ∃ i1 i2, Am.feed r.nn r.am Am.Inst.new (feats.map fun f => ([], f)) =
        .ok (seg (score r.nn vm r.am x) 0 (due R c feats.length), i1) ∧
      Am.endOfStream r.nn r.am i1 [] =
        .ok (seg (score r.nn vm r.am x) (due R c feats.length) (feats.length - due R c feats.length), i2) := by
  obtain ⟨i1, e1, _, v1⟩ := Am.Batches.feed_due (Am.Setup.batches SX) (feats.map fun f => (([] : List (List F)), f))
    (k := 0) (inst := Am.Inst.new) (.inl ⟨rfl, Am.due_zero _ _, rfl⟩) (by
      intro i hi
      rw [List.length_map] at hi
      rw [List.getElem?_map, Option.map_map]
      have := hg i (feats[i]) (List.getElem?_eq_getElem hi)
      rw [List.getElem?_eq_getElem hi]
      simp only [Option.map_some, Function.comp]
      rw [← this])
  rw [List.length_map, Nat.zero_add] at v1
  rw [List.length_map, Nat.zero_add, Am.due_zero, Nat.sub_zero] at e1
  by_cases hn : 0 < feats.length
  · obtain ⟨i2, e2, _⟩ := Am.Batches.endOfStream_ok (Am.Setup.batches SX) v1 hn (hlast hn) []
    exact ⟨i1, i2, e1, e2⟩
  · have : feats = [] := List.length_eq_zero_iff.mp (by omega)
    subst this
    rcases v1 with ⟨_, _, rfl⟩ | ⟨g, _⟩
    · refine ⟨Am.Inst.new, Am.Inst.new, e1, ?_⟩
      show _ = Except.ok (seg _ _ (0 - due R c 0), _)
      rw [Nat.zero_sub]
      rfl
    · exact absurd g (Nat.lt_irrefl 0)

/-- An utterance is its rows of scores, and they are the same as with values. -/
theorem recognise_rows (S : Sound r vm e L R c w) (hw : w ≤ 536870911) {h : Heap F} (hM : AmMem.Spec.Loaded h M r.am)
    (ht : FbankMem.Spec.Loaded h t r.fb) {fmt : Pcm.Format}
    (hfmt : Pcm.Reader.new.setFormat fmt = .ok ⟨true, fmt, []⟩) {b : Nat} (hb : Width fmt.bits b) (fill : Nat → UInt8)
    (cs : List (Wild F × List UInt8)) (hcs : ∀ p ∈ cs, p.2 ≠ [] ∧ p.2.length < 536870500) {feats : List (List F)}
    (hf : (Fbank.Spec.frames ((Pcm.Spec.samples b (cs.map Prod.snd).flatten).map r.conv)).mapM (row r.fb) = .ok feats) :
    ∃ h' rows1 rows2 i1 i2, Effect h h' (fun _ => False) (fun _ => False) ∧
      Am.feed r.nn r.am Am.Inst.new (feats.map fun f => ([], f)) = .ok (rows1, i1) ∧
      Am.endOfStream r.nn r.am i1 [] = .ok (rows2, i2) ∧
      recognise r t M fmt fill cs h = (decodeAll r fill rows1 rows2 >>= fun back =>
        .ok ((back.hyp, back.ll, back.dec, .none), h')) := by
  have hz : ([] : List UInt8).length < b := hb.pos
  have hflat := heard_flatten r.conv hb.pos cs hz
  rw [List.nil_append] at hflat
  rw [← hflat] at hf
  have hshort := heard_short r.conv hb cs hz hcs
  obtain ⟨x, SX, _, hg, hlast⟩ := Hear.setup_of S.hvm S.hb S.hprior S.hleft S.hright S.hchunk S.hc S.hsize S.hbig r.zero
    feats (Hear.rows_forty S.tables hf)
  obtain ⟨h', eU, EU⟩ := Hear.utterance_ok SX hw hM S.tables S.scratch ht (heard r.conv b [] cs) hshort hf hg hlast
  have hn : ∀ b, ¬ (False ∨ Owns ([] : List (Nat × List F)) b) := fun b g => g.elim id (owns_nil b)
  have st : State h InstM.new ([] : List (Nat × List F)) L R c x 0 0 :=
    ⟨rfl, ⟨by simp, by simp, by simp⟩, .inl ⟨rfl, rfl, rfl⟩, (Am.due_zero _ _).symm⟩
  obtain ⟨u1, h1, Q1, q1, p1, e1, _, _, st1, _, _⟩ := Hear.hearAll_ok SX hw hM S.tables S.scratch (heard r.conv b [] cs)
    (u := ⟨.empty, .new⟩) (z := []) (.empty (h := h)) st (fun b g => absurd g id) ht
    ⟨fun b _ => hn _, fun b _ d _ => hn _⟩ (fun b d hd => ⟨hd, hn _⟩) rfl hshort hf hg
  have hp1 : p1 = due R c feats.length := by
    have := st1.due
    rwa [Nat.zero_add] at this
  have hle : p1 ≤ feats.length := by
    rw [hp1]
    unfold due
    have := Nat.div_mul_le_self (feats.length - R) c
    omega
  rw [Nat.sub_zero] at e1
  obtain ⟨i1, i2, a1, a2⟩ := am_rows S SX hg hlast
  rw [← hp1] at a1 a2
  refine ⟨h', _, _, i1, i2, EU, a1, a2, ?_⟩
  unfold Hear.utterance at eU
  rw [e1] at eU
  simp only [ok_bind] at eU
  obtain ⟨y, g2, eU⟩ := bind_ok eU
  obtain ⟨xs, g3, eU⟩ := bind_ok eU
  obtain ⟨h3, g4, eU⟩ := bind_ok eU
  obtain ⟨z, g5, eU⟩ := bind_ok eU
  obtain ⟨h5, g6, eU⟩ := bind_ok eU
  have hpair := Prod.mk.inj (Except.ok.inj eU)
  have hh : h5 = h' := hpair.2
  subst hh
  have hxs : xs = seg (score r.nn vm r.am x) p1 (feats.length - p1) := by
    have := seg_append (score r.nn vm r.am x) 0 p1 (feats.length - p1)
    rw [show p1 + (feats.length - p1) = feats.length by omega, ← hpair.1] at this
    rw [show ((0 : Nat) : Int) = 0 from rfl] at this
    have := List.append_cancel_left this
    rw [← this]
    congr 1
    omega
  subst hxs
  unfold recognise initApi decodeAll
  cases hm : (Mdec.new : Exec (Mdec.Mem F)) with
  | error z => rfl
  | ok m =>
    rw [ok_bind, ok_bind]
    cases hd : Mdec.initDecoder r.dec r.fuel m with
    | error z => rfl
    | ok d =>
      rw [ok_bind, ok_bind, hfmt, ok_bind]
      simp only
      obtain ⟨reader, ef⟩ := feed_of (r := r) (t := t) (M := M) (msg := Msg.none)
        (u := ⟨⟨true, fmt, []⟩, ⟨.empty, .new⟩, ⟨Am.Inst.new, d, [0], r.zero⟩⟩) rfl hb hz hcs e1
      rw [ef]
      cases hr : (seg (score r.nn vm r.am x) ((0 : Nat) : Int) p1).foldlM (decodeRow r zeros)
          ⟨Am.Inst.new, d, [0], r.zero⟩ with
      | error z => rfl
      | ok b1 =>
        simp only [ok_bind]
        unfold endApi processRows
        simp only
        rw [g2, ok_bind, g3, ok_bind]
        cases (seg (score r.nn vm r.am x) (p1 : Int) (feats.length - p1)).foldlM (fun d row => do
            let (_, _, d) ← Mdec.process r.dec r.fuel row d
            .ok d) b1.dec with
        | error z => rfl
        | ok d2 =>
          simp only [ok_bind]
          cases storeHyp r fill { b1 with dec := Mdec.endOfStream d2 } with
          | error z => rfl
          | ok back =>
            simp only [ok_bind]
            unfold destroyFront
            simp only [g4, ok_bind, g5, g6]

end Verif.Whole
