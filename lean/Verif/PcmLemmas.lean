import Verif.PcmModel
import Verif.PcmSpec

/-!
# Lemmas about the PCM reader
-/

namespace Verif.Pcm

open Spec

/-- Bytes per sample of the three supported formats. -/
inductive Width : Int → Nat → Prop
  | w8 : Width 8 1
  | w16 : Width 16 2
  | w32 : Width 32 4

theorem Width.pos {bits : Int} {b : Nat} (h : Width bits b) : 0 < b := by cases h <;> decide

theorem Width.le {bits : Int} {b : Nat} (h : Width bits b) : b ≤ 4 := by cases h <;> decide

theorem Width.tdiv {bits : Int} {b : Nat} (h : Width bits b) : bits.tdiv 8 = b := by cases h <;> rfl

theorem signed1 (a : UInt8) :
    signed 1 [a] = if a.toNat < 128 then (a.toNat : Int) else (a.toNat : Int) - 256 := by
  unfold signed leVal leVal
  rw [show (256 : Nat) ^ 1 = 256 from rfl, show (256 : Int) ^ 1 = 256 from rfl]
  by_cases h : a.toNat < 128
  · rw [if_pos h, if_pos (by omega)]; omega
  · rw [if_neg h, if_neg (by omega)]; omega

theorem signed2 (a b : UInt8) : signed 2 [a, b] = decI16 [a, b] := by
  unfold signed leVal leVal leVal decI16
  rw [show (256 : Nat) ^ 2 = 65536 from rfl, show (256 : Int) ^ 2 = 65536 from rfl]
  simp only
  by_cases h : a.toNat + 256 * b.toNat < 32768
  · rw [if_pos h, if_pos (by omega)]; omega
  · rw [if_neg h, if_neg (by omega)]; omega

theorem signed4 (a b c d : UInt8) : signed 4 [a, b, c, d] = decI32 [a, b, c, d] := by
  unfold signed leVal leVal leVal leVal leVal decI32 toI32 decU32
  simp only
  rw [show (256 : Nat) ^ 4 = 4294967296 from rfl, show (256 : Int) ^ 4 = 4294967296 from rfl]
  by_cases h : a.toNat + 256 * b.toNat + 65536 * c.toNat + 16777216 * d.toNat < 2147483648
  · rw [if_pos h, if_pos (by omega)]; omega
  · rw [if_neg h, if_neg (by omega)]; omega

theorem signed2_eq {v : List UInt8} (h : v.length = 2) : signed 2 v = decI16 v := by
  match v, h with
  | [a, b], _ => exact signed2 a b

theorem signed4_eq {v : List UInt8} (h : v.length = 4) : signed 4 v = decI32 v := by
  match v, h with
  | [a, b, c, d], _ => exact signed4 a b c d

theorem readSample_8 (bs : List UInt8) : readSample 8 bs = readInt8 bs := by
  unfold readSample; rw [if_pos rfl]

theorem readSample_16 (bs : List UInt8) : readSample 16 bs = readInt16 bs := by
  unfold readSample; rw [if_neg (by decide), if_pos rfl]

theorem readSample_32 (bs : List UInt8) : readSample 32 bs = readInt32 bs := by
  unfold readSample; rw [if_neg (by decide), if_neg (by decide), if_pos rfl]

theorem readSample_ok {bits : Int} {b : Nat} (hw : Width bits b) {bs : List UInt8}
    (h : b ≤ bs.length) : readSample bits bs = .ok (signed b (bs.take b), bs.drop b) := by
  cases hw with
  | w8 =>
    match bs, h with
    | a :: bs, _ => rw [readSample_8]; simp only [readInt8, List.take_succ_cons, List.take_zero,
        List.drop_succ_cons, List.drop_zero, signed1]
  | w16 =>
    match bs, h with
    | a :: b :: bs, _ => rw [readSample_16]; simp only [readInt16, List.take_succ_cons, List.take_zero,
        List.drop_succ_cons, List.drop_zero, signed2]
  | w32 =>
    match bs, h with
    | a :: b :: c :: d :: bs, _ => rw [readSample_32]; simp only [readInt32, List.take_succ_cons,
        List.take_zero, List.drop_succ_cons, List.drop_zero, signed4]

/-- The first `n` samples of a byte string. -/
def firstSamples (b n : Nat) (bs : List UInt8) : List Int :=
  (List.range n).map fun i => signed b ((bs.drop (b * i)).take b)

theorem firstSamples_succ (b n : Nat) (bs : List UInt8) :
    firstSamples b (n + 1) bs = signed b (bs.take b) :: firstSamples b n (bs.drop b) := by
  unfold firstSamples
  rw [List.range_succ_eq_map, List.map_cons, List.map_map]
  congr 1
  apply List.map_congr_left
  intro i _
  simp only [Function.comp_apply, List.drop_drop]
  rw [show b * (i + 1) = b + b * i by rw [Nat.mul_add]; omega]

theorem sampleLoop_ok {F : Type} (conv : Int → F) {bits : Int} {b : Nat} (hw : Width bits b) :
    ∀ (n : Nat) (bs : List UInt8), b * n ≤ bs.length →
      sampleLoop conv bits n bs = .ok ((firstSamples b n bs).map conv)
  | 0, _, _ => rfl
  | n + 1, bs, h => by
    have h1 : b * (n + 1) = b * n + b := by rw [Nat.mul_add]; omega
    unfold sampleLoop
    rw [readSample_ok hw (by omega), ok_bind]
    simp only
    rw [sampleLoop_ok conv hw n (bs.drop b) (by rw [List.length_drop]; omega), ok_bind, firstSamples_succ]
    rfl

theorem firstSamples_append {b m k : Nat} {x y : List UInt8} (hx : x.length = b * m) :
    firstSamples b (m + k) (x ++ y) = firstSamples b m x ++ firstSamples b k y := by
  unfold firstSamples
  rw [List.range_add, List.map_append, List.map_map]
  congr 1
  · apply List.map_congr_left
    intro i hi
    have hi : i < m := by simpa using hi
    have h1 : b * (i + 1) ≤ b * m := Nat.mul_le_mul_left b hi
    have h2 : b * (i + 1) = b * i + b := by rw [Nat.mul_add]; omega
    rw [List.drop_append_of_le_length (by omega),
      List.take_append_of_le_length (by rw [List.length_drop]; omega)]
  · apply List.map_congr_left
    intro i _
    simp only [Function.comp_apply]
    rw [show b * (m + i) = x.length + b * i by rw [Nat.mul_add]; omega, ← List.drop_drop]
    congr 2
    simp

/-- The bytes of the last, incomplete sample. -/
def leftover (b : Nat) (bs : List UInt8) : List UInt8 := bs.drop (b * (bs.length / b))

theorem leftover_length {b : Nat} (bs : List UInt8) : (leftover b bs).length = bs.length % b := by
  unfold leftover
  rw [List.length_drop]
  have := Nat.div_add_mod bs.length b
  omega

/-- Whole samples of a prefix, then the samples of what is left. -/
theorem samples_split {b : Nat} (hb : 0 < b) (x y : List UInt8) :
    samples b (x ++ y) = samples b x ++ samples b (leftover b x ++ y) ∧
    leftover b (x ++ y) = leftover b (leftover b x ++ y) := by
  have hdm := Nat.div_add_mod x.length b
  have hl := leftover_length (b := b) x
  have hp : (x.take (b * (x.length / b))).length = b * (x.length / b) := by
    rw [List.length_take]; omega
  have hx : x = x.take (b * (x.length / b)) ++ leftover b x := (List.take_append_drop _ _).symm
  have hlen : (x ++ y).length = b * (x.length / b) + (leftover b x ++ y).length := by
    simp only [List.length_append]; omega
  have hq : (x ++ y).length / b = x.length / b + (leftover b x ++ y).length / b := by
    rw [hlen, Nat.mul_add_div hb]
  have hxy : x ++ y = x.take (b * (x.length / b)) ++ (leftover b x ++ y) := by
    rw [← List.append_assoc, ← hx]
  constructor
  · have h1 : samples b (x ++ y) = firstSamples b ((x ++ y).length / b) (x ++ y) := rfl
    have h2 : samples b x = firstSamples b (x.length / b + 0) x := rfl
    have h3 : samples b (leftover b x ++ y) =
      firstSamples b ((leftover b x ++ y).length / b) (leftover b x ++ y) := rfl
    rw [h1, hq, h3]
    conv => lhs; arg 3; rw [hxy]
    rw [firstSamples_append hp]
    congr 1
    rw [h2]
    conv => rhs; arg 3; rw [hx]
    rw [firstSamples_append hp]
    simp [firstSamples]
  · unfold leftover
    rw [hq]
    rw [Nat.mul_add]
    conv => lhs; arg 2; rw [hxy]
    rw [← List.drop_drop]
    congr 1
    conv => lhs; arg 1; rw [← hp]
    exact List.drop_left

theorem decodeBuffer_ok {F : Type} (conv : Int → F) {bits : Int} {b : Nat} (hw : Width bits b)
    {buf : List UInt8} (h : buf.length / b < 536870912) :
    decodeBuffer conv bits buf = .ok ((samples b buf).map conv, leftover b buf) := by
  have hb := hw.pos
  have hle := hw.le
  have hdm := Nat.div_mul_le_self buf.length b
  have hc : b * (buf.length / b) = buf.length / b * b := Nat.mul_comm _ _
  have hbd : buf.length / b * b ≤ 536870911 * 4 := Nat.mul_le_mul (by omega) hle
  have e1 : (buf.length : Int).tdiv (bits.tdiv 8) = ((buf.length / b : Nat) : Int) := by
    rw [hw.tdiv]; rfl
  have e2 : bits.tdiv 8 * ((buf.length / b : Nat) : Int) = ((b * (buf.length / b) : Nat) : Int) := by
    rw [hw.tdiv]; simp
  have hout : (samples b buf) = firstSamples b (buf.length / b) buf := rfl
  have hleft : leftover b buf = buf.drop (b * (buf.length / b)) := rfl
  have hs := sampleLoop_ok conv hw (buf.length / b) buf (by omega)
  rw [hout, hleft]
  have hlt : b * (buf.length / b) ≤ buf.length := by omega
  have hbd' : b * (buf.length / b) ≤ 2147483644 := by omega
  generalize buf.length / b = q at *
  unfold decodeBuffer
  rw [if_neg (by rw [hw.tdiv]; omega)]
  simp only [e1]
  rw [wrap32_of (⟨by omega, by omega⟩), vecInit_ok (by omega) (by omega),
    ok_bind, Int.toNat_natCast, hs, ok_bind, e2]
  generalize b * q = m at *
  rw [i32_of ⟨by omega, by omega⟩, ok_bind, decide_eq_true (by omega), cassert_true, ok_bind,
    Int.toNat_natCast]

/-- One call of `Process`. -/
theorem process_ok {F : Type} (conv : Int → F) {r : Reader} {b : Nat} (hr : r.ready = true)
    (hw : Width r.format.bits b) (hbuf : r.buffer.length < b) {c : List UInt8} (h0 : c ≠ [])
    (h1 : c.length < 536870912) :
    r.process conv (some c) c.length =
      .ok ((samples b (r.buffer ++ c)).map conv, { r with buffer := leftover b (r.buffer ++ c) }) := by
  have hc : 0 < c.length := List.length_pos_iff.mpr h0
  have hlt : (r.buffer ++ c).length / b < 536870912 := by
    have hb := hw.pos
    have hle := hw.le
    rw [Nat.div_lt_iff_lt_mul hb, List.length_append]
    have : 536870912 * 1 ≤ 536870912 * b := Nat.mul_le_mul_left _ hb
    have h4 : b = 1 ∨ b = 2 ∨ b = 3 ∨ b = 4 := by omega
    rcases h4 with rfl | rfl | rfl | rfl <;> omega
  unfold Reader.process
  simp only
  rw [if_neg (by omega), hr, Bool.not_true, if_neg (by simp), if_neg (by omega), Int.toNat_natCast,
    List.take_length, decodeBuffer_ok conv hw hlt]
  rfl

theorem feed_ok {F : Type} (conv : Int → F) {b : Nat} :
    ∀ (cs : List (List UInt8)) (r : Reader), r.ready = true → Width r.format.bits b →
      r.buffer.length < b → (∀ c ∈ cs, c ≠ [] ∧ c.length < 536870912) →
      r.feed conv cs = .ok ((samples b (r.buffer ++ cs.flatten)).map conv,
        { r with buffer := leftover b (r.buffer ++ cs.flatten) })
  | [], r, hr, hw, hbuf, _ => by
    have h0 : r.buffer.length / b = 0 := Nat.div_eq_of_lt hbuf
    unfold Reader.feed samples leftover
    simp [h0]
  | c :: cs, r, hr, hw, hbuf, hcs => by
    obtain ⟨h0, h1⟩ := hcs c (by simp)
    unfold Reader.feed
    rw [process_ok conv hr hw hbuf h0 h1, io_ok_bind]
    simp only
    have hb := hw.pos
    rw [feed_ok conv cs { r with buffer := leftover b (r.buffer ++ c) } hr hw
      (by rw [show ({ r with buffer := leftover b (r.buffer ++ c) } : Reader).buffer =
            leftover b (r.buffer ++ c) from rfl, leftover_length]; exact Nat.mod_lt _ hb)
      (fun d hd => hcs d (by simp [hd])), io_ok_bind]
    simp only
    obtain ⟨e1, e2⟩ := samples_split hb (r.buffer ++ c) cs.flatten
    rw [List.flatten_cons, ← List.append_assoc, e1, e2, List.map_append]

end Verif.Pcm
