import Verif.PcmHeader

/-!
# Properties of the PCM reader: C25, C26
-/

namespace Verif.Pcm

open Spec

theorem setFormat_width {r r' : Reader} {f : Format} (h : r.setFormat f = .ok r') :
    r' = { r with ready := true, format := f } ∧ f.channels = 1 ∧ f.rate = 16000 ∧
      Width f.bits (f.bits.toNat / 8) := by
  unfold Reader.setFormat at h
  split at h
  · cases h
  · rename_i h1
    split at h
    · cases h
    · rename_i h2
      split at h
      · rename_i h3
        cases h
        refine ⟨rfl, Decidable.not_not.mp h1, Decidable.not_not.mp h2, ?_⟩
        rcases h3 with h3 | h3 | h3 <;> rw [h3]
        · exact .w8
        · exact .w16
        · exact .w32
      · cases h

/-- C25: feed a byte stream in any non-empty pieces (of less than 2^29 bytes) to a new reader for any
supported format: the samples returned are those of the whole stream, `⌊n/b⌋` of them, sample `i` being the
little-endian two's complement value of bytes `b*i … b*i+b-1`; the bytes of an incomplete last sample, and
only those, are kept.
Missing for the full property: longer pieces, for which it is false, see `C25_huge_piece_throws`. -/
theorem C25_chunk_independence_partial {F : Type} (conv : Int → F) {f : Format} {r : Reader}
    (hf : Reader.new.setFormat f = .ok r) (cs : List (List UInt8))
    (hcs : ∀ c ∈ cs, c ≠ [] ∧ c.length < 536870912) :
    r.feed conv cs = .ok ((samples (f.bits.toNat / 8) cs.flatten).map conv,
      { r with buffer := cs.flatten.drop (f.bits.toNat / 8 * (cs.flatten.length / (f.bits.toNat / 8))) }) := by
  obtain ⟨rfl, _, _, hw⟩ := setFormat_width hf
  rw [feed_ok conv cs _ rfl hw hw.pos hcs]
  rfl

/-- C25, the consequence for two ways of cutting the same stream. -/
theorem C25_same_stream_partial {F : Type} (conv : Int → F) {f : Format} {r : Reader}
    (hf : Reader.new.setFormat f = .ok r) (cs ds : List (List UInt8)) (he : cs.flatten = ds.flatten)
    (hcs : ∀ c ∈ cs, c ≠ [] ∧ c.length < 536870912) (hds : ∀ c ∈ ds, c ≠ [] ∧ c.length < 536870912) :
    ∃ out, r.feed conv cs = .ok out ∧ r.feed conv ds = .ok out := by
  refine ⟨_, C25_chunk_independence_partial conv hf cs hcs, ?_⟩
  rw [C25_chunk_independence_partial conv hf ds hds, he]

/-- C25: after `Reset` a stream is decoded as by a new reader, whatever was left over from the last one. -/
theorem C25_reset {F : Type} (conv : Int → F) {f : Format} {r : Reader}
    (hf : Reader.new.setFormat f = .ok r) (cs ds : List (List UInt8))
    (hcs : ∀ c ∈ cs, c ≠ [] ∧ c.length < 536870912) :
    ∃ xs r1, r.feed conv cs = .ok (xs, r1) ∧ r1.reset.feed conv ds = r.feed conv ds := by
  refine ⟨_, _, C25_chunk_independence_partial conv hf cs hcs, ?_⟩
  obtain ⟨rfl, _, _, hw⟩ := setFormat_width hf
  rfl

/-- C25: which formats `SetFormat` supports. -/
theorem C25_supported_formats (r : Reader) (f : Format) :
    (∃ r', r.setFormat f = .ok r') ↔ f.channels = 1 ∧ f.rate = 16000 ∧
      (f.bits = 8 ∨ f.bits = 16 ∨ f.bits = 32) := by
  unfold Reader.setFormat
  constructor
  · rintro ⟨r', h⟩
    split at h
    · cases h
    · rename_i h1
      split at h
      · cases h
      · rename_i h2
        split at h
        · rename_i h3
          exact ⟨Decidable.not_not.mp h1, Decidable.not_not.mp h2, h3⟩
        · cases h
  · rintro ⟨h1, h2, h3⟩
    exact ⟨_, by rw [if_neg (fun h => h h1), if_neg (fun h => h h2), if_pos h3]⟩

/-- C25 fails for enormous pieces: the size in bytes of the sample vector is kept in an `int`.  With 8 bit
samples a piece of 2^29 bytes throws `bad_alloc`, … -/
theorem C25_huge_piece_throws {F : Type} (conv : Int → F) {f : Format} {r : Reader}
    (hf : Reader.new.setFormat f = .ok r) (h8 : f.bits = 8) (c : List UInt8) (hc : c.length = 536870912) :
    r.process conv (some c) c.length = .error (.fault .throw) := by
  obtain ⟨rfl, _, _, _⟩ := setFormat_width hf
  unfold Reader.process
  simp only
  rw [hc, if_neg (by decide), if_neg (by decide), if_neg (by decide)]
  have : decodeBuffer conv f.bits (Reader.new.buffer ++ c.take ((536870912 : Nat) : Int).toNat) =
      .error .throw := by
    rw [show Reader.new.buffer ++ c.take ((536870912 : Nat) : Int).toNat = c by
      show c.take 536870912 = c; rw [← hc, List.take_length]]
    unfold decodeBuffer
    rw [h8]
    simp only
    rw [if_neg (by decide), hc]
    rfl
  exact congrArg (fun e => Io.ofExec e >>= _) this

/-- … and one of 2^30 bytes gets a block of no bytes at all and writes past it. -/
theorem C25_huge_piece_overflows {F : Type} (conv : Int → F) {f : Format} {r : Reader}
    (hf : Reader.new.setFormat f = .ok r) (h8 : f.bits = 8) (c : List UInt8) (hc : c.length = 1073741824) :
    r.process conv (some c) c.length = .error (.fault .ub) := by
  obtain ⟨rfl, _, _, _⟩ := setFormat_width hf
  unfold Reader.process
  simp only
  rw [hc, if_neg (by decide), if_neg (by decide), if_neg (by decide)]
  have : decodeBuffer conv f.bits (Reader.new.buffer ++ c.take ((1073741824 : Nat) : Int).toNat) =
      .error .ub := by
    rw [show Reader.new.buffer ++ c.take ((1073741824 : Nat) : Int).toNat = c by
      show c.take 1073741824 = c; rw [← hc, List.take_length]]
    unfold decodeBuffer
    rw [h8]
    simp only
    rw [if_neg (by decide), hc]
    rfl
  exact congrArg (fun e => Io.ofExec e >>= _) this

/-- 16 bit samples cut in the middle of a sample, with a byte left over at the end. -/
example : ∃ r, Reader.new.setFormat ⟨1, 16000, 16⟩ = .ok r ∧
    r.feed id [[1, 0, 255], [255, 0], [128, 7]] =
      .ok ([1, -1, -32768], { r with buffer := [7] }) := ⟨_, rfl, by decide⟩

example : ∃ r, Reader.new.setFormat ⟨1, 16000, 8⟩ = .ok r ∧
    r.feed id [[1, 255], [128]] = .ok ([1, -1, -128], r) := ⟨_, rfl, by decide⟩

example : ∃ r, Reader.new.setFormat ⟨1, 16000, 32⟩ = .ok r ∧
    r.feed id [[1, 0], [0, 128, 9]] = .ok ([-2147483647], { r with buffer := [9] }) := ⟨_, rfl, by decide⟩

/-- There are pieces as long as `C25_huge_piece_throws` and `C25_huge_piece_overflows` ask for. -/
example : (∃ c : List UInt8, c.length = 536870912) ∧ ∃ c : List UInt8, c.length = 1073741824 :=
  ⟨⟨List.replicate _ 0, List.length_replicate⟩, ⟨List.replicate _ 0, List.length_replicate⟩⟩

/-! ## The header -/

/-- C26: exactly which files `ReadPcmHeader` accepts, what it returns and where it leaves the file.  Byte rate
and block alignment have to be those of a single channel whatever the number of channels says. -/
theorem C26_accepted (bs rest : List UInt8) (ch rate bits : Int) :
    readPcmHeader bs = .ok (⟨ch, rate, bits⟩, rest) ↔
      ∃ h, bs = h ++ rest ∧ InI32 (rate * bits) ∧
        Header h ch rate ((rate * bits).tdiv 8) (bits.tdiv 8) bits := header_iff bs rest ch rate bits

/-- C26 for one channel (the only number `SetFormat` supports): the accepted headers are exactly the
documented ones.
Missing for the full property: other numbers of channels, for which it is false, see
`C26_documented_header_rejected`; and fields whose product is not an `int`, see `C26_overflow`. -/
theorem C26_mono_partial (bs rest : List UInt8) (rate bits : Int) (h0 : 0 ≤ rate) (h1 : 0 ≤ bits)
    (hi : InI32 (rate * bits)) :
    readPcmHeader bs = .ok (⟨1, rate, bits⟩, rest) ↔
      ∃ h, bs = h ++ rest ∧ WavHeader h 1 rate bits := by
  have hm : 0 ≤ rate * bits := Int.mul_nonneg h0 h1
  rw [header_iff]
  unfold WavHeader
  rw [Int.mul_one, Int.one_mul, Int.tdiv_eq_ediv_of_nonneg hm, Int.tdiv_eq_ediv_of_nonneg h1]
  constructor
  · rintro ⟨h, e, _, hh⟩; exact ⟨h, e, hh⟩
  · rintro ⟨h, e, hh⟩; exact ⟨h, e, hi, hh⟩

/-- C26 fails for more than one channel: the header that the WAVE format documents is rejected. -/
theorem C26_documented_header_rejected {h : List UInt8} {ch rate bits : Int} (hh : WavHeader h ch rate bits)
    (hc : 2 ≤ ch) (hb : 8 ≤ bits) (hi : InI32 (rate * bits)) (rest : List UInt8) :
    readPcmHeader (h ++ rest) = bad .corruption := by
  have h2 : (2 : Int) * bits ≤ ch * bits := Int.mul_le_mul_of_nonneg_right hc (by omega)
  rw [header_cases hh, if_neg (fun h => h hi), if_pos]
  right
  rw [Int.tdiv_eq_ediv_of_nonneg (by omega)]
  omega

/-- C26: a sample rate and a sample size whose product is not an `int` make `ReadPcmHeader` overflow. -/
theorem C26_overflow {h : List UInt8} {ch rate br ba bits : Int} (hh : Header h ch rate br ba bits)
    (hi : ¬ InI32 (rate * bits)) (rest : List UInt8) :
    readPcmHeader (h ++ rest) = .error (.fault .ub) := by
  rw [header_cases hh, if_pos hi]

/-- C26: that is the only way it can fault on a file that has a whole header. -/
theorem C26_faults_only_on_overflow {bs : List UInt8} {f : Fault} (hl : 44 ≤ bs.length)
    (h : readPcmHeader bs = .error (.fault f)) :
    f = .ub ∧ ¬ InI32 (signed 4 (field bs 24 4) * signed 2 (field bs 34 2)) := by
  rw [header_at hl] at h
  unfold headerResult at h
  split at h
  · cases h
  · split at h
    · rename_i hi
      cases h
      exact ⟨rfl, hi⟩
    · split at h <;> cases h

/-- A file shorter than a header is never accepted. -/
theorem C26_short_file_rejected {bs rest : List UInt8} {f : Format} (hl : bs.length < 44) :
    readPcmHeader bs ≠ .ok (f, rest) := by
  intro h
  have := header_ok_length h
  omega

/-- C25 and C26 together: reading a whole `.wav` file yields the samples behind the header. -/
theorem C25_whole_file {F : Type} (conv : Int → F) {h data : List UInt8} {bits : Int}
    (hh : WavHeader h 1 16000 bits) (hb : bits = 8 ∨ bits = 16 ∨ bits = 32) (h0 : data ≠ [])
    (h1 : data.length < 536870912) :
    read16kPcm conv (h ++ data) = .ok ((samples (bits.toNat / 8) data).map conv) := by
  have hr := (C26_mono_partial (h ++ data) data 16000 bits (by omega) (by omega)
    (by unfold InI32; omega)).mpr ⟨h, rfl, hh⟩
  have hl := hh.length
  have hd : 0 < data.length := List.length_pos_iff.mpr h0
  unfold read16kPcm
  rw [hr, io_ok_bind]
  simp only
  obtain ⟨r, hs⟩ := (C25_supported_formats Reader.new ⟨1, 16000, bits⟩).mpr ⟨rfl, rfl, hb⟩
  rw [hs, io_ok_bind]
  have hsz : wrap32 (((h ++ data).length : Int) - 44) = data.length := by
    rw [List.length_append, wrap32_of (by unfold InI32; omega)]; omega
  simp only [hsz]
  rw [if_neg (by omega), Int.toNat_natCast, show (h ++ data).drop 44 = data by rw [← hl, List.drop_left]]
  have := readBytes_append (n := data.length) (rest := []) (by omega) (rfl : data.length = data.length)
  rw [List.append_nil] at this
  rw [this, io_ok_bind]
  simp only
  obtain ⟨rfl, _, _, hw⟩ := setFormat_width hs
  rw [process_ok conv rfl hw hw.pos h0 h1]
  rfl

/-- The header of a 16 kHz, 16 bit, mono file, and of its stereo counterpart. -/
def exampleHeader (ch blockAlign b1 b2 : UInt8) : List UInt8 :=
  [82, 73, 70, 70, 0, 0, 0, 0, 87, 65, 86, 69, 102, 109, 116, 32, 16, 0, 0, 0, 1, 0, ch, 0,
    128, 62, 0, 0, b1, b2, 0, 0, blockAlign, 0, 16, 0, 100, 97, 116, 97, 0, 0, 0, 0]

example : WavHeader (exampleHeader 1 2 0 125) 1 16000 16 :=
  ⟨rfl, rfl, rfl, rfl, by decide, by decide, by decide, by decide, by decide, by decide, by decide, rfl⟩

example : WavHeader (exampleHeader 2 4 0 250) 2 16000 16 :=
  ⟨rfl, rfl, rfl, rfl, by decide, by decide, by decide, by decide, by decide, by decide, by decide, rfl⟩

/-- The header with the wrong rates for two channels is the one that is accepted. -/
example : readPcmHeader (exampleHeader 2 2 0 125 ++ [1, 2, 3]) = .ok (⟨2, 16000, 16⟩, [1, 2, 3]) := by
  decide

example : read16kPcm id (exampleHeader 1 2 0 125 ++ [1, 0, 255, 255]) = .ok [1, -1] := by decide

/-- A sample rate of 2^31-1 with 16 bits per sample. -/
example : ∃ h, Header h 1 2147483647 0 2 16 ∧ ¬ InI32 (2147483647 * 16) :=
  ⟨[82, 73, 70, 70, 0, 0, 0, 0, 87, 65, 86, 69, 102, 109, 116, 32, 16, 0, 0, 0, 1, 0, 1, 0,
    255, 255, 255, 127, 0, 0, 0, 0, 2, 0, 16, 0, 100, 97, 116, 97, 0, 0, 0, 0],
   ⟨rfl, rfl, rfl, rfl, by decide, by decide, by decide, by decide, by decide, by decide, by decide, rfl⟩,
   by decide⟩

end Verif.Pcm
