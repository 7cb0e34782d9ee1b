import Verif.MsgSpec
import Verif.ApiSpec
import Verif.PcmSpec

/-!
# What the text of the last error should tell, for all calls of the interface

`Told` gives the texts by the call that failed.  A reader of the text learns a cause that is true of the arguments of the
call.
-/

namespace Verif.Msg.Spec

open Verif Verif.Text Verif.App Verif.App.Spec Verif.Api Verif.Pcm.Spec

variable {G F : Type}

/-- The answer tells that the call failed. -/
def Fails : Ret F → Prop
  | .ptr none => True
  | .code n => n = -1
  | .format none => True
  | _ => False

/-- A number in decimal. -/
def Numeral (x : Int) (t : Str) : Prop :=
  (0 ≤ x ∧ Decimal t x.toNat) ∨ (x < 0 ∧ ∃ d, t = 45 :: d ∧ Decimal d (-x).toNat)

/-- The tags of a wave file, with their places. -/
def tags : List (Nat × Str) := [(0, [82, 73, 70, 70]), (8, [87, 65, 86, 69]), (12, [102, 109, 116, 32]), (36, [100,
  97, 116, 97])]

/-- What is wrong with the first 44 bytes of a file, with the text.  A wrong tag is shown up to a NUL, and if it has two
braces `{}` then without these.  Of a wrong block alignment the text shows the byte rate. -/
inductive HeaderText (file : List UInt8) : Str → Prop
  | short : file.length < 44 → HeaderText file [73, 79, 69, 114, 114, 111, 114, 58, 32, 102, 97, 105, 108, 101, 100,
  32, 116, 111, 32, 114, 101, 97, 100, 58, 32]
  | tag {o : Nat} {tag : Str} : (o, tag) ∈ tags → o + 4 ≤ file.length → field file o 4 ≠ tag →
      ¬ [123, 125] <:+: (field file o 4).takeWhile (· ≠ 0) →
      HeaderText file ([67, 111, 114, 114, 117, 112, 116, 105, 111, 110, 58, 32, 82, 101, 97, 100, 65, 110, 100, 86,
  101, 114, 105, 102, 121, 83, 116, 114, 105, 110, 103, 58, 32, 39] ++ tag ++ [39, 32, 101, 120, 112, 101, 99, 116,
  101, 100, 32, 98, 117, 116, 32, 39] ++
        (field file o 4).takeWhile (· ≠ 0) ++ [39, 32, 102, 111, 117, 110, 100, 32, 105, 110, 32])
  | braces {o : Nat} {tag a b : Str} : (o, tag) ∈ tags → o + 4 ≤ file.length → field file o 4 ≠ tag →
      (field file o 4).takeWhile (· ≠ 0) = a ++ [123, 125] ++ b →
      HeaderText file ([67, 111, 114, 114, 117, 112, 116, 105, 111, 110, 58, 32, 82, 101, 97, 100, 65, 110, 100, 86,
  101, 114, 105, 102, 121, 83, 116, 114, 105, 110, 103, 58, 32, 39] ++ tag ++ [39, 32, 101, 120, 112, 101, 99, 116,
  101, 100, 32, 98, 117, 116, 32, 39] ++ a ++ b ++ [39, 32, 102, 111, 117, 110, 100, 32, 105, 110, 32, 123, 125])
  | size {n : Str} : 20 ≤ file.length → signed 4 (field file 16 4) ≠ 16 → Numeral (signed 4 (field file 16 4)) n →
      HeaderText file ([67, 111, 114, 114, 117, 112, 116, 105, 111, 110, 58, 32, 115, 117, 98, 99, 104, 117, 110, 107,
  49, 95, 115, 105, 122, 101, 32, 61, 61, 32, 49, 54, 32, 101, 120, 112, 101, 99, 116, 101, 100, 44, 32, 98, 117, 116,
  32] ++ n ++ [32, 102, 111, 117, 110, 100, 58, 32])
  | pcm {n : Str} : 22 ≤ file.length → signed 2 (field file 20 2) ≠ 1 → Numeral (signed 2 (field file 20 2)) n →
      HeaderText file ([67, 111, 114, 114, 117, 112, 116, 105, 111, 110, 58, 32, 97, 117, 100, 105, 111, 95, 102, 111,
  114, 109, 97, 116, 32, 61, 61, 32, 49, 32, 101, 120, 112, 101, 99, 116, 101, 100, 44, 32, 98, 117, 116,
  32] ++ n ++ [32, 102, 111, 117, 110, 100, 58, 32])
  | rate {m n : Str} : 36 ≤ file.length →
      signed 4 (field file 28 4) ≠ (signed 4 (field file 24 4) * signed 2 (field file 34 2)).tdiv 8 →
      Numeral ((signed 4 (field file 24 4) * signed 2 (field file 34 2)).tdiv 8) m →
      Numeral (signed 4 (field file 28 4)) n →
      HeaderText file ([67, 111, 114, 114, 117, 112, 116, 105, 111, 110, 58, 32, 98, 121, 116, 101, 115, 95, 114, 97,
  116, 101, 32, 61, 61, 32] ++ m ++ [32, 101, 120, 112, 101, 99, 116, 101, 100, 44, 32, 98, 117, 116, 32] ++ n ++ [32,
  102, 111, 117, 110, 100, 58, 32])
  | align {m n : Str} : 36 ≤ file.length → signed 2 (field file 32 2) ≠ (signed 2 (field file 34 2)).tdiv 8 →
      Numeral ((signed 2 (field file 34 2)).tdiv 8) m → Numeral (signed 4 (field file 28 4)) n →
      HeaderText file ([67, 111, 114, 114, 117, 112, 116, 105, 111, 110, 58, 32, 98, 108, 111, 99, 107, 95, 97, 108,
  105, 103, 110, 32, 61, 61, 32] ++ m ++ [32, 101, 120, 112, 101, 99, 116, 101, 100, 44, 32, 98, 117, 116,
  32] ++ n ++ [32, 102, 111, 117, 110, 100, 58, 32])

/-- Why the call failed, with the text. -/
inductive Told (w : World G) : Call F → Str → Prop
  | init {conf t : Str} : (w.file conf = none → t = [73, 79, 69, 114, 114, 111, 114, 58, 32, 85, 110, 97, 98, 108,
  101, 32, 116, 111, 32, 111, 112, 101, 110, 32] ++ conf) →
      (∀ bytes defs, w.file conf = some bytes → IsConf bytes defs → ∃ c, Report w conf defs c t) →
      (∃ c, Labelled c t) → Told w (.sttInit conf) t
  | channels {p : Option Nat} {f : Pcm.Format} {n : Str} : f.channels ≠ 1 → Numeral f.channels n →
      Told w (.uttInit p f) ([67, 111, 114, 114, 117, 112, 116, 105, 111, 110, 58, 32, 110, 117, 109, 95, 99, 104, 97,
  110, 110, 101, 108, 115, 32, 61, 32] ++ n ++ [32, 110, 111, 116, 32, 115, 117, 112, 112, 111, 114, 116, 101, 100])
  | rate {p : Option Nat} {f : Pcm.Format} {n : Str} : f.rate ≠ 16000 → Numeral f.rate n →
      Told w (.uttInit p f) ([67, 111, 114, 114, 117, 112, 116, 105, 111, 110, 58, 32, 115, 97, 109, 112, 108, 101,
  95, 114, 97, 116, 101, 32, 61, 32] ++ n ++ [32, 110, 111, 116, 32, 115, 117, 112, 112, 111, 114, 116, 101, 100])
  | bits {p : Option Nat} {f : Pcm.Format} {n : Str} : f.bits ∉ [8, 16, 32] → Numeral f.bits n →
      Told w (.uttInit p f) ([67, 111, 114, 114, 117, 112, 116, 105, 111, 110, 58, 32, 98, 105, 116, 115, 95, 112,
  101, 114, 95, 115, 97, 109, 112, 108, 101, 32, 61, 61, 32, 56, 44, 32, 49, 54, 32, 111, 114, 32, 51, 50, 32, 101,
  120, 112, 101, 99, 116, 101, 100, 44, 32, 98, 117, 116, 32] ++ n ++ [32, 102, 111, 117, 110, 100])
  | null {mem : Stt.Mem F} {data : Option (List UInt8)} {size : Int} :
      Told w (.process none mem data size) [117, 116, 116, 32, 105, 115, 32, 78, 85, 76, 76]
  | noBuffer {u : Option Nat} {mem : Stt.Mem F} {size : Int} :
      Told w (.process u mem none size) [82, 117, 110, 116, 105, 109, 101, 69, 114, 114, 111, 114, 58, 32, 98, 117,
  102, 102, 101, 114, 32, 105, 115, 32, 110, 117, 108, 108, 112, 116, 114]
  | size {u : Option Nat} {mem : Stt.Mem F} {data : Option (List UInt8)} {size : Int} {n : Str} : size ≤ 0 →
      Numeral size n → Told w (.process u mem data size) ([82, 117, 110, 116, 105, 109, 101, 69, 114, 114, 111, 114,
  58, 32, 117, 110, 101, 120, 112, 101, 99, 116, 101, 100, 32, 115, 105, 122, 101, 58, 32] ++ n)
  | header {file : List UInt8} {t : Str} : HeaderText file t → Told w (.readHeader file) t

/-- The numbers that the call was given are those of an `int`, and it is not `ce_stt_init`. -/
def Small : Call F → Prop
  | .sttInit _ => False
  | .uttInit _ f => InI32 f.channels ∧ InI32 f.rate ∧ InI32 f.bits
  | .process _ _ _ size => InI32 size
  | _ => True

/-- What a program reads behind `ce_stt_last_error` after its calls: nothing if none failed, otherwise what 2048 bytes
show of the text of the last call that failed. -/
def LastTold (w : World G) (tr : List (Call F × Ret F)) (read : Str) : Prop :=
  ((∀ q ∈ tr, ¬ Fails q.2) ∧ read = []) ∨
    ∃ pre c x post t, tr = pre ++ (c, x) :: post ∧ Fails x ∧ (∀ q ∈ post, ¬ Fails q.2) ∧ Told w c t ∧ read = shown t

end Verif.Msg.Spec
