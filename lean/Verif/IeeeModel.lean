import Verif.IeeeRound
import Verif.DecoderModel

/-!
# The arithmetic of the machine

`float` and `double` as IEEE 754 has them, rounding to nearest, for the operations of `src/decoder.cc`.  Simplification:
there is one zero; the sign of a zero is visible to no comparison and to no sum with a number that is not zero, and
`src/decoder.cc` does nothing else with its costs.  Expressions of `float` are computed in `float` (as on all machines with
`FLT_EVAL_METHOD` 0).
-/

namespace Verif.Ieee

open Verif Verif.Decoder

/-- Stands for `float` and `double`, `src/decoder.cc` 97-102 and 181: a number of the format, one of the infinities (`true`:
minus infinity) or NaN. -/
inductive Fl (f : Format) where
  | num (q : Rat) (h : Rep f q)
  | inf (neg : Bool)
  | nan
deriving DecidableEq

/-- A format with at least one digit. -/
class Good (f : Format) : Prop where
  prec : 0 < f.prec
  top : 0 < f.top
  low : f.low ≤ 0

instance : Good binary32 := ⟨by decide, by decide, by decide⟩
instance : Good binary64 := ⟨by decide, by decide, by decide⟩

/-- The result of an operation of `src/decoder.cc` 97-420 whose exact result is the number `q`: rounded, and an infinity if
it is too large. -/
def fit (f : Format) [h : Good f] (q : Rat) : Fl f :=
  if hq : |round f q| < pow2 f.top then .num (round f q) ⟨round_grid f h.prec q, hq⟩
  else .inf (decide (q < 0))

variable {f g : Format} [Good f] [Good g]

/-- `a + b`, as in `src/decoder.cc` 268. -/
def add : Fl f → Fl f → Fl f
  | .num a _, .num b _ => fit f (a + b)
  | .num _ _, .inf s => .inf s
  | .inf s, .num _ _ => .inf s
  | .inf s, .inf t => if s = t then .inf s else .nan
  | _, _ => .nan

/-- `-a`, as in `src/decoder.cc` 327. -/
def neg : Fl f → Fl f
  | .num a _ => fit f (-a)
  | .inf s => .inf !s
  | .nan => .nan

/-- `a - b`, as in `src/decoder.cc` 229. -/
def sub (a b : Fl f) : Fl f := add a (neg b)

/-- `a * b`, as in `src/decoder.cc` 101. -/
def mul : Fl f → Fl f → Fl f
  | .num a _, .num b _ => fit f (a * b)
  | .num a _, .inf s => if a = 0 then .nan else .inf (xor s (decide (a < 0)))
  | .inf s, .num b _ => if b = 0 then .nan else .inf (xor s (decide (b < 0)))
  | .inf s, .inf t => .inf (xor s t)
  | _, _ => .nan

/-- `a / b`, as in `src/decoder.cc` 189 and 195.  Simplification: a number over zero is infinite with the sign of the
number (a zero has no sign). -/
def div : Fl f → Fl f → Fl f
  | .num a _, .num b _ => if b = 0 then (if a = 0 then .nan else .inf (decide (a < 0))) else fit f (a / b)
  | .num _ _, .inf _ => fit f 0
  | .inf s, .num b _ => .inf (xor s (decide (b < 0)))
  | _, _ => .nan

/-- `a < b`, as in `src/decoder.cc` 200. -/
def lt : Fl f → Fl f → Bool
  | .num a _, .num b _ => decide (a < b)
  | .num _ _, .inf t => !t
  | .inf s, .num _ _ => s
  | .inf s, .inf t => s && !t
  | _, _ => false

/-- Conversion between the two types, as in `src/decoder.cc` 201 and 307. -/
def conv : Fl f → Fl g
  | .num a _ => fit g a
  | .inf s => .inf s
  | .nan => .nan

/-- Conversion of a whole number, as in `src/decoder.cc` 189 and 195. -/
def ofNat (n : Nat) : Fl f := fit f n

/-- `std::isnan`, which no line of `src/decoder.cc` asks; `src/decoder.cc` 207 asks for `std::isfinite`. -/
def isNan : Fl f → Bool
  | .nan => true
  | _ => false

/-- `std::isfinite`, `src/decoder.cc` 207. -/
def isNum : Fl f → Bool
  | .num _ _ => true
  | _ => false

/-- `float`, `src/decoder.cc` 97-102. -/
abbrev F32 := Fl binary32

/-- `double`, `src/decoder.cc` 181. -/
abbrev F64 := Fl binary64

/-- The operations of `src/decoder.cc` 97-420 as the machine has them; the constants are those of `src/decoder.cc` 55 and
`src/decoder.h` 55. -/
def machine : Arith F32 F64 where
  fadd := add
  fmul := mul
  fneg := neg
  zero := fit _ 0
  flt := lt
  fdiv a b := div (ofNat a) (ofNat b)
  toD := conv
  toF := conv
  dadd := add
  dsub := sub
  dlt := lt
  finite := isNum
  inf := .inf false
  isInf a := decide (a = .inf false)
  beam := fit _ 16
  beamDelta := fit _ (1 / 2)

end Verif.Ieee
