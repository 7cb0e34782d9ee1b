import Verif.IeeeModel
import Verif.FbankInit

/-!
# The arithmetic of the feature extraction on the machine

`src/fbank.cc`, `src/srfft.cc` and the two functions of `src/vector.cc` they use, with `float` and `double` as in
`Verif.IeeeModel`.  Simplifications: an expression of `float` is computed in `float`, one with a literal such as `0.97` in
`double` (`FLT_EVAL_METHOD` 0), and a product and a sum are rounded one after the other (no contraction to a fused operation);
a zero has no sign, which no line of these files can see: they compare, add, subtract and multiply, and divide only by
numbers that are not zero.
-/

namespace Verif.Ieee

open Verif

/-- The functions of the C library: `cos` and `sin` of a `float` (`src/fbank.cc` 253, `src/srfft.cc` 48-49, 114, 117), `log` of
a `float`, stored as `float` (`src/vector.cc` 182), and `logf` (`src/fbank.h` 31).  Simplification: the values of `cos` and
`sin` are `double`s; where the overload for `float` is taken they are `double`s with the value of a `float`. -/
structure Lib where
  cos : F32 → F64
  sin : F32 → F64
  log : F32 → F32
  logf : F32 → F32

/-- `float` to `double`, as in `src/fbank.cc` 59. -/
def double (x : F32) : F64 := conv x

/-- `double` to `float`, as in `src/fbank.cc` 59. -/
def single (x : F64) : F32 := conv x

/-- `M_2PI`, `src/srfft.cc` 38. -/
def twoPi : F64 := fit _ (6283185307179586476925286766559005 / 10 ^ 33)

/-- `M_2PI`, `src/fbank.cc` 19, a different number. -/
def twoPi' : F64 := fit _ (628318530718 / 10 ^ 11)

/-- The operations of `src/srfft.cc` 47-456.  `M_SQRT1_2` is that of `src/srfft.cc` 42, stored as `float` in line 132. -/
def fftOps (lib : Lib) : Srfft.Ops F32 where
  ofInt n := fit _ n
  add := add
  sub := sub
  mul := mul
  neg := neg
  half x := single (mul (fit _ (1 / 2)) (double x))
  twice x := single (mul (double x) (fit _ 2))
  div2 x := div x (fit _ 2)
  sqhalf := single (fit _ (70710678118654752440 / 10 ^ 20))
  ang n m := single (div (mul (ofNat n) twoPi) (ofNat m))
  rootAng n s := single (mul (div twoPi (ofNat n)) (fit _ s))
  cos x := single (lib.cos x)
  sin x := single (lib.sin x)

/-- `a <= b`, `src/fbank.cc` 143; `b >= a`, `src/vector.cc` 181. -/
def le {f : Format} (a b : Fl f) : Bool := !isNan a && !isNan b && !lt b a

/-- `0.0`, `src/vector.cc` 181. -/
def zeroD : F64 := fit _ 0

/-- The operations of `src/fbank.cc` 44-263, `src/fbank.h` 30-32 and `src/vector.cc` 167-184.  The coefficient is that of
`src/fbank.h` 13, `FLT_EPSILON` (`src/fbank.cc` 243) is 2^-23. -/
def fbank (lib : Lib) : Fbank.Arith F32 where
  zero := fit _ 0
  add := add
  sub := sub
  mul := mul
  div := div
  ofInt n := fit _ n
  preemph x y := single (sub (double x) (mul (fit _ (97 / 100)) (double y)))
  lt := lt
  le := le
  nonneg x := le zeroD (double x)
  eps := fit _ (1 / 2 ^ 23)
  log := lib.log
  melScale f := mul (fit _ 1127) (lib.logf (add (fit _ 1) (div f (fit _ 700))))
  hammAngle n := single (div twoPi' (fit _ n))
  hamm x := single (sub (fit _ (54 / 100)) (mul (fit _ (46 / 100)) (lib.cos x)))
  fft := fftOps lib

end Verif.Ieee
