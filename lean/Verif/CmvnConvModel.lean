import Verif.ToolModel
import Verif.SerModel

/-!
# Model of `tool/convert_cmvn_stats.py`

The file is the list of its lines, as in `ToolModel.lean`.  `sys.exit(1)` and exceptions are `.error .throw`.
-/

namespace Verif.CmvnConv

open Verif Verif.Tool Verif.Ser

/-- `" ".join(fd)`, `tool/convert_cmvn_stats.py` 21. -/
def joined : List Txt → Txt
  | [] => []
  | [l] => l
  | l :: ls => l ++ ' ' :: joined ls

/-- `[0-9]`, `tool/convert_cmvn_stats.py` 14. -/
def isDigit (c : Char) : Bool := decide (48 ≤ c.toNat) && decide (c.toNat ≤ 57)

/-- `[0-9]+`, `tool/convert_cmvn_stats.py` 14: what is left behind it, if it matches.  As many digits as possible are
taken; no match of the whole expression leaves digits for what follows. -/
def digits1 (s : Txt) : Option Txt :=
  match s with
  | [] => none
  | c :: r => if isDigit c then some (r.dropWhile isDigit) else none

/-- `[-+]?`, `tool/convert_cmvn_stats.py` 14: what is left behind it. -/
def sign (s : Txt) : Txt :=
  match s with
  | [] => []
  | c :: r => if c = '-' ∨ c = '+' then r else c :: r

/-- `(\.[0-9]+)?`, `tool/convert_cmvn_stats.py` 14: what is left behind it. -/
def frac (s : Txt) : Txt :=
  match s with
  | [] => []
  | c :: r => if c = '.' then (digits1 r).getD (c :: r) else c :: r

/-- `(e[-+]?[0-9]+)?`, `tool/convert_cmvn_stats.py` 14: what is left behind it. -/
def expo (s : Txt) : Txt :=
  match s with
  | [] => []
  | c :: r => if c = 'e' then (digits1 (sign r)).getD (c :: r) else c :: r

/-- `re_num.match(t) != None`, `tool/convert_cmvn_stats.py` 14, 20.  `$` would also match in front of a line end at the
end; the texts have no white space. -/
def isNumber (t : Txt) : Bool :=
  match digits1 (sign t) with
  | none => false
  | some r => (expo (frac r)).isEmpty

/-- Python's numbers: `float(x)` of a text of digits, which never fails, and `struct.pack("<f", v)` (`none` for
`OverflowError`); `tool/convert_cmvn_stats.py` 18, 35. -/
structure FNum (R : Type) where
  val : Txt → R
  pack : R → Option UInt32

variable {R : Type}

/-- `matrix_data`, `tool/convert_cmvn_stats.py` 16-21. -/
def matrixData (num : FNum R) (lines : List Txt) : List R :=
  ((fields (joined lines)).filter isNumber).map num.val

/-- The bits of the numbers written, `tool/convert_cmvn_stats.py` 34-35. -/
def packAll (num : FNum R) (v : List R) : Exec (List Nat) :=
  v.mapM fun x =>
    match num.pack x with
    | none => .error .throw
    | some w => .ok w.toNat

/-- The program, `tool/convert_cmvn_stats.py` 11-35, given two arguments.  Simplification: opening and decoding the
files do not fail; the part written before an exception is left out. -/
def convertStats (num : FNum R) (lines : List Txt) : Exec (List UInt8) :=
  if (matrixData num lines).length ≠ 82 then .error .throw
  else do
    let stats ← packAll num ((matrixData num lines).take 41)
    .ok (writeVec stats)

end Verif.CmvnConv
