import Verif.SerModel

/-!
# The converters that read text: `tool/prune_lm.py`, `tool/convert_unigram.py`, `tool/convert_trans.py`

A text file is the list of its lines, as Python's `for line in fd` gives them (with or without line ends; every use
strips them).  An exception is `.error .throw`; what was printed before it is not modelled.
-/

namespace Verif.Tool

open Verif

/-- A line of a text, `tool/prune_lm.py` 12: Unicode characters. -/
abbrev Txt := List Char

/-! ## Python's strings -/

/-- `str.isspace` of one character, which `strip` and `split` go by.
Called in `tool/prune_lm.py` 14-46, `tool/convert_unigram.py` 22-68 and `tool/convert_trans.py` 16. -/
def white (c : Char) : Bool :=
  let n := c.toNat
  (decide (9 ≤ n) && decide (n ≤ 13)) || (decide (28 ≤ n) && decide (n ≤ 32)) || n == 0x85 || n == 0xA0 ||
    n == 0x1680 || (decide (0x2000 ≤ n) && decide (n ≤ 0x200A)) || n == 0x2028 || n == 0x2029 || n == 0x202F ||
    n == 0x205F || n == 0x3000

/-- `str.strip()`, `tool/prune_lm.py` 14, `tool/convert_unigram.py` 22, 65, `tool/convert_trans.py` 16. -/
def strip (l : Txt) : Txt := ((l.dropWhile white).reverse.dropWhile white).reverse

/-- `str.split()`; `cur` is the field being read.
Called in `tool/prune_lm.py` 36, `tool/convert_unigram.py` 39, 68 and `tool/convert_trans.py` 23. -/
def fieldsFrom : Txt → Txt → List Txt
  | cur, [] => if cur = [] then [] else [cur]
  | cur, c :: l =>
    if white c then (if cur = [] then fieldsFrom [] l else cur :: fieldsFrom [] l) else fieldsFrom (cur ++ [c]) l

/-- `str.split()`, `tool/prune_lm.py` 36, `tool/convert_unigram.py` 39, 68, `tool/convert_trans.py` 23. -/
def fields (l : Txt) : List Txt := fieldsFrom [] l

/-- `str.split(d)` for one character `d`; `cur` is the part being read.
Called in `tool/prune_lm.py` 24 and `tool/convert_unigram.py` 29. -/
def splitFrom (d : Char) : Txt → Txt → List Txt
  | cur, [] => [cur]
  | cur, c :: l => if c = d then cur :: splitFrom d [] l else splitFrom d (cur ++ [c]) l

/-- `str.split(d)`, `tool/prune_lm.py` 24, `tool/convert_unigram.py` 29. -/
def splitAt (d : Char) (l : Txt) : List Txt := splitFrom d [] l

/-- The value of decimal digits, `none` if there is another character.
Part of `int`, called in `tool/convert_unigram.py` 72 and `tool/convert_trans.py` 17-18, 24. -/
def digits : Nat → Txt → Option Nat
  | n, [] => some n
  | n, c :: l => if 48 ≤ c.toNat ∧ c.toNat ≤ 57 then digits (10 * n + (c.toNat - 48)) l else none

/-- `int(s)`, `tool/convert_unigram.py` 72, `tool/convert_trans.py` 17-24; `none` for `ValueError`.  Simplification: underscores between digits and digits of other scripts, which
Python takes too, are not taken. -/
def pyInt (s : Txt) : Option Int :=
  match strip s with
  | [] => none
  | c :: l =>
    if c = '-' then (if l = [] then none else (digits 0 l).map fun n : Nat => -(n : Int))
    else if c = '+' then (if l = [] then none else (digits 0 l).map fun n : Nat => (n : Int))
    else (digits 0 (c :: l)).map fun n : Nat => (n : Int)

/-- `list[i] = x`, `tool/convert_unigram.py` 87, `tool/convert_trans.py` 24: negative indices count from the end, others out of range raise `IndexError`. -/
def pySet {α : Type} (xs : List α) (i : Int) (x : α) : Exec (List α) :=
  if 0 ≤ i then (if i < xs.length then .ok (xs.set i.toNat x) else .error .throw)
  else if -(xs.length : Int) ≤ i then .ok (xs.set (i + xs.length).toNat x)
  else .error .throw

/-- `d[k] = v` of a dictionary, `tool/convert_unigram.py` 47, 73, 110, which keeps the order in which keys were first set. -/
def dictSet {α β : Type} [DecidableEq α] (d : List (α × β)) (k : α) (v : β) : List (α × β) :=
  match d with
  | [] => [(k, v)]
  | p :: d => if p.1 = k then (k, v) :: d else p :: dictSet d k v

/-- `d[k]`, `tool/convert_unigram.py` 80, 86; `none` if `k not in d`. -/
def dictGet {α β : Type} [DecidableEq α] (d : List (α × β)) (k : α) : Option β := d.lookup k

/-- `\data\`, `tool/prune_lm.py` 18. -/
def tData : Txt := ['\\', 'd', 'a', 't', 'a', '\\']
/-- `\1-grams:`, `tool/prune_lm.py` 30. -/
def tOne : Txt := ['\\', '1', '-', 'g', 'r', 'a', 'm', 's', ':']
/-- `\end\`, `tool/prune_lm.py` 46. -/
def tEnd : Txt := ['\\', 'e', 'n', 'd', '\\']
/-- `iARPA`, `tool/prune_lm.py` 16. -/
def tIarpa : Txt := ['i', 'A', 'R', 'P', 'A']
/-- `ngram 1`, `tool/prune_lm.py` 28. -/
def tCount1 : Txt := ['n', 'g', 'r', 'a', 'm', ' ', '1']

/-- `State`, `tool/prune_lm.py` 4-9 and `tool/convert_unigram.py` 9-14. -/
inductive St where
  | begin | data | unigram | ngram | fin
deriving DecidableEq, Repr

/-! ## `tool/prune_lm.py` -/

/-- One line, `tool/prune_lm.py` 13-52: new state and what is printed (lines without their ends). -/
def pruneLine (s : St) (line : Txt) : Exec (St × List Txt) :=
  match s with
  | .begin =>
    if strip line = [] then .ok (.begin, [])
    else if strip line = tIarpa then .ok (.begin, [])
    else if strip line = tData then .ok (.data, [strip line])
    else .error .throw
  | .data =>
    let f := splitAt '=' (strip line)
    if strip line = [] then .ok (.data, [strip line])
    else if f.length = 2 then
      if (f.head?.map strip) = some tCount1 then .ok (.data, [strip line]) else .ok (.data, [])
    else if strip line = tOne then .ok (.unigram, [strip line])
    else .error .throw
  | .unigram =>
    if strip line = [] then .ok (.unigram, [strip line])
    else if (strip line).head? = some '\\' then .ok (.ngram, [])
    else match fields (strip line) with
      | [a, b] => .ok (.unigram, [a ++ [' '] ++ b])
      | [a, b, _] => .ok (.unigram, [a ++ [' '] ++ b])
      | _ => .error .throw
  | .ngram => if strip line = tEnd then .ok (.fin, [strip line]) else .ok (.ngram, [])
  | .fin => .ok (.fin, [])

/-- The loop, `tool/prune_lm.py` 12-52, from a state. -/
def pruneFrom : St → List Txt → Exec (St × List Txt)
  | s, [] => .ok (s, [])
  | s, line :: lines => do
    let (s, out) ← pruneLine s line
    let (s, rest) ← pruneFrom s lines
    .ok (s, out ++ rest)

/-- The program, `tool/prune_lm.py` 11-55: standard input to standard output. -/
def prune (lines : List Txt) : Exec (List Txt) := do
  let (s, out) ← pruneFrom .begin lines
  if s = .fin then .ok out else .error .throw

/-! ## `tool/convert_unigram.py` -/

/-- Python's numbers, as far as the converter uses them: `float(s)` (`none` for `ValueError`), the integer 0, infinity,
`-c * M_LN10`, and `struct.pack("<f", v)` (`none` for `OverflowError`); `tool/convert_unigram.py` 6-7, 47, 87, 97, 110. -/
structure Num (R : Type) where
  parse : Txt → Option R
  zero : R
  inf : R
  cost : R → R
  pack : R → Option UInt32

variable {R : Type}

/-- One line in `read_unigram`, `tool/convert_unigram.py` 21-56: new state and dictionary. -/
def unigramLine (num : Num R) (acc : St × List (Txt × R)) (line : Txt) : Exec (St × List (Txt × R)) :=
  let (s, d) := acc
  match s with
  | .begin =>
    if strip line = [] then .ok (.begin, d)
    else if strip line = tData then .ok (.data, d)
    else .error .throw
  | .data =>
    if strip line = [] then .ok (.data, d)
    else if (splitAt '=' (strip line)).length = 2 then .ok (.data, d)
    else if strip line = tOne then .ok (.unigram, d)
    else .error .throw
  | .unigram =>
    if strip line = [] then .ok (.unigram, d)
    else if strip line = tEnd then .ok (.fin, d)
    else if (strip line).head? = some '\\' then .ok (.ngram, d)
    else
      let entry (a b : Txt) : Exec (St × List (Txt × R)) :=
        match num.parse a with
        | some c => .ok (.unigram, dictSet d b c)
        | none => .error .throw
      match fields (strip line) with
      | [a, b] => entry a b
      | [a, b, _] => entry a b
      | _ => .error .throw
  | .ngram => if strip line = tEnd then .ok (.fin, d) else .ok (.ngram, d)
  | .fin => .ok (.fin, d)

/-- `read_unigram`, `tool/convert_unigram.py` 16-59.  Simplification: opening and decoding the file do not fail. -/
def readUnigram (num : Num R) (lines : List Txt) : Exec (List (Txt × R)) := do
  let (s, d) ← lines.foldlM (unigramLine num) (.begin, [])
  if s = .fin then .ok d else .error .throw

/-- One line in `read_vocab`, `tool/convert_unigram.py` 65-73. -/
def vocabLine (v : List (Txt × Int)) (line : Txt) : Exec (List (Txt × Int)) :=
  if strip line = [] then .ok v
  else match fields (strip line) with
    | [w, x] =>
      match pyInt x with
      | some id => .ok (dictSet v w id)
      | none => .error .throw
    | _ => .error .throw

/-- `read_vocab`, `tool/convert_unigram.py` 61-74.  Simplification: opening and decoding the file do not fail. -/
def readVocab (lines : List Txt) : Exec (List (Txt × Int)) := lines.foldlM vocabLine []

/-- `<s>`, `tool/convert_unigram.py` 110. -/
def tBos : Txt := ['<', 's', '>']
/-- `<unk>`, `tool/convert_unigram.py` 81. -/
def tUnk : Txt := ['<', 'u', 'n', 'k', '>']

/-- One word in `build_cost_array`, `tool/convert_unigram.py` 79-88.  Simplification: what is
printed (lines 82, 88) is left out. -/
def costWord (num : Num R) (vocab : List (Txt × Int)) (array : List R) (p : Txt × R) : Exec (List R) :=
  match dictGet vocab p.1 with
  | none => if p.1 = tUnk then .ok array else .error .throw
  | some id => pySet array id (num.cost p.2)

/-- `max(vocab.values())`, `tool/convert_unigram.py` 77; `none` for an empty vocabulary (`ValueError`). -/
def maxValue : List (Txt × Int) → Option Int
  | [] => none
  | p :: v => some (v.foldl (fun m q => if q.2 > m then q.2 else m) p.2)

/-- `build_cost_array`, `tool/convert_unigram.py` 76-89. -/
def buildCost (num : Num R) (vocab : List (Txt × Int)) (ucost : List (Txt × R)) : Exec (List R) :=
  match maxValue vocab with
  | none => .error .throw
  | some m => ucost.foldlM (costWord num vocab) (List.replicate (m + 1).toNat num.inf)

/-- `struct.pack("<f", v)` of all elements, `tool/convert_unigram.py` 96-97. -/
def packAll (num : Num R) : List R → Exec (List Nat)
  | [] => .ok []
  | x :: xs =>
    match num.pack x with
    | none => .error .throw
    | some w => do
      let ws ← packAll num xs
      .ok (w.toNat :: ws)

/-- `write_vec`, `tool/convert_unigram.py` 91-97.  The size must fit `struct.pack("<i")`.  Simplification: the part of
the file written before an exception is left out. -/
def writeCosts (num : Num R) (xs : List R) : Exec (List UInt8) :=
  if xs.length * 4 + 4 ≤ 2147483647 then do
    let ws ← packAll num xs
    .ok (Ser.writeVec ws)
  else .error .throw

/-- The program, `tool/convert_unigram.py` 108-112, given three arguments. -/
def convertUnigram (num : Num R) (lm vocab : List Txt) : Exec (List UInt8) := do
  let v ← readVocab vocab
  let u ← readUnigram num lm
  let costs ← buildCost num v (dictSet u tBos num.zero)
  writeCosts num costs

/-! ## `tool/convert_trans.py` -/

/-- One line of the map, `tool/convert_trans.py` 22-24. -/
def transLine (m : List Int) (line : Txt) : Exec (List Int) :=
  match fields line with
  | [a, b] =>
    match pyInt a, pyInt b with
    | some i, some x => pySet m i x
    | _, _ => .error .throw
  | _ => .error .throw

/-- The program, `tool/convert_trans.py` 15-32; `num_pdfs` is only printed.  Numbers must fit `struct.pack("<i")`.
Simplification: opening and decoding the file do not fail; the part written before an exception is left out. -/
def convertTrans (file : List Txt) : Exec (List UInt8) :=
  match file.map strip with
  | a :: b :: lines =>
    match pyInt a, pyInt b with
    | some _, some n => do
      let m ← lines.foldlM transLine (List.replicate (n + 1).toNat 0)
      if m.length * 4 + 4 ≤ 2147483647 ∧ ∀ x ∈ m, InI32 x then
        .ok (Ser.writeVec (m.map fun x => (x % 4294967296).toNat))
      else .error .throw
    | _, _ => .error .throw
  | _ => .error .throw

end Verif.Tool
