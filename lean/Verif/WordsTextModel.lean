import Verif.WordsModel
import Verif.ToolModel

/-!
# The converter of word lists from its text on, `tool/convert_words.py`

A text file is the list of its lines, as in `ToolModel.lean`; an exception is `.error .throw`.
-/

namespace Verif.Tool

open Verif Verif.Text

/-- One line, `tool/convert_words.py` 17-21.  A line without exactly two fields is reported on line 19, and then the assignment
of line 20 raises `ValueError`. -/
def wordLine (line : Txt) : Exec (Txt × Int) :=
  match fields (strip line) with
  | [word, wid] => match pyInt wid with
    | some n => .ok (word, n)
    | none => .error .throw
  | _ => .error .throw

/-- The largest id, `tool/convert_words.py` 14 and 23-24. -/
def maxIdx (es : List (Txt × Int)) : Int := es.foldl (fun m e => if e.2 > m then e.2 else m) 0

/-- `'<empty>'`, `tool/convert_words.py` 25. -/
def tEmpty : Txt := ['<', 'e', 'm', 'p', 't', 'y', '>']

/-- The words by id, `tool/convert_words.py` 25-27; a negative id counts from the end. -/
def slotsOf (es : List (Txt × Int)) : Exec (List Txt) :=
  es.foldlM (fun ws e => pySet ws e.2 e.1) (List.replicate (maxIdx es + 1).toNat tEmpty)

/-- `(word.strip() + '\0').encode('utf-8')`, `tool/convert_words.py` 34. -/
def wordBytes (w : Txt) : Str := (strip w ++ ['\x00']).flatMap String.utf8EncodeChar

/-- The loop over the words, `tool/convert_words.py` 30-37: the buffer and the places of the words. -/
def bufferLoop : List Txt → Str × List Nat × Nat → Str × List Nat × Nat
  | [], s => s
  | w :: ws, s => bufferLoop ws (s.1 ++ wordBytes w, s.2.1 ++ [s.2.2], s.2.2 + (wordBytes w).length)

/-- `struct.pack("<i", n)`, `tool/convert_words.py` 44-49, for a number that is not negative. -/
def packI (n : Nat) : Exec Str := if n < 2147483648 then .ok (encU32 n) else .error .throw

/-- `tool/convert_words.py` 13-50: the bytes of the file. -/
def convertWordsText (lines : List Txt) : Exec Str := do
  let es ← lines.mapM wordLine
  let ws ← slotsOf es
  let s := bufferLoop ws ([], [], 0)
  cassert (decide (s.1.length = s.2.2))
  let size ← packI (8 + s.2.1.length * 4 + s.1.length)
  let num ← packI s.2.1.length
  let len ← packI s.1.length
  let offs ← s.2.1.mapM packI
  .ok ([83, 89, 77, 48] ++ size ++ num ++ len ++ offs.flatten ++ s.1)

end Verif.Tool
