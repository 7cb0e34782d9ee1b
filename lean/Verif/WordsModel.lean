import Verif.TextModel

/-!
# The converter of word lists, `tool/convert_words.py`
-/

namespace Verif.Text

open Verif

/-- `<empty>`, `tool/convert_words.py` 25. -/
def emptyWord : Str := [60, 101, 109, 112, 116, 121, 62]

/-- The largest id, `tool/convert_words.py` 14 and 23-24. -/
def maxId (es : List (Str × Nat)) : Nat := es.foldl (fun m e => if e.2 > m then e.2 else m) 0

/-- The words by id, `tool/convert_words.py` 25-27.  Simplification: ids are not negative (Python would count them
from the end). -/
def wordSlots (es : List (Str × Nat)) : List Str :=
  es.foldl (fun ws e => ws.set e.2 e.1) (List.replicate (maxId es + 1) emptyWord)

/-- The buffer, `tool/convert_words.py` 30-38: words with a NUL behind each. -/
def wordBuffer (ws : List Str) : Str := ws.flatMap (fun w => w ++ [0])

/-- Where the words start in the buffer, `tool/convert_words.py` 31-37. -/
def wordOffsets : Nat → List Str → List Nat
  | _, [] => []
  | n, w :: ws => n :: wordOffsets (n + (w.length + 1)) ws

/-- `tool/convert_words.py` 25-50, from the pairs of word (in UTF-8) and id of the lines: the bytes of the file, or an
exception when a number does not fit its field.  Simplifications: lines that do not have two fields, or no number in the
second, are not among the pairs (the program ends with an exception); words are not changed by `strip` (they come from
`split`). -/
def convertWords (es : List (Str × Nat)) : Exec Str :=
  let ws := wordSlots es
  let buf := wordBuffer ws
  let offs := wordOffsets 0 ws
  if 8 + offs.length * 4 + buf.length < 2147483648 then
    .ok ([83, 89, 77, 48] ++ encU32 (8 + offs.length * 4 + buf.length) ++ encU32 offs.length ++ encU32 buf.length ++
      offs.flatMap encU32 ++ buf)
  else .error .throw

end Verif.Text
