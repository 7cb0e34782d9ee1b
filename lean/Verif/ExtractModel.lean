import Verif.ToolModel

/-!
# `tool/extract_id2pdf.cc`, and the lines of a text file

The transition model is Kaldi's: here it is what the program asks it for.
-/

namespace Verif.Tool

open Verif

/-- What is asked of `kaldi::TransitionModel`: `NumPdfs`, `NumTransitionIds` and `TransitionIdToPdf`,
`tool/extract_id2pdf.cc` 51-58.  Simplification: the answers are numbers that `int` holds, and the call for the id 0, which Kaldi
has no transition for, has an answer too (a read of the first element of its table). -/
structure TransModel where
  pdfs : Int
  ids : Nat
  pdf : Nat → Int

/-- `printf` with `%d`, `tool/extract_id2pdf.cc` 55-59. -/
def showInt (n : Int) : Txt := (toString n).toList

/-- What the program prints, `tool/extract_id2pdf.cc` 55-60. -/
def extractId2pdf (t : TransModel) : Txt :=
  showInt t.pdfs ++ ['\n'] ++ (showInt t.ids ++ ['\n']) ++
    (List.range (t.ids + 1)).flatMap fun tid : Nat => showInt tid ++ [' '] ++ showInt (t.pdf tid) ++ ['\n']

/-- The ends of lines of a text that Python opens, `\r\n` and `\r`, are read as `\n`.
`open` in `tool/convert_trans.py` 15 and `tool/convert_words.py` 15. -/
def newlines : Txt → Txt
  | [] => []
  | '\r' :: '\n' :: l => '\n' :: newlines l
  | c :: l => (if c = '\r' then '\n' else c) :: newlines l

/-- The lines of the text, each with its `\n` except perhaps the last; `cur` is the line being read.
`for line in fd`, `tool/convert_trans.py` 16 and `tool/convert_words.py` 16. -/
def linesFrom : Txt → Txt → List Txt
  | cur, [] => if cur = [] then [] else [cur]
  | cur, c :: l => if c = '\n' then (cur ++ [c]) :: linesFrom [] l else linesFrom (cur ++ [c]) l

/-- The lines that Python reads of a text, `tool/convert_trans.py` 15-16, `tool/convert_words.py` 15-16. -/
def fileLines (text : Txt) : List Txt := linesFrom [] (newlines text)

end Verif.Tool
