import Verif.ExtractModel

/-!
# The unigram part of `tool/mkgraph_hcl.sh`
-/

namespace Verif.Tool

open Verif

variable {R : Type}

/-- What `print` writes for each line, `tool/prune_lm.py` 20, 26, 29, 32, 38, 42, 48. -/
def printed (out : List Txt) : Txt := out.flatMap fun l => l ++ ['\n']

/-- `tool/convert_unigram.py` 108-111: all that is done before the file is opened for writing. -/
def costsOf (num : Num R) (lm vocab : List Txt) : Exec (List R) := do
  let v ← readVocab vocab
  let u ← readUnigram num lm
  buildCost num v (dictSet u tBos num.zero)

/-- How the script is after line 49 of `tool/mkgraph_hcl.sh`. -/
inductive Ran
  /-- it has ended with this status -/
  | exit (code : Nat)
  /-- it goes on, with these bytes in `lm.1order.bin` (or without the file) -/
  | on (bin : Option (List UInt8))
  /-- it goes on with a part of a vector in `lm.1order.bin` -/
  | torn
deriving DecidableEq

/-- `tool/mkgraph_hcl.sh` 48-49: `lm` is what `gunzip` prints, `words` the text of `words.txt`, `old` the content of `lm.1order.bin`
before.  The status of a pipeline is that of its last program, and an exception gives 1; line 49 does not look at the status.
Simplification: the programs can be started, the files written, and the texts are UTF-8. -/
def unigramPart (num : Num R) (lm words : Txt) (old : Option (List UInt8)) : Ran :=
  match prune (fileLines lm) with
  | .error _ => .exit 22
  | .ok out =>
    match costsOf num (fileLines (printed out)) (fileLines words) with
    | .error _ => .on old
    | .ok costs =>
      match writeCosts num costs with
      | .error _ => .torn
      | .ok bytes => .on (some bytes)

end Verif.Tool
