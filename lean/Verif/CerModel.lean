import Verif.ChartokModel

/-!
# Model of `tool/compute-cer.sh`

Its last line runs a program of Kaldi; the model ends with the text that this program is given.
-/

namespace Verif.Chartok

/-- The files the script meets: what is read from a name, and the names of the directories in which a file can be made.  The shell
and `cat`, `tool/compute-cer.sh` 3-11, `tool/conv_chartok.sh` 10 and 24. -/
structure Disk where
  content : Txt → Option Txt
  dir : Txt → Bool

/-- The directory of a file: what is before the last `/`.  The shell asks for it when it opens the file of
`> $to_file`, `tool/conv_chartok.sh` 24. -/
def dirOf (p : Txt) : Txt := ((p.reverse.dropWhile (· != '/')).drop 1).reverse

/-- `tool/conv_chartok.sh` 7-24: the new content of the second file, `none` if the status is not 0.  The status of a pipeline is
that of its last program: if `cat` does not find the file, `perl` reads nothing and the status is 0.  If the shell cannot open
`$to_file`, `perl` is not started and the status is 1.  Simplification: names are one word for the shell and are no two names of one
file; disks are not full. -/
def convScript (d : Disk) (fromFile toFile : Txt) : Option Txt :=
  if d.dir (dirOf toFile) then some (conv ((d.content fromFile).getD [])) else none

/-- How `tool/compute-cer.sh` goes on. -/
inductive Cer
  /-- it ends with this status -/
  | exit (code : Nat)
  /-- `compute-wer` is run on a file with this content -/
  | score (hyp : Txt)
deriving DecidableEq

/-- `hyp_chars_file`, `tool/compute-cer.sh` 7. -/
def charsFile (hyp : Txt) : Txt := "/tmp/".toList ++ hyp ++ ".chars.txt".toList

/-- `tool/compute-cer.sh` 3-11. -/
def cer (d : Disk) (hyp : Txt) : Cer :=
  match convScript d hyp (charsFile hyp) with
  | none => .exit 22
  | some out => .score out

end Verif.Chartok
