/-!
# Model of `tool/conv_chartok.sh`

The script that cuts hypotheses into characters before the character error rate is computed (`tool/compute-cer.sh` 10-11).  The
text is a list of code points: files that are not UTF-8 are not modelled.
-/

namespace Verif.Chartok

/-- A text. -/
abbrev Txt := List Char

/-- White space for `split ' '` on decoded text, as `perl -CSDA -a` does it, `tool/conv_chartok.sh` 10. -/
def isSpace (c : Char) : Bool :=
  let n := c.toNat
  (9 ≤ n && n ≤ 13) || n == 32 || n == 133 || n == 160 || n == 5760 || (8192 ≤ n && n ≤ 8202) || n == 8232 || n == 8233 ||
    n == 8239 || n == 8287 || n == 12288

/-- The lines `perl -n` reads, `tool/conv_chartok.sh` 10, without their ends; what is behind the last end is a line if there is
something.  `cur` is the line so far, backwards. -/
def linesFrom (cur : Txt) : Txt → List Txt
  | [] => if cur = [] then [] else [cur.reverse]
  | c :: cs => if c = '\n' then cur.reverse :: linesFrom [] cs else linesFrom (c :: cur) cs

/-- The lines of a file, `tool/conv_chartok.sh` 10. -/
def lines (t : Txt) : List Txt := linesFrom [] t

/-- `@F`: the line cut at white space, `perl -a`, `tool/conv_chartok.sh` 10.  `cur` is the field so far, backwards. -/
def fieldsFrom (cur : Txt) : Txt → List Txt
  | [] => if cur = [] then [] else [cur.reverse]
  | c :: cs =>
    if isSpace c then (if cur = [] then fieldsFrom [] cs else cur.reverse :: fieldsFrom [] cs) else fieldsFrom (c :: cur) cs

/-- `@F`, `tool/conv_chartok.sh` 10. -/
def fields (l : Txt) : List Txt := fieldsFrom [] l

/-- `$s =~ /\[.*\]/` and `$s =~ /\<.*\>/` with the two characters, `tool/conv_chartok.sh` 14. -/
def bracketed (o c : Char) : Txt → Bool
  | [] => false
  | x :: xs => (x == o && xs.contains c) || bracketed o c xs

/-- `$s =~ "!SIL"`, `tool/conv_chartok.sh` 14. -/
def hasSil : Txt → Bool
  | [] => false
  | x :: xs => ['!', 'S', 'I', 'L'].isPrefixOf (x :: xs) || hasSil xs

/-- The condition `tool/conv_chartok.sh` 14. -/
def special (s : Txt) : Bool := bracketed '[' ']' s || bracketed '<' '>' s || hasSil s

/-- What is printed for one field behind the first, `tool/conv_chartok.sh` 14-21. -/
def fieldOut (s : Txt) : Txt := if special s then ' ' :: s else (s.map fun c => [' ', c]).flatten

/-- What is printed for one line, `tool/conv_chartok.sh` 12-23.  A field that is not there is printed as nothing. -/
def lineOut (l : Txt) : Txt :=
  match fields l with
  | [] => ['\n']
  | name :: ws => name ++ (ws.map fieldOut).flatten ++ ['\n']

/-- The output for a file, `tool/conv_chartok.sh` 10-24. -/
def conv (t : Txt) : Txt := ((lines t).map lineOut).flatten

end Verif.Chartok
