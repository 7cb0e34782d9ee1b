import Verif.TextModel

/-!
# What the string helpers are supposed to do
-/

namespace Verif.Text

open Verif

/-- White space of the C locale: tab, line feed, vertical tab, form feed, carriage return, blank. -/
def White (c : UInt8) : Prop := c ∈ [9, 10, 11, 12, 13, 32]

/-- `t` is `s` without the white space around it. -/
def IsTrimmed (s t : Str) : Prop :=
  ∃ l r, s = l ++ t ++ r ∧ (∀ c ∈ l, White c) ∧ (∀ c ∈ r, White c) ∧
    (∀ c, t.head? = some c → ¬ White c) ∧ (∀ c, t.getLast? = some c → ¬ White c)

/-- The fields with the separator between any two of them. -/
def join (d : Str) : List Str → Str
  | [] => []
  | [f] => f
  | f :: g :: fs => f ++ d ++ join d (g :: fs)

/-- The pieces of a format string with the arguments between them; a missing argument leaves the `{}`,
surplus arguments are dropped. -/
def fill : Str → List Str → List Str → Str
  | p, [], _ => p
  | p, q :: ps, [] => p ++ [123, 125] ++ fill q ps []
  | p, q :: ps, a :: as => p ++ a ++ fill q ps as

/-- No opening brace in any of the strings, or no closing brace in any of them. -/
def BraceFree (ss : List Str) : Prop := (∀ s ∈ ss, 123 ∉ s) ∨ (∀ s ∈ ss, 125 ∉ s)

/-- The word with the given id, if there is one: the entry up to its first NUL, as a C caller
sees it. -/
def word? (syms : List Str) (id : Int) : Option Str :=
  if 0 ≤ id then (syms[id.toNat]?).map cstr else none

/-- The text of a hypothesis: the words joined by single blanks, and a terminating NUL. -/
def hypText (ws : List Str) : Str := join [32] ws ++ [0]

/-- A line end of a text file: `"\n"` or `"\r\n"`. -/
def IsEol (e : Str) : Prop := e = [10] ∨ e = [13, 10]

/-- A line that can be read back: no line feed, no NUL, no carriage return at its end, and together with
its line end within the 4095 bytes `fgets` can deliver. -/
structure GoodLine (l e : Str) : Prop where
  noNul : 0 ∉ l
  noLf : 10 ∉ l
  noCr : l.getLast? ≠ some 13
  eol : IsEol e
  short : l.length + e.length ≤ 4095

end Verif.Text
