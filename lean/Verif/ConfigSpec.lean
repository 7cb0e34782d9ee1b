import Verif.ConfigModel
import Verif.TextSpec

/-!
# What configurations and symbol tables are supposed to mean
-/

namespace Verif.Text

open Verif

/-- The last pair with key `k` has the value `v`. -/
def IsLast {α β : Type} (ps : List (α × β)) (k : α) (v : β) : Prop :=
  ∃ pre post, ps = pre ++ (k, v) :: post ∧ ∀ p ∈ post, p.1 ≠ k

/-- The bytes are equal, or the same letter in different case. -/
def CaseEq (a b : UInt8) : Prop :=
  a = b ∨ (65 ≤ a ∧ a ≤ 90 ∧ b = a + 32) ∨ (65 ≤ b ∧ b ≤ 90 ∧ a = b + 32)

/-- The keys are equal up to letter case. -/
def SameKey : Str → Str → Prop
  | [], [] => True
  | a :: s, b :: t => CaseEq a b ∧ SameKey s t
  | _, _ => False

/-- No white space at the ends. -/
def Tight (s : Str) : Prop :=
  (∀ c, s.head? = some c → ¬ White c) ∧ (∀ c, s.getLast? = some c → ¬ White c)

/-- The meaning of a line of a configuration: nothing for blank lines and comments, or the definition of a
key. -/
inductive ConfLine : Str → Option (Str × Str) → Prop
  | blank (l : Str) : (∀ c ∈ l, White c) → ConfLine l none
  | comment (w r : Str) : (∀ c ∈ w, White c) → ConfLine (w ++ 35 :: r) none
  | define (w0 k w1 w2 v w3 : Str) :
      (∀ c ∈ w0, White c) → (∀ c ∈ w1, White c) → (∀ c ∈ w2, White c) → (∀ c ∈ w3, White c) →
      k ≠ [] → v ≠ [] → Tight k → Tight v → 61 ∉ k → 61 ∉ v → k.head? ≠ some 35 →
      ConfLine (w0 ++ k ++ w1 ++ [61] ++ w2 ++ v ++ w3) (some (k, v))

/-- A line of a configuration file with its line end and its meaning. -/
structure ConfEntry where
  line : Str
  eol : Str
  mean : Option (Str × Str)

/-- The line can be read and has the given meaning. -/
def ConfEntry.Good (e : ConfEntry) : Prop := GoodLine e.line e.eol ∧ ConfLine e.line e.mean

/-- A last line without line end, possibly empty. -/
structure GoodTail (l : Str) : Prop where
  noNul : 0 ∉ l
  noLf : 10 ∉ l
  noCr : l.getLast? ≠ some 13
  short : l.length < 4095

/-- Value of a string of decimal digits. -/
def decVal (s : Str) : Nat := s.foldl (fun n c => n * 10 + (c.toNat - 48)) 0

/-- `s` is `n` in decimal, without superfluous zeros. -/
def Decimal (s : Str) (n : Nat) : Prop :=
  s ≠ [] ∧ (∀ c ∈ s, 48 ≤ c ∧ c ≤ 57) ∧ (s = [48] ∨ s.head? ≠ some 48) ∧ decVal s = n

/-- The word `<s>` that marks the beginning of a sentence. -/
def sentBegin : Str := [60, 115, 62]

/-- The word `</s>` that marks the end of a sentence. -/
def sentEnd : Str := [60, 47, 115, 62]

/-- A line `word number` of a symbol file with its line end. -/
structure SymEntry where
  word : Str
  num : Str
  id : Nat
  eol : Str

/-- The line of an entry. -/
def SymEntry.line (e : SymEntry) : Str := e.word ++ [32] ++ e.num

/-- The word has no blank, the number is written in decimal and fits in an `int`. -/
structure SymEntry.Ok (e : SymEntry) : Prop where
  noBlank : 32 ∉ e.word
  dec : Decimal e.num e.id
  small : e.id < 2147483648

/-- The table answers as the entries (in file order) say. -/
structure Consistent (t : Symbols) (es : List (Str × Int)) : Prop where
  word : ∀ w id, IsLast (es.map (fun p => (p.2, p.1))) id w → t.get id = .ok (cstr w)
  hole : ∀ id, 0 ≤ id → (∀ p ∈ es, p.2 ≠ id) → (∃ p ∈ es, id < p.2) → t.get id = .ok []
  outside : ∀ id, (id < 0 ∨ ∀ p ∈ es, p.2 < id) → t.get id = .error .assert
  id : ∀ w id, IsLast es w id → t.getId w = wrap32 id
  unknown : ∀ w, (∀ p ∈ es, p.1 ≠ w) → t.getId w = -1

end Verif.Text
