import Verif.ChartokModel

/-!
# What cutting into characters means
-/

namespace Verif.Chartok.Spec

/-- White space of Unicode. -/
def Space (c : Char) : Prop :=
  c.toNat ∈ [9, 10, 11, 12, 13, 32, 133, 160, 5760, 8192, 8193, 8194, 8195, 8196, 8197, 8198, 8199, 8200, 8201, 8202, 8232, 8233,
    8239, 8287, 12288]

instance (c : Char) : Decidable (Space c) := inferInstanceAs (Decidable (_ ∈ _))

/-- The words of a line: white space, a word, and so on. -/
inductive Words : List Char → List (List Char) → Prop
  | nil {gap : List Char} (h : ∀ c ∈ gap, Space c) : Words gap []
  | cons {gap word rest : List Char} {ws : List (List Char)} (h : ∀ c ∈ gap, Space c) (hw : word ≠ []) (hn : ∀ c ∈ word, ¬ Space c)
      (hr : ∀ c, rest.head? = some c → Space c) (ht : Words rest ws) : Words (gap ++ word ++ rest) (word :: ws)

/-- Words that are kept: `[noise]`, `<unk>`, `!SIL`, also inside of a longer word. -/
def Kept (w : List Char) : Prop :=
  (∃ a b c, w = a ++ '[' :: b ++ ']' :: c) ∨ (∃ a b c, w = a ++ '<' :: b ++ '>' :: c) ∨ ∃ a b, w = a ++ ['!', 'S', 'I', 'L'] ++ b

/-- A word cut into pieces. -/
inductive Cut : List Char → List (List Char) → Prop
  | kept {w : List Char} (h : Kept w) : Cut w [w]
  | chars {w : List Char} (h : ¬ Kept w) : Cut w (w.map fun c => [c])

/-- Words cut into pieces, one after the other. -/
inductive CutAll : List (List Char) → List (List Char) → Prop
  | nil : CutAll [] []
  | cons {w : List Char} {ps : List (List Char)} {ws qs : List (List Char)} (h : Cut w ps) (ht : CutAll ws qs) :
      CutAll (w :: ws) (ps ++ qs)

/-- A line that consists of a name and pieces, each behind one space. -/
def line (name : List Char) (pieces : List (List Char)) : List Char := name ++ (pieces.map (' ' :: ·)).flatten ++ ['\n']

/-- What belongs to a line: its name and the pieces of its words, or nothing. -/
inductive OutLine : List Char → List Char → Prop
  | named {l name : List Char} {ws ps : List (List Char)} (h : Words l (name :: ws)) (hc : CutAll ws ps) : OutLine l (line name ps)
  | blank {l : List Char} (h : Words l []) : OutLine l ['\n']

/-- Line by line. -/
inductive OutLines : List (List Char) → List (List Char) → Prop
  | nil : OutLines [] []
  | cons {l o : List Char} {ls os : List (List Char)} (h : OutLine l o) (ht : OutLines ls os) : OutLines (l :: ls) (o :: os)

/-- The characters that are not white space. -/
def letters (t : List Char) : List Char := t.filter fun c => decide (¬ Space c)

/-- A text made of lines that all end. -/
def text (ls : List (List Char)) : List Char := (ls.map (· ++ ['\n'])).flatten

end Verif.Chartok.Spec
