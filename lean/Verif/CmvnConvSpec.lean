import Verif.ToolSpec

/-!
# What Kaldi's text of CMVN statistics is

Stated on the text, without the functions of the converter.
-/

namespace Verif.CmvnConv

open Verif Verif.Tool Verif.Ser

/-- The words of a text, line by line. -/
inductive Words : List Txt → List Txt → Prop
  | nil : Words [] []
  | cons {l : Txt} {ls ws vs : List Txt} : Reads l ws → Words ls vs → Words (l :: ls) (ws ++ vs)

/-- Digits, at least one. -/
def Digits (s : Txt) : Prop := s ≠ [] ∧ ∀ c ∈ s, c ∈ "0123456789".toList

instance (s : Txt) : Decidable (Digits s) := by unfold Digits; infer_instance

/-- A sign or nothing. -/
def Sign (s : Txt) : Prop := s = [] ∨ s = "-".toList ∨ s = "+".toList

/-- A number with digits in front of the point and behind it, perhaps with an exponent: all finite numbers that `<<` of
a C++ stream prints by default, but not `nan`, `inf`, `1.` or `.5`. -/
def IsNumber (t : Txt) : Prop :=
  ∃ s i f e, t = s ++ (i ++ (f ++ e)) ∧ Sign s ∧ Digits i ∧ (f = [] ∨ ∃ d, f = '.' :: d ∧ Digits d) ∧
    (e = [] ∨ ∃ s' d, e = 'e' :: (s' ++ d) ∧ Sign s' ∧ Digits d)

/-- The numbers among words, in order. -/
inductive Numbers : List Txt → List Txt → Prop
  | nil : Numbers [] []
  | keep {t : Txt} {ws ns : List Txt} : IsNumber t → Numbers ws ns → Numbers (t :: ws) (t :: ns)
  | skip {t : Txt} {ws ns : List Txt} : ¬ IsNumber t → Numbers ws ns → Numbers (t :: ws) ns

/-- Kaldi's text of a matrix: its rows between brackets. -/
def IsMatrixText (rows : List (List Txt)) (lines : List Txt) : Prop :=
  Words lines ("[".toList :: (rows.flatten ++ ["]".toList]))

/-- Kaldi's text of CMVN statistics of 40 coefficients: the sums and the number of frames, then the sums of squares and
a number without a meaning. -/
structure IsStats (sums : List Txt) (count : Txt) (squares : List Txt) (last : Txt) (lines : List Txt) : Prop where
  text : IsMatrixText [sums ++ [count], squares ++ [last]] lines
  sums : sums.length = 40
  squares : squares.length = 40

end Verif.CmvnConv
