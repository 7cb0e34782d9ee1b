import Verif.ToolModel

/-!
# What the texts are that the converters read

Stated on the texts themselves, without the functions of the model.
-/

namespace Verif.Tool

open Verif

/-- White space in Python's sense. -/
def IsWhite (c : Char) : Prop :=
  c.toNat ∈ [9, 10, 11, 12, 13, 28, 29, 30, 31, 32, 133, 160, 5760, 8192, 8193, 8194, 8195, 8196, 8197, 8198, 8199,
    8200, 8201, 8202, 8232, 8233, 8239, 8287, 12288]

instance : DecidablePred IsWhite := fun c => by unfold IsWhite; infer_instance

/-- A line of white space only. -/
def Blank (l : Txt) : Prop := ∀ c ∈ l, IsWhite c

instance (l : Txt) : Decidable (Blank l) := by unfold Blank; infer_instance

/-- A word: not empty, no white space in it. -/
def IsWord (w : Txt) : Prop := w ≠ [] ∧ ∀ c ∈ w, ¬ IsWhite c

instance (w : Txt) : Decidable (IsWord w) := by unfold IsWord; infer_instance

/-- The line is these words with white space between, before and after them. -/
inductive Reads : Txt → List Txt → Prop
  | nil {s : Txt} : Blank s → Reads s []
  | cons {s w rest : Txt} {ws : List Txt} : Blank s → IsWord w → (∀ c ∈ rest.head?, IsWhite c) → Reads rest ws →
      Reads (s ++ w ++ rest) (w :: ws)

/-- The line is `m` between white space; `m` neither starts nor ends with white space. -/
def Says (l m : Txt) : Prop :=
  ∃ a b, l = a ++ m ++ b ∧ Blank a ∧ Blank b ∧ m ≠ [] ∧ (∀ c ∈ m.head?, ¬ IsWhite c) ∧ ∀ c ∈ m.getLast?, ¬ IsWhite c

/-- A line of counts: one `=`. -/
def IsCount (l : Txt) : Prop := l.count '=' = 1

/-- A line of counts about words, `ngram 1 = …`. -/
def IsCount1 (l : Txt) : Prop :=
  ∃ a b, l = a ++ '=' :: b ∧ '=' ∉ a ∧ '=' ∉ b ∧ Says a "ngram 1".toList

/-- A line of a word `w` with the number text `p`: `p w` or `p w backoff`. -/
def IsEntry (l p w : Txt) : Prop := p.head? ≠ some '\\' ∧ (Reads l [p, w] ∨ ∃ b, Reads l [p, w, b])

/-- Lines of words, in order, between blank lines. -/
inductive Section1 : List Txt → List (Txt × Txt) → Prop
  | nil : Section1 [] []
  | blank {l ls es} : Blank l → Section1 ls es → Section1 (l :: ls) es
  | entry {l p w ls es} : IsEntry l p w → Section1 ls es → Section1 (l :: ls) ((p, w) :: es)

/-- The part of an ARPA file up to the words: `\data\`, the counts, `\1-grams:`, the words. -/
def Head (counts : List Txt) (es : List (Txt × Txt)) (lines : List Txt) : Prop :=
  ∃ d o sect, lines = d :: (counts ++ o :: sect) ∧ Says d "\\data\\".toList ∧
    (∀ l ∈ counts, Blank l ∨ IsCount l) ∧ Says o "\\1-grams:".toList ∧ Section1 sect es

/-- An ARPA file with words only; `tail` is what follows `\end\`. -/
def Arpa1 (counts : List Txt) (es : List (Txt × Txt)) (tail : List Txt) (lines : List Txt) : Prop :=
  ∃ hd e, lines = hd ++ e :: tail ∧ Head counts es hd ∧ Says e "\\end\\".toList

/-- An ARPA file that goes on to longer n-grams. -/
def ArpaN (counts : List Txt) (es : List (Txt × Txt)) (lines : List Txt) : Prop :=
  ∃ hd h m mid e tail, lines = hd ++ h :: (mid ++ e :: tail) ∧ Head counts es hd ∧
    Says h m ∧ m.head? = some '\\' ∧ m ≠ "\\end\\".toList ∧ Says e "\\end\\".toList

/-- The value that counts for `k`: that of its last pair. -/
def LastIs {α β : Type} (es : List (α × β)) (k : α) (v : β) : Prop :=
  ∃ a b, es = a ++ (k, v) :: b ∧ ∀ q ∈ b, q.1 ≠ k

/-- The number texts are the values. -/
inductive Valued {R : Type} (parse : Txt → Option R) : List (Txt × Txt) → List (Txt × R) → Prop
  | nil : Valued parse [] []
  | cons {p w c es vs} : parse p = some c → Valued parse es vs → Valued parse ((p, w) :: es) ((w, c) :: vs)

/-- A vocabulary file: lines `word id`, ids as `%d` prints them, between blank lines. -/
inductive IsVocab : List Txt → List (Txt × Nat) → Prop
  | nil : IsVocab [] []
  | blank {l ls vs} : Blank l → IsVocab ls vs → IsVocab (l :: ls) vs
  | entry {l w ls vs} {id : Nat} : Reads l [w, (toString id).toList] → IsVocab ls vs → IsVocab (l :: ls) ((w, id) :: vs)

/-- The lines `tid pdf` of a transition map, as `%d` prints the numbers. -/
inductive IsMap : List Txt → List (Nat × Int) → Prop
  | nil : IsMap [] []
  | entry {l ls ps} {i : Nat} {x : Int} : Reads l [(toString i).toList, (toString x).toList] → IsMap ls ps →
      IsMap (l :: ls) ((i, x) :: ps)

/-- The cost that stands at `i`: zero's for `<s>`; that of the word with this id if the language model has the word;
infinity if there is no such word.  `us` are the words of the language model with their numbers, `vs` the vocabulary. -/
inductive CostAt {R : Type} (cost : R → R) (zero inf : R) (us : List (Txt × R)) (vs : List (Txt × Nat)) (i : Nat) : R → Prop
  | bos : LastIs vs "<s>".toList i → CostAt cost zero inf us vs i (cost zero)
  | word {w c} : w ≠ "<s>".toList → LastIs vs w i → LastIs us w c → CostAt cost zero inf us vs i (cost c)
  | absent : (∀ w, LastIs vs w i → w ≠ "<s>".toList ∧ ∀ c, (w, c) ∉ us) → CostAt cost zero inf us vs i inf

end Verif.Tool
