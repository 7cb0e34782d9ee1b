import Verif.FstModel
import Verif.ExtractModel

/-!
# The text format of `tool/convert_fstfmt.py`
-/

namespace Verif.Fst

open Verif Verif.Tool

variable {W : Type}

/-- A line of a table, `tool/convert_fstfmt.py` 84 and 87: index and value. -/
def entryLine (val : Txt) (i : Nat) : Txt := showInt i ++ (" -> ".toList ++ val)

/-- A line of an arc, `tool/convert_fstfmt.py` 90.  `shown` is what `format` makes of a weight. -/
def arcLine (shown : W → Txt) (a : Arc W) (i : Nat) : Txt :=
  showInt i ++ (" -> next_state(".toList ++ (showInt a.next ++ (')' :: (", input_label(".toList ++ (showInt a.ilabel ++ (')' ::
    (", output_label(".toList ++ (showInt a.olabel ++ (')' :: (", weight(".toList ++ (shown a.weight ++ [')'])))))))))))

/-- The lines before the tables, `tool/convert_fstfmt.py` 78-82. -/
def headLines (f : Fst W) : List Txt :=
  ["state_number = ".toList ++ showInt f.finals.length, "arc_number = ".toList ++ showInt f.arcs.length,
    "start_state = ".toList ++ showInt f.start, "============ final =============".toList]

/-- All lines, `tool/convert_fstfmt.py` 78-90. -/
def textLines (shown : W → Txt) (f : Fst W) : List Txt :=
  headLines f ++ ((f.finals.zipIdx.map fun p => entryLine (shown p.1) p.2) ++ ("============ state_arcidx =============".toList ::
    ((f.stateIdx.zipIdx.map fun p => entryLine (showInt p.1) p.2) ++ ("============ arcs =============".toList ::
      f.arcs.zipIdx.map fun p => arcLine shown p.1 p.2))))

/-- The file in text format, `tool/convert_fstfmt.py` 24-54 and 75-90. -/
def converterText (shown : W → Txt) (t : Transducer W) : Exec Txt := do
  let f ← convert t
  .ok ((textLines shown f).flatMap fun l => l ++ ['\n'])

end Verif.Fst
