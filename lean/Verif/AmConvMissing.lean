import Verif.AmConvProps

/-!
# Property C76: a node without its component is refused
-/

namespace Verif.Tool

open Kaldi

variable {R : Type}

/-- C76: a description that names a component which the text does not have is not converted; no layer is left out silently. -/
theorem C76_missing_refused {num : ANum R} {val : Txt → R} {net : Net Txt} {text : Txt} (h : IsText net text) (hok : net.Readable)
    (hv : ∀ p ∈ net.comps, ∀ w ∈ p.2.numbers, num.parse w = some (val w)) {n : Node} (hn : n ∈ net.nodes)
    (hno : n.comp ∉ net.comps.map Prod.fst)
    (haux : ∀ m ∈ net.nodes, n.comp ≠ m.comp ++ "_splice".toList ∧ n.comp ≠ m.comp ++ "_narrow".toList)
    (res : List UInt8 × List UInt8) : convertAm num text ≠ .ok res := by
  intro hr
  unfold convertAm at hr
  obtain ⟨p, h1, -⟩ := bind_ok hr
  exact readNet_missing h hok hv hn hno haux p h1

/-- The network of `sideLines` without the component `a`. -/
def lackNet : Net Txt := { sideNet with comps := [("r".toList, .relu)] }

/-- The text of `lackNet`. -/
def lackText : Txt :=
  [] ++ ("<Nnet3>".toList ++ ((unlines sideLines ++
    ("<NumComponents>".toList ++ (" ".toList ++ ("2".toList ++ (" ".toList ++ sideComp2))))) ++
    ("</Nnet3>".toList ++ (" ".toList ++ ("<Priors>".toList ++ ("  [ 1 ]".toList ++ "\n".toList))))))

theorem lackText_ok : IsText lackNet lackText := by
  refine ⟨_, sideLines, _, _, _, _, _, _, _, rfl, by decide +kernel, by decide +kernel, by decide +kernel, by decide,
    by decide +kernel, by decide +kernel, ?_, by decide, digits_one (by decide), by decide, by decide,
    ?_, matrix_by (a := "  ".toList) (lines := [" 1 ".toList])
      (.row (reads_by (by decide +kernel)) (by decide) .nil) (by decide) (by decide) (by decide) (by decide +kernel)⟩
  · refine .blank (by decide) ?_
    refine .input (ws := ["name=input".toList, "dim=1".toList]) (reads_by (by decide +kernel)) ?_
    refine .node (says_self (by decide +kernel) (by decide +kernel) (by decide +kernel)) ?_
    refine .node (says_self (by decide +kernel) (by decide +kernel) (by decide +kernel)) ?_
    refine .output (nm := "name=output".toList) (ws := ["objective=linear".toList]) (reads_by (by decide +kernel)) ?_
    exact .blank (by decide) .nil
  · exact comps_by (content := " ".toList) ⟨by decide, by decide⟩ .relu (by decide +kernel)
      (.nil (s := " \n".toList) (by decide)) (by decide +kernel)

theorem lackNet_readable : lackNet.Readable where
  name := sideNet_ok.name
  parts := sideNet_ok.parts
  sizes := by
    intro p hp
    rw [List.mem_singleton.mp hp]
    trivial

example (res : List UInt8 × List UInt8) : convertAm toyNum lackText ≠ .ok res :=
  C76_missing_refused (val := toyVal) lackText_ok lackNet_readable (fun _ _ _ _ => rfl)
    (n := ⟨"a".toList, "a".toList, .part ⟨"input".toList, none⟩⟩) (by exact .head _) (by decide) (by decide) res

end Verif.Tool
