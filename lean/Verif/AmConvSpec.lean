import Verif.ToolSpec

/-!
# Kaldi's networks and their text

What Kaldi writes for a network of components (`nnet3-am-copy --binary=false`), stated on the text itself, without the
functions of the model.  What such a network computes is in `AmConvReal`.
-/

namespace Verif.Tool.Kaldi

/-- A part of an input: a node, or a node some frames later (`Offset`). -/
structure Part where
  name : Txt
  shift : Option Int
deriving DecidableEq

/-- The input of a node: a part, or several parts one behind the other. -/
inductive Desc where
  | part (p : Part)
  | append (ps : List Part)
deriving DecidableEq

/-- A node: its name, the name of its component, its input. -/
structure Node where
  name : Txt
  comp : Txt
  input : Desc
deriving DecidableEq

/-- A component, with numbers of type `N`.  `W` has a row for every output. -/
inductive Comp (N : Type) where
  | affine (W : List (List N)) (b : List N)
  | relu
  | batchNorm (mean var : List N) (eps rms : N)
  | logSoftmax

/-- A network: nodes in the order of the text, the node the output is taken from, the components, and the prior
probabilities. -/
structure Net (N : Type) where
  nodes : List Node
  output : Txt
  comps : List (Txt × Comp N)
  prior : List N

/-- The same component with other numbers. -/
def Comp.map {N M : Type} (f : N → M) : Comp N → Comp M
  | .affine W b => .affine (W.map (·.map f)) (b.map f)
  | .relu => .relu
  | .batchNorm mean var eps rms => .batchNorm (mean.map f) (var.map f) (f eps) (f rms)
  | .logSoftmax => .logSoftmax

/-- The same network with other numbers. -/
def Net.map {N M : Type} (f : N → M) (net : Net N) : Net M :=
  ⟨net.nodes, net.output, net.comps.map fun p => (p.1, p.2.map f), net.prior.map f⟩

/-- The numbers of a component. -/
def Comp.numbers {N : Type} : Comp N → List N
  | .affine W b => W.flatten ++ b
  | .batchNorm mean var eps rms => mean ++ var ++ [eps, rms]
  | _ => []

/-! ## Text -/

/-- `pat` does not occur in `s`. -/
def Lacks (pat s : Txt) : Prop := ¬ pat <:+: s

/-- A name: letters, digits, `_`, `.` and `-`, at least one. -/
def NameOk (n : Txt) : Prop := n ≠ [] ∧ ∀ c ∈ n, c.isAlphanum = true ∨ c = '_' ∨ c = '.' ∨ c = '-'

/-- The text of a part. -/
def Part.text (p : Part) : Txt :=
  match p.shift with
  | none => p.name
  | some k => "Offset(".toList ++ (p.name ++ (", ".toList ++ ((toString k).toList ++ [')'])))

/-- Texts with `, ` between them. -/
def commas : List Txt → Txt
  | [] => []
  | [t] => t
  | t :: ts => t ++ (", ".toList ++ commas ts)

/-- The text of an input. -/
def Desc.text : Desc → Txt
  | .part p => p.text
  | .append ps => "Append(".toList ++ (commas (ps.map Part.text) ++ [')'])

/-- Lines as one text. -/
def unlines : List Txt → Txt
  | [] => []
  | [l] => l
  | l :: ls => l ++ '\n' :: unlines ls

/-- The lines that describe the network: its nodes, and what the output nodes take as input. -/
inductive Lines : List Txt → List Node → List Txt → Prop
  | nil : Lines [] [] []
  | blank {l ls ns os} : Blank l → Lines ls ns os → Lines (l :: ls) ns os
  | input {l ws ls ns os} : Reads l ("input-node".toList :: ws) → Lines ls ns os → Lines (l :: ls) ns os
  | output {l nm o ws ls ns os} : Reads l ("output-node".toList :: nm :: ("input=".toList ++ o) :: ws) →
      Lines ls ns os → Lines (l :: ls) ns (o :: os)
  | node {l n ls ns os} : Says l ("component-node name=".toList ++ (n.name ++ (" component=".toList ++
      (n.comp ++ (" input=".toList ++ n.input.text))))) → Lines ls ns os → Lines (l :: ls) (n :: ns) os

/-- Lines of a matrix. -/
inductive Rows : List Txt → List (List Txt) → Prop
  | nil : Rows [] []
  | blank {l ls m} : Blank l → Rows ls m → Rows (l :: ls) m
  | row {l r ls m} : Reads l r → r ≠ [] → Rows ls m → Rows (l :: ls) (r :: m)

/-- A matrix in brackets. -/
def IsMatrix (text : Txt) (m : List (List Txt)) : Prop :=
  ∃ a lines, text = a ++ '[' :: (unlines lines ++ [']']) ∧ Blank a ∧ lines ≠ [] ∧ (∀ l ∈ lines, '\n' ∉ l ∧ ']' ∉ l) ∧
    Rows lines m

/-- Decimal digits, at least one. -/
def Digits (s : Txt) : Prop := s ≠ [] ∧ ∀ c ∈ s, 48 ≤ c.toNat ∧ c.toNat ≤ 57

/-- Nothing or a minus sign. -/
def Sign (s : Txt) : Prop := s = [] ∨ s = ['-']

/-- A decimal number: `-12`, `0.25`, `1e-05`, … -/
def Decimal (s : Txt) : Prop :=
  ∃ m d f e, s = m ++ (d ++ (f ++ e)) ∧ Sign m ∧ Digits d ∧ (f = [] ∨ ∃ g, f = '.' :: g ∧ Digits g) ∧
    (e = [] ∨ ∃ n g, e = 'e' :: (n ++ g) ∧ Sign n ∧ Digits g)

/-- A decimal number between white space. -/
def IsScalar (text x : Txt) : Prop := ∃ a b, text = a ++ (x ++ b) ∧ Blank a ∧ Blank b ∧ b ≠ [] ∧ Decimal x

/-- Tag and content of a component.  `j`, `j₁`, … are the parts the converter does not look at. -/
inductive IsComp : Txt → Txt → Comp Txt → Prop
  | affine {j₁ m₁ j₂ m₂ j₃ W b} : Lacks "<LinearParams>".toList j₁ → IsMatrix m₁ W → Lacks "<BiasParams>".toList j₂ →
      IsMatrix m₂ [b] → IsComp "NaturalGradientAffineComponent".toList
        (j₁ ++ ("<LinearParams>".toList ++ (m₁ ++ (j₂ ++ ("<BiasParams>".toList ++ (m₂ ++ j₃)))))) (.affine W b)
  | relu {j} : IsComp "RectifiedLinearComponent".toList j .relu
  | batchNorm {j₁ t₁ j₂ t₂ j₃ m₁ j₄ m₂ j₅ eps rms mean var} : Lacks "<Epsilon>".toList j₁ → IsScalar t₁ eps →
      Lacks "<TargetRms>".toList j₂ → IsScalar t₂ rms → Lacks "<StatsMean>".toList j₃ → IsMatrix m₁ [mean] →
      Lacks "<StatsVar>".toList j₄ → IsMatrix m₂ [var] → IsComp "BatchNormComponent".toList
        (j₁ ++ ("<Epsilon>".toList ++ (t₁ ++ (j₂ ++ ("<TargetRms>".toList ++ (t₂ ++ (j₃ ++ ("<StatsMean>".toList ++
          (m₁ ++ (j₄ ++ ("<StatsVar>".toList ++ (m₂ ++ j₅)))))))))))) (.batchNorm mean var eps rms)
  | logSoftmax {j} : IsComp "LogSoftmaxComponent".toList j .logSoftmax

/-- The components, one behind the other. -/
inductive Comps : Txt → List (Txt × Comp Txt) → Prop
  | nil {s} : Blank s → Comps s []
  | cons {a b name c tag content rest comp cs} : Blank a → Blank b → NameOk name → Blank c → c ≠ [] →
      IsComp tag content comp → Lacks ("</".toList ++ (tag ++ ['>'])) content → Comps rest cs →
      Comps (a ++ ("<ComponentName>".toList ++ (b ++ (name ++ (c ++ ('<' :: (tag ++ ('>' :: (content ++
        ("</".toList ++ (tag ++ ('>' :: rest)))))))))))) ((name, comp) :: cs)

/-- The text is that of the network. -/
def IsText (net : Net Txt) (text : Txt) : Prop :=
  ∃ pre lines a cnt b comps mid m tail,
    text = pre ++ ("<Nnet3>".toList ++ ((unlines lines ++ ("<NumComponents>".toList ++ (a ++ (cnt ++ (b ++ comps))))) ++
      ("</Nnet3>".toList ++ (mid ++ ("<Priors>".toList ++ (m ++ tail)))))) ∧
    Lacks "<Nnet3>".toList pre ∧
    Lacks "</Nnet3>".toList (unlines lines ++ ("<NumComponents>".toList ++ (a ++ (cnt ++ (b ++ comps))))) ∧
    Lacks "<Priors>".toList (pre ++ ("<Nnet3>".toList ++ ((unlines lines ++ ("<NumComponents>".toList ++ (a ++ (cnt ++
      (b ++ comps))))) ++ ("</Nnet3>".toList ++ mid)))) ∧
    lines ≠ [] ∧ (∀ l ∈ lines, '\n' ∉ l) ∧ Lacks "<NumComponents>".toList (unlines lines) ∧
    Lines lines net.nodes [net.output] ∧
    Blank a ∧ Digits cnt ∧ Blank b ∧ b ≠ [] ∧ Comps comps net.comps ∧ IsMatrix m [net.prior]

/-! ## Networks the converter is for -/

/-- Sizes within a component are consistent, as Kaldi makes sure. -/
def Comp.Ok {N : Type} : Comp N → Prop
  | .affine W b => W ≠ [] ∧ (∃ c, ∀ r ∈ W, r.length = c) ∧ b.length = W.length
  | .batchNorm mean var _ _ => mean.length = var.length
  | _ => True

/-- What is asked of a network so that its text is read: names are names, nodes are named as their components, nodes in `Append` have
no `-` in their names, and the numbers of a component fit each other. -/
structure Net.Readable {N : Type} (net : Net N) : Prop where
  name : ∀ n ∈ net.nodes, NameOk n.name ∧ n.comp = n.name
  parts : ∀ n ∈ net.nodes, match n.input with
    | .part p => NameOk p.name
    | .append ps => ∀ p ∈ ps, NameOk p.name ∧ '-' ∉ p.name
  sizes : ∀ p ∈ net.comps, p.2.Ok

/-- What is asked of every network here: names are names, nodes are named as their components (as Kaldi's scripts do)
and have different names, so have components; every node has its component; no component is named as one of the
auxiliary layers of the converter; nodes in `Append` have no `-` in their names. -/
structure Net.Ok {N : Type} (net : Net N) : Prop where
  name : ∀ n ∈ net.nodes, NameOk n.name ∧ n.comp = n.name
  parts : ∀ n ∈ net.nodes, match n.input with
    | .part p => NameOk p.name
    | .append ps => ∀ p ∈ ps, NameOk p.name ∧ '-' ∉ p.name
  distinct : (net.nodes.map Node.name).Nodup
  comps : (net.comps.map Prod.fst).Nodup
  has : ∀ n ∈ net.nodes, n.comp ∈ net.comps.map Prod.fst
  aux : ∀ n ∈ net.nodes, n.comp ++ "_splice".toList ∉ net.comps.map Prod.fst ∧
    n.comp ++ "_narrow".toList ∉ net.comps.map Prod.fst
  sizes : ∀ p ∈ net.comps, p.2.Ok

/-- The nodes form a chain from `prev`: each takes the one before it, possibly with context. -/
inductive Chain : Txt → List Node → Prop
  | nil {prev} : Chain prev []
  | plain {prev n ns} : n.input = .part ⟨prev, none⟩ → Chain n.name ns → Chain prev (n :: ns)
  | context {prev n ns ps} : n.input = .append ps → ps ≠ [] → (∀ p ∈ ps, p.name = prev) → Chain n.name ns →
      Chain prev (n :: ns)

end Verif.Tool.Kaldi
