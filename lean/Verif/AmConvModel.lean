import Verif.ToolModel

/-!
# The converter of acoustic models, `tool/convert_am.py`

The text of the model is a list of characters, as `fd.read()` gives it (357).  An exception, also one raised by
`assert`, is `.error .throw`; what was printed or written before it is not modelled.

Regular expressions are written out as functions; each comment says why there is only one way to match.
Simplification: `\d` and `\w` are taken to match ASCII characters only, and the name of a token is taken as literal
text (all names used are, except the tag of an unknown component, which ends in an exception anyway).
-/

namespace Verif.Tool

open Verif.Nnet (Layer)

/-- Python's numbers, as far as the converter uses them: `float(s)` (`none` for `ValueError`), `-x`, `x + y`, `x * y`,
`np.power(x, -0.5)`, and `struct.pack("<f", x)` (`none` for `OverflowError`); `tool/convert_am.py` 31, 208, 221,
228-232. -/
structure ANum (R : Type) where
  parse : Txt → Option R
  neg : R → R
  add : R → R → R
  mul : R → R → R
  rsqrt : R → R
  pack : R → Option UInt32

/-! ## Regular expressions -/

/-- The parts of the text before and behind the first occurrence of `pat`; the searches of `tool/convert_am.py`
173-174, 180-181, the lazy groups of 193, 211 and 234. -/
def cut (pat : Txt) : Txt → Option (Txt × Txt)
  | [] => if pat = [] then some ([], []) else none
  | c :: s =>
    if pat.isPrefixOf (c :: s) then some ([], (c :: s).drop pat.length)
    else (cut pat s).map fun p => (c :: p.1, p.2)

/-- `<name>`, `tool/convert_am.py` 173, 180. -/
def tokenText (name : Txt) : Txt := '<' :: (name ++ ['>'])

/-- `goto_token`, `tool/convert_am.py` 172-177: `(.*)` takes everything behind the first occurrence. -/
def gotoToken (name text : Txt) : Exec Txt :=
  match cut (tokenText name) text with
  | some p => .ok p.2
  | none => .error .throw

/-- `read_until_token`, `tool/convert_am.py` 179-184: `(.*?)` starts at the beginning and ends at the first
occurrence. -/
def readUntil (name text : Txt) : Exec Txt :=
  match cut (tokenText name) text with
  | some p => .ok p.1
  | none => .error .throw

/-- `^\s*(X)\s+(.*)` where `X` has no white space in it, `tool/convert_am.py` 187, 199, 205: the group is the first
field, the rest starts behind the white space that must follow it. -/
def readWord (ok : Txt → Bool) (text : Txt) : Exec (Txt × Txt) :=
  let s := text.dropWhile white
  let w := s.takeWhile fun c => !white c
  let r := s.dropWhile fun c => !white c
  if w ≠ [] ∧ ok w = true ∧ r ≠ [] then .ok (w, r.dropWhile white) else .error .throw

/-- `\d`, `tool/convert_am.py` 199, 205, 236-237. -/
def isDig (c : Char) : Bool := decide (48 ≤ c.toNat) && decide (c.toNat ≤ 57)

/-- `[\w\.]`, `tool/convert_am.py` 236-237. -/
def isNameChar (c : Char) : Bool := c.isAlphanum || c == '_' || c == '.'

/-- `read_string`, `tool/convert_am.py` 186-190. -/
def readString (text : Txt) : Exec (Txt × Txt) := readWord (fun w => w.all fun c => isNameChar c || c == '-') text

/-- `^\s*<(.*?)>(.*)`, `read_token`, `tool/convert_am.py` 192-196. -/
def readToken (text : Txt) : Exec (Txt × Txt) :=
  match text.dropWhile white with
  | '<' :: s =>
    match cut ['>'] s with
    | some p => .ok p
    | none => .error .throw
  | _ => .error .throw

/-- `read_int`, `tool/convert_am.py` 198-202; the value is only printed. -/
def readInt (text : Txt) : Exec (Txt × Txt) := readWord (fun w => w.all isDig) text

/-- `-?`, `tool/convert_am.py` 205, 236. -/
def dropMinus : Txt → Txt
  | '-' :: s => s
  | s => s

/-- `(?:e-?\d+)?` up to the end, `tool/convert_am.py` 205. -/
def expText : Txt → Bool
  | [] => true
  | 'e' :: s => decide (dropMinus s ≠ []) && (dropMinus s).all isDig
  | _ => false

/-- `(?:-?\d+)(?:\.(?:\d+))?(?:e-?\d+)?`, `tool/convert_am.py` 205. -/
def floatText (s : Txt) : Bool :=
  decide ((dropMinus s).takeWhile isDig ≠ []) &&
    match (dropMinus s).dropWhile isDig with
    | '.' :: s => decide (s.takeWhile isDig ≠ []) && expText (s.dropWhile isDig)
    | s => expText s

variable {R : Type}

/-- `read_float`, `tool/convert_am.py` 204-208. -/
def readFloat (num : ANum R) (text : Txt) : Exec (R × Txt) := do
  let (w, rest) ← readWord floatText text
  match num.parse w with
  | some x => .ok (x, rest)
  | none => .error .throw

/-- `list(map(float, words))`, `tool/convert_am.py` 221. -/
def parseAll (num : ANum R) : List Txt → Exec (List R)
  | [] => .ok []
  | w :: ws =>
    match num.parse w with
    | none => .error .throw
    | some x => do
      let xs ← parseAll num ws
      .ok (x :: xs)

/-- One line of a matrix, `tool/convert_am.py` 219-225.  `row_num` is the length of the first row, once there is
one. -/
def matrixLine (num : ANum R) (m : List (List R)) (line : Txt) : Exec (List (List R)) :=
  if strip line = [] then .ok m
  else do
    let row ← parseAll num (fields (strip line))
    match m with
    | [] => .ok [row]
    | r :: _ => if r.length = row.length then .ok (m ++ [row]) else .error .throw

/-- `read_matrix`, `tool/convert_am.py` 210-226. -/
def readMatrix (num : ANum R) (text : Txt) : Exec (List (List R) × Txt) :=
  match text.dropWhile white with
  | '[' :: s =>
    match cut [']'] s with
    | some (body, rest) => do
      let m ← (splitAt '\n' body).foldlM (matrixLine num) []
      .ok (m, rest.dropWhile white)
    | none => .error .throw
  | _ => .error .throw

/-! ## Batch normalisation -/

/-- `np.multiply` of two vectors, `tool/convert_am.py` 231: a vector of one element is stretched, other differences in
length raise `ValueError`. -/
def broadcast (f : R → R → R) (a b : List R) : Exec (List R) :=
  if a.length = b.length then .ok (List.zipWith f a b)
  else match a, b with
    | [x], b => .ok (b.map (f x))
    | a, [y] => .ok (a.map fun x => f x y)
    | _, _ => .error .throw

/-- `compute_batch_norm`, `tool/convert_am.py` 228-232. -/
def batchNormOf (num : ANum R) (mean var : List R) (eps rms : R) : Exec (List R × List R) := do
  let scale := var.map fun v => num.mul (num.rsqrt (num.add v eps)) rms
  let offset ← broadcast num.mul (mean.map num.neg) scale
  .ok (scale, offset)

/-! ## The description of the network -/

/-- `component-node`, `tool/convert_am.py` 250-251. -/
def tComponentNode : Txt := "component-node".toList
/-- `input-node`, `tool/convert_am.py` 250. -/
def tInputNode : Txt := "input-node".toList
/-- `output-node`, `tool/convert_am.py` 250. -/
def tOutputNode : Txt := "output-node".toList

/-- The text behind a prefix. Part of the regular expressions of `tool/convert_am.py` 234-237. -/
def behind (pre s : Txt) : Option Txt := if pre.isPrefixOf s then some (s.drop pre.length) else none

/-- `re_component.match`, `tool/convert_am.py` 234, 252, without the first group: the lazy groups end at the first
occurrence of what follows them.  `.` does not match line ends, of which there are none in a line. -/
def componentMatch (line : Txt) : Option (Txt × Txt) :=
  match behind "component-node name=".toList line with
  | none => none
  | some s =>
    match cut " component=".toList s with
    | none => none
    | some p => cut " input=".toList p.2

/-- `re_input.match`, `tool/convert_am.py` 235, 256. -/
def appendInner (s : Txt) : Option Txt :=
  match behind "Append(".toList s with
  | none => none
  | some r => if r.getLast? = some ')' then some r.dropLast else none

/-- `Offset\(([\w\.]+), *(-?\d+)\)` at the beginning of a text, `tool/convert_am.py` 236-237: the two groups and the
rest.  What follows each repetition cannot belong to it. -/
def offsetMatch (s : Txt) : Option (Txt × Txt × Txt) :=
  match behind "Offset(".toList s with
  | none => none
  | some r =>
    let name := r.takeWhile isNameChar
    match r.dropWhile isNameChar with
    | ',' :: r =>
      let r := r.dropWhile (· == ' ')
      let d := (dropMinus r).takeWhile isDig
      match (dropMinus r).dropWhile isDig with
      | ')' :: rest =>
        if name ≠ [] ∧ d ≠ [] then some (name, (if r.head? = some '-' then '-' :: d else d), rest) else none
      | _ => none
    | _ => none

/-- The length of the match of `re_split` at the beginning of a text, 0 if there is none, `tool/convert_am.py` 236. -/
def fieldLen (s : Txt) : Nat :=
  match offsetMatch s with
  | some (_, _, rest) => s.length - rest.length
  | none => (s.takeWhile isNameChar).length

/-- `re_split.split`, `tool/convert_am.py` 259: what lies between the matches and the matches, in turn.  `cur` is the
part being read, `k` the number of characters of a match that are still to come. -/
def splitFieldsFrom : Txt → Nat → Txt → List Txt
  | cur, _, [] => [cur]
  | cur, 0, c :: s =>
    if fieldLen (c :: s) = 0 then splitFieldsFrom (cur ++ [c]) 0 s
    else if fieldLen (c :: s) = 1 then cur :: [c] :: splitFieldsFrom [] 0 s
    else cur :: splitFieldsFrom [c] (fieldLen (c :: s) - 1) s
  | cur, k + 1, c :: s =>
    if k = 0 then (cur ++ [c]) :: splitFieldsFrom [] 0 s else splitFieldsFrom (cur ++ [c]) k s

/-- `re_split.split`, `tool/convert_am.py` 259. -/
def splitFields (s : Txt) : List Txt := splitFieldsFrom [] 0 s

/-- One field, `tool/convert_am.py` 260-271. -/
def spliceField (prev : Txt) (idx : List Int) (field : Txt) : Exec (List Int) :=
  match offsetMatch (strip field) with
  | some (name, k, []) =>
    match pyInt k with
    | none => .error .throw
    | some k => if name = prev then .ok (idx ++ [k]) else .error .throw
  | _ =>
    if strip field = [','] ∨ strip field = [] then .ok idx
    else if strip field = prev then .ok (idx ++ [0]) else .error .throw

/-- The variables of the loop of `parse_nnet3_desc`, `tool/convert_am.py` 240-244. -/
structure DescState (R : Type) where
  prev : Txt
  layers : List Txt
  dict : List (Txt × Layer R)
  left : Int
  right : Int

/-- `_splice`, `tool/convert_am.py` 272. -/
def tSplice : Txt := "_splice".toList
/-- `_narrow`, `tool/convert_am.py` 277. -/
def tNarrow : Txt := "_narrow".toList

/-- A line of a component, `tool/convert_am.py` 252-289. -/
def componentLine (st : DescState R) (line : Txt) : Exec (DescState R) :=
  match componentMatch line with
  | none => .error .throw
  | some (comp, input) =>
    match appendInner (strip input) with
    | some inner => do
      let idx ← (splitFields inner).foldlM (spliceField st.prev) []
      if idx = [] then .error .throw
      else
        let l := -(idx.foldl min 0)
        let r := idx.foldl max 0
        .ok ⟨comp, st.layers ++ [comp ++ tSplice, comp ++ tNarrow, comp],
          dictSet (dictSet st.dict (comp ++ tSplice) (.splice idx)) (comp ++ tNarrow) (.narrow l r),
          st.left + l, st.right + r⟩
    | none =>
      if strip input = st.prev then .ok { st with prev := comp, layers := st.layers ++ [comp] } else .error .throw

/-- One line, `tool/convert_am.py` 245-289. -/
def descLine (st : DescState R) (line : Txt) : Exec (DescState R) :=
  match fields (strip line) with
  | [] => .ok st
  | w :: _ =>
    if w = tComponentNode then componentLine st (strip line)
    else if w = tInputNode ∨ w = tOutputNode then .ok st
    else .error .throw

/-- `parse_nnet3_desc`, `tool/convert_am.py` 238-290. -/
def parseDesc (text : Txt) : Exec (DescState R) :=
  (splitAt '\n' text).foldlM descLine ⟨"input".toList, [], [], 0, 0⟩

/-! ## The components -/

/-- `W.T`, `tool/convert_am.py` 323, of a matrix whose rows have the same length. -/
def transposed (m : List (List R)) : List (List R) :=
  (List.range (Nnet.numCols m)).map fun j => m.filterMap fun row => row[j]?

/-- The layer of a component, `tool/convert_am.py` 318-340; `W.T` of a matrix without rows has one dimension, which
`LinearLayer` (56) does not take. -/
def layerText (num : ANum R) (tag content : Txt) : Exec (Layer R) :=
  if tag = "NaturalGradientAffineComponent".toList then do
    let t ← gotoToken "LinearParams".toList content
    let (W, t) ← readMatrix num t
    let t ← gotoToken "BiasParams".toList t
    let (b, _) ← readMatrix num t
    match b with
    | [] => .error .throw
    | b :: _ => if W = [] then .error .throw else .ok (.linear (transposed W) b)
  else if tag = "RectifiedLinearComponent".toList then .ok .relu
  else if tag = "BatchNormComponent".toList then do
    let t ← gotoToken "Epsilon".toList content
    let (eps, t) ← readFloat num t
    let t ← gotoToken "TargetRms".toList t
    let (rms, t) ← readFloat num t
    let t ← gotoToken "StatsMean".toList t
    let (mean, t) ← readMatrix num t
    let t ← gotoToken "StatsVar".toList t
    let (var, _) ← readMatrix num t
    match mean, var with
    | mean :: _, var :: _ => do
      let (scale, offset) ← batchNormOf num mean var eps rms
      .ok (.batchNorm scale offset)
    | _, _ => .error .throw
  else if tag = "LogSoftmaxComponent".toList then .ok .logSoftmax
  else .error .throw

/-- One component, `tool/convert_am.py` 308-341: the rest of the text and the dictionary. -/
def componentText (num : ANum R) (dict : List (Txt × Layer R)) (text : Txt) : Exec (Txt × List (Txt × Layer R)) := do
  let (tag, text) ← readToken text
  if tag ≠ "ComponentName".toList then .error .throw
  else do
    let (name, text) ← readString text
    let (tag, text) ← readToken text
    let content ← readUntil ('/' :: tag) text
    let text ← gotoToken ('/' :: tag) text
    let layer ← layerText num tag content
    .ok (text, dictSet dict name layer)

/-- The loop, `tool/convert_am.py` 307-341.  Every component takes at least one character, so that the number of
characters bounds the number of rounds. -/
def readComponents (num : ANum R) : Nat → List (Txt × Layer R) → Txt → Exec (List (Txt × Layer R))
  | 0, dict, text => if strip text = [] then .ok dict else .error .fuel
  | n + 1, dict, text =>
    if strip text = [] then .ok dict
    else do
      let (text, dict) ← componentText num dict text
      readComponents num n dict text

/-- The loop that looks up the layers, `tool/convert_am.py` 344-351. -/
def lookupAll (dict : List (Txt × Layer R)) : List Txt → Exec (List (Layer R))
  | [] => .ok []
  | n :: ns =>
    match dictGet dict n with
    | none => .error .throw
    | some l => do
      let ls ← lookupAll dict ns
      .ok (l :: ls)

/-- `read_nnet`, `tool/convert_am.py` 293-353: layers, left and right context. -/
def readNet (num : ANum R) (text : Txt) : Exec (List (Layer R) × Int × Int) := do
  let t ← gotoToken "Nnet3".toList text
  let t ← readUntil "/Nnet3".toList t
  let desc ← readUntil "NumComponents".toList t
  let t ← gotoToken "NumComponents".toList t
  let (_, t) ← readInt t
  let st ← parseDesc desc
  let dict ← readComponents num t.length st.dict t
  let ls ← lookupAll dict st.layers
  .ok (ls, st.left, st.right)

/-! ## Checking and writing -/

/-- `input_dim`, `tool/convert_am.py` 48-49, 67-68. -/
def inputDim : Layer R → Option Nat
  | .linear W _ => some W.length
  | _ => none

/-- `output_dim`, `tool/convert_am.py` 45-46, 70-71, 89-92. -/
def outputDim (d : Option Nat) : Layer R → Option Nat
  | .linear W _ => some (Nnet.numCols W)
  | .splice idx => d.map (· * idx.length)
  | _ => d

/-- `AM.verify`, `tool/convert_am.py` 145-154. -/
def verify : Option Nat → List (Layer R) → Exec Unit
  | _, [] => .ok ()
  | d, l :: ls =>
    match d, inputDim l with
    | some a, some b => if a ≠ b then .error .throw else verify (outputDim d l) ls
    | _, _ => verify (outputDim d l) ls

/-- `struct.pack("<i", x)`, `tool/convert_am.py` 28-163: `struct.error` if the number does not fit. -/
def packInt (x : Int) : Exec Unit := if -2147483648 ≤ x ∧ x ≤ 2147483647 then .ok () else .error .throw

/-- `write_vector`, `tool/convert_am.py` 26-31: the words that are written. -/
def packVec (num : ANum R) (v : List R) : Exec (List Nat) := do
  packInt (v.length * 4 + 4)
  v.mapM fun x =>
    match num.pack x with
    | none => .error .throw
    | some w => .ok w.toNat

/-- `write` of a layer, `tool/convert_am.py` 33-43, 62-65, 94-98, 110-113, 127-130: the layer with the words that are
written. -/
def packLayer (num : ANum R) : Layer R → Exec (Layer Nat)
  | .linear W b => do
    packInt W.length
    packInt (Nnet.numCols W)
    let W ← W.mapM (packVec num)
    let b ← packVec num b
    .ok (.linear W b)
  | .relu => .ok .relu
  | .normalize => .ok .normalize
  | .softmax => .ok .softmax
  | .splice idx => do
    packInt idx.length
    let _ ← idx.mapM packInt
    .ok (.splice idx)
  | .batchNorm s t => do
    let s ← packVec num s
    let t ← packVec num t
    .ok (.batchNorm s t)
  | .logSoftmax => .ok .logSoftmax
  | .narrow l r => do
    packInt l
    packInt r
    .ok (.narrow l r)

/-- The program, `tool/convert_am.py` 355-370, given two arguments: the contents of the `.nnet` and of the `.prior`
file (`AM.write` 156-168). -/
def convertAm (num : ANum R) (text : Txt) : Exec (List UInt8 × List UInt8) := do
  let (layers, left, right) ← readNet num text
  let t ← gotoToken "Priors".toList text
  let (prior, _) ← readMatrix num t
  match prior with
  | [] => .error .throw
  | prior :: _ => do
    verify none layers
    packInt left
    packInt right
    packInt layers.length
    let ls ← layers.mapM (packLayer num)
    let p ← packVec num prior
    .ok (Ser.writeNnet left right ls, Ser.writeVec p)

end Verif.Tool
