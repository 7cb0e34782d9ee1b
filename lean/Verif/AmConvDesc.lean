import Verif.AmConvLemmas

/-!
# Lemmas: the description of the network and the components
-/

namespace Verif.Tool

open Verif.Nnet (Layer)
open Kaldi

variable {R : Type}

/-! ## Lines of the description -/

/-- The shifts of the parts. -/
def shifts (ps : List Part) : List Int := ps.map fun p => p.shift.getD 0

/-- What a node does to the variables of the loop. -/
def nodeStep (st : DescState R) (n : Node) : Exec (DescState R) :=
  match n.input with
  | .part ⟨nm, none⟩ =>
    if nm = st.prev then .ok { st with prev := n.comp, layers := st.layers ++ [n.comp] } else .error .throw
  | .part ⟨_, some _⟩ => .error .throw
  | .append ps =>
    if ps ≠ [] ∧ ∀ p ∈ ps, p.name = st.prev then
      .ok ⟨n.comp, st.layers ++ [n.comp ++ tSplice, n.comp ++ tNarrow, n.comp],
        dictSet (dictSet st.dict (n.comp ++ tSplice) (.splice (shifts ps))) (n.comp ++ tNarrow)
          (.narrow (-((shifts ps).foldl min 0)) ((shifts ps).foldl max 0)),
        st.left + -((shifts ps).foldl min 0), st.right + (shifts ps).foldl max 0⟩
    else .error .throw

/-- What is asked of a node here. -/
def GoodNode (n : Node) : Prop :=
  NameOk n.name ∧ NameOk n.comp ∧ match n.input with
    | .part p => NameOk p.name
    | .append ps => ∀ p ∈ ps, GoodPart p

theorem strip_descText {n : Node} (h : GoodNode n) : strip n.input.text = n.input.text := by
  obtain ⟨-, -, h⟩ := h
  cases hi : n.input with
  | append ps =>
    have := strip_between (a := 'A') (z := ')') ("ppend(".toList ++ commas (ps.map Part.text))
      (not_white_of (by decide)) (not_white_of (by decide))
    rw [show (Desc.append ps).text = 'A' :: ("ppend(".toList ++ commas (ps.map Part.text) ++ [')']) by
      show "Append(".toList ++ (commas (ps.map Part.text) ++ [')']) = _
      rw [show "Append(".toList = 'A' :: "ppend(".toList from rfl]; simp only [List.cons_append, List.append_assoc]]
    exact this
  | part p =>
    rw [hi] at h
    obtain ⟨nm, sh⟩ := p
    cases sh with
    | none =>
      have h : NameOk nm := h
      exact strip_of_word h.word
    | some k => exact strip_offset nm k

theorem appendInner_part {p : Part} (h : NameOk p.name) : appendInner p.text = none := by
  unfold appendInner Part.text
  cases hk : p.shift with
  | none =>
    have := behind_none (pre := "Append(".toList) (name := p.name) (s := []) (x := '(') (by decide)
      (h.noChar (by decide)) (by intro c hc; cases hc)
    rw [List.append_nil] at this
    simp only
    rw [this]
  | some k =>
    simp only
    have : behind "Append(".toList ("Offset(".toList ++ (p.name ++ (", ".toList ++ ((toString k).toList ++ [')'])))) =
        none := by
      unfold behind
      rw [if_neg]
      rw [List.isPrefixOf_iff_prefix]
      rintro ⟨z, hz⟩
      rw [show "Append(".toList = 'A' :: "ppend(".toList from rfl,
        show "Offset(".toList = 'O' :: "ffset(".toList from rfl] at hz
      simp only [List.cons_append, List.cons.injEq] at hz
      exact absurd hz.1 (by decide)
    rw [this]

theorem appendInner_append (ps : List Part) : appendInner (Desc.append ps).text = some (commas (ps.map Part.text)) := by
  unfold appendInner Desc.text
  simp only
  rw [behind_ok]
  simp only
  rw [if_pos (by rw [List.getLast?_concat]), List.dropLast_concat]

theorem componentMatch_ok {name comp : Txt} (inp : Txt) (h1 : ' ' ∉ name) (h2 : ' ' ∉ comp) :
    componentMatch ("component-node name=".toList ++ (name ++ (" component=".toList ++ (comp ++
      (" input=".toList ++ inp))))) = some (comp, inp) := by
  have hl : ∀ {a p : Txt}, ' ' ∉ a → Lacks (' ' :: p) a := by
    intro a p ha h
    exact ha (h.subset (List.mem_cons_self ..))
  unfold componentMatch
  rw [behind_ok]
  simp only
  have e1 := cut_spec (x := ' ') (p := "component=".toList) (by decide) (a := name) (comp ++ (" input=".toList ++ inp))
    (hl h1)
  have e2 := cut_spec (x := ' ') (p := "input=".toList) (by decide) (a := comp) inp (hl h2)
  rw [show " component=".toList = ' ' :: "component=".toList from rfl, e1]
  simp only
  rw [show " input=".toList = ' ' :: "input=".toList from rfl, e2]

theorem componentLine_ok {st : DescState R} {n : Node} (h : GoodNode n) (hp : '(' ∉ st.prev) :
    componentLine st ("component-node name=".toList ++ (n.name ++ (" component=".toList ++ (n.comp ++
      (" input=".toList ++ n.input.text))))) = nodeStep st n := by
  unfold componentLine
  rw [componentMatch_ok _ (h.1.noChar (by decide)) (h.2.1.noChar (by decide))]
  simp only
  rw [strip_descText h]
  have h3 := h.2.2
  unfold nodeStep
  cases hi : n.input with
  | part p =>
    rw [hi] at h3
    rw [show (Desc.part p).text = p.text from rfl, appendInner_part h3]
    simp only
    obtain ⟨nm, sh⟩ := p
    cases sh with
    | none => rfl
    | some k =>
      rw [if_neg]
      intro e
      apply hp
      rw [← e]
      unfold Part.text
      simp
  | append ps =>
    rw [hi] at h3
    rw [appendInner_append]
    simp only
    have := spliceFields_ok (prev := st.prev) ps [] [] h3 (fun idx => (spliceField_sep st.prev idx).1)
    rw [splitFields, splitFields_commas ps [] h3, this]
    by_cases e : ∀ p ∈ ps, p.name = st.prev
    · rw [if_pos e, ok_bind]
      simp only [List.nil_append]
      by_cases e0 : ps = []
      · subst e0
        rw [if_pos (by rfl), if_neg (by simp)]
      · rw [if_neg (by simpa using e0), if_pos ⟨e0, e⟩]
        rfl
    · rw [if_neg e, if_neg (fun hh => e hh.2)]
      rfl

theorem fields_first {w r : Txt} (hw : IsWord w) : fields (w ++ ' ' :: r) = w :: fields r := by
  unfold fields
  rw [fieldsFrom_word hw.2, List.nil_append, fieldsFrom_end hw.1 (by
    intro c hc
    rw [List.head?_cons, Option.mem_some_iff] at hc
    rw [← hc]
    decide)]
  rfl

theorem descLine_node {st : DescState R} {n : Node} {l : Txt} (h : GoodNode n) (hp : '(' ∉ st.prev)
    (hl : Says l ("component-node name=".toList ++ (n.name ++ (" component=".toList ++ (n.comp ++
      (" input=".toList ++ n.input.text)))))) : descLine st l = nodeStep st n := by
  unfold descLine
  rw [strip_of_says hl]
  have : fields ("component-node name=".toList ++ (n.name ++ (" component=".toList ++ (n.comp ++
      (" input=".toList ++ n.input.text))))) = tComponentNode :: fields ("name=".toList ++ (n.name ++
      (" component=".toList ++ (n.comp ++ (" input=".toList ++ n.input.text))))) := by
    have := fields_first (w := tComponentNode) (r := "name=".toList ++ (n.name ++
      (" component=".toList ++ (n.comp ++ (" input=".toList ++ n.input.text))))) ⟨by decide, by decide⟩
    rw [← this]
    rfl
  rw [this]
  simp only
  rw [if_pos trivial, componentLine_ok h hp]

theorem nodeStep_prev {st st' : DescState R} {n : Node} (h : nodeStep st n = .ok st') : st'.prev = n.comp := by
  unfold nodeStep at h
  split at h
  · split at h
    · cases h; rfl
    · cases h
  · cases h
  · split at h
    · cases h; rfl
    · cases h

theorem descLines_ok {ls : List Txt} {ns : List Node} {os : List Txt} (h : Lines ls ns os) :
    ∀ (st : DescState R), '(' ∉ st.prev → (∀ n ∈ ns, GoodNode n) → ls.foldlM descLine st = ns.foldlM nodeStep st := by
  induction h with
  | nil => intro st _ _; rfl
  | blank hb _ ih =>
    intro st hp hn
    rw [List.foldlM_cons, show descLine st _ = .ok st by unfold descLine; rw [strip_of_blank hb]; rfl, ok_bind]
    exact ih st hp hn
  | input hr _ ih =>
    intro st hp hn
    rw [List.foldlM_cons, show descLine st _ = .ok st by
      unfold descLine; rw [fields_strip, fields_of_reads hr]; rfl, ok_bind]
    exact ih st hp hn
  | output hr _ ih =>
    intro st hp hn
    rw [List.foldlM_cons, show descLine st _ = .ok st by
      unfold descLine; rw [fields_strip, fields_of_reads hr]; rfl, ok_bind]
    exact ih st hp hn
  | @node l n ls ns os hs _ ih =>
    intro st hp hn
    have hg := hn n (List.mem_cons_self ..)
    rw [List.foldlM_cons, descLine_node hg hp hs, List.foldlM_cons]
    cases hst : nodeStep st n with
    | error e => rfl
    | ok st' =>
      rw [ok_bind, ok_bind]
      exact ih st' (by rw [nodeStep_prev hst]; exact hg.2.1.noChar (by decide))
        (fun x hx => hn x (List.mem_cons_of_mem _ hx))

theorem parseDesc_ok {ls : List Txt} {ns : List Node} {os : List Txt} (h : Lines ls ns os) (h0 : ls ≠ [])
    (h1 : ∀ l ∈ ls, '\n' ∉ l) (hn : ∀ n ∈ ns, GoodNode n) :
    parseDesc (R := R) (unlines ls) = ns.foldlM nodeStep ⟨"input".toList, [], [], 0, 0⟩ := by
  unfold parseDesc
  rw [splitAt_unlines h0 h1]
  exact descLines_ok h _ (by show '(' ∉ "input".toList; decide) hn

/-! ## Components -/

theorem floatText_ok {s : Txt} (h : Decimal s) : floatText s = true := by
  obtain ⟨m, d, f, e, rfl, hm, hd, hf, he⟩ := h
  have hdm : dropMinus (m ++ (d ++ (f ++ e))) = d ++ (f ++ e) := by
    rcases hm with rfl | rfl
    · exact (dropMinus_digits hd _).1
    · rfl
  have hexp : expText e = true := by
    rcases he with rfl | ⟨n, g, rfl, hn, hg⟩
    · rfl
    · unfold expText
      simp only
      have : dropMinus (n ++ g) = g := by
        rcases hn with rfl | rfl
        · have := (dropMinus_digits hg []).1
          rw [List.append_nil] at this
          exact this
        · rfl
      rw [this]
      simp only [Bool.and_eq_true, decide_eq_true_eq, List.all_eq_true]
      exact ⟨hg.1, fun c hc => isDig_of (hg.2 c hc)⟩
  have hehead : ∀ c ∈ e.head?, isDig c = false ∧ c ≠ '.' := by
    intro c hc
    rcases he with rfl | ⟨n, g, rfl, -, -⟩
    · cases hc
    · cases hc
      decide
  unfold floatText
  rw [hdm]
  have hs := span_ok (p := isDig) (a := d) (r := f ++ e) (fun c hc => isDig_of (hd.2 c hc)) (by
    intro c hc
    rcases hf with rfl | ⟨g, rfl, -⟩
    · exact (hehead c hc).1
    · cases hc
      decide)
  rw [hs.1, hs.2]
  simp only [Bool.and_eq_true, decide_eq_true_eq]
  refine ⟨hd.1, ?_⟩
  rcases hf with rfl | ⟨g, rfl, hg⟩
  · rw [List.nil_append]
    split
    · rename_i s he'
      exact absurd rfl (hehead '.' rfl).2
    · exact hexp
  · simp only [List.cons_append]
    have hs2 := span_ok (p := isDig) (a := g) (r := e) (fun c hc => isDig_of (hg.2 c hc))
      (fun c hc => (hehead c hc).1)
    rw [hs2.1, hs2.2, hexp]
    simp [hg.1]

theorem decimal_word {s : Txt} (h : Decimal s) : IsWord s := by
  obtain ⟨m, d, f, e, rfl, hm, hd, hf, he⟩ := h
  have hdig : ∀ {g : Txt}, Digits g → ∀ c ∈ g, ¬ IsWhite c := fun hg c hc => not_white_of (by
    have := hg.2 c hc
    omega)
  have hsign : ∀ {g : Txt}, Sign g → ∀ c ∈ g, ¬ IsWhite c := by
    rintro g (rfl | rfl) c hc
    · cases hc
    · rw [List.mem_singleton.mp hc]
      exact not_white_of (by decide)
  refine ⟨by have := hd.1; simp [this], fun c hc => ?_⟩
  simp only [List.mem_append] at hc
  rcases hc with hc | hc | hc | hc
  · exact hsign hm c hc
  · exact hdig hd c hc
  · rcases hf with rfl | ⟨g, rfl, hg⟩
    · cases hc
    · rcases List.mem_cons.mp hc with rfl | hc
      · exact not_white_of (by decide)
      · exact hdig hg c hc
  · rcases he with rfl | ⟨n, g, rfl, hn, hg⟩
    · cases hc
    · rcases List.mem_cons.mp hc with rfl | hc
      · exact not_white_of (by decide)
      · rcases List.mem_append.mp hc with hc | hc
        · exact hsign hn c hc
        · exact hdig hg c hc

theorem readFloat_ok {num : ANum R} {val : Txt → R} {t x : Txt} (r : Txt) (h : IsScalar t x)
    (hv : num.parse x = some (val x)) : readFloat num (t ++ r) = .ok (val x, r.dropWhile white) := by
  obtain ⟨a, b, rfl, ha, hb, hb0, hx⟩ := h
  unfold readFloat
  rw [List.append_assoc, List.append_assoc, readWord_ok r ha (decimal_word hx) (floatText_ok hx) hb hb0, ok_bind]
  simp only
  rw [hv]

/-- A token is found behind white space that was skipped before. -/
theorem gotoToken_skip {name a : Txt} (b : Txt) (hn : '<' ∉ name) (h : Lacks (tokenText name) a) :
    gotoToken name ((a ++ (tokenText name ++ b)).dropWhile white) = .ok b := by
  obtain ⟨w, hw, hb, -⟩ := dropWhile_white a
  have e : (a ++ (tokenText name ++ b)).dropWhile white = a.dropWhile white ++ (tokenText name ++ b) := by
    by_cases h0 : a.dropWhile white = []
    · rw [h0, List.nil_append]
      rw [h0, List.append_nil] at hw
      rw [hw, dropWhile_blank hb, dropWhile_head]
      intro c hc
      cases hc
      exact not_white_of (by decide)
    · conv => lhs; rw [hw]
      rw [List.append_assoc, dropWhile_blank hb, dropWhile_head]
      intro c hc
      obtain ⟨_, _, _, h3⟩ := dropWhile_white a
      apply h3 c
      revert hc h0
      cases a.dropWhile white with
      | nil => intro h0; exact absurd rfl h0
      | cons x l => intro _ hc; exact hc
  rw [e]
  refine gotoToken_ok b hn (fun h1 => h (h1.trans ?_))
  conv => rhs; rw [hw]
  exact (List.suffix_append w _).isInfix

/-- The layer of a component. -/
def layerOfComp (num : ANum R) : Comp R → Layer R
  | .affine W b => .linear (transposed W) b
  | .relu => .relu
  | .batchNorm mean var eps rms =>
    .batchNorm (var.map fun v => num.mul (num.rsqrt (num.add v eps)) rms)
      (List.zipWith num.mul (mean.map num.neg) (var.map fun v => num.mul (num.rsqrt (num.add v eps)) rms))
  | .logSoftmax => .logSoftmax

theorem layerText_ok {num : ANum R} {val : Txt → R} {tag content : Txt} {comp : Comp Txt}
    (h : IsComp tag content comp) (hok : comp.Ok) (hv : ∀ w ∈ comp.numbers, num.parse w = some (val w)) :
    layerText num tag content = .ok (layerOfComp num (comp.map val)) := by
  cases h with
  | @affine j₁ m₁ j₂ m₂ j₃ W b h1 h2 h3 h4 =>
    obtain ⟨hW, ⟨c, hc⟩, hb⟩ := hok
    unfold layerText
    rw [if_pos rfl]
    have g1 := gotoToken_ok (name := "LinearParams".toList) (m₁ ++ (j₂ ++ ("<BiasParams>".toList ++ (m₂ ++ j₃))))
      (by decide) h1
    rw [show tokenText "LinearParams".toList = "<LinearParams>".toList from rfl] at g1
    rw [g1, ok_bind, readMatrix_ok (val := val) (c := c) _ h2 (fun r hr => ⟨hc r hr, fun w hw => hv w (by
      unfold Comp.numbers
      simp only [List.mem_append, List.mem_flatten]
      exact .inl ⟨r, hr, hw⟩)⟩), ok_bind]
    simp only
    have g2 := gotoToken_skip (name := "BiasParams".toList) (m₂ ++ j₃) (by decide) h3
    rw [show tokenText "BiasParams".toList = "<BiasParams>".toList from rfl] at g2
    rw [g2, ok_bind, readMatrix_ok (val := val) (c := b.length) _ h4 (fun r hr => by
      rw [List.mem_singleton.mp hr]
      exact ⟨rfl, fun w hw => hv w (by
        unfold Comp.numbers
        simp only [List.mem_append]
        exact .inr hw)⟩), ok_bind]
    simp only [List.map_cons]
    rw [if_neg (by simpa using hW)]
    rfl
  | relu => rfl
  | @batchNorm j₁ t₁ j₂ t₂ j₃ m₁ j₄ m₂ j₅ eps rms mean var h1 h2 h3 h4 h5 h6 h7 h8 =>
    have hlen : mean.length = var.length := hok
    have hmem : ∀ w, w ∈ mean ∨ w ∈ var ∨ w = eps ∨ w = rms → num.parse w = some (val w) := by
      intro w hw
      apply hv
      unfold Comp.numbers
      simp only [List.mem_append, List.mem_cons, List.not_mem_nil, or_false]
      rcases hw with hw | hw | hw | hw
      · exact .inl (.inl hw)
      · exact .inl (.inr hw)
      · exact .inr (.inl hw)
      · exact .inr (.inr hw)
    unfold layerText
    rw [if_neg (by decide), if_neg (by decide), if_pos rfl]
    have g1 := gotoToken_ok (name := "Epsilon".toList) (t₁ ++ (j₂ ++ ("<TargetRms>".toList ++ (t₂ ++ (j₃ ++
      ("<StatsMean>".toList ++ (m₁ ++ (j₄ ++ ("<StatsVar>".toList ++ (m₂ ++ j₅)))))))))) (by decide) h1
    rw [show tokenText "Epsilon".toList = "<Epsilon>".toList from rfl] at g1
    rw [g1, ok_bind, readFloat_ok _ h2 (hmem eps (by simp)), ok_bind]
    simp only
    have g2 := gotoToken_skip (name := "TargetRms".toList) (t₂ ++ (j₃ ++
      ("<StatsMean>".toList ++ (m₁ ++ (j₄ ++ ("<StatsVar>".toList ++ (m₂ ++ j₅))))))) (by decide) h3
    rw [show tokenText "TargetRms".toList = "<TargetRms>".toList from rfl] at g2
    rw [g2, ok_bind, readFloat_ok _ h4 (hmem rms (by simp)), ok_bind]
    simp only
    have g3 := gotoToken_skip (name := "StatsMean".toList) (m₁ ++ (j₄ ++ ("<StatsVar>".toList ++ (m₂ ++ j₅))))
      (by decide) h5
    rw [show tokenText "StatsMean".toList = "<StatsMean>".toList from rfl] at g3
    rw [g3, ok_bind, readMatrix_ok (val := val) (c := mean.length) _ h6 (fun r hr => by
      rw [List.mem_singleton.mp hr]
      exact ⟨rfl, fun w hw => hmem w (.inl hw)⟩), ok_bind]
    simp only
    have g4 := gotoToken_skip (name := "StatsVar".toList) (m₂ ++ j₅) (by decide) h7
    rw [show tokenText "StatsVar".toList = "<StatsVar>".toList from rfl] at g4
    rw [g4, ok_bind, readMatrix_ok (val := val) (c := var.length) _ h8 (fun r hr => by
      rw [List.mem_singleton.mp hr]
      exact ⟨rfl, fun w hw => hmem w (.inr (.inl hw))⟩), ok_bind]
    simp only [List.map_cons]
    unfold batchNormOf broadcast
    simp only
    rw [if_pos (by simp [hlen]), ok_bind]
    rfl
  | logSoftmax => rfl

theorem isComp_tag {tag content : Txt} {comp : Comp Txt} (h : IsComp tag content comp) : '>' ∉ tag ∧ '<' ∉ tag := by
  cases h <;> decide

theorem componentText_ok {num : ANum R} {val : Txt → R} {dict : List (Txt × Layer R)}
    {a b name c tag content : Txt} {comp : Comp Txt} (rest : Txt) (ha : Blank a) (hb : Blank b) (hn : NameOk name)
    (hc : Blank c) (hc0 : c ≠ []) (h : IsComp tag content comp) (hl : Lacks ("</".toList ++ (tag ++ ['>'])) content)
    (hok : comp.Ok) (hv : ∀ w ∈ comp.numbers, num.parse w = some (val w)) :
    componentText num dict (a ++ ("<ComponentName>".toList ++ (b ++ (name ++ (c ++ ('<' :: (tag ++ ('>' :: (content ++
        ("</".toList ++ (tag ++ ('>' :: rest)))))))))))) =
      .ok (rest, dictSet dict name (layerOfComp num (comp.map val))) := by
  obtain ⟨t1, t2⟩ := isComp_tag h
  have e1 : "<ComponentName>".toList ++ (b ++ (name ++ (c ++ ('<' :: (tag ++ ('>' :: (content ++
      ("</".toList ++ (tag ++ ('>' :: rest)))))))))) = '<' :: ("ComponentName".toList ++ '>' :: (b ++ (name ++ (c ++
      ('<' :: (tag ++ ('>' :: (content ++ ("</".toList ++ (tag ++ ('>' :: rest))))))))))) := rfl
  unfold componentText
  rw [e1, readToken_ok _ ha (by decide), ok_bind]
  simp only
  rw [if_neg (by simp)]
  unfold readString
  rw [readWord_ok _ hb hn.word (by
    rw [List.all_eq_true]
    intro x hx
    unfold isNameChar
    rcases hn.2 x hx with h1 | h1 | h1 | h1 <;> simp [h1]) hc hc0, ok_bind]
  simp only
  rw [dropWhile_head (by intro x hx; cases hx; exact not_white_of (by decide))]
  have e2 := readToken_ok (a := []) (tag := tag) (content ++ ("</".toList ++ (tag ++ ('>' :: rest)))) Blank.nil t1
  rw [List.nil_append] at e2
  rw [e2, ok_bind]
  simp only
  have e3 : "</".toList ++ (tag ++ ('>' :: rest)) = tokenText ('/' :: tag) ++ rest := by
    show '<' :: '/' :: (tag ++ '>' :: rest) = '<' :: (('/' :: tag ++ ['>']) ++ rest)
    simp
  have hn' : '<' ∉ '/' :: tag := by
    rw [List.mem_cons]
    rintro (h1 | h1)
    · exact absurd h1 (by decide)
    · exact t2 h1
  have hl' : Lacks (tokenText ('/' :: tag)) content := hl
  rw [e3, readUntil_ok rest hn' hl', ok_bind, gotoToken_ok rest hn' hl', ok_bind, layerText_ok h hok hv, ok_bind]

theorem comps_ok {num : ANum R} {val : Txt → R} {s : Txt} {cs : List (Txt × Comp Txt)} (h : Comps s cs) :
    ∀ (n : Nat) (dict : List (Txt × Layer R)), s.length ≤ n → (∀ p ∈ cs, p.2.Ok) →
      (∀ p ∈ cs, ∀ w ∈ p.2.numbers, num.parse w = some (val w)) →
      readComponents num n dict s =
        .ok (cs.foldl (fun d p => dictSet d p.1 (layerOfComp num (p.2.map val))) dict) := by
  induction h with
  | nil hb =>
    intro n dict _ _ _
    cases n <;> (unfold readComponents; rw [if_pos (strip_of_blank hb)]; rfl)
  | @cons a b name c tag content rest comp cs ha hb hn hc hc0 hi hl _ ih =>
    intro n dict hlen hok hv
    cases n with
    | zero => simp at hlen
    | succ n =>
      unfold readComponents
      rw [if_neg, componentText_ok rest ha hb hn hc hc0 hi hl (hok _ (List.mem_cons_self ..))
        (hv _ (List.mem_cons_self ..)), ok_bind]
      · simp only
        rw [ih n _ (by simp at hlen; omega) (fun p hp => hok p (List.mem_cons_of_mem _ hp))
          (fun p hp => hv p (List.mem_cons_of_mem _ hp))]
        rfl
      · intro e
        have := blank_of_strip e '<' (by
          rw [List.mem_append]
          exact .inr (List.mem_cons_self ..))
        exact not_white_of (c := '<') (by decide) this

theorem digits_word {s : Txt} (h : Digits s) : IsWord s :=
  ⟨h.1, fun c hc => not_white_of (by have := h.2 c hc; omega)⟩

theorem goodNode_of {N : Type} {net : Net N} (h : net.Readable) : ∀ n ∈ net.nodes, GoodNode n := by
  intro n hn
  obtain ⟨h1, h2⟩ := h.name n hn
  refine ⟨h1, h2 ▸ h1, ?_⟩
  have h3 := h.parts n hn
  cases hi : n.input with
  | part p => rw [hi] at h3; exact h3
  | append ps =>
    rw [hi] at h3
    exact fun p hp => plain_of (h3 p hp).1 (h3 p hp).2

/-- What the converter makes of the text, in terms of the network. -/
theorem readNet_readable {num : ANum R} {val : Txt → R} {net : Net Txt} {text : Txt} (h : IsText net text) (hok : net.Readable)
    (hv : ∀ p ∈ net.comps, ∀ w ∈ p.2.numbers, num.parse w = some (val w)) :
    readNet num text = (net.nodes.foldlM nodeStep (⟨"input".toList, [], [], 0, 0⟩ : DescState R)).bind fun st =>
      (lookupAll (net.comps.foldl (fun d p => dictSet d p.1 (layerOfComp num (p.2.map val))) st.dict) st.layers).bind
        fun ls => .ok (ls, st.left, st.right) := by
  obtain ⟨pre, lines, a, cnt, b, comps, mid, m, tail, rfl, h1, h2, -, h4, h5, h6, h7, h8, h9, h10, h11, h12, h13⟩ := h
  unfold readNet
  have e1 := gotoToken_ok (name := "Nnet3".toList) ((unlines lines ++ ("<NumComponents>".toList ++ (a ++ (cnt ++ (b ++
    comps))))) ++ ("</Nnet3>".toList ++ (mid ++ ("<Priors>".toList ++ (m ++ tail))))) (by decide) h1
  rw [show tokenText "Nnet3".toList = "<Nnet3>".toList from rfl] at e1
  rw [e1, ok_bind]
  have e2 := readUntil_ok (name := "/Nnet3".toList) (mid ++ ("<Priors>".toList ++ (m ++ tail))) (by decide) h2
  rw [show tokenText "/Nnet3".toList = "</Nnet3>".toList from rfl] at e2
  rw [e2, ok_bind]
  have e3 := readUntil_ok (name := "NumComponents".toList) (a ++ (cnt ++ (b ++ comps))) (by decide) h6
  have e4 := gotoToken_ok (name := "NumComponents".toList) (a ++ (cnt ++ (b ++ comps))) (by decide) h6
  rw [show tokenText "NumComponents".toList = "<NumComponents>".toList from rfl] at e3 e4
  rw [e3, ok_bind, e4, ok_bind]
  unfold readInt
  rw [readWord_ok _ h8 (digits_word h9) (by
    rw [List.all_eq_true]
    exact fun c hc => isDig_of (h9.2 c hc)) h10 h11, ok_bind]
  simp only
  rw [parseDesc_ok h7 h4 h5 (goodNode_of hok)]
  cases hst : net.nodes.foldlM nodeStep (⟨"input".toList, [], [], 0, 0⟩ : DescState R) with
  | error e => rfl
  | ok st =>
    rw [ok_bind]
    have hcomps : Comps (comps.dropWhile white) net.comps := by
      revert h12
      generalize net.comps = cs
      intro h12
      cases h12 with
      | nil hb =>
        refine .nil ?_
        obtain ⟨w, hw, _, _⟩ := dropWhile_white comps
        intro c hc
        exact hb c (by rw [hw]; exact List.mem_append_right _ hc)
      | @cons a b name c tag content rest comp cs ha hb hn hc hc0 hi hl hcs =>
        rw [dropWhile_blank ha, dropWhile_head (by intro c hc; cases hc; exact not_white_of (by decide))]
        exact Comps.cons (a := []) Blank.nil hb hn hc hc0 hi hl hcs
    rw [comps_ok hcomps _ _ (Nat.le_refl _) hok.sizes hv, ok_bind]
    rfl

theorem readNet_ok {num : ANum R} {val : Txt → R} {net : Net Txt} {text : Txt} (h : IsText net text) (hok : net.Ok)
    (hv : ∀ p ∈ net.comps, ∀ w ∈ p.2.numbers, num.parse w = some (val w)) :
    readNet num text = (net.nodes.foldlM nodeStep (⟨"input".toList, [], [], 0, 0⟩ : DescState R)).bind fun st =>
      (lookupAll (net.comps.foldl (fun d p => dictSet d p.1 (layerOfComp num (p.2.map val))) st.dict) st.layers).bind
        fun ls => .ok (ls, st.left, st.right) := readNet_readable h ⟨hok.name, hok.parts, hok.sizes⟩ hv

end Verif.Tool
