import Verif.AmConvDesc
import Verif.ToolCosts

/-!
# Lemmas: the list of layers
-/

namespace Verif.Tool

open Verif.Nnet (Layer)
open Kaldi

variable {R : Type}

/-- How far the shifts reach back and forth. -/
def back (ps : List Part) : Int := -((shifts ps).foldl min 0)
def forth (ps : List Part) : Int := (shifts ps).foldl max 0

/-- The layers, and the frames of left and right context, of a chain of nodes: splicing and narrowing where there is
context, and the layer of the component. -/
inductive Layers (num : ANum R) (cs : List (Txt × Comp R)) : List Node → List (Layer R) → Int → Int → Prop
  | nil : Layers num cs [] [] 0 0
  | plain {n p c ns ls l r} : n.input = .part p → (n.comp, c) ∈ cs → Layers num cs ns ls l r →
      Layers num cs (n :: ns) (layerOfComp num c :: ls) l r
  | context {n ps c ns ls l r} : n.input = .append ps → (n.comp, c) ∈ cs → Layers num cs ns ls l r →
      Layers num cs (n :: ns) (.splice (shifts ps) :: .narrow (back ps) (forth ps) :: layerOfComp num c :: ls)
        (back ps + l) (forth ps + r)

/-- The variables after a node. -/
def stepped (st : DescState R) (n : Node) : DescState R :=
  match n.input with
  | .part _ => { st with prev := n.comp, layers := st.layers ++ [n.comp] }
  | .append ps =>
    ⟨n.comp, st.layers ++ [n.comp ++ tSplice, n.comp ++ tNarrow, n.comp],
      dictSet (dictSet st.dict (n.comp ++ tSplice) (.splice (shifts ps))) (n.comp ++ tNarrow)
        (.narrow (back ps) (forth ps)), st.left + back ps, st.right + forth ps⟩

theorem nodes_chain {ns : List Node} (hn : ∀ n ∈ ns, n.comp = n.name) : ∀ {prev : Txt} (_ : Chain prev ns)
    (st : DescState R), st.prev = prev → ns.foldlM nodeStep st = .ok (ns.foldl stepped st) := by
  intro prev h
  induction h with
  | nil => intro st _; rfl
  | @plain prev n ns hi _ ih =>
    intro st hp
    have : nodeStep st n = .ok (stepped st n) := by
      unfold nodeStep stepped
      rw [hi]
      simp only
      rw [if_pos hp.symm]
    rw [List.foldlM_cons, this, ok_bind]
    exact ih (fun x hx => hn x (List.mem_cons_of_mem _ hx)) (stepped st n) (by
      unfold stepped
      rw [hi]
      exact hn n (List.mem_cons_self ..))
  | @context prev n ns ps hi h0 hps _ ih =>
    intro st hp
    have : nodeStep st n = .ok (stepped st n) := by
      unfold nodeStep stepped
      rw [hi]
      simp only
      rw [if_pos ⟨h0, by rw [hp]; exact hps⟩]
      rfl
    rw [List.foldlM_cons, this, ok_bind]
    exact ih (fun x hx => hn x (List.mem_cons_of_mem _ hx)) (stepped st n) (by
      unfold stepped
      rw [hi]
      exact hn n (List.mem_cons_self ..))

theorem chain_of_nodes : ∀ {ns : List Node} (_ : ∀ n ∈ ns, n.comp = n.name) {st st' : DescState R},
    ns.foldlM nodeStep st = .ok st' → Chain st.prev ns
  | [], _, _, _, _ => .nil
  | n :: ns, hn, st, st', h => by
    rw [List.foldlM_cons] at h
    obtain ⟨s, h1, h2⟩ := bind_ok h
    have ih := chain_of_nodes (fun x hx => hn x (List.mem_cons_of_mem _ hx)) h2
    rw [nodeStep_prev h1, hn n (List.mem_cons_self ..)] at ih
    unfold nodeStep at h1
    split at h1
    · rename_i nm hi
      split at h1
      · rename_i e
        subst e
        exact .plain hi ih
      · cases h1
    · cases h1
    · rename_i ps hi
      split at h1
      · rename_i e
        exact .context hi e.1 e.2 ih
      · cases h1

/-! ## Looking up -/

theorem splice_ne_narrow (a b : Txt) : a ++ tSplice ≠ b ++ tNarrow := by
  intro h
  exact absurd (List.append_inj_right' h rfl) (by decide)

theorem splice_inj {a b : Txt} (h : a ++ tSplice = b ++ tSplice) : a = b := List.append_cancel_right h

theorem narrow_inj {a b : Txt} (h : a ++ tNarrow = b ++ tNarrow) : a = b := List.append_cancel_right h

theorem comps_get {V : Type} {f : Comp R → V} : ∀ {cs : List (Txt × Comp R)} (d : List (Txt × V)) (k : Txt),
    (k ∉ cs.map Prod.fst → dictGet (cs.foldl (fun d p => dictSet d p.1 (f p.2)) d) k = dictGet d k) ∧
    ((cs.map Prod.fst).Nodup → ∀ c, (k, c) ∈ cs →
      dictGet (cs.foldl (fun d p => dictSet d p.1 (f p.2)) d) k = some (f c))
  | [], d, k => ⟨fun _ => rfl, fun _ c h => by cases h⟩
  | p :: cs, d, k => by
    obtain ⟨h1, h2⟩ := comps_get (f := f) (cs := cs) (dictSet d p.1 (f p.2)) k
    refine ⟨fun h => ?_, fun hd c hc => ?_⟩
    · rw [List.map_cons, List.mem_cons] at h
      rw [List.foldl_cons, h1 fun e => h (.inr e), dictGet_set, if_neg fun e => h (.inl e)]
    · rw [List.map_cons, List.nodup_cons] at hd
      rw [List.foldl_cons]
      rcases List.mem_cons.mp hc with e | hc
      · have : k = p.1 := by rw [← e]
        have e' : f p.2 = f c := by rw [← e]
        rw [h1 (by rw [this]; exact hd.1), dictGet_set, if_pos this, e']
      · exact h2 hd.2 c hc

theorem nodes_untouched {k : Txt} : ∀ {ns : List Node} (st : DescState R),
    (∀ n ∈ ns, k ≠ n.comp ++ tSplice ∧ k ≠ n.comp ++ tNarrow) →
    dictGet (ns.foldl stepped st).dict k = dictGet st.dict k
  | [], _, _ => rfl
  | n :: ns, st, h => by
    rw [List.foldl_cons, nodes_untouched _ fun x hx => h x (List.mem_cons_of_mem _ hx)]
    obtain ⟨h1, h2⟩ := h n (List.mem_cons_self ..)
    unfold stepped
    split
    · rfl
    · simp only
      rw [dictGet_set, if_neg h2, dictGet_set, if_neg h1]

theorem nodes_dict : ∀ {ns : List Node} (st : DescState R), (ns.map Node.comp).Nodup → ∀ n ∈ ns, ∀ ps,
    n.input = .append ps →
    dictGet (ns.foldl stepped st).dict (n.comp ++ tSplice) = some (.splice (shifts ps)) ∧
    dictGet (ns.foldl stepped st).dict (n.comp ++ tNarrow) = some (.narrow (back ps) (forth ps))
  | [], _, _, _, h, _, _ => by cases h
  | m :: ns, st, hd, n, hn, ps, hi => by
    rw [List.map_cons, List.nodup_cons] at hd
    rw [List.foldl_cons]
    rcases List.mem_cons.mp hn with rfl | hn
    · have hne : ∀ x ∈ ns, x.comp ≠ n.comp := fun x hx e => hd.1 (e ▸ List.mem_map.mpr ⟨x, hx, rfl⟩)
      constructor
      · rw [nodes_untouched _ fun x hx => ⟨fun e => hne x hx (splice_inj e).symm, splice_ne_narrow _ _⟩]
        unfold stepped
        rw [hi]
        simp only
        rw [dictGet_set, if_neg (splice_ne_narrow _ _), dictGet_set, if_pos rfl]
      · rw [nodes_untouched _ fun x hx => ⟨fun e => splice_ne_narrow _ _ e.symm, fun e => hne x hx (narrow_inj e).symm⟩]
        unfold stepped
        rw [hi]
        simp only
        rw [dictGet_set, if_pos rfl]
    · exact nodes_dict (stepped st m) hd.2 n hn ps hi

/-- The names of the layers of a node. -/
def layerNames (n : Node) : List Txt :=
  match n.input with
  | .part _ => [n.comp]
  | .append _ => [n.comp ++ tSplice, n.comp ++ tNarrow, n.comp]

theorem nodes_layers : ∀ (ns : List Node) (st : DescState R),
    (ns.foldl stepped st).layers = st.layers ++ ns.flatMap layerNames
  | [], st => by simp
  | n :: ns, st => by
    rw [List.foldl_cons, nodes_layers ns, List.flatMap_cons, ← List.append_assoc]
    congr 1
    unfold stepped layerNames
    split <;> rfl

theorem lookup_layers {num : ANum R} {cs : List (Txt × Comp R)} {D : List (Txt × Layer R)} : ∀ {ns : List Node},
    (∀ n ∈ ns, ∃ c, (n.comp, c) ∈ cs ∧ dictGet D n.comp = some (layerOfComp num c)) →
    (∀ n ∈ ns, ∀ ps, n.input = .append ps → dictGet D (n.comp ++ tSplice) = some (.splice (shifts ps)) ∧
      dictGet D (n.comp ++ tNarrow) = some (.narrow (back ps) (forth ps))) →
    ∀ st : DescState R, ∃ ls l r, lookupAll D (ns.flatMap layerNames) = .ok ls ∧ Layers num cs ns ls l r ∧
      (ns.foldl stepped st).left = st.left + l ∧ (ns.foldl stepped st).right = st.right + r
  | [], _, _, st => ⟨[], 0, 0, rfl, .nil, by simp, by simp⟩
  | n :: ns, h1, h2, st => by
    obtain ⟨ls, l, r, e1, e2, e3, e4⟩ := lookup_layers (fun x hx => h1 x (List.mem_cons_of_mem _ hx))
      (fun x hx => h2 x (List.mem_cons_of_mem _ hx)) (stepped st n)
    obtain ⟨c, hc, hd⟩ := h1 n (List.mem_cons_self ..)
    cases hi : n.input with
    | part p =>
      refine ⟨layerOfComp num c :: ls, l, r, ?_, .plain hi hc e2, ?_, ?_⟩
      · rw [List.flatMap_cons, show layerNames n = [n.comp] by unfold layerNames; rw [hi]]
        show lookupAll D (n.comp :: ns.flatMap layerNames) = _
        rw [lookupAll, hd]
        simp only
        rw [e1, ok_bind]
      · rw [List.foldl_cons, e3]
        unfold stepped
        rw [hi]
      · rw [List.foldl_cons, e4]
        unfold stepped
        rw [hi]
    | append ps =>
      obtain ⟨g1, g2⟩ := h2 n (List.mem_cons_self ..) ps hi
      refine ⟨_, _, _, ?_, .context hi hc e2, ?_, ?_⟩
      · rw [List.flatMap_cons, show layerNames n = [n.comp ++ tSplice, n.comp ++ tNarrow, n.comp] by
          unfold layerNames; rw [hi]]
        show lookupAll D ((n.comp ++ tSplice) :: (n.comp ++ tNarrow) :: n.comp :: ns.flatMap layerNames) = _
        rw [lookupAll, g1]
        simp only
        rw [lookupAll, g2]
        simp only
        rw [lookupAll, hd]
        simp only
        rw [e1]
        rfl
      · rw [List.foldl_cons, e3]
        unfold stepped
        rw [hi]
        simp only
        omega
      · rw [List.foldl_cons, e4]
        unfold stepped
        rw [hi]
        simp only
        omega

/-- A chain is converted to its layers. -/
theorem readNet_chain {num : ANum R} {val : Txt → R} {net : Net Txt} {text : Txt} (h : IsText net text) (hok : net.Ok)
    (hv : ∀ p ∈ net.comps, ∀ w ∈ p.2.numbers, num.parse w = some (val w)) (hc : Chain "input".toList net.nodes) :
    ∃ ls l r, readNet num text = .ok (ls, l, r) ∧ Layers num (net.map val).comps net.nodes ls l r := by
  rw [readNet_ok h hok hv, nodes_chain (fun n hn => (hok.name n hn).2) hc _ rfl]
  show ∃ ls l r, (lookupAll _ _).bind _ = _ ∧ _
  have hnames : (net.map val).comps.map Prod.fst = net.comps.map Prod.fst := by
    unfold Net.map
    simp
  have hfold : ∀ d : List (Txt × Layer R), net.comps.foldl (fun d p => dictSet d p.1 (layerOfComp num (p.2.map val))) d =
      (net.map val).comps.foldl (fun d p => dictSet d p.1 (layerOfComp num p.2)) d := by
    intro d
    unfold Net.map
    rw [List.foldl_map]
  have hnd : (net.nodes.map Node.comp).Nodup := by
    have : net.nodes.map Node.comp = net.nodes.map Node.name := List.map_congr_left fun n hn => (hok.name n hn).2
    rw [this]
    exact hok.distinct
  simp only [hfold]
  rw [nodes_layers, show (⟨"input".toList, [], [], 0, 0⟩ : DescState R).layers = [] from rfl, List.nil_append]
  have h1 : ∀ n ∈ net.nodes, ∃ c, (n.comp, c) ∈ (net.map val).comps ∧
      dictGet ((net.map val).comps.foldl (fun d p => dictSet d p.1 (layerOfComp num p.2))
        (net.nodes.foldl stepped (⟨"input".toList, [], [], 0, 0⟩ : DescState R)).dict) n.comp =
        some (layerOfComp num c) := by
    intro n hn
    have := hok.has n hn
    rw [← hnames] at this
    obtain ⟨⟨k, c⟩, hm, e⟩ := List.mem_map.mp this
    have e : k = n.comp := e
    subst e
    exact ⟨c, hm, (comps_get (f := layerOfComp num) _ _).2 (by rw [hnames]; exact hok.comps) c hm⟩
  have h2 : ∀ n ∈ net.nodes, ∀ ps, n.input = .append ps →
      dictGet ((net.map val).comps.foldl (fun d p => dictSet d p.1 (layerOfComp num p.2))
        (net.nodes.foldl stepped (⟨"input".toList, [], [], 0, 0⟩ : DescState R)).dict) (n.comp ++ tSplice) =
        some (.splice (shifts ps)) ∧
      dictGet ((net.map val).comps.foldl (fun d p => dictSet d p.1 (layerOfComp num p.2))
        (net.nodes.foldl stepped (⟨"input".toList, [], [], 0, 0⟩ : DescState R)).dict) (n.comp ++ tNarrow) =
        some (.narrow (back ps) (forth ps)) := by
    intro n hn ps hi
    obtain ⟨a1, a2⟩ := hok.aux n hn
    rw [← hnames] at a1 a2
    rw [(comps_get (f := layerOfComp num) _ (n.comp ++ tSplice)).1 a1,
      (comps_get (f := layerOfComp num) _ (n.comp ++ tNarrow)).1 a2]
    exact nodes_dict _ hnd n hn ps hi
  obtain ⟨ls, l, r, e1, e2, e3, e4⟩ := lookup_layers h1 h2 (⟨"input".toList, [], [], 0, 0⟩ : DescState R)
  refine ⟨ls, l, r, ?_, e2⟩
  rw [e1]
  show Except.ok _ = _
  rw [e3, e4]
  simp

theorem Layers.unique {num : ANum R} {cs : List (Txt × Comp R)} (hd : (cs.map Prod.fst).Nodup) {ns : List Node}
    {ls : List (Layer R)} {l r : Int} (h : Layers num cs ns ls l r) : ∀ {ls' : List (Layer R)} {l' r' : Int},
    Layers num cs ns ls' l' r' → ls = ls' ∧ l = l' ∧ r = r' := by
  have hu : ∀ {k : Txt} {c c' : Comp R}, (k, c) ∈ cs → (k, c') ∈ cs → c = c' := by
    intro k c c' h1 h2
    have a := (comps_get (f := fun x : Comp R => x) (cs := cs) [] k).2 hd
    have := (a c h1).symm.trans (a c' h2)
    exact Option.some.inj this
  induction h with
  | nil => intro _ _ _ h; cases h; exact ⟨rfl, rfl, rfl⟩
  | plain hi hc _ ih =>
    intro _ _ _ h
    cases h with
    | plain hi' hc' h' =>
      obtain ⟨e1, e2, e3⟩ := ih h'
      rw [e1, e2, e3, hu hc hc']
      exact ⟨rfl, rfl, rfl⟩
    | context hi' => rw [hi] at hi'; cases hi'
  | context hi hc _ ih =>
    intro _ _ _ h
    cases h with
    | plain hi' => rw [hi] at hi'; cases hi'
    | context hi' hc' h' =>
      rw [hi] at hi'
      cases hi'
      obtain ⟨e1, e2, e3⟩ := ih h'
      rw [e1, e2, e3, hu hc hc']
      exact ⟨rfl, rfl, rfl⟩

/-- Only chains are converted. -/
theorem readNet_sound {num : ANum R} {val : Txt → R} {net : Net Txt} {text : Txt} (h : IsText net text) (hok : net.Ok)
    (hv : ∀ p ∈ net.comps, ∀ w ∈ p.2.numbers, num.parse w = some (val w)) {ls : List (Layer R)} {l r : Int}
    (hr : readNet num text = .ok (ls, l, r)) :
    Chain "input".toList net.nodes ∧ Layers num (net.map val).comps net.nodes ls l r := by
  have hc : Chain "input".toList net.nodes := by
    rw [readNet_ok h hok hv] at hr
    obtain ⟨st, h1, -⟩ := bind_ok hr
    exact chain_of_nodes (fun n hn => (hok.name n hn).2) h1
  obtain ⟨ls', l', r', h1, h2⟩ := readNet_chain h hok hv hc
  rw [hr] at h1
  cases h1
  exact ⟨hc, h2⟩

theorem lookupAll_none {D : List (Txt × Layer R)} : ∀ {ns : List Txt} {k : Txt}, k ∈ ns → dictGet D k = none →
    lookupAll D ns = .error .throw
  | n :: ns, k, hk, h => by
    unfold lookupAll
    rcases List.mem_cons.mp hk with rfl | hk
    · rw [h]
    · cases dictGet D n with
      | none => rfl
      | some l =>
        simp only
        rw [lookupAll_none hk h]
        rfl

/-- A node without its component is not converted. -/
theorem readNet_missing {num : ANum R} {val : Txt → R} {net : Net Txt} {text : Txt} (h : IsText net text) (hok : net.Readable)
    (hv : ∀ p ∈ net.comps, ∀ w ∈ p.2.numbers, num.parse w = some (val w)) {n : Node} (hn : n ∈ net.nodes)
    (hno : n.comp ∉ net.comps.map Prod.fst)
    (haux : ∀ m ∈ net.nodes, n.comp ≠ m.comp ++ "_splice".toList ∧ n.comp ≠ m.comp ++ "_narrow".toList)
    (res : List (Layer R) × Int × Int) : readNet num text ≠ .ok res := by
  intro hr
  have hname : ∀ n ∈ net.nodes, n.comp = n.name := fun n hn => (hok.name n hn).2
  have hc : Chain "input".toList net.nodes := by
    rw [readNet_readable h hok hv] at hr
    obtain ⟨st, h1, -⟩ := bind_ok hr
    exact chain_of_nodes hname h1
  rw [readNet_readable h hok hv, nodes_chain hname hc _ rfl] at hr
  obtain ⟨ls, hl, -⟩ := bind_ok (show (lookupAll _ _).bind _ = _ from hr)
  have hfold : ∀ d : List (Txt × Layer R), net.comps.foldl (fun d p => dictSet d p.1 (layerOfComp num (p.2.map val))) d =
      (net.map val).comps.foldl (fun d p => dictSet d p.1 (layerOfComp num p.2)) d := by
    intro d
    unfold Net.map
    rw [List.foldl_map]
  have hnames : (net.map val).comps.map Prod.fst = net.comps.map Prod.fst := by
    unfold Net.map
    simp
  rw [hfold, lookupAll_none (k := n.comp)] at hl
  · cases hl
  · rw [nodes_layers]
    refine List.mem_append_right _ (List.mem_flatMap.mpr ⟨n, hn, ?_⟩)
    unfold layerNames
    split <;> simp
  · rw [(comps_get (f := layerOfComp num) _ n.comp).1 (by rw [hnames]; exact hno), nodes_untouched _ haux]
    rfl

end Verif.Tool
