import Verif.AmConvFile
import Verif.AmProps
import Mathlib.Data.List.Infix

/-!
# Property C76: the acoustic model converter

The text of a network as Kaldi writes it is converted to the layers that compute what the network computes.
-/

namespace Verif.Tool

open Verif.Nnet (Layer realOps)
open Verif.Nnet.Spec
open Kaldi

variable {R : Type}

/-- C76: of the networks whose nodes are named as their components, exactly the chains are accepted. -/
theorem C76_accepted_iff {num : ANum R} {val : Txt → R} {net : Net Txt} {text : Txt} (h : IsText net text)
    (hok : net.Ok) (hv : ∀ p ∈ net.comps, ∀ w ∈ p.2.numbers, num.parse w = some (val w)) :
    (∃ res, readNet num text = .ok res) ↔ Chain "input".toList net.nodes := by
  constructor
  · rintro ⟨⟨ls, l, r⟩, hr⟩
    exact (readNet_sound h hok hv hr).1
  · intro hc
    obtain ⟨ls, l, r, h1, -⟩ := readNet_chain h hok hv hc
    exact ⟨_, h1⟩

/-- C76: the layers are those of the nodes in their order. -/
theorem C76_layers {num : ANum R} {val : Txt → R} {net : Net Txt} {text : Txt} (h : IsText net text)
    (hok : net.Ok) (hv : ∀ p ∈ net.comps, ∀ w ∈ p.2.numbers, num.parse w = some (val w)) (ls : List (Layer R))
    (l r : Int) : readNet num text = .ok (ls, l, r) ↔
      Chain "input".toList net.nodes ∧ Layers num (net.map val).comps net.nodes ls l r := by
  constructor
  · exact readNet_sound h hok hv
  · rintro ⟨hc, hl⟩
    obtain ⟨ls', l', r', h1, h2⟩ := readNet_chain h hok hv hc
    have hd : ((net.map val).comps.map Prod.fst).Nodup := by
      have : (net.map val).comps.map Prod.fst = net.comps.map Prod.fst := by unfold Net.map; simp
      rw [this]
      exact hok.comps
    obtain ⟨rfl, rfl, rfl⟩ := hl.unique hd h2
    exact h1

theorem map_names {N M : Type} (f : N → M) (net : Net N) :
    (net.map f).comps.map Prod.fst = net.comps.map Prod.fst := by unfold Net.map; simp

/-- C76: without rounding, the layers compute the value of the last node.  In full: the value of the node the output is
taken from, for every text that is accepted; missing are networks whose output node is not the last one, where it is
false (`C76_output_fails`), and those whose nodes and components have different names (`C76_names_fail`). -/
theorem C76_computes_partial {num : ANum ℝ} (hx : Exact num) {val : Txt → ℝ} {net : Net Txt} {text : Txt}
    (h : IsText net text) (hok : net.Ok) (hv : ∀ p ∈ net.comps, ∀ w ∈ p.2.numbers, num.parse w = some (val w))
    {ls : List (Layer ℝ)} {l r : Int} (hr : readNet num text = .ok (ls, l, r)) {d e : Nat}
    (hf : Fit (net.map val).comps d net.nodes e) (hp : ∀ p ∈ (net.map val).comps, p.2.Positive)
    {x : Int → List ℝ} (hlen : ∀ t, (x t).length = d) {v : Txt → Int → List ℝ} (hs : Solves (net.map val) x v)
    (g : List (List ℝ) → List (List ℝ) → List (List ℝ)) (t : Int) :
    series (realOps g) times ls x t = v (lastName "input".toList net.nodes) t := by
  obtain ⟨hc, hl⟩ := readNet_sound h hok hv hr
  have hd : ((net.map val).comps.map Prod.fst).Nodup := by rw [map_names]; exact hok.comps
  have := (series_chain hx (g := g) hd hp hl hc hf hs.nodes (by rw [hs.input]; exact hlen)).1
  rw [hs.input] at this
  rw [this]

/-- C76: the layers are built as the acoustic model wants them (`C28`, `C30`), with the contexts that are returned. -/
theorem C76_built {num : ANum R} {val : Txt → R} {net : Net Txt} {text : Txt} (h : IsText net text)
    (hok : net.Ok) (hv : ∀ p ∈ net.comps, ∀ w ∈ p.2.numbers, num.parse w = some (val w)) {ls : List (Layer R)}
    {l r : Int} (hr : readNet num text = .ok (ls, l, r)) {d e : Nat} (hf : Fit (net.map val).comps d net.nodes e) :
    ∃ w L R, l = Int.ofNat L ∧ r = Int.ofNat R ∧ ∀ w', w ≤ w' → Built ls d e L R w' := by
  obtain ⟨hc, hl⟩ := readNet_sound h hok hv hr
  exact built_chain (by rw [map_names]; exact hok.comps) hl hc hf

/-- C76 with C28: an utterance is scored with the values of the last node on its frames, continued at both ends by the
first and the last frame, minus the log prior. -/
theorem C76_scores_partial {num : ANum ℝ} (hx : Exact num) {val : Txt → ℝ} {net : Net Txt} {text : Txt}
    (h : IsText net text) (hok : net.Ok) (hv : ∀ p ∈ net.comps, ∀ w ∈ p.2.numbers, num.parse w = some (val w))
    {ls : List (Layer ℝ)} {l r : Int} (hr : readNet num text = .ok (ls, l, r)) {d e : Nat}
    (hf : Fit (net.map val).comps d net.nodes e) (hp : ∀ p ∈ (net.map val).comps, p.2.Positive)
    (g : List (List ℝ) → List (List ℝ) → List (List ℝ)) (hg : RowWise (realOps g) times) :
    ∃ w : Nat, ∀ (prior : List ℝ) (c : Nat), prior.length = e → 1 ≤ c →
      (c + l.toNat + r.toNat + r.toNat) * w ≤ 2147483647 → c + l.toNat + r.toNat + r.toNat ≤ 1073741823 →
      ∀ fs : List (List (List ℝ) × List ℝ), fs ≠ [] → (∀ f ∈ fs, f.2.length = d) →
      ∀ v, Solves (net.map val) (edge (fs.map Prod.snd)) v →
      ∃ rows inst, Am.utterance (realOps g) ⟨ls, prior, l, r, c⟩ fs = .ok (rows, inst) ∧ rows.length = fs.length ∧
        ∀ t : Nat, t < fs.length → rows[t]? =
          some (List.zipWith (· - ·) (v (lastName "input".toList net.nodes) t) prior) := by
  obtain ⟨w, L, Rt, rfl, rfl, hb⟩ := C76_built h hok hv hr hf
  refine ⟨w, fun prior c hprior hc hsize hbig fs hn hd v hs => ?_⟩
  obtain ⟨rows, inst, h1, h2, h3⟩ := Am.C28_scores hg ⟨ls, prior, Int.ofNat L, Int.ofNat Rt, (c : Int)⟩ (hb w (Nat.le_refl _))
    hprior rfl rfl rfl hc hsize hbig fs hn hd
  refine ⟨rows, inst, h1, h2, fun t ht => ?_⟩
  rw [h3 t ht]
  have hlen : ∀ t, (edge (fs.map Prod.snd) t).length = d := by
    have hall : ∀ y ∈ fs.map Prod.snd, y.length = d := by
      intro y hy
      obtain ⟨f, hf, rfl⟩ := List.mem_map.mp hy
      exact hd f hf
    have hne : fs.map Prod.snd ≠ [] := by simpa using hn
    intro t
    unfold edge
    split
    · cases hm : fs.map Prod.snd with
      | nil => exact absurd hm hne
      | cons a l => exact hall a (by rw [hm]; exact List.mem_cons_self ..)
    · by_cases hlt : t.toNat < (fs.map Prod.snd).length
      · rw [List.getElem?_eq_getElem hlt]
        exact hall _ (List.getElem_mem hlt)
      · rw [List.getElem?_eq_none (by omega)]
        show ((fs.map Prod.snd).getLastD []).length = d
        rw [List.getLastD_eq_getLast?, List.getLast?_eq_some_getLast hne]
        exact hall _ (List.getLast_mem hne)
  show some (List.zipWith (fun a b => a + -1 * b) (series (realOps g) times ls (edge (fs.map Prod.snd)) t) prior) = _
  rw [C76_computes_partial hx h hok hv hr hf hp hlen hs g t]
  congr 2
  funext a b
  ring

/-- C76: there are such values. -/
theorem C76_values_exist {net : Net ℝ} (hc : Chain "input".toList net.nodes)
    (hd : ("input".toList :: net.nodes.map Node.name).Nodup)
    (hh : ∀ n ∈ net.nodes, n.comp ∈ net.comps.map Prod.fst) (x : Int → List ℝ) : ∃ v, Solves net x v := by
  obtain ⟨v, h1, h2⟩ := solution_chain (cs := net.comps) hc hd (fun n hn => by
    obtain ⟨⟨k, c⟩, hm, e⟩ := List.mem_map.mp (hh n hn)
    cases e
    exact ⟨c, hm⟩) x
  exact ⟨v, h1, h2⟩

/-- What must hold of a network that is to be converted: a chain whose sizes fit, whose numbers can be written as
`float`s, and which is not too large. -/
structure Convertible (num : ANum R) (val : Txt → R) (net : Net Txt) (text : Txt) (d e : Nat) (ls : List (Layer R))
    (l r : Int) : Prop where
  text : IsText net text
  ok : net.Ok
  numbers : ∀ p ∈ net.comps, ∀ w ∈ p.2.numbers, num.parse w = some (val w)
  priors : ∀ w ∈ net.prior, num.parse w = some (val w)
  chain : Chain "input".toList net.nodes
  fit : Fit (net.map val).comps d net.nodes e
  layers : Layers num (net.map val).comps net.nodes ls l r
  writable : ∀ p ∈ (net.map val).comps, p.2.Writable
  parts : ∀ n ∈ net.nodes, ∀ ps, n.input = .append ps → ps.length ≤ 2147483647
  left : l ≤ 2147483647
  right : r ≤ 2147483647
  count : ls.length ≤ 2147483647
  pack : ∀ k ∈ ls, ∀ x ∈ layerNumbers k, ∃ w, num.pack x = some w
  prior : net.prior ≠ [] ∧ net.prior.length ≤ 536870910 ∧ ∀ w ∈ net.prior, ∃ b, num.pack (val w) = some b

/-- What the files are. -/
theorem convertAm_written {num : ANum R} {val : Txt → R} {net : Net Txt} {text : Txt} {d e : Nat} {ls : List (Layer R)}
    {l r : Int} (c : Convertible num val net text d e ls l r) :
    ∃ ls' p, convertAm num text = .ok (Ser.writeNnet l r ls', Ser.writeVec p) ∧ InI32 l ∧ InI32 r ∧
      List.Forall₂ (Rounds num) ls ls' ∧ List.Forall₂ (IsWord32 num) (net.prior.map val) p ∧
      (∀ k ∈ ls', Ser.Spec.LayerOk k) ∧ Ser.Spec.VecOk p := by
  obtain ⟨h, hok, hv, hv', hc, hf, hl, hw, hps, hleft, hright, hcount, hpack, hprior⟩ := c
  have hd : ((net.map val).comps.map Prod.fst).Nodup := by rw [map_names]; exact hok.comps
  have hr := (C76_layers h hok hv ls l r).mpr ⟨hc, hl⟩
  obtain ⟨w, L, Rt, -, -, hb⟩ := built_chain hd hl hc hf
  obtain ⟨l0, r0, hsmall⟩ := small_layers hd hw hl hc hf hps hleft hright
  obtain ⟨t, t', g1, g2⟩ := prior_ok h hv'
  obtain ⟨ls', m1, m2⟩ := mapM_forall₂ (f := packLayer num) (P := fun k k' => Rounds num k k' ∧ Ser.Spec.LayerOk k')
    (fun k hk => packLayer_ok (hsmall k hk) (hpack k hk))
  obtain ⟨p, p1, p2⟩ := packVec_ok (num := num) (v := net.prior.map val) (by
    intro x hx
    obtain ⟨w, hw, rfl⟩ := List.mem_map.mp hx
    exact hprior.2.2 w hw) (by rw [List.length_map]; have := hprior.2.1; omega)
  have hp := vecOk_of p2 (by simpa using hprior.1) (by rw [List.length_map]; have := hprior.2.1; omega)
  refine ⟨ls', p, ?_, ⟨by omega, by omega⟩, ⟨by omega, by omega⟩, m2.imp fun _ _ h => h.1, p2, fun k hk => ?_, hp⟩
  · unfold convertAm
    rw [hr, ok_bind]
    simp only
    rw [g1, ok_bind, g2, ok_bind]
    simp only
    rw [verify_built (hb w (Nat.le_refl _)) (.inl rfl), ok_bind, packInt_ok ⟨by omega, by omega⟩, ok_bind,
      packInt_ok ⟨by omega, by omega⟩, ok_bind, packInt_ok ⟨by omega, by omega⟩, ok_bind, m1, ok_bind, p1, ok_bind]
  · obtain ⟨_, _, h⟩ := forall₂_mem m2 k hk
    exact h.2

/-- C76: the files.  A network that is to be converted (`Convertible`) is converted; the recogniser reads the contexts
and the layers, every number being the `float` Python writes for it, and the prior probabilities. -/
theorem C76_files {num : ANum R} {val : Txt → R} {net : Net Txt} {text : Txt} {d e : Nat} {ls : List (Layer R)}
    {l r : Int} (c : Convertible num val net text d e ls l r) :
    ∃ nn pr ls' p, convertAm num text = .ok (nn, pr) ∧ List.Forall₂ (Rounds num) ls ls' ∧
      List.Forall₂ (IsWord32 num) (net.prior.map val) p ∧
      Ser.readNnet nn = .ok (⟨l, r, ls'.map Ser.Spec.full⟩, []) ∧ Ser.readVec pr = .ok (p.map some, []) := by
  obtain ⟨ls', p, h1, h2, h3, h4, h5, h6, h7⟩ := convertAm_written c
  refine ⟨_, _, ls', p, h1, h4, h5, ?_, ?_⟩
  · have := Ser.C33_round_trip l r h2 h3 ls' (by rw [← h4.length_eq]; exact c.count) h6 []
    rwa [List.append_nil] at this
  · have := Ser.C31_vector p h7 []
    rwa [List.append_nil] at this

/-- By how much the layers widen a vector. -/
def widening : List (Layer R) → Nat
  | [] => 1
  | .splice idx :: ls => idx.length * widening ls
  | _ :: ls => widening ls

/-- A layer with a matrix. -/
def IsLinear : Layer R → Prop
  | .linear _ _ => True
  | _ => False

/-- Every matrix has as many rows as the vectors have elements that come from the matrix before it. -/
def MatricesFit (ls : List (Layer R)) : Prop :=
  ∀ pre W b mid W' b' post, ls = pre ++ .linear W b :: (mid ++ .linear W' b' :: post) → (∀ k ∈ mid, ¬ IsLinear k) →
    W'.length = Nnet.numCols W * widening mid

/-- The first matrix has as many rows as vectors of size `a` have behind the layers in front of it. -/
def FirstFits (a : Nat) (ls : List (Layer R)) : Prop :=
  ∀ mid W' b' post, ls = mid ++ .linear W' b' :: post → (∀ k ∈ mid, ¬ IsLinear k) → W'.length = a * widening mid

theorem matricesFit_cons {k : Layer R} (hk : ¬ IsLinear k) (ls : List (Layer R)) :
    MatricesFit (k :: ls) ↔ MatricesFit ls := by
  constructor
  · intro h pre W b mid W' b' post e hm
    exact h (k :: pre) W b mid W' b' post (by rw [e]; rfl) hm
  · intro h pre W b mid W' b' post e hm
    cases pre with
    | nil =>
      rw [List.nil_append] at e
      injection e with e1 e2
      subst e1
      exact absurd trivial hk
    | cons k' pre =>
      rw [List.cons_append] at e
      injection e with e1 e2
      exact h pre W b mid W' b' post e2 hm

theorem matricesFit_linear (W : List (List R)) (b : List R) (ls : List (Layer R)) :
    MatricesFit (.linear W b :: ls) ↔ FirstFits (Nnet.numCols W) ls ∧ MatricesFit ls := by
  constructor
  · intro h
    refine ⟨fun mid W' b' post e hm => h [] W b mid W' b' post (by rw [e]; rfl) hm, ?_⟩
    intro pre V c mid W' b' post e hm
    exact h (.linear W b :: pre) V c mid W' b' post (by rw [e]; rfl) hm
  · rintro ⟨h1, h2⟩ pre V c mid W' b' post e hm
    cases pre with
    | nil =>
      rw [List.nil_append] at e
      injection e with e1 e2
      injection e1 with e1 e3
      subst e1
      exact h1 mid W' b' post e2 hm
    | cons k' pre =>
      rw [List.cons_append] at e
      injection e with e1 e2
      exact h2 pre V c mid W' b' post e2 hm

theorem firstFits_cons {k : Layer R} (hk : ¬ IsLinear k) (a : Nat) (ls : List (Layer R)) :
    FirstFits a (k :: ls) ↔ FirstFits (a * widening [k]) ls := by
  have hw : ∀ mid, widening (k :: mid) = widening [k] * widening mid := by
    intro mid
    cases k <;> simp [widening]
  constructor
  · intro h mid W' b' post e hm
    have := h (k :: mid) W' b' post (by rw [e]; rfl) (by
      intro x hx
      rcases List.mem_cons.mp hx with rfl | hx
      · exact hk
      · exact hm x hx)
    rw [this, hw, Nat.mul_assoc]
  · intro h mid W' b' post e hm
    cases mid with
    | nil =>
      rw [List.nil_append] at e
      injection e with e1 e2
      subst e1
      exact absurd trivial hk
    | cons k' mid =>
      rw [List.cons_append] at e
      injection e with e1 e2
      subst e1
      rw [h mid W' b' post e2 fun x hx => hm x (List.mem_cons_of_mem _ hx), hw mid, Nat.mul_assoc]

theorem verify_iff : ∀ (ls : List (Layer R)), (verify none ls = .ok () ↔ MatricesFit ls) ∧
    ∀ a, verify (some a) ls = .ok () ↔ FirstFits a ls ∧ MatricesFit ls
  | [] => by
    have h1 : MatricesFit ([] : List (Layer R)) := by
      intro pre W b mid W' b' post e
      cases pre <;> cases e
    have h2 : ∀ a, FirstFits a ([] : List (Layer R)) := by
      intro a mid W' b' post e
      cases mid <;> cases e
    exact ⟨⟨fun _ => h1, fun _ => rfl⟩, fun a => ⟨fun _ => ⟨h2 a, h1⟩, fun _ => rfl⟩⟩
  | k :: ls => by
    obtain ⟨i1, i2⟩ := verify_iff ls
    by_cases hk : IsLinear k
    · cases k with
      | linear W b =>
        have e1 : verify none (.linear W b :: ls) = verify (some (Nnet.numCols W)) ls := rfl
        refine ⟨by rw [e1, i2, matricesFit_linear], fun a => ?_⟩
        have e2 : verify (some a) (.linear W b :: ls) =
            if a ≠ W.length then .error .throw else verify (some (Nnet.numCols W)) ls := rfl
        have hf : FirstFits a (.linear W b :: ls) ↔ W.length = a := by
          constructor
          · intro h
            have := h [] W b ls rfl (fun k hk => absurd hk List.not_mem_nil)
            rw [this]
            exact Nat.mul_one a
          · intro h mid W' b' post e hm
            cases mid with
            | nil =>
              injection e with e1 e2
              injection e1 with e1 e3
              rw [← e1, h]
              exact (Nat.mul_one a).symm
            | cons k' mid =>
              rw [List.cons_append] at e
              injection e with e1 e2
              exact absurd (e1 ▸ trivial : IsLinear k') (hm k' (List.mem_cons_self ..))
        rw [e2, hf, matricesFit_linear, ← i2]
        by_cases h : a = W.length
        · rw [if_neg (by simpa using h)]
          simp [h]
        · rw [if_pos h]
          constructor
          · intro h'; cases h'
          · rintro ⟨h', -⟩; exact absurd h'.symm h
      | _ => cases hk
    · have e1 : verify none (k :: ls) = verify none ls := by
        cases k <;> first | rfl | exact absurd trivial hk
      have e2 : ∀ a, verify (some a) (k :: ls) = verify (some (a * widening [k])) ls := by
        intro a
        cases k <;> first | exact absurd trivial hk | simp [verify, inputDim, outputDim, widening]
      refine ⟨by rw [e1, i1, matricesFit_cons hk], fun a => ?_⟩
      rw [e2, i2, matricesFit_cons hk, firstFits_cons hk]

/-- C76, what is checked: a network is converted only if every matrix has as many rows as the vectors have elements
that come from the matrix before it.  The size of the input is not checked against the first matrix. -/
theorem C76_matrices_fit {num : ANum R} {text : Txt} {ls : List (Layer R)} {l r : Int}
    (hr : readNet num text = .ok (ls, l, r)) {nn pr : List UInt8} (h : convertAm num text = .ok (nn, pr)) :
    MatricesFit ls := by
  unfold convertAm at h
  rw [hr, ok_bind] at h
  simp only at h
  obtain ⟨t, -, h⟩ := bind_ok h
  obtain ⟨⟨prior, t'⟩, -, h⟩ := bind_ok h
  simp only at h
  split at h
  · cases h
  · obtain ⟨u, h1, -⟩ := bind_ok h
    exact (verify_iff ls).1.mp h1

/-- C76, the output node does not matter: networks that differ in it only give the same layers. -/
theorem C76_output_ignored {num : ANum R} {val : Txt → R} {net net' : Net Txt} {text text' : Txt} (h : IsText net text)
    (h' : IsText net' text') (hok : net.Ok) (hn : net'.nodes = net.nodes) (hc : net'.comps = net.comps)
    (hv : ∀ p ∈ net.comps, ∀ w ∈ p.2.numbers, num.parse w = some (val w)) : readNet num text = readNet num text' := by
  have hok' : net'.Ok := by
    obtain ⟨a1, a2, a3, a4, a5, a6, a7⟩ := hok
    rw [← hn] at a1 a2 a3 a5 a6
    rw [← hc] at a4 a5 a6 a7
    exact ⟨a1, a2, a3, a4, a5, a6, a7⟩
  rw [readNet_ok h hok hv, readNet_ok h' hok' (by rw [hc]; exact hv), hn, hc]

/-! ## A network -/

/-- Spliced input, an affine component, batch normalisation, more context, another affine component, and the
logarithm of a softmax. -/
def toyNodes : List Node :=
  [⟨"a".toList, "a".toList, .append [⟨"input".toList, some (-1)⟩, ⟨"input".toList, none⟩, ⟨"input".toList, some 2⟩]⟩,
    ⟨"r".toList, "r".toList, .part ⟨"a".toList, none⟩⟩, ⟨"n".toList, "n".toList, .part ⟨"r".toList, none⟩⟩,
    ⟨"b".toList, "b".toList, .append [⟨"n".toList, none⟩, ⟨"n".toList, some 1⟩]⟩,
    ⟨"s".toList, "s".toList, .part ⟨"b".toList, none⟩⟩]

/-- The network with these nodes. -/
def toyKaldi : Net Txt where
  nodes := toyNodes
  output := "s".toList
  comps := [("a".toList, .affine [["1".toList, "-2".toList, "3".toList], ["4".toList, "5".toList, "6".toList]]
      ["7".toList, "8".toList]), ("r".toList, .relu),
    ("n".toList, .batchNorm ["1".toList, "0".toList] ["3".toList, "8".toList] "1".toList "2".toList),
    ("b".toList, .affine [["1".toList, "0".toList, "0".toList, "1".toList],
      ["0".toList, "1".toList, "1".toList, "0".toList]] ["0".toList, "1".toList]), ("s".toList, .logSoftmax)]
  prior := ["3".toList, "5".toList]

/-- The lines that describe it. -/
def toyLines : List Txt :=
  [" ".toList, "input-node name=input dim=1".toList,
    "component-node name=a component=a input=Append(Offset(input, -1), input, Offset(input, 2))".toList,
    "component-node name=r component=r input=a".toList, "component-node name=n component=n input=r".toList,
    "component-node name=b component=b input=Append(n, Offset(n, 1))".toList,
    "component-node name=s component=s input=b".toList, "output-node name=output input=s objective=linear".toList,
    [], []]

/-- Its components, from the last. -/
def toyComp5 : Txt :=
  " \n<ComponentName> s <LogSoftmaxComponent> <Dim> 2 </LogSoftmaxComponent>".toList ++
    " \n".toList
def toyComp4 : Txt :=
  " \n<ComponentName> b <NaturalGradientAffineComponent> <LinearParams>  [\n  1 0 0 1 \n  0 1 1 0 ]\n<BiasParams>  [ 0 1 ]\n</NaturalGradientAffineComponent>".toList ++
    toyComp5
def toyComp3 : Txt :=
  " \n<ComponentName> n <BatchNormComponent> <Dim> 2 <Epsilon> 1 <TargetRms> 2 <TestMode> F <StatsMean>  [ 1 0 ]\n<StatsVar>  [ 3 8 ]\n</BatchNormComponent>".toList ++
    toyComp4
def toyComp2 : Txt :=
  " \n<ComponentName> r <RectifiedLinearComponent> <Dim> 2 </RectifiedLinearComponent>".toList ++
    toyComp3
def toyComp1 : Txt :=
  " \n<ComponentName> a <NaturalGradientAffineComponent> <MaxChange> 0.75 <LinearParams>  [\n  1 -2 3 \n  4 5 6 ]\n<BiasParams>  [ 7 8 ]\n<RankIn> 20 </NaturalGradientAffineComponent>".toList ++
    toyComp2

/-- Its text. -/
def toyText : Txt :=
  "<TransitionModel> 1 </TransitionModel> ".toList ++ ("<Nnet3>".toList ++ ((unlines toyLines ++
    ("<NumComponents>".toList ++ (" ".toList ++ ("5".toList ++ (" ".toList ++ toyComp1))))) ++
    ("</Nnet3>".toList ++ (" <LeftContext> 1 <RightContext> 3 ".toList ++ ("<Priors>".toList ++
      ("  [ 3 5 ]".toList ++ "\n".toList))))))

instance (p s : Txt) : Decidable (Lacks p s) := by unfold Lacks; infer_instance

theorem reads_by {l : Txt} {ws : List Txt} (h : fields l = ws) : Reads l ws := h ▸ reads_fields l

theorem says_self {l : Txt} (h0 : l ≠ []) (h1 : ∀ c ∈ l.head?, ¬ IsWhite c) (h2 : ∀ c ∈ l.getLast?, ¬ IsWhite c) :
    Says l l := ⟨[], [], by simp, by decide, by decide, h0, h1, h2⟩

theorem toyLines_ok : Lines toyLines toyNodes ["s".toList] := by
  refine .blank (by decide) ?_
  refine .input (ws := ["name=input".toList, "dim=1".toList]) (reads_by (by decide +kernel)) ?_
  refine .node (says_self (by decide +kernel) (by decide +kernel) (by decide +kernel)) ?_
  refine .node (says_self (by decide +kernel) (by decide +kernel) (by decide +kernel)) ?_
  refine .node (says_self (by decide +kernel) (by decide +kernel) (by decide +kernel)) ?_
  refine .node (says_self (by decide +kernel) (by decide +kernel) (by decide +kernel)) ?_
  refine .node (says_self (by decide +kernel) (by decide +kernel) (by decide +kernel)) ?_
  refine .output (nm := "name=output".toList) (ws := ["objective=linear".toList]) (reads_by (by decide +kernel)) ?_
  exact .blank (by decide) (.blank (by decide) .nil)

theorem matrix_by {a text : Txt} {lines : List Txt} {m : List (List Txt)} (h : Rows lines m) (h0 : lines ≠ [])
    (h1 : ∀ l ∈ lines, '\n' ∉ l ∧ ']' ∉ l) (ha : Blank a) (ht : text = a ++ '[' :: (unlines lines ++ [']'])) :
    IsMatrix text m := ⟨a, lines, ht, ha, h0, h1, h⟩

theorem digits_one {c : Char} (h : 48 ≤ c.toNat ∧ c.toNat ≤ 57) : Digits [c] :=
  ⟨by simp, fun d hd => by cases List.mem_singleton.mp hd; exact h⟩

theorem scalar_by {c : Char} (h : 48 ≤ c.toNat ∧ c.toNat ≤ 57) : IsScalar [' ', c, ' '] [c] :=
  ⟨[' '], [' '], rfl, by decide, by decide, by decide, [], [c], [], [], rfl, .inl rfl, digits_one h, .inl rfl, .inl rfl⟩

theorem comps_by {text name tag content rest : Txt} {comp : Comp Txt} {cs : List (Txt × Comp Txt)}
    (hn : NameOk name) (hi : IsComp tag content comp) (hl : Lacks ("</".toList ++ (tag ++ ['>'])) content)
    (hr : Comps rest cs) (ht : text = " \n<ComponentName> ".toList ++ (name ++ (" <".toList ++ (tag ++ (">".toList ++
      (content ++ ("</".toList ++ (tag ++ (">".toList ++ rest))))))))) : Comps text ((name, comp) :: cs) := by
  have := Comps.cons (a := " \n".toList) (b := " ".toList) (c := " ".toList) (by decide) (by decide) hn (by decide)
    (by decide) hi hl hr
  rw [ht]
  exact this

theorem toyComp5_ok : Comps toyComp5 [("s".toList, .logSoftmax)] :=
  comps_by (content := " <Dim> 2 ".toList) ⟨by decide, by decide⟩ .logSoftmax (by decide +kernel) (.nil (s := " \n".toList) (by decide))
    (by decide +kernel)

theorem toyComp4_ok : Comps toyComp4 (toyKaldi.comps.drop 3) := by
  refine comps_by (content := " <LinearParams>  [\n  1 0 0 1 \n  0 1 1 0 ]\n<BiasParams>  [ 0 1 ]\n".toList)
    ⟨by decide, by decide⟩
    (.affine (j₁ := " ".toList) (m₁ := "  [\n  1 0 0 1 \n  0 1 1 0 ]".toList) (j₂ := "\n".toList)
      (m₂ := "  [ 0 1 ]".toList) (j₃ := "\n".toList) (by decide +kernel)
      (matrix_by (a := "  ".toList) (lines := [[], "  1 0 0 1 ".toList, "  0 1 1 0 ".toList])
        (.blank (by decide) (.row (reads_by (by decide +kernel)) (by decide)
          (.row (reads_by (by decide +kernel)) (by decide) .nil)))
        (by decide) (by decide) (by decide) (by decide +kernel))
      (by decide +kernel)
      (matrix_by (a := "  ".toList) (lines := [" 0 1 ".toList])
        (.row (reads_by (by decide +kernel)) (by decide) .nil) (by decide) (by decide) (by decide) (by decide +kernel)))
    (by decide +kernel) toyComp5_ok (by decide +kernel)

theorem toyComp3_ok : Comps toyComp3 (toyKaldi.comps.drop 2) := by
  refine comps_by (content := " <Dim> 2 <Epsilon> 1 <TargetRms> 2 <TestMode> F <StatsMean>  [ 1 0 ]\n<StatsVar>  [ 3 8 ]\n".toList)
    ⟨by decide, by decide⟩
    (.batchNorm (j₁ := " <Dim> 2 ".toList) (t₁ := " 1 ".toList) (j₂ := []) (t₂ := " 2 ".toList) (j₃ := "<TestMode> F ".toList)
      (m₁ := "  [ 1 0 ]".toList) (j₄ := "\n".toList) (m₂ := "  [ 3 8 ]".toList) (j₅ := "\n".toList)
      (by decide +kernel) (scalar_by (by decide)) (by decide +kernel) (scalar_by (by decide)) (by decide +kernel)
      (matrix_by (a := "  ".toList) (lines := [" 1 0 ".toList])
        (.row (reads_by (by decide +kernel)) (by decide) .nil) (by decide) (by decide) (by decide) (by decide +kernel))
      (by decide +kernel)
      (matrix_by (a := "  ".toList) (lines := [" 3 8 ".toList])
        (.row (reads_by (by decide +kernel)) (by decide) .nil) (by decide) (by decide) (by decide) (by decide +kernel)))
    (by decide +kernel) toyComp4_ok (by decide +kernel)

theorem toyComp2_ok : Comps toyComp2 (toyKaldi.comps.drop 1) :=
  comps_by (content := " <Dim> 2 ".toList) ⟨by decide, by decide⟩ .relu (by decide +kernel) toyComp3_ok
    (by decide +kernel)

theorem toyComp1_ok : Comps toyComp1 toyKaldi.comps := by
  refine comps_by (content := " <MaxChange> 0.75 <LinearParams>  [\n  1 -2 3 \n  4 5 6 ]\n<BiasParams>  [ 7 8 ]\n<RankIn> 20 ".toList)
    ⟨by decide, by decide⟩
    (.affine (j₁ := " <MaxChange> 0.75 ".toList) (m₁ := "  [\n  1 -2 3 \n  4 5 6 ]".toList) (j₂ := "\n".toList)
      (m₂ := "  [ 7 8 ]".toList) (j₃ := "\n<RankIn> 20 ".toList) (by decide +kernel)
      (matrix_by (a := "  ".toList) (lines := [[], "  1 -2 3 ".toList, "  4 5 6 ".toList])
        (.blank (by decide) (.row (reads_by (by decide +kernel)) (by decide)
          (.row (reads_by (by decide +kernel)) (by decide) .nil)))
        (by decide) (by decide) (by decide) (by decide +kernel))
      (by decide +kernel)
      (matrix_by (a := "  ".toList) (lines := [" 7 8 ".toList])
        (.row (reads_by (by decide +kernel)) (by decide) .nil) (by decide) (by decide) (by decide) (by decide +kernel)))
    (by decide +kernel) toyComp2_ok (by decide +kernel)

/-- The text is that of the network. -/
theorem toyText_ok : IsText toyKaldi toyText :=
  ⟨_, toyLines, _, _, _, _, _, _, _, rfl, by decide +kernel, by decide +kernel, by decide +kernel, by decide,
    by decide +kernel, by decide +kernel, toyLines_ok, by decide, digits_one (by decide), by decide, by decide,
    toyComp1_ok, matrix_by (a := "  ".toList) (lines := [" 3 5 ".toList])
      (.row (reads_by (by decide +kernel)) (by decide) .nil) (by decide) (by decide) (by decide) (by decide +kernel)⟩

theorem toyKaldi_ok : toyKaldi.Ok where
  name := by
    intro n hn
    simp only [toyKaldi, toyNodes, List.mem_cons, List.not_mem_nil, or_false] at hn
    rcases hn with rfl | rfl | rfl | rfl | rfl <;> exact ⟨⟨by decide, by decide⟩, rfl⟩
  parts := by
    intro n hn
    simp only [toyKaldi, toyNodes, List.mem_cons, List.not_mem_nil, or_false] at hn
    rcases hn with rfl | rfl | rfl | rfl | rfl
    · intro p hp
      simp only [List.mem_cons, List.not_mem_nil, or_false] at hp
      rcases hp with rfl | rfl | rfl <;> exact ⟨⟨by decide, by decide⟩, by decide⟩
    · exact ⟨by decide, by decide⟩
    · exact ⟨by decide, by decide⟩
    · intro p hp
      simp only [List.mem_cons, List.not_mem_nil, or_false] at hp
      rcases hp with rfl | rfl <;> exact ⟨⟨by decide, by decide⟩, by decide⟩
    · exact ⟨by decide, by decide⟩
  distinct := by decide +kernel
  comps := by decide +kernel
  has := by decide +kernel
  aux := by decide +kernel
  sizes := by
    intro p hp
    simp only [toyKaldi, List.mem_cons, List.not_mem_nil, or_false] at hp
    rcases hp with rfl | rfl | rfl | rfl | rfl
    · exact ⟨by decide, ⟨3, by decide⟩, by decide⟩
    · trivial
    · show 2 = 2; rfl
    · exact ⟨by decide, ⟨4, by decide⟩, by decide⟩
    · trivial

theorem toyKaldi_chain : Chain "input".toList toyKaldi.nodes := by
  refine .context rfl (by decide) (by decide) (.plain rfl (.plain rfl (.context rfl (by decide) (by decide)
    (.plain rfl .nil))))

/-- Integers as real numbers. -/
noncomputable def toyVal (w : Txt) : ℝ := ((pyInt w).getD 0 : Int)
/-- Exact arithmetic; every number is written as the word 0, which does not matter here. -/
noncomputable def toyNum : ANum ℝ :=
  ⟨fun w => some (toyVal w), fun x => -x, (· + ·), (· * ·), fun x => (Real.sqrt x)⁻¹, fun _ => some 0⟩

theorem toyNum_exact : Exact toyNum := ⟨fun _ => rfl, fun _ _ => rfl, fun _ _ => rfl, fun _ _ => rfl⟩

theorem toyKaldi_fit : Fit (toyKaldi.map toyVal).comps 1 toyKaldi.nodes 2 := by
  refine .cons (e := 2) (by decide) (.head _) ⟨rfl, rfl, ?_⟩ ?_
  · intro row hrow
    obtain ⟨r, hr, rfl⟩ := List.mem_map.mp hrow
    rw [List.length_map]
    clear hrow
    revert r
    decide
  refine .cons (e := 2) (by decide) (.tail _ (.head _)) rfl ?_
  refine .cons (e := 2) (by decide) (.tail _ (.tail _ (.head _))) ⟨rfl, rfl, rfl⟩ ?_
  refine .cons (e := 2) (by decide) (.tail _ (.tail _ (.tail _ (.head _)))) ⟨rfl, rfl, ?_⟩ ?_
  · intro row hrow
    obtain ⟨r, hr, rfl⟩ := List.mem_map.mp hrow
    rw [List.length_map]
    clear hrow
    revert r
    decide
  refine .cons (e := 2) (by decide) (.tail _ (.tail _ (.tail _ (.tail _ (.head _))))) rfl ?_
  exact .nil (by decide)

theorem toyVal_of {w : Txt} {n : Int} (h : pyInt w = some n) : toyVal w = n := by
  unfold toyVal
  rw [h]
  rfl

theorem toyKaldi_positive : ∀ p ∈ (toyKaldi.map toyVal).comps, p.2.Positive := by
  intro p hp
  obtain ⟨q, hq, rfl⟩ := List.mem_map.mp hp
  simp only [toyKaldi, List.mem_cons, List.not_mem_nil, or_false] at hq
  rcases hq with rfl | rfl | rfl | rfl | rfl
  · trivial
  · trivial
  · intro s hs
    obtain ⟨w, hw, rfl⟩ := List.mem_map.mp hs
    simp only [List.mem_cons, List.not_mem_nil, or_false] at hw
    rw [toyVal_of (w := "1".toList) (n := 1) (by decide)]
    rcases hw with rfl | rfl
    · rw [toyVal_of (n := 3) (by decide)]
      norm_num
    · rw [toyVal_of (n := 8) (by decide)]
      norm_num
  · trivial
  · trivial

/-- The hypotheses of the theorems above hold for the network, whose output node is the last one. -/
example : ∃ ls l r, readNet toyNum toyText = .ok (ls, l, r) ∧ (∃ v, Solves (toyKaldi.map toyVal) (fun t => [(t : ℝ)]) v) ∧
    ∀ v, Solves (toyKaldi.map toyVal) (fun t => [(t : ℝ)]) v → ∀ t,
      series (realOps fun A B => A.map fun x => times x B) times ls (fun t => [(t : ℝ)]) t = v toyKaldi.output t := by
  obtain ⟨⟨ls, l, r⟩, h⟩ := (C76_accepted_iff (num := toyNum) (val := toyVal) toyText_ok toyKaldi_ok
    (fun _ _ _ _ => rfl)).mpr toyKaldi_chain
  refine ⟨ls, l, r, h, C76_values_exist toyKaldi_chain (by decide +kernel) (by decide +kernel) _, fun v hv t => ?_⟩
  exact C76_computes_partial toyNum_exact toyText_ok toyKaldi_ok (fun _ _ _ _ => rfl) h toyKaldi_fit toyKaldi_positive
    (fun _ => rfl) hv _ t

/-- The matrix product the theorems speak of. -/
theorem times_rowWise : RowWise (realOps fun A B => A.map fun x => times x B) times where
  gemm := fun _ _ _ => rfl
  size := fun x B n _ h0 hB => by
    unfold times
    rw [List.length_map, List.length_range]
    cases B with
    | nil => exact absurd rfl h0
    | cons r B => exact hB r (List.mem_cons_self ..)

/-- The hypotheses of `C76_files` hold for it. -/
theorem toyKaldi_convertible : ∃ ls l r, Convertible toyNum toyVal toyKaldi toyText 1 2 ls l r := by
  obtain ⟨⟨ls, l, r⟩, h⟩ := (C76_accepted_iff (num := toyNum) (val := toyVal) toyText_ok toyKaldi_ok
    (fun _ _ _ _ => rfl)).mpr toyKaldi_chain
  have hl := ((C76_layers toyText_ok toyKaldi_ok (fun _ _ _ _ => rfl) ls l r).mp h).2
  have hl' : Layers toyNum (toyKaldi.map toyVal).comps toyKaldi.nodes _ _ _ :=
    .context rfl (.head _) (.plain rfl (.tail _ (.head _)) (.plain rfl (.tail _ (.tail _ (.head _)))
      (.context rfl (.tail _ (.tail _ (.tail _ (.head _)))) (.plain rfl (.tail _ (.tail _ (.tail _ (.tail _ (.head _)))))
        .nil))))
  obtain ⟨rfl, rfl, rfl⟩ := hl.unique (by decide +kernel) hl'
  refine ⟨_, _, _, Convertible.mk (num := toyNum) (val := toyVal) toyText_ok toyKaldi_ok (fun _ _ _ _ => rfl)
    (fun _ _ => rfl) toyKaldi_chain toyKaldi_fit hl (by
      intro p hp
      obtain ⟨q, hq, rfl⟩ := List.mem_map.mp hp
      simp only [toyKaldi, List.mem_cons, List.not_mem_nil, or_false] at hq
      rcases hq with rfl | rfl | rfl | rfl | rfl
      · refine ⟨by decide, ?_⟩
        intro row hrow
        obtain ⟨r, hr, rfl⟩ := List.mem_map.mp hrow
        rw [List.length_map, List.length_map]
        clear hrow
        revert r
        decide
      · trivial
      · show 2 ≤ 536870910
        decide
      · refine ⟨by decide, ?_⟩
        intro row hrow
        obtain ⟨r, hr, rfl⟩ := List.mem_map.mp hrow
        rw [List.length_map, List.length_map]
        clear hrow
        revert r
        decide
      · trivial)
    (by
      intro n hn ps hi
      simp only [toyKaldi, toyNodes, List.mem_cons, List.not_mem_nil, or_false] at hn
      rcases hn with rfl | rfl | rfl | rfl | rfl <;> cases hi <;> decide)
    (by decide) (by decide) (by simp) (fun _ _ _ _ => ⟨0, rfl⟩) ⟨by decide, by decide, fun _ _ => ⟨0, rfl⟩⟩⟩

example : ∃ nn pr, convertAm toyNum toyText = .ok (nn, pr) := by
  obtain ⟨ls, l, r, h⟩ := toyKaldi_convertible
  obtain ⟨nn, pr, -, -, e, -⟩ := C76_files h
  exact ⟨nn, pr, e⟩

/-! ## What the converter does not see -/

/-- The output is taken from `a`, whose values the last node changes. -/
def sideNet : Net Txt where
  nodes := [⟨"a".toList, "a".toList, .part ⟨"input".toList, none⟩⟩, ⟨"r".toList, "r".toList, .part ⟨"a".toList, none⟩⟩]
  output := "a".toList
  comps := [("a".toList, .affine [["1".toList]] ["0".toList]), ("r".toList, .relu)]
  prior := ["1".toList]

/-- The components of `sideNet`. -/
def sideComp2 : Txt := " \n<ComponentName> r <RectifiedLinearComponent> </RectifiedLinearComponent> \n".toList
def sideComp1 : Txt :=
  " \n<ComponentName> a <NaturalGradientAffineComponent> <LinearParams>  [\n  1 ]\n<BiasParams>  [ 0 ]\n</NaturalGradientAffineComponent>".toList ++
    sideComp2

/-- The lines that describe `sideNet`. -/
def sideLines : List Txt :=
  [[], "input-node name=input dim=1".toList, "component-node name=a component=a input=input".toList,
    "component-node name=r component=r input=a".toList, "output-node name=output input=a objective=linear".toList, []]

/-- The text of `sideNet`. -/
def sideText : Txt :=
  [] ++ ("<Nnet3>".toList ++ ((unlines sideLines ++
    ("<NumComponents>".toList ++ (" ".toList ++ ("2".toList ++ (" ".toList ++ sideComp1))))) ++
    ("</Nnet3>".toList ++ (" ".toList ++ ("<Priors>".toList ++ ("  [ 1 ]".toList ++ "\n".toList))))))

theorem sideText_ok : IsText sideNet sideText := by
  refine ⟨_, sideLines, _, _, _, _, _, _, _, rfl, by decide +kernel, by decide +kernel, by decide +kernel, by decide,
    by decide +kernel, by decide +kernel, ?_, by decide, digits_one (by decide), by decide, by decide,
    ?_, matrix_by (a := "  ".toList) (lines := [" 1 ".toList])
      (.row (reads_by (by decide +kernel)) (by decide) .nil) (by decide) (by decide) (by decide) (by decide +kernel)⟩
  · refine .blank (by decide) ?_
    refine .input (ws := ["name=input".toList, "dim=1".toList]) (reads_by (by decide +kernel)) ?_
    refine .node (says_self (by decide +kernel) (by decide +kernel) (by decide +kernel)) ?_
    refine .node (says_self (by decide +kernel) (by decide +kernel) (by decide +kernel)) ?_
    refine .output (nm := "name=output".toList) (ws := ["objective=linear".toList]) (reads_by (by decide +kernel)) ?_
    exact .blank (by decide) .nil
  · refine comps_by (content := " <LinearParams>  [\n  1 ]\n<BiasParams>  [ 0 ]\n".toList) ⟨by decide, by decide⟩
      (.affine (j₁ := " ".toList) (m₁ := "  [\n  1 ]".toList) (j₂ := "\n".toList)
        (m₂ := "  [ 0 ]".toList) (j₃ := "\n".toList) (by decide +kernel)
        (matrix_by (a := "  ".toList) (lines := [[], "  1 ".toList])
          (.blank (by decide) (.row (reads_by (by decide +kernel)) (by decide) .nil))
          (by decide) (by decide) (by decide) (by decide +kernel))
        (by decide +kernel)
        (matrix_by (a := "  ".toList) (lines := [" 0 ".toList])
          (.row (reads_by (by decide +kernel)) (by decide) .nil) (by decide) (by decide) (by decide) (by decide +kernel)))
      (by decide +kernel) (rest := sideComp2) ?_ (by decide +kernel)
    exact comps_by (content := " ".toList) ⟨by decide, by decide⟩ .relu (by decide +kernel)
      (.nil (s := " \n".toList) (by decide)) (by decide +kernel)

theorem sideNet_ok : sideNet.Ok where
  name := by
    intro n hn
    simp only [sideNet, List.mem_cons, List.not_mem_nil, or_false] at hn
    rcases hn with rfl | rfl <;> exact ⟨⟨by decide, by decide⟩, rfl⟩
  parts := by
    intro n hn
    simp only [sideNet, List.mem_cons, List.not_mem_nil, or_false] at hn
    rcases hn with rfl | rfl <;> exact ⟨by decide, by decide⟩
  distinct := by decide +kernel
  comps := by decide +kernel
  has := by decide +kernel
  aux := by decide +kernel
  sizes := by
    intro p hp
    simp only [sideNet, List.mem_cons, List.not_mem_nil, or_false] at hp
    rcases hp with rfl | rfl
    · exact ⟨by decide, ⟨1, by decide⟩, by decide⟩
    · trivial

theorem sideNet_chain : Chain "input".toList sideNet.nodes := .plain rfl (.plain rfl .nil)

theorem sideNet_fit : Fit (sideNet.map toyVal).comps 1 sideNet.nodes 1 := by
  refine .cons (e := 1) (by decide) (.head _) ⟨rfl, rfl, ?_⟩ ?_
  · intro row hrow
    cases List.mem_singleton.mp hrow
    rfl
  · exact .cons (e := 1) (by decide) (.tail _ (.head _)) rfl (.nil (by decide))

/-- C76 does not hold for the node the output is taken from: a network whose output node is not the last one is
accepted, and the layers compute something else. -/
theorem C76_output_fails : ∃ ls l r v, readNet toyNum sideText = .ok (ls, l, r) ∧
    Solves (sideNet.map toyVal) (fun _ => [-1]) v ∧
    series (realOps fun A B => A.map fun x => times x B) times ls (fun _ => [-1]) 0 ≠ v sideNet.output 0 := by
  obtain ⟨⟨ls, l, r⟩, h⟩ := (C76_accepted_iff (num := toyNum) (val := toyVal) sideText_ok sideNet_ok
    (fun _ _ _ _ => rfl)).mpr sideNet_chain
  obtain ⟨v, hv⟩ := C76_values_exist (net := sideNet.map toyVal) sideNet_chain (by decide +kernel) (by decide +kernel)
    (fun _ => [-1])
  refine ⟨ls, l, r, v, h, hv, ?_⟩
  have hp : ∀ p ∈ (sideNet.map toyVal).comps, p.2.Positive := by
    intro p hp
    obtain ⟨q, hq, rfl⟩ := List.mem_map.mp hp
    simp only [sideNet, List.mem_cons, List.not_mem_nil, or_false] at hq
    rcases hq with rfl | rfl <;> trivial
  rw [C76_computes_partial toyNum_exact sideText_ok sideNet_ok (fun _ _ _ _ => rfl) h sideNet_fit hp (fun _ => rfl) hv _ 0]
  have hd : ((sideNet.map toyVal).comps.map Prod.fst).Nodup := by decide +kernel
  obtain ⟨c, hc, ha⟩ := hv.nodes _ (.head _)
  obtain rfl := comp_unique hd hc (.head _)
  obtain ⟨c', hc', hr⟩ := hv.nodes _ (.tail _ (.head _))
  obtain rfl := comp_unique hd hc' (.tail _ (.head _))
  have e1 : v "a".toList 0 = [-1] := by
    have := ha 0
    rw [show v _ 0 = v "a".toList 0 from rfl] at this
    rw [this]
    have hin : Desc.value v 0 (.part ⟨"input".toList, none⟩) = [-1] := by
      show v "input".toList (0 + 0) = _
      rw [hv.input]
    show Comp.apply (.affine [[toyVal "1".toList]] [toyVal "0".toList]) (Desc.value v 0 (.part ⟨"input".toList, none⟩)) = _
    rw [hin, toyVal_of (w := "1".toList) (n := 1) (by decide), toyVal_of (w := "0".toList) (n := 0) (by decide)]
    unfold Comp.apply
    simp
  have e2 : v "r".toList 0 = [0] := by
    have := hr 0
    rw [show v _ 0 = v "r".toList 0 from rfl] at this
    rw [this]
    show (v "a".toList (0 + 0)).map _ = _
    rw [Int.add_zero, e1]
    simp
  show v "r".toList 0 ≠ v "a".toList 0
  rw [e1, e2]
  simp

/-! The following networks are accepted, too; the numbers are integers here. -/

/-- Python's integers in place of its numbers. -/
def intNum : ANum Int := ⟨pyInt, fun x => -x, (· + ·), (· * ·), id, fun x => some (UInt32.ofNat x.toNat)⟩

/-- A text with these lines and components. -/
def textOf (lines comps : String) : Txt :=
  ("<Nnet3>\n" ++ lines ++ "\n<NumComponents> 1 \n" ++ comps ++ "</Nnet3> <Priors> [ 1 ]\n").toList

/-- An affine component `x ↦ w * x + b`. -/
def affineOf (name w b : String) : String :=
  "<ComponentName> " ++ name ++ " <NaturalGradientAffineComponent> <LinearParams>  [\n  " ++ w ++
    " ]\n<BiasParams>  [ " ++ b ++ " ]\n</NaturalGradientAffineComponent> \n"

/-- C76 needs that nodes are named as their components: the converter compares the name of the input with the name of
the component before it.  Here `p = A(input)`, `A = C(p)`, `q = p(A)`, so that the components follow each other as `A`,
`C`, `p`; the layers follow each other as `A`, `p`, `C`. -/
theorem C76_names_fail : readNet intNum (textOf
      "component-node name=p component=A input=input\ncomponent-node name=q component=p input=A\ncomponent-node name=A component=C input=p"
      (affineOf "A" "1" "0" ++ affineOf "p" "2" "0" ++ affineOf "C" "1" "1")) =
    .ok ([.linear [[1]] [0], .linear [[2]] [0], .linear [[1]] [1]], 0, 0) := by decide +kernel

/-- C76 needs that no component is named as an auxiliary layer: here the component `a_splice` replaces it, and two
frames are no longer put together. -/
theorem C76_auxiliary_name_fails : readNet intNum (textOf
      "component-node name=a component=a input=Append(Offset(input, -1), input)\ncomponent-node name=a_splice component=a_splice input=a"
      (affineOf "a" "1 1" "0" ++ "<ComponentName> a_splice <RectifiedLinearComponent> </RectifiedLinearComponent> \n")) =
    .ok ([.relu, .narrow 1 0, .linear [[1], [1]] [0], .relu], 1, 0) := by decide +kernel

/-- Names with `-` are not accepted inside `Append`. -/
theorem C76_minus_refused : readNet intNum (textOf
      "component-node name=a-b component=a-b input=input\ncomponent-node name=c component=c input=Append(Offset(a-b, -1), a-b)"
      (affineOf "a-b" "1" "0" ++ affineOf "c" "1 1" "0")) = .error .throw := by decide +kernel

/-- Two matrices that do not fit are not converted; the text is read. -/
theorem C76_misfit_refused : (∃ res, readNet intNum (textOf
      "component-node name=a component=a input=input\ncomponent-node name=b component=b input=a"
      (affineOf "a" "1" "0" ++ affineOf "b" "1 1" "0")) = .ok res) ∧ convertAm intNum (textOf
      "component-node name=a component=a input=input\ncomponent-node name=b component=b input=a"
      (affineOf "a" "1" "0" ++ affineOf "b" "1 1" "0")) = .error .throw :=
  ⟨⟨([.linear [[1]] [0], .linear [[1], [1]] [0]], 0, 0), by decide +kernel⟩, by decide +kernel⟩

/-- Three frames put together do not fit a matrix with four rows; this is not seen. -/
theorem C76_first_matrix_unchecked : convertAm intNum (textOf
      "component-node name=a component=a input=Append(Offset(input, -1), input, Offset(input, 1))"
      (affineOf "a" "1 1 1 1" "0")) = .ok (Ser.writeNnet 1 1 [.splice [-1, 0, 1], .narrow 1 1,
        .linear [[1], [1], [1], [1]] [0]], Ser.writeVec [1]) := by decide +kernel

/-- The converter checks neither the size of the bias nor that of batch normalisation nor that of the priors: this
network is converted, and the recogniser aborts on it. -/
theorem C76_sizes_unchecked : convertAm intNum (textOf "component-node name=a component=a input=input"
      "<ComponentName> a <NaturalGradientAffineComponent> <LinearParams>  [\n  1 \n 2 ]\n<BiasParams>  [ 5 ]\n</NaturalGradientAffineComponent> \n") =
      .ok (Ser.writeNnet 0 0 [.linear [[1, 2]] [5]], Ser.writeVec [1]) ∧
    Ser.readNnet (Ser.writeNnet 0 0 [.linear [[1, 2]] [5]]) = .ok (⟨0, 0, [.linear [[some 1, some 2]] [some 5]]⟩, []) ∧
    Nnet.propagate Nnet.toyOps [.linear [[1, 2]] [5]] [[3]] [] = .error .assert :=
  ⟨by decide +kernel, by decide +kernel, by decide +kernel⟩

/-! ## Numbers -/

theorem take_holds {p : Char → Bool} {s : Txt} {c : Char} (h : c ∈ s.takeWhile p) : p c = true :=
  List.all_eq_true.1 List.all_takeWhile c h

theorem digits_take {s : Txt} (h : s.takeWhile isDig ≠ []) : Digits (s.takeWhile isDig) :=
  ⟨h, fun c hc => by
    have := take_holds hc
    unfold isDig at this
    simpa using this⟩

theorem dropMinus_sign (s : Txt) : ∃ m, s = m ++ dropMinus s ∧ Sign m := by
  unfold dropMinus
  split
  · exact ⟨['-'], rfl, .inr rfl⟩
  · exact ⟨[], rfl, .inl rfl⟩

theorem expText_decimal {e : Txt} (h : expText e = true) : e = [] ∨ ∃ n g, e = 'e' :: (n ++ g) ∧ Sign n ∧ Digits g := by
  unfold expText at h
  split at h
  · exact .inl rfl
  · rename_i s
    simp only [Bool.and_eq_true, decide_eq_true_eq, List.all_eq_true] at h
    obtain ⟨m, h1, h2⟩ := dropMinus_sign s
    refine .inr ⟨m, dropMinus s, by rw [← h1], h2, h.1, fun c hc => ?_⟩
    have := h.2 c hc
    unfold isDig at this
    simpa using this
  · cases h

theorem floatText_decimal {s : Txt} (h : floatText s = true) : Decimal s := by
  obtain ⟨m, hm, hm'⟩ := dropMinus_sign s
  unfold floatText at h
  simp only [Bool.and_eq_true, decide_eq_true_eq] at h
  obtain ⟨h1, h2⟩ := h
  have hs : s = m ++ ((dropMinus s).takeWhile isDig ++ (dropMinus s).dropWhile isDig) := by
    rw [List.takeWhile_append_dropWhile]; exact hm
  split at h2
  · rename_i u hu
    simp only [Bool.and_eq_true, decide_eq_true_eq] at h2
    refine ⟨m, _, '.' :: u.takeWhile isDig, u.dropWhile isDig, ?_, hm', digits_take h1, .inr ⟨_, rfl, digits_take h2.1⟩,
      expText_decimal h2.2⟩
    rw [List.cons_append, List.takeWhile_append_dropWhile, ← hu]
    exact hs
  · exact ⟨m, _, [], _, by rw [List.nil_append]; exact hs, hm', digits_take h1, .inl rfl, expText_decimal h2⟩

/-- C76: as a scalar nothing but a decimal number between white space is taken, up to the next character that is not white. -/
theorem C76_scalars_only {num : ANum R} {text rest : Txt} {x : R} (h : readFloat num text = .ok (x, rest)) :
    ∃ t w, text = t ++ rest ∧ IsScalar t w ∧ num.parse w = some x ∧ ∀ c ∈ rest.head?, ¬ IsWhite c := by
  unfold readFloat readWord at h
  simp only at h
  split at h
  · rename_i hc
    obtain ⟨h1, h2, h3⟩ := hc
    simp only [ok_bind] at h
    split at h
    · rename_i x' hx
      cases h
      refine ⟨text.takeWhile white ++ (_ ++ ((text.dropWhile white).dropWhile fun c => !white c).takeWhile white), _, ?_,
        ⟨_, _, rfl, fun c hc => (white_iff c).1 (take_holds hc), fun c hc => (white_iff c).1 (take_holds hc), ?_,
          floatText_decimal h2⟩, hx, ?_⟩
      · rw [List.append_assoc, List.append_assoc, List.takeWhile_append_dropWhile, List.takeWhile_append_dropWhile,
          List.takeWhile_append_dropWhile]
      · intro he
        cases hr : (text.dropWhile white).dropWhile fun c => !white c with
        | nil => exact h3 hr
        | cons c l =>
          have h4 := List.head?_dropWhile_not (fun c => !white c) (text.dropWhile white)
          rw [hr] at h4 he
          simp only [List.head?_cons] at h4
          rw [List.takeWhile_cons, if_pos (by simpa using h4)] at he
          cases he
      · intro c hc hw
        have h4 := List.head?_dropWhile_not white ((text.dropWhile white).dropWhile fun c => !white c)
        rw [Option.mem_def.1 hc] at h4
        have h5 := (white_iff c).2 hw
        simp [h5] at h4
    · cases h
  · cases h

/-- Accepted, and not. -/
example : (readFloat intNum " -12 \n<x>".toList).isOk = true ∧ readFloat intNum " 1. <x>".toList = .error .throw ∧
    readFloat intNum " 1e+5 <x>".toList = .error .throw := by decide +kernel

end Verif.Tool
