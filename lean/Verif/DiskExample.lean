import Verif.DiskProps
import Verif.MainExample
import Verif.KitExample

/-!
# A small directory made from what training leaves behind, and what the program writes

The hypotheses of C97 hold for it.
-/

namespace Verif.Disk.Ex

open Verif Verif.Text Verif.App.Spec Verif.Tool Verif.Tool.Kaldi Verif.Kit Verif.Main Verif.Main.Spec Verif.Disk.Spec
open Verif.Main.Ex (header defs syms junk mach' rec' table hiRow)

/-! ## The network -/

/-- Two frames and a rectifier. -/
def hiKaldi : Net Txt where
  nodes := [⟨"a".toList, "a".toList, .append [⟨"input".toList, some (-1)⟩, ⟨"input".toList, none⟩]⟩]
  output := "a".toList
  comps := [("a".toList, .relu)]
  prior := List.replicate 80 "0".toList

/-- The lines that describe it. -/
def hiLines : List Txt :=
  [" ".toList, "input-node name=input dim=40".toList,
    "component-node name=a component=a input=Append(Offset(input, -1), input)".toList,
    "output-node name=output input=a objective=linear".toList, []]

/-- Its component. -/
def hiComp : Txt :=
  " \n<ComponentName> a <RectifiedLinearComponent> <Dim> 80 </RectifiedLinearComponent>".toList ++ " \n".toList

/-- The line of its priors. -/
def zeros : Txt := ' ' :: (List.replicate 80 ['0', ' ']).flatten

/-- Its text. -/
def hiText : Txt :=
  "<TransitionModel> 1 </TransitionModel> ".toList ++ ("<Nnet3>".toList ++ ((unlines hiLines ++
    ("<NumComponents>".toList ++ (" ".toList ++ ("1".toList ++ (" ".toList ++ hiComp))))) ++
    ("</Nnet3>".toList ++ (" <LeftContext> 1 <RightContext> 0 ".toList ++ ("<Priors>".toList ++
      (("  ".toList ++ '[' :: (unlines [zeros] ++ [']'])) ++ "\n".toList))))))

theorem hiLines_ok : Lines hiLines hiKaldi.nodes ["a".toList] := by
  refine .blank (by decide) ?_
  refine .input (ws := ["name=input".toList, "dim=40".toList]) (reads_by (by decide +kernel)) ?_
  refine .node (says_self (by decide +kernel) (by decide +kernel) (by decide +kernel)) ?_
  refine .output (nm := "name=output".toList) (ws := ["objective=linear".toList]) (reads_by (by decide +kernel)) ?_
  exact .blank (by decide) .nil

theorem hiComp_ok : Comps hiComp hiKaldi.comps :=
  comps_by (content := " <Dim> 80 ".toList) ⟨by decide, by decide⟩ .relu (by decide +kernel)
    (.nil (s := " \n".toList) (by decide)) (by decide +kernel)

theorem hiText_ok : IsText hiKaldi hiText :=
  ⟨_, hiLines, _, _, _, _, _, _, _, rfl, by decide +kernel, by decide +kernel, by decide +kernel, by decide,
    by decide +kernel, by decide +kernel, hiLines_ok, by decide, digits_one (by decide), by decide, by decide,
    hiComp_ok, matrix_by (a := "  ".toList) (lines := [zeros])
      (.row (reads_by (by decide +kernel)) (by decide) .nil) (by decide) (by decide +kernel) (by decide) (by decide +kernel)⟩

theorem hiKaldi_ok : hiKaldi.Ok where
  name := by
    intro n hn
    cases List.mem_singleton.mp hn
    exact ⟨⟨by decide, by decide⟩, rfl⟩
  parts := by
    intro n hn
    cases List.mem_singleton.mp hn
    intro p hp
    simp only [List.mem_cons, List.not_mem_nil, or_false] at hp
    rcases hp with rfl | rfl <;> exact ⟨⟨by decide, by decide⟩, by decide⟩
  distinct := by decide +kernel
  comps := by decide +kernel
  has := by decide +kernel
  aux := by decide +kernel
  sizes := by
    intro p hp
    cases List.mem_singleton.mp hp
    trivial

/-- The numbers of the text. -/
def value (w : Txt) : Int := (pyInt w).getD 0

/-- The layers. -/
def hiLayers : List (Nnet.Layer Int) := [.splice [-1, 0], .narrow 1 0, .relu]

theorem hi_convertible : Convertible intNum value hiKaldi hiText 40 80 hiLayers 1 0 where
  text := hiText_ok
  ok := hiKaldi_ok
  numbers := by
    intro p hp w hw
    cases List.mem_singleton.mp hp
    cases hw
  priors := by
    intro w hw
    rw [List.eq_of_mem_replicate hw]
    rfl
  chain := .context rfl (by decide) (by decide) .nil
  fit := by
    refine .cons (e := 80) (by decide) (.head _) rfl ?_
    exact .nil (by decide)
  layers := by
    have h : Layers intNum (hiKaldi.map value).comps hiKaldi.nodes _ _ _ := .context rfl (.head _) .nil
    exact h
  writable := by
    intro p hp
    obtain ⟨q, hq, rfl⟩ := List.mem_map.mp hp
    cases List.mem_singleton.mp hq
    trivial
  parts := by
    intro n hn ps h
    cases List.mem_singleton.mp hn
    cases h
    decide
  left := by decide
  right := by decide
  count := by decide
  pack := by
    intro k hk x hx
    simp only [hiLayers, List.mem_cons, List.not_mem_nil, or_false] at hk
    rcases hk with rfl | rfl | rfl <;> cases hx
  prior := ⟨by decide, by decide, fun w _ => ⟨_, rfl⟩⟩

/-! ## The other sources -/

/-- A graph of three states; one arc with the word 1. -/
def hclg : Hclg.Source :=
  ⟨0, [(1000000000, [⟨1, 1, 3, 1⟩]), (1000000000, [⟨1, 0, 0, 2⟩]), (2, [⟨1, 0, 0, 1⟩])]⟩

theorem hclg_fits : Hclg.Spec.Fits hclg where
  start := show -2147483648 ≤ (0 : Int) ∧ (0 : Int) < 2147483648 by decide
  states := by decide
  arcs := by decide
  final := by decide
  arc st hst a ha := by
    simp only [hclg, List.mem_cons, List.not_mem_nil, or_false] at hst
    rcases hst with rfl | rfl | rfl <;>
    · cases List.mem_singleton.mp ha
      exact ⟨⟨by decide, by decide⟩, ⟨by decide, by decide⟩, by decide, ⟨by decide, by decide⟩⟩

theorem hclg_closed : Hclg.Spec.Closed hclg where
  start := ⟨by decide, by decide⟩
  next st hst a ha := by
    simp only [hclg, List.mem_cons, List.not_mem_nil, or_false] at hst
    rcases hst with rfl | rfl | rfl <;>
    · cases List.mem_singleton.mp ha
      exact ⟨by decide, by decide⟩

/-- The words and their ids. -/
def ids : List (Txt × Nat) := [("-".toList, 0), ("hi".toList, 1), ("<s>".toList, 2), ("</s>".toList, 3)]

/-- The sources; there is no language model. -/
def sources : Sources Hclg.Source :=
  ⟨hclg, hiText, ["1\n", "1\n", "1 0\n"].map String.toList, syms,
    ["- 0\n", "hi 1\n", "<s> 2\n", "</s> 3\n"].map String.toList, none, 1, 0, 2, 1⟩

theorem trans_ok : IsTrans sources.trans 1 [(1, 0)] where
  lines := ⟨_, _, _, 1, rfl, reads_by (by decide +kernel), reads_by (by decide +kernel),
    .entry (reads_by (by decide +kernel)) .nil⟩
  fits := by
    intro p hp
    cases List.mem_singleton.mp hp
    exact ⟨by decide, by decide, by decide⟩
  size := by decide

theorem words_ok : IsWords Kit.Ex.utf8 sources.words sources.vocab ids where
  entries := Main.Ex.syms_ok
  same := by decide +kernel
  lines := .entry (reads_by (by decide +kernel)) (.entry (reads_by (by decide +kernel))
    (.entry (reads_by (by decide +kernel)) (.entry (reads_by (by decide +kernel)) .nil)))
  inj := Kit.Ex.utf8_inj
  words := by decide +kernel
  ids := by decide +kernel
  begins := ⟨by decide +kernel, by decide +kernel⟩
  ends := ⟨by decide +kernel, by decide +kernel⟩
  size := by
    intro w i h
    simp only [ids, List.mem_cons, Prod.mk.injEq, List.not_mem_nil, or_false] at h
    omega

/-! ## The directory and the machine -/

/-- The file of the graph. -/
def graphFile : List UInt8 := Hclg.write false 0 none none hclg

/-- The files; the graph is `d/g`. -/
def file (n : Str) : Option (List UInt8) := if n = [100, 47, 103] then some graphFile else Main.Ex.world.file n

/-- The world: graphs are read from files. -/
def world : App.World Hclg.ConstFst :=
  ⟨file, fun n => (file n).bind fun bs => match Hclg.read bs with
    | .ok x => x
    | .error _ => none, fun _ => true, id⟩

theorem world_onDisk : OnDisk world := by
  intro f bytes x h1 h2
  show (file f).bind _ = x
  rw [show file f = some bytes from h1]
  show (match Hclg.read bytes with | .ok x => x | .error _ => none) = x
  rw [h2]

/-- What the decoder sees of a graph; where lookups are undefined, something. -/
def look (f : Hclg.ConstFst) : Decoder.Graph Int where
  start := f.start
  arcs s := match Hclg.arcsAt f s with
    | .ok as => as.map fun a => ⟨a.ilabel, a.olabel, (a.weight : Int), a.next⟩
    | .error _ => [⟨1, 0, 0, 1⟩]
  final s := match Hclg.finalAt f s with
    | .ok x => (x : Int)
    | .error _ => 1000000000

/-- The machine. -/
def mach : Machine Hclg.ConstFst Int Int :=
  ⟨look, mach'.word, mach'.conv, mach'.fb, mach'.nn, mach'.ar, mach'.lm, mach'.amScale, mach'.perFrame, mach'.zero, mach'.fuel,
    mach'.lmFuel⟩

theorem mach_looks : Looks mach where
  start _ := rfl
  arcs f s as h := by
    show (match Hclg.arcsAt f s with | .ok as => _ | .error _ => _) = _
    rw [h]
    rfl
  final f s x h := by
    show (match Hclg.finalAt f s with | .ok x => _ | .error _ => _) = _
    rw [h]
    rfl

theorem graph_eq : mach.graph hclg.image = Stt.toyGraph := by
  have h : ∀ s : Int, s < 0 ∨ 3 ≤ s → Hclg.stateAt hclg.image s = .error .ub := fun s hs =>
    Hclg.stateAt_outside hclg (fun h => by
      have h2 : s < 3 := h.2
      have h1 := h.1
      omega)
  have key : ∀ s, (look hclg.image).arcs s = Stt.toyGraph.arcs s ∧ (look hclg.image).final s = Stt.toyGraph.final s := by
    intro s
    by_cases hs : s < 0 ∨ 3 ≤ s
    · have n0 : s ≠ 0 := by omega
      have n1 : s ≠ 1 := by omega
      have n2 : s ≠ 2 := by omega
      unfold look Stt.toyGraph Hclg.arcsAt Hclg.finalAt
      simp only [h s hs, error_bind, if_neg n0, if_neg n1, if_neg n2, and_self]
    · have : s = 0 ∨ s = 1 ∨ s = 2 := by omega
      rcases this with rfl | rfl | rfl <;> exact ⟨by decide +kernel, by decide +kernel⟩
  show look hclg.image = Stt.toyGraph
  have h1 : (look hclg.image).arcs = Stt.toyGraph.arcs := funext fun s => (key s).1
  have h2 : (look hclg.image).final = Stt.toyGraph.final := funext fun s => (key s).2
  have h0 : (look hclg.image).start = Stt.toyGraph.start := rfl
  revert h0 h1 h2
  generalize look hclg.image = a
  generalize Stt.toyGraph = b
  intro h0 h1 h2
  cases a
  cases b
  simp only at h0 h1 h2
  rw [h0, h1, h2]

theorem converted : convertAm intNum hiText = .ok (Ser.writeNnet 1 0 [.splice [-1, 0], .narrow 1 0, .relu],
    Ser.writeVec (List.replicate 80 0)) := by decide +kernel

theorem built : Disk.Spec.Built world [100, 47, 99] defs intNum demoNum sources where
  fst := ⟨_, false, 0, none, none, [], App.Ex.names_at 0 rfl (by decide) (by decide) (by decide), by decide,
    (fun _ h => by cases h), (fun _ h => by cases h), by rw [List.append_nil]; rfl⟩
  fits := hclg_fits
  closed := hclg_closed
  files := by
    obtain ⟨-, -, -, i4, i5, i6, i7, -, ⟨f, n9, h9⟩, i10⟩ := Main.Ex.installed
    exact ⟨⟨_, _, _, _, [], [], App.Ex.names_at 1 rfl (by decide) (by decide) (by decide),
      App.Ex.names_at 2 rfl (by decide) (by decide) (by decide), converted, by decide +kernel, by decide +kernel⟩,
      i4, i5, i6, i7,
      ⟨_, _, [], App.Ex.names_at 7 rfl (by decide) (by decide) (by decide),
        (by decide +kernel : convertTrans sources.trans = .ok (Ser.writeVec [0, 0])), by decide +kernel⟩,
      ⟨_, App.Ex.names_at 8 rfl (by decide) (by decide) (by decide), by decide +kernel⟩, i10⟩

theorem sized : Sized mach sources hiLayers (hiKaldi.prior.map value) Nnet.toyVecMat 80 80 where
  rows := Nnet.toyOps_rowWise
  net := by
    refine .context (l := 1) (r := 0) (L := 0) (R := 0) (by decide) (by decide) (by decide) (by decide)
      (by decide) (.inr (by decide)) (.inl rfl) ?_
    refine .row (e := 80) (by decide) (by decide) .relu ?_
    exact .nil (by decide) (by decide)
  prior := by decide
  chunk := by decide
  size := by decide
  big := by decide
  tables := Fbank.toyOps_tables
  scratch := Stt.flatFb_scratch

/-! ## The program -/

/-- The recogniser in memory. -/
def self : App.Self Hclg.ConstFst :=
  ⟨some (1, hclg.image), none, none, none,
    some (2, some ⟨⟨1, 0, Main.Ex.layers.map Ser.Spec.full⟩, List.replicate 80 0, 1, 0, 2, 1, [0, 0]⟩), some (4, ()),
    some (3, some table)⟩

theorem loaded : ∃ h c, App.init world [100, 47, 99] ⟨0, []⟩ = .ok (some (0, self), h, c) := by
  have : (App.init world [100, 47, 99] ⟨0, []⟩).map Prod.fst = .ok (some (0, self)) := by decide +kernel
  cases h : App.init world [100, 47, 99] ⟨0, []⟩ with
  | error f => rw [h] at this; cases this
  | ok p =>
    rw [h] at this
    obtain ⟨q, h', c⟩ := p
    have hq : q = some (0, self) := by injection this
    subst hq
    exact ⟨h', c, rfl⟩

theorem recogniser_self : mach.recogniser self = some rec' := by
  have : mach.amOf ⟨⟨1, 0, Main.Ex.layers.map Ser.Spec.full⟩, List.replicate 80 0, 1, 0, 2, 1, [0, 0]⟩ = Stt.toyRec.am := by
    unfold Machine.amOf
    congr 1
  unfold Machine.recogniser self rec' Main.Ex.rec
  simp only [Machine.lmOf]
  rw [this, graph_eq]
  rfl

theorem processAudio_same {G G' F D : Type} {w : App.World G} {w' : App.World G'} {name : Str} (h : w.file name = w'.file name)
    (rec : Option (Stt.Rec F D)) (j : Junk F) : processAudio w rec j name = processAudio w' rec j name := by
  unfold processAudio
  rw [h]

/-- The program writes "hi". -/
theorem run_hi (junk : Nat → Junk Int) :
    main mach world junk [[100, 47, 99], [97, 46, 119, 97, 118]] = ⟨[.line [104, 105]], .ok ()⟩ := by
  obtain ⟨h, c, hx⟩ := loaded
  have hw : IsWav [97, 46, 119, 97, 118] := isWav_of [97] rfl
  rw [main_wav mach hx hw, recogniser_self, processAudio_same (w' := Main.Ex.world) (by decide +kernel)]
  obtain ⟨h', c', hx'⟩ := Main.Ex.loaded
  have := Main.Ex.run_hi' junk
  rw [main_wav mach' hx' hw, Main.Ex.recogniser_self'] at this
  exact this

/-- The audio file. -/
theorem audio : world.file [97, 46, 119, 97, 118] = some (header 48 2 ++ List.replicate 560 3) ∧
    IsAudio (header 48 2 ++ List.replicate 560 3) 1 (List.replicate 560 3) :=
  ⟨by decide +kernel, Main.Ex.header_ok _ _ _⟩

-- all that is asked for holds, and the line is "hi"
example : ∃ (rec : Stt.Rec Int Int) (ids : List Int) (ws : List Str), Hears rec Nnet.toyVecMat 1 (List.replicate 560 3) ids ∧
    join [32] ws = [104, 105] := by
  obtain ⟨rec, -, h⟩ := C97_line mach world [100, 47, 99] (App.Ex.confOf defs) defs (us := []) world_onDisk mach_looks
    (by decide +kernel) Main.Ex.conf_ok built hi_convertible (fun _ _ _ _ => rfl) trans_ok words_ok (fun _ _ h => by cases h)
    Nnet.toyVecMat 80 sized [97, 46, 119, 97, 118] (isWav_of [97] rfl) _ _ 1 audio.1 audio.2
  obtain ⟨ids, ws, h1, -, -, h4⟩ := h junk _ (run_hi junk)
  injection h4 with h4
  injection h4 with h4
  exact ⟨rec, ids, ws, h1, h4.symm⟩

open Verif.Decoder Verif.Decoder.Beam

theorem hi_env {rec : Stt.Rec Int Int} {us : List (Txt × Int)} (hr : Trained mach world sources intNum demoNum Kit.Ex.utf8
    hiLayers (hiKaldi.prior.map value) 1 [(1, 0)] ids us rec) : rec.dec = rec'.dec := by
  have h1 := hr.ar
  have h2 := hr.image
  have h3 : rec.dec.pdf = [0, 0] := by
    have a := hr.size
    have b := hr.pdf 1 0 ⟨[], [], rfl, nofun⟩
    have c := hr.unmapped 0 (by decide) (by simp)
    revert a b c
    generalize rec.dec.pdf = l
    intro a b c
    match l, a with
    | [x, y], _ =>
      cases b
      cases c
      rfl
  have h4 := hr.amScale
  have h5 : rec.dec.lm = none := hr.lm
  rw [show sources.graph = hclg from rfl, graph_eq] at h2
  generalize rec.dec = e at *
  cases e
  simp only at h1 h2 h3 h4 h5
  subst h1 h2 h3 h4 h5
  rfl

theorem hi_scores {rec : Stt.Rec Int Int} {us : List (Txt × Int)} (hr : Trained mach world sources intNum demoNum Kit.Ex.utf8
    hiLayers (hiKaldi.prior.map value) 1 [(1, 0)] ids us rec) {rows : List (List Int)}
    (h : Scores rec Nnet.toyVecMat 1 (List.replicate 560 3) rows) : rows = [hiRow, hiRow] := by
  refine Main.Ex.hi_scores_of hr.conv hr.fb hr.nn ?_ ?_ h
  · obtain ⟨ls', h1, h2⟩ := hr.layers
    rw [h2]
    obtain ⟨a, as, ha, h3, rfl⟩ := List.forall₂_cons_left_iff.mp h1
    obtain ⟨b, bs, hb, h4, rfl⟩ := List.forall₂_cons_left_iff.mp h3
    obtain ⟨c, cs, hc, h5, rfl⟩ := List.forall₂_cons_left_iff.mp h4
    cases h5
    cases a <;> try exact ha.elim
    cases b <;> try exact hb.elim
    cases c <;> try exact hc.elim
    cases ha
    obtain ⟨rfl, rfl⟩ := hb
    rfl
  · obtain ⟨p, h1, h2⟩ := hr.prior
    rw [h2]
    have : p = List.replicate 80 0 := by
      refine List.eq_replicate_iff.mpr ⟨h1.length_eq.symm, fun x hx => ?_⟩
      obtain ⟨y, hy, b, hb, rfl⟩ := forall₂_mem h1 x hx
      obtain ⟨z, hz, rfl⟩ := List.mem_map.mp hy
      rw [List.eq_of_mem_replicate hz] at hb
      cases hb
      decide
    rw [this]
    rfl

-- all that is asked for holds, so that the line is the words of a cheapest path
example : ∃ (q : List (GArc Int)) (ws : List Str), wordsOf q = [1] ∧ ws = [Kit.Ex.utf8 "hi".toList] ∧
    join [32] ws = [104, 105] := by
  obtain ⟨rec, hr, h⟩ := C97_cheapest_partial mach world [100, 47, 99] (App.Ex.confOf defs) defs (us := []) world_onDisk
    mach_looks (by decide +kernel) Main.Ex.conf_ok built hi_convertible (fun _ _ _ _ => rfl) trans_ok words_ok
    (fun _ _ h => by cases h) Nnet.toyVecMat 80 sized [97, 46, 119, 97, 118] (isWav_of [97] rfl) _ _ 1 audio.1 audio.2
    Main.Ex.sat_order Main.Ex.sat_nan Main.Ex.sat_mono
  obtain ⟨rows, hrows, h⟩ := h junk _ (run_hi junk)
  cases hi_scores hr hrows
  rw [hi_env hr] at h
  obtain ⟨q, ws, ⟨_, hq, _, _⟩, h2, h3, h4⟩ := h (0, 0) _ _ Main.Ex.hi_start Main.Ex.hi_alive Main.Ex.hi_few (fun _ _ _ _ => rfl)
    (fun _ _ _ => rfl) Main.Ex.hi_kept (by decide) (fun q y hy => by rw [(Main.Ex.hi_whole q y hy).2]; decide)
  have hq := (Main.Ex.hi_whole _ _ hq).1
  subst hq
  have h5 := h3 0 "hi".toList 1 (by decide) rfl
  refine ⟨[⟨1, 1, 3, 1⟩, ⟨1, 0, 0, 2⟩], ws, rfl, ?_, ?_⟩
  · match ws, (h2 : ws.length = 1) with
    | [x], _ =>
      cases h5
      rfl
  · injection h4 with h4
    injection h4 with h4
    exact h4.symm

end Verif.Disk.Ex
