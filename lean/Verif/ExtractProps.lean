import Verif.ExtractModel
import Verif.ToolProps

/-!
# Property C118: the map of a transition model arrives in the acoustic model
-/

namespace Verif.Tool

open Verif Verif.App.Spec

/-! ## Lines -/

/-- A text without ends of lines in it. -/
def Flat (l : Txt) : Prop := ∀ c ∈ l, c ≠ '\n' ∧ c ≠ '\r'

theorem newlines_flat : ∀ {l : Txt}, (∀ c ∈ l, c ≠ '\r') → newlines l = l
  | [], _ => rfl
  | c :: l, h => by
    have hc := h c List.mem_cons_self
    have ih := newlines_flat (l := l) fun x hx => h x (List.mem_cons_of_mem _ hx)
    unfold newlines
    split
    · rename_i e
      cases e
    · rename_i e
      exact absurd (List.cons.inj e).1 hc
    · rename_i e
      obtain ⟨rfl, rfl⟩ := List.cons.inj e
      rw [if_neg hc, ih]

theorem linesFrom_flat : ∀ {l : Txt}, Flat l → ∀ (cur r : Txt),
    linesFrom cur (l ++ '\n' :: r) = (cur ++ l ++ ['\n']) :: linesFrom [] r
  | [], _, cur, r => by
    rw [List.nil_append, List.append_nil]
    rfl
  | c :: l, h, cur, r => by
    have hc := (h c List.mem_cons_self).1
    have ih := linesFrom_flat (l := l) (fun x hx => h x (List.mem_cons_of_mem _ hx)) (cur ++ [c]) r
    show (if c = '\n' then _ else linesFrom (cur ++ [c]) (l ++ '\n' :: r)) = _
    rw [if_neg hc, ih, List.append_assoc cur [c] l, List.singleton_append]

/-- A file of flat lines, each with its end. -/
theorem fileLines_flat {ls : List Txt} (h : ∀ l ∈ ls, Flat l) : fileLines (ls.flatMap fun l => l ++ ['\n']) =
    ls.map fun l => l ++ ['\n'] := by
  unfold fileLines
  rw [newlines_flat (by
    intro c hc
    obtain ⟨l, hl, hc⟩ := List.mem_flatMap.mp hc
    rcases List.mem_append.mp hc with hc | hc
    · exact (h l hl c hc).2
    · rw [List.mem_singleton.mp hc]; decide)]
  induction ls with
  | nil => rfl
  | cons l ls ih =>
    rw [List.flatMap_cons, List.append_assoc, List.singleton_append, linesFrom_flat (h l List.mem_cons_self),
      ih fun x hx => h x (List.mem_cons_of_mem _ hx), List.map_cons, List.nil_append]

theorem flat_int (n : Int) : Flat (showInt n) := fun c hc =>
  ⟨fun e => (pyInt_int n).1.2 c hc (by rw [e]; decide), fun e => (pyInt_int n).1.2 c hc (by rw [e]; decide)⟩

theorem flat_pair (a b : Int) : Flat (showInt a ++ [' '] ++ showInt b) := by
  intro c hc
  rcases List.mem_append.mp hc with hc | hc
  · rcases List.mem_append.mp hc with hc | hc
    · exact flat_int a c hc
    · rw [List.mem_singleton.mp hc]; decide
  · exact flat_int b c hc

theorem reads_int (n : Int) : Reads (showInt n ++ ['\n']) [(toString n).toList] := by
  have := Reads.cons (s := []) (w := (toString n).toList) (rest := ['\n']) Blank.nil (pyInt_int n).1
    (by intro c h; cases h; decide) (.nil (by decide))
  exact this

theorem reads_pair (a b : Int) : Reads (showInt a ++ [' '] ++ showInt b ++ ['\n'])
    [(toString a).toList, (toString b).toList] := by
  have h1 := Reads.cons (s := [' ']) (w := (toString b).toList) (rest := ['\n']) (by decide) (pyInt_int b).1
    (by intro c h; cases h; decide) (.nil (by decide))
  have := Reads.cons (s := []) (w := (toString a).toList) (rest := [' '] ++ (toString b).toList ++ ['\n']) Blank.nil
    (pyInt_int a).1 (by intro c h; cases h; decide) h1
  have e : showInt a ++ [' '] ++ showInt b ++ ['\n'] = [] ++ (toString a).toList ++ ([' '] ++ (toString b).toList ++ ['\n']) := by
    unfold showInt
    simp
  rw [e]
  exact this

theorem extract_lines (t : TransModel) : fileLines (extractId2pdf t) = (showInt t.pdfs ++ ['\n']) ::
    (showInt t.ids ++ ['\n']) ::
    (List.range (t.ids + 1)).map fun tid : Nat => showInt tid ++ [' '] ++ showInt (t.pdf tid) ++ ['\n'] := by
  have e : extractId2pdf t = (showInt t.pdfs :: showInt t.ids ::
      (List.range (t.ids + 1)).map fun tid : Nat => showInt tid ++ [' '] ++ showInt (t.pdf tid)).flatMap fun l => l ++ ['\n'] := by
    unfold extractId2pdf
    rw [List.flatMap_cons, List.flatMap_cons, List.flatMap_map, List.append_assoc]
  rw [e, fileLines_flat]
  · rw [List.map_cons, List.map_cons, List.map_map]
    rfl
  · intro l hl
    rcases List.mem_cons.mp hl with rfl | hl
    · exact flat_int _
    · rcases List.mem_cons.mp hl with rfl | hl
      · exact flat_int _
      · obtain ⟨tid, -, rfl⟩ := List.mem_map.mp hl
        exact flat_pair _ _

theorem isMap_of (f : Nat → Int) : ∀ ns : List Nat,
    IsMap (ns.map fun tid : Nat => showInt tid ++ [' '] ++ showInt (f tid) ++ ['\n']) (ns.map fun tid => (tid, f tid))
  | [] => .nil
  | n :: ns => .entry (reads_pair n (f n)) (isMap_of f ns)

/-! ## The property -/

/-- C118: what `extract_id2pdf` prints of a transition model, converted by `convert_trans.py`, is the file from which the
acoustic model takes the pdf of every transition id as the transition model has it, and of no other id. -/
theorem C118_map (t : TransModel) (hp : ∀ tid, tid ≤ t.ids → InI32 (t.pdf tid)) (hn : (t.ids + 1) * 4 + 4 ≤ 2147483647) :
    ∃ (m : List Int) (bytes : List UInt8), convertTrans (fileLines (extractId2pdf t)) = .ok bytes ∧
      (∀ rest, Ser.readVec (bytes ++ rest) = .ok ((intWords m).map some, rest)) ∧
      App.ints ((intWords m).map some) = .ok m ∧ ∀ (tid : Nat) x, m[tid]? = some x ↔ tid ≤ t.ids ∧ x = t.pdf tid := by
  obtain ⟨m, h1, h2, h3, h4, h5, -⟩ := C75_transition_map (n := t.ids) (ps := (List.range (t.ids + 1)).map fun tid => (tid, t.pdf tid))
    (reads_int t.pdfs) (reads_int t.ids) (isMap_of t.pdf (List.range (t.ids + 1))) (by
      intro p hm
      obtain ⟨tid, ht, rfl⟩ := List.mem_map.mp hm
      have := List.mem_range.mp ht
      exact ⟨by simp only; omega, hp tid (by omega)⟩) hn
  rw [← extract_lines] at h1
  have key : ∀ tid, tid ≤ t.ids → m[tid]? = some (t.pdf tid) := by
    intro tid ht
    refine h5 tid _ ⟨(List.range tid).map fun tid => (tid, t.pdf tid),
      (List.range' (tid + 1) (t.ids - tid)).map fun tid => (tid, t.pdf tid), ?_, ?_⟩
    · have e : List.range (t.ids + 1) = List.range tid ++ tid :: List.range' (tid + 1) (t.ids - tid) := by
        rw [List.range_eq_range', show t.ids + 1 = tid + (t.ids - tid + 1) by omega, ← List.range'_append_1,
          List.range_eq_range', Nat.zero_add, List.range'_succ]
      rw [e, List.map_append, List.map_cons]
    · intro q hq
      obtain ⟨x, hx, rfl⟩ := List.mem_map.mp hq
      have := List.mem_range'_1.mp hx
      show x ≠ tid
      omega
  refine ⟨m, _, h1, h2, h3, fun tid x => ⟨fun h => ?_, ?_⟩⟩
  · have hlt := (List.getElem?_eq_some_iff.mp h).1
    have ht : tid ≤ t.ids := by omega
    rw [key tid ht] at h
    exact ⟨ht, (Option.some.inj h).symm⟩
  · rintro ⟨ht, rfl⟩
    exact key tid ht

theorem newlines_line : ∀ {l : Txt}, Flat l → ∀ r : Txt, newlines (l ++ '\n' :: r) = l ++ '\n' :: newlines r ∧
    newlines (l ++ '\r' :: '\n' :: r) = l ++ '\n' :: newlines r
  | [], _, r => ⟨by rw [List.nil_append, List.nil_append]; rfl, by rw [List.nil_append, List.nil_append]; rfl⟩
  | c :: l, h, r => by
    have hc := (h c List.mem_cons_self).2
    have ih := newlines_line (l := l) (fun x hx => h x (List.mem_cons_of_mem _ hx)) r
    have step : ∀ t : Txt, newlines (c :: t) = c :: newlines t := by
      intro t
      rw [newlines.eq_def]
      split
      · rename_i e
        cases e
      · rename_i e
        exact absurd (List.cons.inj e).1 hc
      · rename_i e
        obtain ⟨rfl, rfl⟩ := List.cons.inj e
        rw [if_neg hc]
    rw [List.cons_append, List.cons_append, List.cons_append, step, step, ih.1, ih.2]
    exact ⟨rfl, rfl⟩

/-- C118: whether the lines of the text end in `\n` or in `\r\n` makes no difference. -/
theorem C118_line_ends (ls : List (Txt × Bool)) (h : ∀ l ∈ ls, Flat l.1) :
    fileLines (ls.flatMap fun l => l.1 ++ if l.2 then ['\r', '\n'] else ['\n']) = ls.map fun l => l.1 ++ ['\n'] := by
  unfold fileLines
  induction ls with
  | nil => rfl
  | cons l ls ih =>
    have hl := h l List.mem_cons_self
    have ih := ih fun x hx => h x (List.mem_cons_of_mem _ hx)
    obtain ⟨l, b⟩ := l
    rw [List.flatMap_cons, List.map_cons, ← ih, List.append_assoc]
    cases b
    · rw [if_neg (show ¬ false = true from Bool.false_ne_true), List.singleton_append, (newlines_line hl _).1, linesFrom_flat hl, List.nil_append]
    · rw [if_pos rfl, List.cons_append, List.singleton_append, (newlines_line hl _).2, linesFrom_flat hl, List.nil_append]

example : fileLines "7\r\n0 5\n".toList = ["7\n".toList, "0 5\n".toList] := by
  have := C118_line_ends [("7".toList, true), ("0 5".toList, false)] (by
    intro l hl
    have : (∀ c ∈ l.1, c ≠ '\n' ∧ c ≠ '\r') := by
      rcases List.mem_cons.mp hl with rfl | hl
      · decide
      · rw [List.mem_singleton.mp hl]; decide
    exact this)
  exact this

/-- Two pdfs, three transitions. -/
def demoTrans : TransModel := ⟨2, 3, fun tid => if tid = 0 then -1 else if tid = 2 then 1 else 0⟩

example : ∃ (m : List Int) (bytes : List UInt8), convertTrans (fileLines (extractId2pdf demoTrans)) = .ok bytes ∧
    Ser.readVec bytes = .ok ((intWords m).map some, []) ∧ m[2]? = some 1 ∧ m[0]? = some (-1) ∧ m[4]? = none := by
  obtain ⟨m, bytes, h1, h2, -, h4⟩ := C118_map demoTrans (by
    intro tid _
    unfold demoTrans
    simp only
    split
    · decide
    · split <;> decide) (by decide)
  refine ⟨m, bytes, h1, ?_, (h4 2 1).mpr ⟨by decide, rfl⟩, (h4 0 (-1)).mpr ⟨by decide, rfl⟩, ?_⟩
  · have := h2 []
    rwa [List.append_nil] at this
  · cases h : m[4]? with
    | none => rfl
    | some x => exact absurd ((h4 4 x).mp h).1 (by decide)

-- the text, and a text with `\r\n`
example : extractId2pdf ⟨1, 0, fun _ => 5⟩ = "1\n0\n0 5\n".toList := by decide +kernel
example : fileLines "a 1\r\nb 2\rc 3".toList = ["a 1\n", "b 2\n", "c 3"].map String.toList := by decide +kernel

end Verif.Tool
