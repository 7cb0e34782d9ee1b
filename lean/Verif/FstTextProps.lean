import Verif.FstTextModel
import Verif.FstProps
import Verif.ExtractProps

/-!
# Property C121: the text format of the converter tells everything
-/

namespace Verif.Fst

open Verif Verif.Tool

variable {W : Type}

/-! ## Lines -/

theorem shown_int_inj {a b : Int} (h : showInt a = showInt b) : a = b := by
  have h1 := (pyInt_int a).2
  have h2 := (pyInt_int b).2
  unfold showInt at h
  rw [h, h2] at h1
  exact (Option.some.inj h1).symm

theorem int_no_paren (n : Int) : ')' ∉ showInt n := by
  unfold showInt
  cases n with
  | ofNat n =>
    show ')' ∉ (toString n).toList
    rw [nat_toList]
    intro h
    exact absurd (toDigits_digit _ h) (by decide)
  | negSucc n =>
    have e : (toString (Int.negSucc n)).toList = '-' :: Nat.toDigits 10 (n + 1) := by
      show (Int.repr (Int.negSucc n)).toList = _
      rw [← Nat.toList_repr]
      simp [Int.repr]
    rw [e]
    intro h
    rcases List.mem_cons.mp h with h | h
    · exact absurd h (by decide)
    · exact absurd (toDigits_digit _ h) (by decide)

theorem until_paren : ∀ {x y r s : Txt}, ')' ∉ x → ')' ∉ y → x ++ ')' :: r = y ++ ')' :: s → x = y ∧ r = s
  | [], [], _, _, _, _, h => ⟨rfl, (List.cons.inj h).2⟩
  | [], c :: y, _, _, _, hy, h => absurd ((List.cons.inj h).1 ▸ List.mem_cons_self) hy
  | c :: x, [], _, _, hx, _, h => absurd ((List.cons.inj h).1 ▸ List.mem_cons_self) hx
  | c :: x, d :: y, _, _, hx, hy, h => by
    obtain ⟨h1, h2⟩ := List.cons.inj h
    obtain ⟨h3, h4⟩ := until_paren (fun h => hx (List.mem_cons_of_mem _ h)) (fun h => hy (List.mem_cons_of_mem _ h)) h2
    exact ⟨by rw [h1, h3], h4⟩

theorem entryLine_inj {u v : Txt} {i : Nat} (h : entryLine u i = entryLine v i) : u = v :=
  List.append_cancel_left (List.append_cancel_left h)

theorem arcLine_inj {shown : W → Txt} {a b : Arc W} {i : Nat} (hw : shown a.weight = shown b.weight → a.weight = b.weight)
    (h : arcLine shown a i = arcLine shown b i) : a = b := by
  have h := List.append_cancel_left (List.append_cancel_left h)
  obtain ⟨e1, h⟩ := until_paren (int_no_paren _) (int_no_paren _) h
  obtain ⟨e2, h⟩ := until_paren (int_no_paren _) (int_no_paren _) (List.append_cancel_left h)
  obtain ⟨e3, h⟩ := until_paren (int_no_paren _) (int_no_paren _) (List.append_cancel_left h)
  have e4 := hw (List.append_cancel_right (List.append_cancel_left h))
  cases a
  cases b
  simp only at e1 e2 e3 e4
  rw [shown_int_inj e1, shown_int_inj e2, shown_int_inj e3, e4]

theorem zipIdx_inj {α : Type} {g : α × Nat → Txt} : ∀ {l l' : List α} {k : Nat}, l.length = l'.length →
    (∀ a ∈ l, ∀ b ∈ l', ∀ i, g (a, i) = g (b, i) → a = b) → (l.zipIdx k).map g = (l'.zipIdx k).map g → l = l'
  | [], [], _, _, _, _ => rfl
  | [], _ :: _, _, hl, _, _ => by simp at hl
  | _ :: _, [], _, hl, _, _ => by simp at hl
  | a :: l, b :: l', k, hl, hg, h => by
    rw [List.zipIdx_cons, List.zipIdx_cons, List.map_cons, List.map_cons] at h
    obtain ⟨h1, h2⟩ := List.cons.inj h
    rw [hg a List.mem_cons_self b List.mem_cons_self k h1, zipIdx_inj (by simpa using hl)
      (fun a ha b hb => hg a (List.mem_cons_of_mem _ ha) b (List.mem_cons_of_mem _ hb)) h2]

theorem flat_both {u v : Txt} (hu : Flat u) (hv : Flat v) : Flat (u ++ v) := fun c hc =>
  (List.mem_append.mp hc).elim (hu c) (hv c)

theorem flat_lit {u : Txt} (h : u.all fun c => c != '\n' && c != '\r') : Flat u := by
  intro c hc
  have := List.all_eq_true.mp h c hc
  simpa using this

theorem flat_entry {val : Txt} (h : Flat val) (i : Nat) : Flat (entryLine val i) :=
  flat_both (flat_int _) (flat_both (flat_lit (by decide)) h)

theorem flat_arc {shown : W → Txt} {a : Arc W} (h : Flat (shown a.weight)) (i : Nat) : Flat (arcLine shown a i) := by
  have p : ∀ {u : Txt}, Flat u → Flat (')' :: u) := fun hu => flat_both (u := [')']) (flat_lit (by decide)) hu
  unfold arcLine
  refine flat_both (flat_int _) (flat_both (flat_lit (by decide)) (flat_both (flat_int _) (p (flat_both (flat_lit (by decide))
    (flat_both (flat_int _) (p (flat_both (flat_lit (by decide)) (flat_both (flat_int _) (p (flat_both (flat_lit (by decide))
    (flat_both h (flat_lit (by decide)))))))))))))

/-- All weights of the arrays are such. -/
def Such (P : W → Prop) (f : Fst W) : Prop := (∀ w ∈ f.finals, P w) ∧ ∀ a ∈ f.arcs, P a.weight

theorem flat_lines {shown : W → Txt} {P : W → Prop} (hf : ∀ w, P w → Flat (shown w)) {f : Fst W} (h : Such P f) :
    ∀ l ∈ textLines shown f, Flat l := by
  intro l hl
  unfold textLines headLines at hl
  rcases List.mem_append.mp hl with hl | hl
  · simp only [List.mem_cons, List.not_mem_nil, or_false] at hl
    rcases hl with rfl | rfl | rfl | rfl
    · exact flat_both (flat_lit (by decide)) (flat_int _)
    · exact flat_both (flat_lit (by decide)) (flat_int _)
    · exact flat_both (flat_lit (by decide)) (flat_int _)
    · exact flat_lit (by decide)
  · rcases List.mem_append.mp hl with hl | hl
    · obtain ⟨p, hp, rfl⟩ := List.mem_map.mp hl
      exact flat_entry (hf _ (h.1 _ (List.fst_mem_of_mem_zipIdx hp))) _
    · rcases List.mem_cons.mp hl with rfl | hl
      · exact flat_lit (by decide)
      · rcases List.mem_append.mp hl with hl | hl
        · obtain ⟨p, hp, rfl⟩ := List.mem_map.mp hl
          exact flat_entry (flat_int _) _
        · rcases List.mem_cons.mp hl with rfl | hl
          · exact flat_lit (by decide)
          · obtain ⟨p, hp, rfl⟩ := List.mem_map.mp hl
            exact flat_arc (hf _ (h.2 _ (List.fst_mem_of_mem_zipIdx hp))) _

theorem textLines_inj {shown : W → Txt} {P : W → Prop} (hi : ∀ w w', P w → P w' → shown w = shown w' → w = w') {f f' : Fst W}
    (h : Such P f) (h' : Such P f') (hl : f.stateIdx.length = f.finals.length) (hl' : f'.stateIdx.length = f'.finals.length)
    (e : textLines shown f = textLines shown f') : f = f' := by
  unfold textLines at e
  obtain ⟨e1, e⟩ := List.append_inj e rfl
  unfold headLines at e1
  obtain ⟨n1, e1⟩ := List.cons.inj e1
  obtain ⟨n2, e1⟩ := List.cons.inj e1
  obtain ⟨n3, -⟩ := List.cons.inj e1
  have n1 : f.finals.length = f'.finals.length := Int.ofNat.inj (shown_int_inj (List.append_cancel_left n1))
  have n2 : f.arcs.length = f'.arcs.length := Int.ofNat.inj (shown_int_inj (List.append_cancel_left n2))
  have n3 := shown_int_inj (List.append_cancel_left n3)
  obtain ⟨a1, e⟩ := List.append_inj e (by simp [n1])
  obtain ⟨-, e⟩ := List.cons.inj e
  obtain ⟨a2, e⟩ := List.append_inj e (by simp [hl, hl', n1])
  obtain ⟨-, a3⟩ := List.cons.inj e
  have b1 := zipIdx_inj n1 (fun a ha b hb i q => hi a b (h.1 a ha) (h'.1 b hb) (entryLine_inj q)) a1
  have b2 := zipIdx_inj (by rw [hl, hl', n1]) (fun a _ b _ i q => shown_int_inj (entryLine_inj q)) a2
  have b3 := zipIdx_inj n2 (fun a ha b hb i q => arcLine_inj (hi _ _ (h.2 a ha) (h'.2 b hb)) q) a3
  cases f
  cases f'
  simp only at n3 b1 b2 b3
  rw [n3, b1, b2, b3]

theorem raw_arc {x : Nat × Arc W} : ∀ {states : List (W × List (Arc W))} {s : Nat}, x ∈ rawArcs states s →
    ∃ p ∈ states, x.2 ∈ p.2
  | [], _, h => by cases h
  | (w, as) :: rest, s, h => by
    unfold rawArcs at h
    rcases List.mem_append.mp h with h | h
    · obtain ⟨a, ha, rfl⟩ := List.mem_map.mp h
      exact ⟨_, List.mem_cons_self, ha⟩
    · obtain ⟨p, hp, hx⟩ := raw_arc h
      exact ⟨p, List.mem_cons_of_mem _ hp, hx⟩

theorem such_of {P : W → Prop} {t : Transducer W} (h : ∀ s ∈ t.states, P s.1 ∧ ∀ a ∈ s.2, P a.weight) {f : Fst W}
    (hf : convert t = .ok f) : Such P f := by
  unfold convert at hf
  cases hx : fillIdx (sortedArcs t) 0 (List.replicate t.states.length (-1)) with
  | error e => simp only [hx] at hf; cases hf
  | ok idx =>
    simp only [hx, ok_bind] at hf
    rw [← Except.ok.inj hf]
    refine ⟨fun w hw => ?_, fun a ha => ?_⟩
    · obtain ⟨s, hs, rfl⟩ := List.mem_map.mp hw
      exact (h s hs).1
    · obtain ⟨x, hx, rfl⟩ := List.mem_map.mp ha
      obtain ⟨p, hp, hm⟩ := raw_arc ((sortArcs_perm _).mem_iff.mp hx)
      exact (h p hp).2 _ hm

/-! ## The property -/

/-- C121: two transducers of which the converter writes the same text have the same start state, the same final weights, the same
table of states and the same arcs.  `P` are the weights that are shown in different ways, on one line: all floats but NaN. -/
theorem C121_text {shown : W → Txt} {P : W → Prop} (hf : ∀ w, P w → Flat (shown w))
    (hi : ∀ w w', P w → P w' → shown w = shown w' → w = w') {t t' : Transducer W}
    (h : ∀ s ∈ t.states, P s.1 ∧ ∀ a ∈ s.2, P a.weight) (h' : ∀ s ∈ t'.states, P s.1 ∧ ∀ a ∈ s.2, P a.weight)
    (e : converterText shown t = converterText shown t') : convert t = convert t' := by
  have s := such_of h (convert_layout t)
  have s' := such_of h' (convert_layout t')
  unfold converterText at e
  rw [convert_layout, convert_layout, ok_bind, ok_bind] at e
  have e := congrArg fileLines (Except.ok.inj e)
  rw [fileLines_flat (flat_lines hf s), fileLines_flat (flat_lines hf s')] at e
  have e := (List.map_inj_right fun x y q => List.append_cancel_right q).mp e
  rw [convert_layout, convert_layout, textLines_inj hi s s' (by simp [fstOf, idxOf_length, groups_length])
    (by simp [fstOf, idxOf_length, groups_length]) e]

/-- C121: then the binary files are the same, too. -/
theorem C121_binary {shown : UInt32 → Txt} {P : UInt32 → Prop} (hf : ∀ w, P w → Flat (shown w))
    (hi : ∀ w w', P w → P w' → shown w = shown w' → w = w') {t t' : Transducer UInt32}
    (h : ∀ s ∈ t.states, P s.1 ∧ ∀ a ∈ s.2, P a.weight) (h' : ∀ s ∈ t'.states, P s.1 ∧ ∀ a ∈ s.2, P a.weight)
    (e : converterText shown t = converterText shown t') : converterOutput t = converterOutput t' := by
  unfold converterOutput
  rw [C121_text hf hi h h' e]

/-- C121: the text has six lines, two for each state and one for each arc. -/
theorem C121_lines {shown : W → Txt} {P : W → Prop} (hf : ∀ w, P w → Flat (shown w)) {t : Transducer W}
    (h : ∀ s ∈ t.states, P s.1 ∧ ∀ a ∈ s.2, P a.weight) : ∃ text, converterText shown t = .ok text ∧
      (fileLines text).length = 6 + 2 * t.states.length + (t.states.map fun s => s.2.length).sum := by
  refine ⟨_, by unfold converterText; rw [convert_layout, ok_bind], ?_⟩
  rw [fileLines_flat (flat_lines hf (such_of h (convert_layout t))), List.length_map]
  have ha : (fstOf t).arcs.length = (t.states.map fun s => s.2.length).sum := by
    have e := convert_layout t
    unfold convert at e
    cases hx : fillIdx (sortedArcs t) 0 (List.replicate t.states.length (-1)) with
    | error e' => simp only [hx] at e; cases e
    | ok idx =>
      simp only [hx, ok_bind] at e
      rw [← Except.ok.inj e]
      simp only [List.length_map]
      have hr : ∀ (ss : List (W × List (Arc W))) (k : Nat), (rawArcs ss k).length = (ss.map fun s => s.2.length).sum := by
        intro ss
        induction ss with
        | nil => intro k; rfl
        | cons s ss ih =>
          intro k
          unfold rawArcs
          rw [List.length_append, List.length_map, ih, List.map_cons, List.sum_cons]
      unfold sortedArcs
      rw [(sortArcs_perm _).length_eq, hr]
  have hs : (fstOf t).stateIdx.length = t.states.length := by simp [fstOf, idxOf_length, groups_length]
  have hn : (fstOf t).finals.length = t.states.length := by simp [fstOf]
  unfold textLines headLines
  simp only [List.length_append, List.length_cons, List.length_nil, List.length_map, List.length_zipIdx]
  omega

/-! ## Examples -/

/-- A transducer of two states; the arcs are not in the order of their labels. -/
def textDemo : Transducer UInt32 := ⟨0, [(7, [⟨1, 5, 6, 1⟩, ⟨0, 2, 0, 3⟩]), (0, [])]⟩

/-- Words shown as numbers. -/
def shownWord (w : UInt32) : Txt := showInt w.toNat

theorem shownWord_inj (w w' : UInt32) (h : shownWord w = shownWord w') : w = w' :=
  UInt32.toNat_inj.mp (Int.ofNat.inj (shown_int_inj h))

-- the hypotheses hold for all weights
example {t : Transducer UInt32} (e : converterText shownWord t = converterText shownWord textDemo) :
    converterOutput t = converterOutput textDemo :=
  C121_binary (P := fun _ => True) (fun _ _ => flat_int _) (fun w w' _ _ => shownWord_inj w w') (fun _ _ => ⟨trivial, fun _ _ => trivial⟩)
    (fun _ _ => ⟨trivial, fun _ _ => trivial⟩) e

example {t : Transducer UInt32} (e : converterText shownWord t = converterText shownWord textDemo) :
    convert t = convert textDemo :=
  C121_text (P := fun _ => True) (fun _ _ => flat_int _) (fun w w' _ _ => shownWord_inj w w') (fun _ _ => ⟨trivial, fun _ _ => trivial⟩)
    (fun _ _ => ⟨trivial, fun _ _ => trivial⟩) e

-- its text
example : converterText shownWord textDemo = .ok ("state_number = 2\narc_number = 2\nstart_state = 0\n============ final =============\n0 -> 7\n1 -> 0\n============ state_arcidx =============\n0 -> 0\n1 -> -1\n============ arcs =============\n0 -> next_state(0), input_label(2), output_label(0), weight(3)\n1 -> next_state(1), input_label(5), output_label(6), weight(1)\n".toList) := by
  decide +kernel

example : ∃ text, converterText shownWord textDemo = .ok text ∧ (fileLines text).length = 12 :=
  C121_lines (P := fun _ => True) (fun _ _ => flat_int _) (fun _ _ => ⟨trivial, fun _ _ => trivial⟩)

end Verif.Fst
