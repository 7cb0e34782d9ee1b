import Verif.WordsModel
import Verif.ConfigProps

/-!
# Property of the converter of word lists: C72
-/

namespace Verif.Text

open Verif

/-! ## Lines of a file -/

theorem stripEnd_prefix (s : Str) : stripEnd s <+: s := by
  unfold stripEnd
  have h := List.dropWhile_suffix (fun c : UInt8 => c == 13 || c == 10) (l := s.reverse)
  have := List.reverse_prefix.mpr h
  rwa [List.reverse_reverse] at this

theorem cstr_noNul (s : Str) : (0 : UInt8) ∉ cstr s := by
  unfold cstr
  induction s with
  | nil => simp
  | cons c s ih =>
    rw [List.takeWhile_cons]
    split
    · rename_i hc
      simp only [ne_eq, decide_not, Bool.not_eq_eq_eq_not, Bool.not_true, decide_eq_false_iff_not] at hc
      intro h
      rcases List.mem_cons.mp h with h | h
      · exact hc h.symm
      · exact ih h
    · simp

/-- Every line delivered is a piece of the file without NUL. -/
theorem readLines_infix : ∀ (fuel : Nat) (f : File) {ls : List Str} {b : Bool}, readLines fuel f = .ok (ls, b) →
    ∀ l ∈ ls, l <:+: f.rest ∧ 0 ∉ l
  | 0, f, ls, b, h => by cases h
  | fuel + 1, f, ls, b, h => by
    unfold readLines at h
    cases hr : readLine f with
    | mk r f' =>
      rw [hr] at h
      cases r with
      | done => cases h; simp
      | ioError => cases h; simp
      | line l =>
        simp only at h
        obtain ⟨⟨ls', b'⟩, h1, h⟩ := bind_ok h
        cases h
        unfold readLine at hr
        split at hr
        · cases hr
        · have ha := fgets_append 4095 f.rest
          generalize fgets 4095 f.rest = x at hr ha
          obtain ⟨a, r, e⟩ := x
          simp only at hr ha
          split at hr
          · cases hr
          · cases hr
            intro m hm
            rcases List.mem_cons.mp hm with rfl | hm
            · have h1 : stripEnd (cstr a) <+: a := (stripEnd_prefix _).trans (List.takeWhile_prefix _)
              refine ⟨?_, fun h0 => cstr_noNul a ((stripEnd_prefix _).subset h0)⟩
              rw [← ha]
              exact (h1.trans (List.prefix_append a r)).isInfix
            · obtain ⟨g1, g2⟩ := readLines_infix fuel ⟨r, e⟩ h1 m hm
              refine ⟨?_, g2⟩
              rw [← ha]
              exact g1.trans (List.suffix_append a r).isInfix

/-! ## Pieces between NULs -/

theorem infix_split {l a b : Str} (h0 : (0 : UInt8) ∉ l) (h : l <:+: a ++ 0 :: b) : l <:+: a ∨ l <:+: b := by
  obtain ⟨p, q, h⟩ := h
  rw [List.append_assoc, List.append_eq_append_iff] at h
  rcases h with ⟨x, hx, h⟩ | ⟨x, hx, h⟩
  · -- a = p ++ x
    rw [List.append_eq_append_iff] at h
    rcases h with ⟨y, hy, h⟩ | ⟨y, hy, h⟩
    · left
      rw [hx, hy]
      exact ⟨p, y, by simp⟩
    · cases y with
      | nil =>
        left
        rw [hx]
        rw [List.append_nil] at hy
        rw [hy]
        exact ⟨p, [], by simp⟩
      | cons c y =>
        simp only [List.cons_append, List.cons.injEq] at h
        obtain ⟨rfl, _⟩ := h
        rw [hy] at h0
        simp at h0
  · cases x with
    | nil =>
      simp only [List.nil_append] at h
      cases l with
      | nil => exact .inl List.nil_infix
      | cons c l =>
        simp only [List.cons_append, List.cons.injEq] at h
        obtain ⟨rfl, _⟩ := h
        simp at h0
    | cons c x =>
      simp only [List.cons_append, List.cons.injEq] at h
      obtain ⟨_, h⟩ := h
      right
      rw [h]
      exact ⟨x, q, by simp⟩

/-- A piece without NUL of pieces with NULs between them lies in one of them. -/
theorem infix_pieces {l : Str} (h0 : (0 : UInt8) ∉ l) (hl : l ≠ []) : ∀ (ps : List Str),
    l <:+: ps.flatMap (fun p => p ++ [0]) → ∃ p ∈ ps, l <:+: p
  | [], h => by
    simp only [List.flatMap_nil, List.infix_nil] at h
    exact absurd h hl
  | p :: ps, h => by
    rw [List.flatMap_cons, List.append_assoc] at h
    rcases infix_split h0 h with h | h
    · exact ⟨p, by simp, h⟩
    · obtain ⟨q, hq, h⟩ := infix_pieces h0 hl ps h
      exact ⟨q, by simp [hq], h⟩

/-- The three low bytes of a number. -/
def low3 (n : Nat) : Str := [UInt8.ofNat n, UInt8.ofNat (n / 256), UInt8.ofNat (n / 65536)]

theorem encU32_low {n : Nat} (h : n < 16777216) : encU32 n = low3 n ++ [0] := by
  unfold encU32 low3
  rw [Nat.div_eq_of_lt h]
  rfl

/-! ## Words by id -/

theorem foldl_set_mem : ∀ (es : List (Str × Nat)) (ws : List Str) {w : Str},
    w ∈ es.foldl (fun ws e => ws.set e.2 e.1) ws → w ∈ ws ∨ ∃ e ∈ es, e.1 = w
  | [], ws, w, h => .inl h
  | e :: es, ws, w, h => by
    rw [List.foldl_cons] at h
    rcases foldl_set_mem es _ h with h | ⟨x, hx, h⟩
    · rcases List.mem_or_eq_of_mem_set h with h | h
      · exact .inl h
      · exact .inr ⟨e, by simp, h.symm⟩
    · exact .inr ⟨x, by simp [hx], h⟩

theorem wordSlots_mem {es : List (Str × Nat)} {w : Str} (h : w ∈ wordSlots es) :
    w = emptyWord ∨ ∃ e ∈ es, e.1 = w := by
  unfold wordSlots at h
  rcases foldl_set_mem es _ h with h | h
  · exact .inl (List.eq_of_mem_replicate h)
  · exact .inr h

theorem wordOffsets_lt : ∀ (ws : List Str) (n : Nat), ∀ o ∈ wordOffsets n ws, o < n + (wordBuffer ws).length
  | [], n, o, h => by simp [wordOffsets] at h
  | w :: ws, n, o, h => by
    unfold wordOffsets at h
    have hb : (wordBuffer (w :: ws)).length = w.length + 1 + (wordBuffer ws).length := by
      simp [wordBuffer]
      omega
    rw [hb]
    rcases List.mem_cons.mp h with rfl | h
    · omega
    · have := wordOffsets_lt ws _ o h
      omega

/-! ## C72 -/

/-- C72 fails, always: no file that `convert_words.py` makes (below 16 MiB, from words without blanks) is accepted as
symbol table. -/
theorem C72_converted_words_rejected (es : List (Str × Nat)) (hw : ∀ e ∈ es, (32 : UInt8) ∉ e.1) {content : Str}
    (hc : convertWords es = .ok content) (hn : content.length < 16777216) (t : Symbols) :
    readSymbols content ≠ .ok t := by
  intro h
  -- a line for `</s>`
  obtain ⟨ls, b, hl⟩ := readLines_content content
  unfold readSymbols at h
  obtain ⟨t1, h1, h⟩ := io_bind_ok h
  rw [symbolLoop_fold _ _ _ _ _ hl] at h1
  obtain ⟨t2, h2, h1⟩ := io_bind_ok h1
  cases b with
  | true => cases h1
  | false =>
  cases h1
  obtain ⟨ds, hd1, hd2, _, hd4⟩ := symbolFold_inv ls [] ⟨[], [], 0, 0⟩ _ TInv.empty h2
  rw [List.nil_append] at hd4
  have heos : mapFind t1.ids kEos ≠ none := by
    intro h0
    unfold findBosEos at h
    rw [h0] at h
    split at h
    · rename_i h'; cases h'
    · cases h
  rw [hd4.id, Ne, Option.map_eq_none_iff, lastOf_none] at heos
  obtain ⟨p, hp, hpw⟩ : ∃ p ∈ ds, p.1 = kEos := by
    refine Decidable.byContradiction fun hno => ?_
    exact heos fun p hp hpw => hno ⟨p, hp, hpw⟩
  obtain ⟨i, hi⟩ := List.mem_iff_getElem?.mp hp
  have hil : i < ls.length := by
    have := (List.getElem?_eq_some_iff.mp hi).1
    omega
  have hline : ∃ l ∈ ls, ∃ x, l = kEos ++ 32 :: x := by
    refine ⟨ls[i], List.getElem_mem hil, ?_⟩
    have hz : (ls[i], p) ∈ ls.zip ds := by
      rw [List.mem_iff_getElem?]
      refine ⟨i, ?_⟩
      rw [List.getElem?_zip_eq_some]
      exact ⟨List.getElem?_eq_getElem hil, hi⟩
    obtain ⟨x, _, _, hx, _⟩ := hd2 _ hz
    simp only at hx
    rw [hpw] at hx
    rcases hx with ⟨hx, _⟩ | hx
    · exact ⟨x, by rw [hx]; simp⟩
    · exact ⟨x ++ [32], by rw [hx]; simp⟩
  obtain ⟨l, hl1, x, hx⟩ := hline
  obtain ⟨hinf, h0⟩ := readLines_infix _ _ hl l hl1
  simp only at hinf
  -- the pieces of the file
  unfold convertWords at hc
  simp only at hc
  split at hc
  · cases hc
    simp only [List.length_append, List.length_cons, List.length_nil] at hn
    have hlen4 : ∀ n, (encU32 n).length = 4 := fun _ => rfl
    have hoff : ∀ os : List Nat, (os.flatMap encU32).length = os.length * 4 := by
      intro os
      induction os with
      | nil => rfl
      | cons o os ih => rw [List.flatMap_cons, List.length_append, ih, hlen4, List.length_cons]; omega
    rw [hlen4, hlen4, hlen4, hoff] at hn
    have hoffs : ∀ os : List Nat, (∀ o ∈ os, o < 16777216) →
        os.flatMap encU32 = (os.map low3).flatMap (fun p => p ++ [0]) := by
      intro os ho
      induction os with
      | nil => rfl
      | cons o os ih =>
        rw [List.flatMap_cons, List.map_cons, List.flatMap_cons, encU32_low (ho o (by simp)),
          ih fun o h => ho o (by simp [h])]
    have hsmall : ∀ o ∈ wordOffsets 0 (wordSlots es), o < 16777216 := by
      intro o ho
      have := wordOffsets_lt _ _ o ho
      omega
    rw [hoffs _ hsmall, encU32_low (by omega), encU32_low (by omega), encU32_low (by omega)] at hinf
    have hall : l <:+: ([[83, 89, 77, 48] ++ low3 (8 + (wordOffsets 0 (wordSlots es)).length * 4 +
          (wordBuffer (wordSlots es)).length), low3 (wordOffsets 0 (wordSlots es)).length,
          low3 (wordBuffer (wordSlots es)).length] ++ (wordOffsets 0 (wordSlots es)).map low3 ++
          wordSlots es).flatMap (fun p => p ++ [0]) := by
      simpa [wordBuffer, List.flatMap_append] using hinf
    have hne : l ≠ [] := by rw [hx]; simp [kEos]
    obtain ⟨q, hq, hlq⟩ := infix_pieces h0 hne _ hall
    have h3 : ∀ n, ¬ l <:+: low3 n := by
      intro n hi
      have := hi.length_le
      rw [hx] at this
      simp [kEos, low3] at this
    have hwd : (32 : UInt8) ∉ q → False := fun hq => hq (hlq.subset (by rw [hx]; simp))
    simp only [List.mem_append, List.mem_cons, List.not_mem_nil, or_false] at hq
    rcases hq with ((rfl | rfl | rfl) | hq) | hq
    · obtain ⟨a, c, hac⟩ := hlq
      rw [hx] at hac
      simp only [kEos, low3] at hac
      rcases a with _ | ⟨a1, _ | ⟨a2, _ | ⟨a3, a⟩⟩⟩
      · simp at hac
      · simp at hac
      · simp at hac
      · have := congrArg List.length hac
        simp at this
        omega
    · exact h3 _ hlq
    · exact h3 _ hlq
    · obtain ⟨o, _, rfl⟩ := List.mem_map.mp hq
      exact h3 _ hlq
    · refine hwd ?_
      rcases wordSlots_mem hq with rfl | ⟨e, he, rfl⟩
      · decide
      · exact hw e he
  · cases hc

-- "<eps> 0", "<s> 1", "</s> 2", "a 4": refused after conversion, read as it is
example : ∃ content, convertWords [([60, 101, 62], 0), (sentBegin, 1), (sentEnd, 2), ([97], 4)] = .ok content ∧
    ∀ t, readSymbols content ≠ .ok t :=
  ⟨_, rfl, C72_converted_words_rejected [([60, 101, 62], 0), (sentBegin, 1), (sentEnd, 2), ([97], 4)] (by decide) rfl
    (by decide +kernel)⟩

/-! ## The word list itself -/

theorem cstr_append_nul {w : Str} (h : (0 : UInt8) ∉ w) (r : Str) : cstr (w ++ 0 :: r) = w := by
  unfold cstr
  induction w with
  | nil => simp
  | cons c w ih =>
    have hc : c ≠ 0 := fun e => h (e ▸ List.mem_cons_self)
    rw [List.cons_append, List.takeWhile_cons_of_pos (by simpa using hc), ih fun k => h (List.mem_cons_of_mem _ k)]

theorem word_at : ∀ (ws : List Str), (∀ w ∈ ws, (0 : UInt8) ∉ w) → ∀ (n i : Nat) (o : Nat), (wordOffsets n ws)[i]? = some o →
    n ≤ o ∧ some (cstr ((wordBuffer ws).drop (o - n))) = ws[i]?
  | [], _, n, i, o, h => by simp [wordOffsets] at h
  | w :: ws, hw, n, i, o, h => by
    have e : wordBuffer (w :: ws) = w ++ 0 :: wordBuffer ws := by simp [wordBuffer]
    unfold wordOffsets at h
    cases i with
    | zero =>
      cases h
      refine ⟨Nat.le_refl _, ?_⟩
      rw [Nat.sub_self, List.drop_zero, e, cstr_append_nul (hw w List.mem_cons_self)]
      rfl
    | succ i =>
      obtain ⟨h1, h2⟩ := word_at ws (fun x hx => hw x (List.mem_cons_of_mem _ hx)) _ i o h
      refine ⟨by omega, ?_⟩
      have : o - n = (w.length + 1) + (o - (n + (w.length + 1))) := by omega
      rw [this, e, ← List.drop_drop]
      have hd : (w ++ 0 :: wordBuffer ws).drop (w.length + 1) = wordBuffer ws := by
        rw [← List.drop_drop, List.drop_left]; rfl
      rw [hd, h2]
      rfl

/-- C72: the file is a section of a count, a buffer's size, an offset per id and a buffer; the C string at an id's
offset in the buffer is the word of the last line with this id, `<empty>` if there is none. -/
theorem C72_word_at_offset (es : List (Str × Nat)) (hw : ∀ e ∈ es, (0 : UInt8) ∉ e.1) {content : Str}
    (hc : convertWords es = .ok content) :
    ∃ (offs : List Nat) (buf : Str), content = [83, 89, 77, 48] ++ encU32 (8 + offs.length * 4 + buf.length) ++
        encU32 offs.length ++ encU32 buf.length ++ offs.flatMap encU32 ++ buf ∧
      (∀ e ∈ es, e.2 < offs.length) ∧
      (∀ a b w i, es = a ++ (w, i) :: b → (∀ q ∈ b, q.2 ≠ i) → ∃ o, offs[i]? = some o ∧ cstr (buf.drop o) = w) ∧
      ∀ i o, offs[i]? = some o → (∀ q ∈ es, q.2 ≠ i) → cstr (buf.drop o) = [60, 101, 109, 112, 116, 121, 62] := by
  have hmax : ∀ (es : List (Str × Nat)) (m : Nat), m ≤ es.foldl (fun m e => if e.2 > m then e.2 else m) m ∧
      ∀ e ∈ es, e.2 ≤ es.foldl (fun m e => if e.2 > m then e.2 else m) m := by
    intro es
    induction es with
    | nil => intro m; exact ⟨Nat.le_refl _, by intro e h; cases h⟩
    | cons p es ih =>
      intro m
      obtain ⟨h1, h2⟩ := ih (if p.2 > m then p.2 else m)
      have hm : m ≤ (if p.2 > m then p.2 else m) ∧ p.2 ≤ (if p.2 > m then p.2 else m) := by split <;> omega
      rw [List.foldl_cons]
      refine ⟨by omega, fun e he => ?_⟩
      rcases List.mem_cons.mp he with he | he
      · rw [he]; omega
      · exact h2 e he
  have hlen : ∀ (es : List (Str × Nat)) (ws : List Str), (es.foldl (fun ws e => ws.set e.2 e.1) ws).length = ws.length := by
    intro es
    induction es with
    | nil => intro ws; rfl
    | cons p es ih => intro ws; rw [List.foldl_cons, ih, List.length_set]
  have hother : ∀ (es : List (Str × Nat)) (ws : List Str) (i : Nat), (∀ q ∈ es, q.2 ≠ i) →
      (es.foldl (fun ws e => ws.set e.2 e.1) ws)[i]? = ws[i]? := by
    intro es
    induction es with
    | nil => intro ws i _; rfl
    | cons p es ih =>
      intro ws i h
      rw [List.foldl_cons, ih _ _ fun q hq => h q (List.mem_cons_of_mem _ hq),
        List.getElem?_set_ne (h p List.mem_cons_self)]
  have hoff : ∀ (ws : List Str) (n : Nat), (wordOffsets n ws).length = ws.length := by
    intro ws
    induction ws with
    | nil => intro n; rfl
    | cons w ws ih => intro n; simp [wordOffsets, ih]
  have hslots : (wordSlots es).length = maxId es + 1 := by
    unfold wordSlots; rw [hlen, List.length_replicate]
  have hle : ∀ e ∈ es, e.2 ≤ maxId es := (hmax es 0).2
  have hnul : ∀ w ∈ wordSlots es, (0 : UInt8) ∉ w := by
    intro w h
    rcases wordSlots_mem h with rfl | ⟨e, he, rfl⟩
    · decide
    · exact hw e he
  unfold convertWords at hc
  simp only at hc
  split at hc
  · cases hc
    refine ⟨_, _, rfl, ?_, ?_, ?_⟩
    · intro e he
      have := hle e he
      rw [hoff, hslots]
      omega
    · intro a b w i e hb
      have hi : i < (wordSlots es).length := by
        have := hle (w, i) (by rw [e]; simp)
        simp only at this
        omega
      have hget : (wordSlots es)[i]? = some w := by
        have hi' : i < (List.replicate (maxId es + 1) emptyWord).length := by rw [List.length_replicate]; omega
        unfold wordSlots
        generalize List.replicate (maxId es + 1) emptyWord = z at hi'
        rw [e, List.foldl_append, List.foldl_cons, hother _ _ _ hb, List.getElem?_set_self (by rw [hlen]; exact hi')]
      have hio : i < (wordOffsets 0 (wordSlots es)).length := by rw [hoff]; exact hi
      refine ⟨_, List.getElem?_eq_getElem hio, ?_⟩
      have := (word_at _ hnul 0 i _ (List.getElem?_eq_getElem hio)).2
      rw [hget, Nat.sub_zero] at this
      exact Option.some.inj this
    · intro i o ho hno
      have hi := (List.getElem?_eq_some_iff.mp ho).1
      rw [hoff, hslots] at hi
      have := (word_at _ hnul 0 i o ho).2
      have hget : (wordSlots es)[i]? = some emptyWord := by
        unfold wordSlots
        rw [hother _ _ _ hno, List.getElem?_replicate, if_pos hi]
      rw [hget, Nat.sub_zero] at this
      exact Option.some.inj this
  · cases hc

-- "b 2", "a 0", "c 2": the last line counts, 1 is empty
example : ∃ content, convertWords [([98], 2), ([97], 0), ([99], 2)] = .ok content ∧
    content.drop 28 = [97, 0] ++ emptyWord ++ [0, 99, 0] ∧
    ∃ (offs : List Nat) (buf : Str) (o : Nat), content = [83, 89, 77, 48] ++ encU32 (8 + offs.length * 4 + buf.length) ++
        encU32 offs.length ++ encU32 buf.length ++ offs.flatMap encU32 ++ buf ∧ offs[2]? = some o ∧ cstr (buf.drop o) = [99] := by
  refine ⟨_, rfl, by decide +kernel, ?_⟩
  obtain ⟨offs, buf, h1, -, h3, -⟩ := C72_word_at_offset [([98], 2), ([97], 0), ([99], 2)] (by decide) rfl
  obtain ⟨o, h4, h5⟩ := h3 [([98], 2), ([97], 0)] [] [99] 2 rfl (by intro q h; cases h)
  exact ⟨offs, buf, o, h1, h4, h5⟩

end Verif.Text
