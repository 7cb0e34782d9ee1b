import Verif.WordsTextModel
import Verif.WordsProps
import Verif.ToolLemmas

/-!
# Property C116: a word list is converted from its text on
-/

namespace Verif.Tool

open Verif Verif.Text

/-! ## Spec -/

/-- The UTF-8 bytes of a text. -/
def utf8Of (w : Txt) : Str := w.flatMap String.utf8EncodeChar

/-- The text lists these words with these numbers: a word and a decimal number on each line. -/
inductive Lists : List Txt → List (Txt × Int) → Prop
  | nil : Lists [] []
  | cons {l w n ls es} : Reads l [w, (toString n).toList] → Lists ls es → Lists (l :: ls) ((w, n) :: es)

/-- `M` is the largest number of the list, at least 0. -/
def Largest (es : List (Txt × Int)) (M : Nat) : Prop :=
  (∀ e ∈ es, e.2 ≤ M) ∧ (M = 0 ∨ ∃ e ∈ es, e.2 = M)

/-- The number `n` of a line means the id `i`: itself, or, negative, counted from the end. -/
def Means (M : Nat) (n : Int) (i : Nat) : Prop := n = i ∨ n < 0 ∧ n + M + 1 = i

/-! ## Lemmas -/

/-- The id of a number. -/
def idOf (M : Nat) (n : Int) : Nat := if n < 0 then (n + M + 1).toNat else n.toNat

theorem idOf_means {M : Nat} {n : Int} {i : Nat} (h : Means M n i) : idOf M n = i := by
  unfold idOf
  rcases h with h | ⟨h1, h2⟩
  · rw [if_neg (by omega)]; omega
  · rw [if_pos h1]; omega

theorem means_idOf {M : Nat} {n : Int} (h : -((M : Int) + 1) ≤ n) : Means M n (idOf M n) := by
  unfold idOf Means
  split <;> omega

theorem letter_digits : ∀ (n : Nat) {l : Txt}, (∃ c ∈ l, 'a' ≤ c ∧ c ≤ 'z') → digits n l = none
  | _, [], ⟨_, h, _⟩ => by cases h
  | n, d :: l, ⟨c, hc, h1, h2⟩ => by
    unfold digits
    split
    · rename_i hd
      rcases List.mem_cons.mp hc with rfl | hc
      · have : 97 ≤ c.toNat := h1
        omega
      · exact letter_digits _ ⟨c, hc, h1, h2⟩
    · rfl

theorem letter_pyInt {x : Txt} (hw : IsWord x) (h : ∃ c ∈ x, 'a' ≤ c ∧ c ≤ 'z') : pyInt x = none := by
  unfold pyInt
  rw [strip_of_word hw]
  cases x with
  | nil => rfl
  | cons d l =>
    simp only
    split
    · rename_i hd
      split
      · rfl
      · rw [letter_digits, Option.map_none]
        obtain ⟨c, hc, h1, h2⟩ := h
        rcases List.mem_cons.mp hc with rfl | hc
        · rw [hd] at h1; exact absurd h1 (by decide)
        · exact ⟨c, hc, h1, h2⟩
    · split
      · rename_i hd
        split
        · rfl
        · rw [letter_digits, Option.map_none]
          obtain ⟨c, hc, h1, h2⟩ := h
          rcases List.mem_cons.mp hc with rfl | hc
          · rw [hd] at h1; exact absurd h1 (by decide)
          · exact ⟨c, hc, h1, h2⟩
      · rw [letter_digits 0 h, Option.map_none]

/-- A byte below 128 in the encoding of a character is the character. -/
theorem encode_low {c : Char} {b : UInt8} (hb : b.toNat < 128) (h : b ∈ String.utf8EncodeChar c) : c.toNat = b.toNat := by
  unfold String.utf8EncodeChar at h
  have no : ∀ k : Nat, 128 ≤ k → k < 256 → b ≠ UInt8.ofNat k := fun k h1 h2 e => by
    rw [e, UInt8.toNat_ofNat', Nat.mod_eq_of_lt h2] at hb
    omega
  simp only at h
  have hv : c.val.toNat = c.toNat := rfl
  rw [hv] at h
  generalize c.toNat = v at h
  split at h
  · rw [List.mem_singleton] at h
    rw [h, UInt8.toNat_ofNat', Nat.mod_eq_of_lt (by omega)]
  · exfalso
    split at h
    · simp only [List.mem_cons, List.not_mem_nil, or_false] at h
      rcases h with h | h <;> exact no _ (by omega) (by omega) h
    · split at h
      · simp only [List.mem_cons, List.not_mem_nil, or_false] at h
        rcases h with h | h | h <;> exact no _ (by omega) (by omega) h
      · simp only [List.mem_cons, List.not_mem_nil, or_false] at h
        rcases h with h | h | h | h <;> exact no _ (by omega) (by omega) h

/-- No byte below 128 gets into a text from elsewhere. -/
theorem utf8_low {w : Txt} {b : UInt8} (hb : b.toNat < 128) (h : b ∈ utf8Of w) : ∃ c ∈ w, c.toNat = b.toNat := by
  unfold utf8Of at h
  obtain ⟨c, hc, h⟩ := List.mem_flatMap.mp h
  exact ⟨c, hc, encode_low hb h⟩

theorem wordLine_ok {l w : Txt} {n : Int} (h : Reads l [w, (toString n).toList]) : wordLine l = .ok (w, n) := by
  unfold wordLine
  rw [fields_strip, fields_of_reads h]
  simp only
  rw [(pyInt_int n).2]

theorem wordLines_ok : ∀ {lines : List Txt} {es : List (Txt × Int)}, Lists lines es → lines.mapM wordLine = .ok es
  | [], _, h => by cases h; rfl
  | l :: ls, _, h => by
    cases h with
    | cons h1 h2 =>
      rw [List.mapM_cons, wordLine_ok h1, ok_bind, wordLines_ok h2, ok_bind]
      rfl

theorem reads_word : ∀ {l : Txt} {ws : List Txt}, Reads l ws → ∀ w ∈ ws, IsWord w
  | _, _, .nil _, w, h => by cases h
  | _, _, .cons _ hw _ hr, w, h => by
    rcases List.mem_cons.mp h with rfl | h
    · exact hw
    · exact reads_word hr w h

theorem lists_word : ∀ {lines : List Txt} {es : List (Txt × Int)}, Lists lines es → ∀ e ∈ es, IsWord e.1
  | [], _, h, e, he => by cases h; cases he
  | l :: ls, _, h, e, he => by
    cases h with
    | cons h1 h2 =>
      rcases List.mem_cons.mp he with rfl | he
      · exact reads_word h1 _ List.mem_cons_self
      · exact lists_word h2 e he

theorem maxIdx_from : ∀ (es : List (Txt × Int)) (m : Int),
    m ≤ es.foldl (fun m e => if e.2 > m then e.2 else m) m ∧
    (∀ e ∈ es, e.2 ≤ es.foldl (fun m e => if e.2 > m then e.2 else m) m) ∧
    (es.foldl (fun m e => if e.2 > m then e.2 else m) m = m ∨
      ∃ e ∈ es, e.2 = es.foldl (fun m e => if e.2 > m then e.2 else m) m)
  | [], m => ⟨Int.le_refl _, (fun e h => by cases h), .inl rfl⟩
  | e :: es, m => by
    simp only [List.foldl_cons]
    obtain ⟨i1, i2, i3⟩ := maxIdx_from es (if e.2 > m then e.2 else m)
    have hm : m ≤ (if e.2 > m then e.2 else m) ∧ e.2 ≤ (if e.2 > m then e.2 else m) ∧
      ((if e.2 > m then e.2 else m) = m ∨ (if e.2 > m then e.2 else m) = e.2) := by split <;> omega
    refine ⟨by omega, fun x hx => ?_, ?_⟩
    · rcases List.mem_cons.mp hx with rfl | hx
      · omega
      · exact i2 x hx
    · rcases i3 with i3 | ⟨x, hx, i3⟩
      · rcases hm.2.2 with h | h
        · left; omega
        · right; exact ⟨e, List.mem_cons_self, by omega⟩
      · right; exact ⟨x, List.mem_cons_of_mem _ hx, i3⟩

theorem maxId_from : ∀ (es : List (Str × Nat)) (m : Nat),
    m ≤ es.foldl (fun m e => if e.2 > m then e.2 else m) m ∧
    (∀ e ∈ es, e.2 ≤ es.foldl (fun m e => if e.2 > m then e.2 else m) m) ∧
    (es.foldl (fun m e => if e.2 > m then e.2 else m) m = m ∨
      ∃ e ∈ es, e.2 = es.foldl (fun m e => if e.2 > m then e.2 else m) m)
  | [], m => ⟨Nat.le_refl _, (fun e h => by cases h), .inl rfl⟩
  | e :: es, m => by
    simp only [List.foldl_cons]
    obtain ⟨i1, i2, i3⟩ := maxId_from es (if e.2 > m then e.2 else m)
    have hm : m ≤ (if e.2 > m then e.2 else m) ∧ e.2 ≤ (if e.2 > m then e.2 else m) ∧
      ((if e.2 > m then e.2 else m) = m ∨ (if e.2 > m then e.2 else m) = e.2) := by split <;> omega
    refine ⟨by omega, fun x hx => ?_, ?_⟩
    · rcases List.mem_cons.mp hx with rfl | hx
      · omega
      · exact i2 x hx
    · rcases i3 with i3 | ⟨x, hx, i3⟩
      · rcases hm.2.2 with h | h
        · left; omega
        · right; exact ⟨e, List.mem_cons_self, by omega⟩
      · right; exact ⟨x, List.mem_cons_of_mem _ hx, i3⟩

theorem maxIdx_largest {es : List (Txt × Int)} {M : Nat} (h : Largest es M) : maxIdx es = M := by
  obtain ⟨i1, i2, i3⟩ := maxIdx_from es 0
  obtain ⟨h1, h2⟩ := h
  unfold maxIdx
  generalize es.foldl (fun m e => if e.2 > m then e.2 else m) 0 = m at i1 i2 i3
  have a : m ≤ M := by
    rcases i3 with rfl | ⟨e, he, rfl⟩
    · omega
    · exact h1 e he
  rcases h2 with rfl | ⟨e, he, h2⟩
  · omega
  · have := i2 e he
    omega

theorem maxId_largest {es : List (Txt × Int)} {M : Nat} (h : Largest es M) :
    maxId (es.map fun e => (utf8Of e.1, idOf M e.2)) = M := by
  obtain ⟨i1, i2, i3⟩ := maxId_from (es.map fun e => (utf8Of e.1, idOf M e.2)) 0
  obtain ⟨h1, h2⟩ := h
  unfold maxId
  generalize (es.map fun e => (utf8Of e.1, idOf M e.2)).foldl (fun m e => if e.2 > m then e.2 else m) 0 = m at i1 i2 i3
  have a : m ≤ M := by
    rcases i3 with rfl | ⟨x, hx, rfl⟩
    · omega
    · obtain ⟨e, he, rfl⟩ := List.mem_map.mp hx
      have := h1 e he
      show idOf M e.2 ≤ M
      unfold idOf
      split <;> omega
  rcases h2 with rfl | ⟨e, he, h2⟩
  · omega
  · have : idOf M e.2 ≤ m := i2 _ (List.mem_map_of_mem he)
    unfold idOf at this
    split at this <;> omega

theorem slots_int {M : Nat} : ∀ (es : List (Txt × Int)) (ws : List Txt), ws.length = M + 1 →
    (∀ e ∈ es, e.2 ≤ M) → (∀ e ∈ es, -((M : Int) + 1) ≤ e.2) →
    es.foldlM (fun ws e => pySet ws e.2 e.1) ws = .ok (es.foldl (fun ws e => ws.set (idOf M e.2) e.1) ws)
  | [], ws, _, _, _ => rfl
  | e :: es, ws, hl, h1, h2 => by
    rw [List.foldlM_cons]
    have g1 := h1 e List.mem_cons_self
    have g2 := h2 e List.mem_cons_self
    have : pySet ws e.2 e.1 = .ok (ws.set (idOf M e.2) e.1) := by
      unfold pySet idOf
      rw [hl]
      by_cases h0 : 0 ≤ e.2
      · rw [if_pos h0, if_pos (by omega), if_neg (by omega)]
      · rw [if_neg h0, if_pos (by omega), if_pos (by omega)]
        congr 3
        omega
    rw [this, ok_bind]
    exact slots_int es _ (by rw [List.length_set, hl]) (fun x hx => h1 x (List.mem_cons_of_mem _ hx))
      fun x hx => h2 x (List.mem_cons_of_mem _ hx)

theorem slots_low {M : Nat} : ∀ (es : List (Txt × Int)) (ws : List Txt), ws.length = M + 1 →
    (∃ e ∈ es, e.2 < -((M : Int) + 1)) → es.foldlM (fun ws e => pySet ws e.2 e.1) ws = .error .throw
  | [], ws, _, ⟨_, h, _⟩ => by cases h
  | e :: es, ws, hl, ⟨x, hx, h⟩ => by
    rw [List.foldlM_cons]
    have hp : pySet ws e.2 e.1 = .error .throw ∨ ∃ i, pySet ws e.2 e.1 = .ok (ws.set i e.1) ∧ -((M : Int) + 1) ≤ e.2 := by
      unfold pySet
      rw [hl]
      split
      · split
        · exact .inr ⟨_, rfl, by omega⟩
        · exact .inl rfl
      · split
        · exact .inr ⟨_, rfl, by omega⟩
        · exact .inl rfl
    rcases hp with hp | ⟨i, hp, hi⟩
    · rw [hp]; rfl
    · rw [hp, ok_bind]
      refine slots_low es _ (by rw [List.length_set, hl]) ?_
      rcases List.mem_cons.mp hx with rfl | hx
      · omega
      · exact ⟨x, hx, h⟩

theorem sets_map (M : Nat) (es : List (Txt × Int)) (ws : List Txt) :
    (es.foldl (fun ws e => ws.set (idOf M e.2) e.1) ws).map utf8Of =
      (es.map fun e => (utf8Of e.1, idOf M e.2)).foldl (fun ws e => ws.set e.2 e.1) (ws.map utf8Of) := by
  induction es generalizing ws with
  | nil => rfl
  | cons e es ih =>
    simp only [List.map_cons, List.foldl_cons]
    rw [ih, List.map_set]

theorem sets_words {P : Txt → Prop} (M : Nat) (es : List (Txt × Int)) (ws : List Txt) (h1 : ∀ w ∈ ws, P w) (h2 : ∀ e ∈ es, P e.1) :
    ∀ w ∈ es.foldl (fun ws e => ws.set (idOf M e.2) e.1) ws, P w := by
  induction es generalizing ws with
  | nil => exact h1
  | cons e es ih =>
    simp only [List.foldl_cons]
    refine ih _ (fun w hw => ?_) fun e he => h2 e (List.mem_cons_of_mem _ he)
    rcases List.mem_or_eq_of_mem_set hw with hw | rfl
    · exact h1 w hw
    · exact h2 e List.mem_cons_self

theorem wordBytes_word {w : Txt} (h : IsWord w) : wordBytes w = utf8Of w ++ [0] := by
  unfold wordBytes utf8Of
  rw [strip_of_word h, List.flatMap_append]
  rfl

theorem bufferLoop_ok : ∀ (ws : List Txt) (b : Str) (o : List Nat) (n : Nat), (∀ w ∈ ws, IsWord w) →
    bufferLoop ws (b, o, n) = (b ++ wordBuffer (ws.map utf8Of), o ++ wordOffsets n (ws.map utf8Of),
      n + (wordBuffer (ws.map utf8Of)).length)
  | [], b, o, n, _ => by simp [bufferLoop, wordBuffer, wordOffsets]
  | w :: ws, b, o, n, h => by
    have e := wordBytes_word (h w List.mem_cons_self)
    unfold bufferLoop
    rw [bufferLoop_ok ws _ _ _ fun x hx => h x (List.mem_cons_of_mem _ hx)]
    simp only [e, List.map_cons, wordBuffer, wordOffsets, List.flatMap_cons, List.length_append, List.length_cons,
      List.length_nil, List.append_assoc, List.cons_append, List.nil_append]
    congr 2
    omega

theorem offsets_below : ∀ (ws : List Str) (n : Nat), ∀ o ∈ wordOffsets n ws, o ≤ n + (wordBuffer ws).length
  | [], _, o, h => by cases h
  | w :: ws, n, o, h => by
    unfold wordOffsets at h
    rcases List.mem_cons.mp h with rfl | h
    · omega
    · have := offsets_below ws _ o h
      unfold wordBuffer at this ⊢
      rw [List.flatMap_cons, List.length_append, List.length_append, List.length_singleton]
      omega

theorem packs_ok : ∀ {os : List Nat}, (∀ o ∈ os, o < 2147483648) → os.mapM packI = .ok (os.map encU32)
  | [], _ => rfl
  | o :: os, h => by
    rw [List.mapM_cons]
    rw [show packI o = .ok (encU32 o) from if_pos (h o List.mem_cons_self), ok_bind, packs_ok fun x hx => h x (List.mem_cons_of_mem _ hx), ok_bind]
    rfl

/-- From the pairs on the program is the one of `WordsModel.lean`. -/
theorem convert_ok {lines : List Txt} {es : List (Txt × Int)} {M : Nat} (h : Lists lines es) (hM : Largest es M)
    (hr : ∀ e ∈ es, -((M : Int) + 1) ≤ e.2) :
    convertWordsText lines = convertWords (es.map fun e => (utf8Of e.1, idOf M e.2)) := by
  have hw : ∀ e ∈ es, IsWord e.1 := lists_word h
  unfold convertWordsText slotsOf
  rw [wordLines_ok h, ok_bind, maxIdx_largest hM, show ((M : Int) + 1).toNat = M + 1 by omega,
    slots_int es _ List.length_replicate hM.1 hr, ok_bind]
  have hws : ∀ w ∈ es.foldl (fun ws e => ws.set (idOf M e.2) e.1) (List.replicate (M + 1) tEmpty), IsWord w :=
    sets_words M es _ (fun w hw => by rw [List.eq_of_mem_replicate hw]; decide) hw
  have hmap : (es.foldl (fun ws e => ws.set (idOf M e.2) e.1) (List.replicate (M + 1) tEmpty)).map utf8Of =
      wordSlots (es.map fun e => (utf8Of e.1, idOf M e.2)) := by
    rw [sets_map, List.map_replicate, show utf8Of tEmpty = emptyWord from by decide]
    unfold wordSlots
    rw [maxId_largest hM]
  simp only
  rw [bufferLoop_ok _ _ _ _ hws, hmap]
  unfold convertWords
  simp only [List.nil_append, Nat.zero_add]
  rw [show cassert (decide True) = .ok () from rfl, ok_bind]
  generalize wordSlots (es.map fun e => (utf8Of e.1, idOf M e.2)) = ws
  by_cases hb : 8 + (wordOffsets 0 ws).length * 4 + (wordBuffer ws).length < 2147483648
  · rw [if_pos hb, show packI (8 + (wordOffsets 0 ws).length * 4 + (wordBuffer ws).length) = _ from if_pos hb, ok_bind,
      show packI (wordOffsets 0 ws).length = _ from if_pos (by omega), ok_bind,
      show packI (wordBuffer ws).length = _ from if_pos (by omega), ok_bind,
      packs_ok (os := wordOffsets 0 ws) (fun o ho => by
        have := offsets_below ws 0 o ho
        omega), ok_bind, List.flatMap_def]
  · rw [if_neg hb, show packI (8 + (wordOffsets 0 ws).length * 4 + (wordBuffer ws).length) = _ from if_neg hb]
    rfl

/-! ## The properties -/

/-- C116: the file made of a list of words is a section of a count, a buffer's size, an offset per id and a buffer; the C
string at an id's offset is the UTF-8 of the word of the last line whose number means this id, `<empty>` if there is none. -/
theorem C116_table {lines : List Txt} {es : List (Txt × Int)} {M : Nat} (h : Lists lines es) (hM : Largest es M)
    (hr : ∀ e ∈ es, -((M : Int) + 1) ≤ e.2) (hz : ∀ e ∈ es, '\x00' ∉ e.1) {content : Str}
    (hc : convertWordsText lines = .ok content) :
    ∃ (offs : List Nat) (buf : Str), content = [83, 89, 77, 48] ++ encU32 (8 + offs.length * 4 + buf.length) ++
        encU32 offs.length ++ encU32 buf.length ++ offs.flatMap encU32 ++ buf ∧
      (∀ a b w n i, es = a ++ (w, n) :: b → Means M n i → (∀ q ∈ b, ¬ Means M q.2 i) →
        ∃ o, offs[i]? = some o ∧ cstr (buf.drop o) = utf8Of w) ∧
      ∀ i o, offs[i]? = some o → (∀ q ∈ es, ¬ Means M q.2 i) → cstr (buf.drop o) = utf8Of "<empty>".toList := by
  rw [convert_ok h hM hr] at hc
  obtain ⟨offs, buf, h1, -, h3, h4⟩ := C72_word_at_offset _ (fun e he h0 => by
    obtain ⟨x, hx, rfl⟩ := List.mem_map.mp he
    obtain ⟨c, hc, hn⟩ := utf8_low (by decide) h0
    have : c = '\x00' := Char.toNat_inj.mp hn
    exact hz x hx (this ▸ hc)) hc
  refine ⟨offs, buf, h1, ?_, ?_⟩
  · intro a b w n i e hm hb
    have hmap : es.map (fun e => (utf8Of e.1, idOf M e.2)) = a.map (fun e => (utf8Of e.1, idOf M e.2)) ++
        (utf8Of w, i) :: b.map (fun e => (utf8Of e.1, idOf M e.2)) := by
      rw [e, List.map_append, List.map_cons, idOf_means hm]
    refine h3 _ _ _ i hmap fun q hq => ?_
    obtain ⟨x, hx, rfl⟩ := List.mem_map.mp hq
    rintro rfl
    exact hb x hx (means_idOf (hr x (by rw [e]; exact List.mem_append_right _ (List.mem_cons_of_mem _ hx))))
  · intro i o ho hn
    refine h4 i o ho fun q hq => ?_
    obtain ⟨x, hx, rfl⟩ := List.mem_map.mp hq
    rintro rfl
    exact hn x hx (means_idOf (hr x hx))

/-- C116: a line that does not hold two fields ends the program, wherever it is: a blank last line too.  So does a second field
with a letter in it. -/
theorem C116_refused {lines : List Txt} {l : Txt} {ws : List Txt} (hl : l ∈ lines) (h : Reads l ws)
    (hb : ws.length ≠ 2 ∨ ∃ w x, ws = [w, x] ∧ ∃ c ∈ x, 'a' ≤ c ∧ c ≤ 'z') :
    convertWordsText lines = .error .throw := by
  have h1 : wordLine l = .error .throw := by
    unfold wordLine
    rw [fields_strip, fields_of_reads h]
    rcases hb with hb | ⟨w, x, rfl, hx⟩
    · split
      · exact absurd rfl hb
      · rfl
    · simp only
      rw [letter_pyInt (reads_word h x (by simp)) hx]
  have ht : ∀ l e, wordLine l = .error e → e = .throw := by
    intro l e he
    unfold wordLine at he
    split at he
    · split at he
      · cases he
      · cases he; rfl
    · cases he; rfl
  have h2 : ∀ ls : List Txt, l ∈ ls → ls.mapM wordLine = .error .throw := by
    intro ls
    induction ls with
    | nil => intro h; cases h
    | cons a ls ih =>
      intro hm
      rw [List.mapM_cons]
      cases ha : wordLine a with
      | error e => rw [ht a e ha]; rfl
      | ok y =>
        rw [ok_bind]
        rcases List.mem_cons.mp hm with rfl | hm
        · rw [h1] at ha; cases ha
        · rw [ih hm]; rfl
  unfold convertWordsText
  rw [h2 lines hl]
  rfl

/-- C116: a number below minus the length of the table ends the program. -/
theorem C116_too_negative {lines : List Txt} {es : List (Txt × Int)} {M : Nat} (h : Lists lines es) (hM : Largest es M)
    (hr : ∃ e ∈ es, e.2 < -((M : Int) + 1)) : convertWordsText lines = .error .throw := by
  unfold convertWordsText slotsOf
  rw [wordLines_ok h, ok_bind, maxIdx_largest hM, show ((M : Int) + 1).toNat = M + 1 by omega,
    slots_low es _ List.length_replicate hr]
  rfl

/-- C116: the reader of word lists of the library refuses every file made (below 16 MiB). -/
theorem C116_rejected {lines : List Txt} {es : List (Txt × Int)} {M : Nat} (h : Lists lines es) (hM : Largest es M)
    (hr : ∀ e ∈ es, -((M : Int) + 1) ≤ e.2) {content : Str} (hc : convertWordsText lines = .ok content)
    (hn : content.length < 16777216) (t : Symbols) : readSymbols content ≠ .ok t := by
  rw [convert_ok h hM hr] at hc
  refine C72_converted_words_rejected _ (fun e he h0 => ?_) hc hn t
  obtain ⟨x, hx, rfl⟩ := List.mem_map.mp he
  obtain ⟨c, hcx, hn⟩ := utf8_low (by decide) h0
  have : c = ' ' := Char.toNat_inj.mp hn
  exact (lists_word h x hx).2 c hcx (by rw [this]; decide)

/-! ## A list: `hé 1`, `a 0`, and a negative number -/

theorem demo_reads (w : Txt) (n : Int) (hw : IsWord w) : Reads (w ++ ' ' :: (toString n).toList) [w, (toString n).toList] := by
  refine Reads.cons (s := []) (w := w) Blank.nil hw (by intro c h; cases h; decide) ?_
  have := Reads.cons (s := [' ']) (w := (toString n).toList) (rest := []) (by decide) (pyInt_int n).1
    (by intro c h; cases h) (.nil Blank.nil)
  rw [List.append_nil] at this
  exact this

/-- The lines `hé 1`, `a 0`, `b -1`. -/
def demoText : List Txt := ["hé 1".toList, "a 0".toList, "b -1".toList]

/-- What they list. -/
def demoList : List (Txt × Int) := [("hé".toList, 1), ("a".toList, 0), ("b".toList, -1)]

theorem demo_lists : Lists demoText demoList :=
  .cons (demo_reads "hé".toList 1 (by decide)) (.cons (demo_reads "a".toList 0 (by decide))
    (.cons ((show "b".toList ++ ' ' :: (toString (-1 : Int)).toList = "b -1".toList by decide +kernel) ▸
      demo_reads "b".toList (-1) (by decide)) .nil))

theorem demo_largest : Largest demoList 1 := ⟨by decide, .inr ⟨_, List.mem_cons_self, rfl⟩⟩

/-- C116 is not what a user of the list means: the line `b -1` silently replaces the word of the largest id. -/
theorem C116_negative_overwrites : ∃ content, convertWordsText demoText = .ok content ∧
    content.drop 24 = utf8Of "a".toList ++ [0] ++ utf8Of "b".toList ++ [0] := by
  refine ⟨_, by rw [convert_ok demo_lists demo_largest (by decide)]; rfl, by decide +kernel⟩

example : ∃ content, convertWordsText demoText = .ok content ∧ ∃ (offs : List Nat) (buf : Str) (o : Nat),
    content = [83, 89, 77, 48] ++ encU32 (8 + offs.length * 4 + buf.length) ++
      encU32 offs.length ++ encU32 buf.length ++ offs.flatMap encU32 ++ buf ∧
    offs[1]? = some o ∧ cstr (buf.drop o) = utf8Of "b".toList ∧ ∀ t, readSymbols content ≠ .ok t := by
  obtain ⟨content, h, -⟩ := C116_negative_overwrites
  obtain ⟨offs, buf, h1, h2, -⟩ := C116_table demo_lists demo_largest (by decide) (by decide) h
  obtain ⟨o, h3, h4⟩ := h2 [("hé".toList, 1), ("a".toList, 0)] [] "b".toList (-1) 1 rfl (.inr (by decide)) (by simp)
  refine ⟨content, h, offs, buf, o, h1, h3, h4, C116_rejected demo_lists demo_largest (by decide) h ?_⟩
  rw [convert_ok demo_lists demo_largest (by decide)] at h
  rw [← Except.ok.inj h]
  decide +kernel

-- a blank last line; a number that is none; a number too negative
example : convertWordsText (demoText ++ [['\n']]) = .error .throw :=
  C116_refused (l := ['\n']) (ws := []) (by decide) (.nil (by decide)) (.inl (by decide))
example : convertWordsText ["a b".toList] = .error .throw :=
  C116_refused (l := "a b".toList) (ws := [['a'], ['b']]) List.mem_cons_self
    (.cons (s := []) (w := ['a']) (rest := [' ', 'b']) Blank.nil (by decide) (by decide)
      (.cons (s := [' ']) (w := ['b']) (rest := []) (by decide) (by decide) (by decide) (.nil Blank.nil)))
    (.inr ⟨_, _, rfl, 'b', by decide, by decide⟩)
example : convertWordsText ["a -2".toList] = .error .throw :=
  C116_too_negative (es := [("a".toList, -2)]) (M := 0) (.cons
    ((show "a".toList ++ ' ' :: (toString (-2 : Int)).toList = "a -2".toList by decide +kernel) ▸
      demo_reads "a".toList (-2) (by decide)) .nil)
    ⟨by decide, .inl rfl⟩ ⟨_, List.mem_cons_self, by decide⟩

end Verif.Tool
