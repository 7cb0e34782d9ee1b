import Verif.ToolSpec

/-!
# Lemmas about the texts
-/

namespace Verif.Tool

open Verif

theorem white_iff (c : Char) : white c = true ↔ IsWhite c := by
  unfold white IsWhite
  generalize c.toNat = n
  simp only [Bool.or_eq_true, Bool.and_eq_true, decide_eq_true_eq, beq_iff_eq, List.mem_cons, List.not_mem_nil, or_false]
  omega

theorem not_white_iff (c : Char) : white c = false ↔ ¬ IsWhite c := by
  rw [← white_iff]; simp

theorem Blank.nil : Blank [] := by intro c h; cases h

theorem Blank.append {a b : Txt} (ha : Blank a) (hb : Blank b) : Blank (a ++ b) := by
  intro c h
  rcases List.mem_append.mp h with h | h
  · exact ha c h
  · exact hb c h

/-! ## Fields -/

theorem fieldsFrom_blank : ∀ {s : Txt} (_ : Blank s) (r : Txt), fieldsFrom [] (s ++ r) = fieldsFrom [] r
  | [], _, r => rfl
  | c :: s, h, r => by
    have hc : white c = true := (white_iff c).mpr (h c List.mem_cons_self)
    have hs : Blank s := fun x hx => h x (List.mem_cons_of_mem _ hx)
    rw [List.cons_append, fieldsFrom, if_pos hc, if_pos rfl]
    exact fieldsFrom_blank hs r

theorem fieldsFrom_word : ∀ {w : Txt} (_ : ∀ c ∈ w, ¬ IsWhite c) (cur r : Txt),
    fieldsFrom cur (w ++ r) = fieldsFrom (cur ++ w) r
  | [], _, cur, r => by simp
  | c :: w, h, cur, r => by
    have hc : ¬ white c = true := fun e => h c List.mem_cons_self ((white_iff c).mp e)
    rw [List.cons_append, fieldsFrom, if_neg hc, fieldsFrom_word (fun x hx => h x (List.mem_cons_of_mem _ hx))]
    simp

theorem fieldsFrom_end {cur r : Txt} (hc : cur ≠ []) (hr : ∀ c ∈ r.head?, IsWhite c) :
    fieldsFrom cur r = cur :: fieldsFrom [] r := by
  cases r with
  | nil => simp [fieldsFrom, hc]
  | cons c r =>
    have : white c = true := (white_iff c).mpr (hr c rfl)
    rw [fieldsFrom, if_pos this, if_neg hc, fieldsFrom, if_pos this, if_pos rfl]

theorem fields_of_reads {l : Txt} {ws : List Txt} (h : Reads l ws) : fields l = ws := by
  unfold fields
  induction h with
  | nil hs =>
    have := fieldsFrom_blank hs []
    rw [List.append_nil] at this
    rw [this]; rfl
  | cons hs hw hr _ ih =>
    rw [List.append_assoc, fieldsFrom_blank hs, fieldsFrom_word hw.2, List.nil_append, fieldsFrom_end hw.1 hr, ih]

theorem Reads.blank_append {a l : Txt} {ws : List Txt} (ha : Blank a) (h : Reads l ws) : Reads (a ++ l) ws := by
  cases h with
  | nil hs => exact .nil (ha.append hs)
  | cons hs hw hr h =>
    rename_i s w rest ws
    have := Reads.cons (ha.append hs) hw hr h
    simpa only [List.append_assoc] using this

theorem Reads.append_blank {b l : Txt} {ws : List Txt} (hb : Blank b) (h : Reads l ws) : Reads (l ++ b) ws := by
  induction h with
  | nil hs => exact .nil (hs.append hb)
  | cons hs hw hr _ ih =>
    rename_i s w rest ws _
    have : ∀ c ∈ (rest ++ b).head?, IsWhite c := by
      cases rest with
      | nil =>
        intro c h
        cases b with
        | nil => cases h
        | cons x b =>
          have : x = c := by simpa using h
          exact this ▸ hb x List.mem_cons_self
      | cons x rest => exact hr
    have := Reads.cons hs hw this ih
    simpa only [List.append_assoc] using this

theorem reads_fieldsFrom : ∀ (l cur : Txt), (∀ c ∈ cur, ¬ IsWhite c) → Reads (cur ++ l) (fieldsFrom cur l)
  | [], cur, hc => by
    unfold fieldsFrom
    split
    · rename_i h; subst h; exact .nil Blank.nil
    · rename_i h
      have := Reads.cons (s := []) (rest := []) Blank.nil ⟨h, hc⟩ (by intro c h; cases h) (.nil Blank.nil)
      simpa using this
  | c :: l, cur, hc => by
    unfold fieldsFrom
    split
    · rename_i hw
      have hw := (white_iff c).mp hw
      have ih := reads_fieldsFrom l [] (by intro x h; cases h)
      have ih' : Reads (c :: l) (fieldsFrom [] l) :=
        Reads.blank_append (a := [c]) (by intro x h; rw [List.mem_singleton.mp h]; exact hw) ih
      split
      · rename_i h; subst h; exact ih'
      · rename_i h
        have := Reads.cons (s := []) (rest := c :: l) Blank.nil ⟨h, hc⟩
          (by intro x h; cases h; exact hw) ih'
        simpa using this
    · rename_i hw
      have := reads_fieldsFrom l (cur ++ [c]) (by
        intro x h
        rcases List.mem_append.mp h with h | h
        · exact hc x h
        · rw [List.mem_singleton.mp h]; exact fun e => hw ((white_iff c).mpr e))
      simpa using this

theorem reads_fields (l : Txt) : Reads l (fields l) := reads_fieldsFrom l [] (by intro x h; cases h)

theorem Reads.words {l : Txt} {ws : List Txt} (h : Reads l ws) : ∀ w ∈ ws, IsWord w := by
  induction h with
  | nil _ => intro w h; cases h
  | cons _ hw _ _ ih =>
    intro w h
    rcases List.mem_cons.mp h with h | h
    · exact h ▸ hw
    · exact ih w h

/-! ## Stripping -/

theorem dropWhile_white : ∀ l : Txt, ∃ a, l = a ++ l.dropWhile white ∧ Blank a ∧
    ∀ c ∈ (l.dropWhile white).head?, ¬ IsWhite c
  | [] => ⟨[], rfl, Blank.nil, by intro c h; cases h⟩
  | c :: l => by
    by_cases hc : white c = true
    · obtain ⟨a, e, ha, hh⟩ := dropWhile_white l
      rw [List.dropWhile_cons_of_pos hc]
      refine ⟨c :: a, by rw [List.cons_append, ← e], ?_, hh⟩
      intro x hx
      rcases List.mem_cons.mp hx with h | h
      · exact h ▸ (white_iff c).mp hc
      · exact ha x h
    · rw [List.dropWhile_cons_of_neg hc]
      exact ⟨[], rfl, Blank.nil, by intro x h; cases h; exact fun e => hc ((white_iff c).mpr e)⟩

theorem strip_spec (l : Txt) : ∃ a b, l = a ++ strip l ++ b ∧ Blank a ∧ Blank b ∧
    (∀ c ∈ (strip l).head?, ¬ IsWhite c) ∧ ∀ c ∈ (strip l).getLast?, ¬ IsWhite c := by
  obtain ⟨a, e, ha, hh⟩ := dropWhile_white l
  obtain ⟨b, e', hb, hh'⟩ := dropWhile_white (l.dropWhile white).reverse
  have e2 : l.dropWhile white = strip l ++ b.reverse := by
    have := congrArg List.reverse e'
    rwa [List.reverse_reverse, List.reverse_append] at this
  refine ⟨a, b.reverse, by rw [List.append_assoc, ← e2, ← e], ha, ?_, ?_, ?_⟩
  · intro c h; exact hb c (List.mem_reverse.mp h)
  · intro c h
    apply hh c
    rw [e2]
    revert h
    cases strip l with
    | nil => intro h; cases h
    | cons x m => exact id
  · intro c h
    apply hh' c
    unfold strip at h
    rwa [List.getLast?_reverse] at h

theorem strip_says {l : Txt} (h : strip l ≠ []) : Says l (strip l) := by
  obtain ⟨a, b, e, ha, hb, h1, h2⟩ := strip_spec l
  exact ⟨a, b, e, ha, hb, h, h1, h2⟩

theorem blank_of_strip {l : Txt} (h : strip l = []) : Blank l := by
  obtain ⟨a, b, e, ha, hb, -, -⟩ := strip_spec l
  rw [h, List.append_nil] at e
  rw [e]; exact ha.append hb

theorem dropWhile_blank {a : Txt} (ha : Blank a) (r : Txt) : (a ++ r).dropWhile white = r.dropWhile white := by
  induction a with
  | nil => rfl
  | cons c a ih =>
    rw [List.cons_append, List.dropWhile_cons_of_pos ((white_iff c).mpr (ha c List.mem_cons_self))]
    exact ih fun x hx => ha x (List.mem_cons_of_mem _ hx)

theorem dropWhile_head {r : Txt} (h : ∀ c ∈ r.head?, ¬ IsWhite c) : r.dropWhile white = r := by
  cases r with
  | nil => rfl
  | cons c r => exact List.dropWhile_cons_of_neg fun e => h c rfl ((white_iff c).mp e)

theorem strip_of_says {l m : Txt} (h : Says l m) : strip l = m := by
  obtain ⟨a, b, e, ha, hb, hn, h1, h2⟩ := h
  have hmb : (m ++ b).dropWhile white = m ++ b := by
    apply dropWhile_head
    cases m with
    | nil => exact absurd rfl hn
    | cons x m => exact h1
  unfold strip
  rw [e, List.append_assoc, dropWhile_blank ha, hmb, List.reverse_append,
    dropWhile_blank (fun c h => hb c (List.mem_reverse.mp h)), dropWhile_head (by rwa [List.head?_reverse]),
    List.reverse_reverse]

theorem strip_of_blank {l : Txt} (h : Blank l) : strip l = [] := by
  have : l.dropWhile white = [] := by
    have := dropWhile_blank h []
    rwa [List.append_nil] at this
  unfold strip; rw [this]; rfl

theorem strip_nil_iff (l : Txt) : strip l = [] ↔ Blank l := ⟨blank_of_strip, strip_of_blank⟩

theorem strip_eq_iff {l m : Txt} (hm : m ≠ []) : strip l = m ↔ Says l m :=
  ⟨fun h => h ▸ strip_says (by rw [h]; exact hm), strip_of_says⟩

theorem strip_strip (l : Txt) : strip (strip l) = strip l := by
  by_cases h : strip l = []
  · rw [h]; rfl
  · obtain ⟨a, b, _, _, _, h0, h1, h2⟩ := strip_says h
    exact strip_of_says ⟨[], [], by simp, Blank.nil, Blank.nil, h0, h1, h2⟩

theorem fields_strip (l : Txt) : fields (strip l) = fields l := by
  obtain ⟨a, b, e, ha, hb, -, -⟩ := strip_spec l
  have h := ((reads_fields (strip l)).blank_append ha).append_blank hb
  rw [← e] at h
  exact (fields_of_reads h).symm

theorem Reads.head {m w : Txt} {ws : List Txt} (h : Reads m (w :: ws)) (hm : ∀ c ∈ m.head?, ¬ IsWhite c) :
    m.head? = w.head? := by
  cases h with
  | cons hs hw hr h =>
    rename_i s rest
    cases s with
    | cons x s => exact absurd (hs x List.mem_cons_self) (hm x rfl)
    | nil =>
      cases w with
      | nil => exact absurd rfl hw.1
      | cons x w => rfl

theorem strip_head {l w : Txt} {ws : List Txt} (h : fields (strip l) = w :: ws) : (strip l).head? = w.head? := by
  have h' := reads_fields (strip l)
  rw [h] at h'
  obtain ⟨a, b, _, _, _, h1, -⟩ := strip_spec l
  exact h'.head h1

theorem not_white_of {c : Char} (h : c.toNat < 133 ∧ 33 ≤ c.toNat) : ¬ IsWhite c := by
  unfold IsWhite
  simp only [List.mem_cons, List.not_mem_nil, or_false]
  omega

/-! ## Parts between `=` -/

theorem splitFrom_length (d : Char) : ∀ (l cur : Txt), (splitFrom d cur l).length = l.count d + 1
  | [], cur => rfl
  | c :: l, cur => by
    unfold splitFrom
    split
    · rename_i h; subst h
      rw [List.length_cons, splitFrom_length c l, List.count_cons_self]
    · rename_i h
      rw [splitFrom_length d l, List.count_cons_of_ne (Ne.intro h)]

theorem splitAt_length (d : Char) (l : Txt) : (splitAt d l).length = l.count d + 1 := splitFrom_length d l []

theorem splitFrom_head (d : Char) : ∀ (a b cur : Txt), d ∉ a → (splitFrom d cur (a ++ d :: b)).head? = some (cur ++ a)
  | [], b, cur, _ => by simp [splitFrom]
  | c :: a, b, cur, h => by
    have hc : c ≠ d := fun e => h (e ▸ List.mem_cons_self)
    rw [List.cons_append, splitFrom, if_neg hc, splitFrom_head d a b _ fun e => h (List.mem_cons_of_mem _ e)]
    simp

theorem count_blank {l : Txt} (h : Blank l) : l.count '=' = 0 :=
  List.count_eq_zero.mpr fun e => not_white_of (c := '=') (by decide) (h _ e)

theorem count_strip (l : Txt) : (strip l).count '=' = l.count '=' := by
  obtain ⟨a, b, e, ha, hb, -, -⟩ := strip_spec l
  conv => rhs; rw [e]
  rw [List.count_append, List.count_append, count_blank ha, count_blank hb]
  omega

/-! ## Numbers -/

theorem digits_append : ∀ (a b : Txt) (n m : Nat), digits n a = some m → digits n (a ++ b) = digits m b
  | [], b, n, m, h => by cases h; rfl
  | c :: a, b, n, m, h => by
    rw [digits] at h
    rw [List.cons_append, digits]
    split at h
    · rename_i hc; rw [if_pos hc]; exact digits_append a b _ _ h
    · cases h

theorem digitChar_toNat {n : Nat} (h : n < 10) : (Nat.digitChar n).toNat = 48 + n := by
  revert n; decide

theorem digits_toDigits (n : Nat) : digits 0 (Nat.toDigits 10 n) = some n := by
  induction n using Nat.strongRecOn with
  | ind n ih =>
    by_cases h : n < 10
    · rw [Nat.toDigits_of_lt_base h, digits, digitChar_toNat h, if_pos (by omega), digits]
      congr 1; omega
    · rw [Nat.toDigits_of_base_le (by omega) (by omega), digits_append _ _ _ _ (ih (n / 10) (by omega)), digits,
        digitChar_toNat (Nat.mod_lt _ (by omega)), if_pos (by omega), digits]
      congr 1; omega

theorem toDigits_digit {n : Nat} : ∀ c ∈ Nat.toDigits 10 n, 48 ≤ c.toNat ∧ c.toNat ≤ 57 := by
  intro c h
  have := Nat.isDigit_of_mem_toDigits (by omega) (by omega) h
  unfold Char.isDigit at this
  simp only [Bool.and_eq_true, decide_eq_true_eq] at this
  exact ⟨this.1, this.2⟩

theorem strip_of_word {w : Txt} (h : IsWord w) : strip w = w :=
  strip_of_says ⟨[], [], by simp, Blank.nil, Blank.nil, h.1, fun c hc => h.2 c (List.mem_of_mem_head? hc),
    fun c hc => h.2 c (List.mem_of_getLast? hc)⟩

theorem nat_toList (n : Nat) : (toString n).toList = Nat.toDigits 10 n := Nat.toList_repr

theorem isWord_nat (n : Nat) : IsWord (toString n).toList := by
  rw [nat_toList]
  exact ⟨Nat.toDigits_ne_nil, fun c h => not_white_of (by have := toDigits_digit c h; omega)⟩

theorem pyInt_nat (n : Nat) : pyInt (toString n).toList = some (n : Int) := by
  unfold pyInt
  rw [strip_of_word (isWord_nat n), nat_toList]
  have hd := digits_toDigits n
  have hc := @toDigits_digit n
  have hn := @Nat.toDigits_ne_nil n 10
  generalize Nat.toDigits 10 n = l at hd hc hn
  cases l with
  | nil => exact absurd rfl hn
  | cons c l =>
    have := hc c List.mem_cons_self
    have h1 : c ≠ '-' := by intro e; subst e; revert this; decide
    have h2 : c ≠ '+' := by intro e; subst e; revert this; decide
    simp only [h1, h2, if_false, hd, Option.map_some]

theorem pyInt_int (x : Int) : IsWord (toString x).toList ∧ pyInt (toString x).toList = some x := by
  cases x with
  | ofNat n => exact ⟨isWord_nat n, pyInt_nat n⟩
  | negSucc n =>
    have e : (toString (Int.negSucc n)).toList = '-' :: Nat.toDigits 10 (n + 1) := by
      show (Int.repr (Int.negSucc n)).toList = _
      rw [← Nat.toList_repr]
      simp [Int.repr]
    rw [e]
    have hw : IsWord ('-' :: Nat.toDigits 10 (n + 1)) := by
      refine ⟨by simp, fun c h => ?_⟩
      rcases List.mem_cons.mp h with h | h
      · subst h; exact not_white_of (by decide)
      · exact not_white_of (by have := toDigits_digit c h; omega)
    refine ⟨hw, ?_⟩
    unfold pyInt
    rw [strip_of_word hw]
    simp only [if_true, if_neg Nat.toDigits_ne_nil, digits_toDigits, Option.map_some]
    rfl

end Verif.Tool
