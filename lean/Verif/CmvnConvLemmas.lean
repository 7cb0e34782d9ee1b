import Verif.CmvnConvModel
import Verif.CmvnConvSpec
import Verif.ToolLemmas
import Verif.AmConvFile

/-!
# Lemmas about `tool/convert_cmvn_stats.py`
-/

namespace Verif.CmvnConv

open Verif Verif.Tool Verif.Ser

/-! ## Words -/

theorem Reads.join {l r : Txt} {ws vs : List Txt} (h : Reads l ws) (hr : Reads r vs) :
    Reads (l ++ ' ' :: r) (ws ++ vs) := by
  induction h with
  | @nil s hs =>
    have h2 : Blank (s ++ [' ']) := by
      intro c hc
      rcases List.mem_append.mp hc with hc | hc
      · exact hs c hc
      · rw [List.mem_singleton.mp hc]; decide
    have := Reads.blank_append h2 hr
    rwa [List.append_assoc] at this
  | @cons s w rest ws hs hw hh _ ih =>
    have := Reads.cons (rest := rest ++ ' ' :: r) hs hw (by
      intro c hc
      cases rest with
      | nil => cases hc; decide
      | cons a b => exact hh c hc) ih
    simpa only [List.append_assoc, List.cons_append] using this

theorem reads_joined {ls ws : List Txt} (h : Words ls ws) : Reads (joined ls) ws := by
  induction h with
  | nil => exact .nil (by intro c hc; cases hc)
  | @cons l ls ws vs h1 h2 ih =>
    cases ls with
    | nil =>
      cases h2
      rw [List.append_nil]
      exact h1
    | cons a b => exact Reads.join h1 ih

theorem fields_joined {ls ws : List Txt} (h : Words ls ws) : fields (joined ls) = ws := fields_of_reads (reads_joined h)

/-- Every text has words. -/
theorem words_exist : ∀ ls : List Txt, ∃ ws, Words ls ws
  | [] => ⟨_, .nil⟩
  | l :: ls => by
    obtain ⟨ws, h⟩ := words_exist ls
    exact ⟨_, .cons (reads_fields l) h⟩

/-! ## Numbers -/

theorem isDigit_iff (c : Char) : isDigit c = true ↔ c ∈ "0123456789".toList := by
  have e : "0123456789".toList = ['0', '1', '2', '3', '4', '5', '6', '7', '8', '9'] := by decide
  rw [e]
  unfold isDigit
  rw [Bool.and_eq_true, decide_eq_true_iff, decide_eq_true_iff]
  constructor
  · rintro ⟨h1, h2⟩
    have : c = Char.ofNat c.toNat := (Char.ofNat_toNat c).symm
    rw [this]
    generalize c.toNat = n at h1 h2
    have hn : n = 48 ∨ n = 49 ∨ n = 50 ∨ n = 51 ∨ n = 52 ∨ n = 53 ∨ n = 54 ∨ n = 55 ∨ n = 56 ∨ n = 57 := by omega
    rcases hn with rfl | rfl | rfl | rfl | rfl | rfl | rfl | rfl | rfl | rfl <;> decide
  · intro h
    simp only [List.mem_cons, List.not_mem_nil, or_false] at h
    rcases h with rfl | rfl | rfl | rfl | rfl | rfl | rfl | rfl | rfl | rfl <;> exact ⟨by decide, by decide⟩

theorem dropWhile_append {d r : Txt} (h : ∀ c ∈ d, isDigit c = true) (hr : ∀ c ∈ r.head?, isDigit c = false) :
    (d ++ r).dropWhile isDigit = r := by
  induction d with
  | nil =>
    cases r with
    | nil => rfl
    | cons c r => rw [List.nil_append, List.dropWhile_cons_of_neg]; rw [hr c rfl]; decide
  | cons c d ih =>
    rw [List.cons_append, List.dropWhile_cons_of_pos (h c (.head _))]
    exact ih fun x hx => h x (.tail _ hx)

theorem digits1_append {d r : Txt} (h : Digits d) (hr : ∀ c ∈ r.head?, isDigit c = false) :
    digits1 (d ++ r) = some r := by
  obtain ⟨h0, h⟩ := h
  cases d with
  | nil => exact absurd rfl h0
  | cons c d =>
    show (if isDigit c then some ((d ++ r).dropWhile isDigit) else none) = _
    rw [if_pos ((isDigit_iff c).mpr (h c (.head _))),
      dropWhile_append (fun x hx => (isDigit_iff x).mpr (h x (.tail _ hx))) hr]

theorem dropWhile_split (s : Txt) : ∃ d, s = d ++ s.dropWhile isDigit ∧ (∀ c ∈ d, isDigit c = true) ∧
    ∀ c ∈ (s.dropWhile isDigit).head?, isDigit c = false := by
  induction s with
  | nil => exact ⟨[], rfl, (by intro c h; cases h), (by intro c h; cases h)⟩
  | cons a s ih =>
    by_cases h : isDigit a = true
    · obtain ⟨d, h1, h2, h3⟩ := ih
      rw [List.dropWhile_cons_of_pos h]
      refine ⟨a :: d, by rw [List.cons_append, ← h1], ?_, h3⟩
      intro c hc
      rcases List.mem_cons.mp hc with rfl | hc
      · exact h
      · exact h2 c hc
    · rw [List.dropWhile_cons_of_neg h]
      refine ⟨[], rfl, (by intro c h; cases h), ?_⟩
      intro c hc
      cases hc
      exact Bool.eq_false_iff.mpr h

theorem digits1_some {s r : Txt} (h : digits1 s = some r) : ∃ d, s = d ++ r ∧ Digits d := by
  cases s with
  | nil => cases h
  | cons c s =>
    by_cases hc : isDigit c = true
    · have h' : (if isDigit c then some (s.dropWhile isDigit) else none) = some r := h
      rw [if_pos hc] at h'
      cases h'
      obtain ⟨d, h1, h2, -⟩ := dropWhile_split s
      refine ⟨c :: d, by rw [List.cons_append, ← h1], by simp, ?_⟩
      intro x hx
      rcases List.mem_cons.mp hx with rfl | hx
      · exact (isDigit_iff _).mp hc
      · exact (isDigit_iff _).mp (h2 x hx)
    · have h' : (if isDigit c then some (s.dropWhile isDigit) else none) = some r := h
      rw [if_neg hc] at h'
      cases h'

theorem digit_ne {c : Char} (h : c ∈ "0123456789".toList) : c ≠ '-' ∧ c ≠ '+' ∧ c ≠ '.' ∧ c ≠ 'e' := by
  have e : "0123456789".toList = ['0', '1', '2', '3', '4', '5', '6', '7', '8', '9'] := by decide
  rw [e] at h
  simp only [List.mem_cons, List.not_mem_nil, or_false] at h
  rcases h with rfl | rfl | rfl | rfl | rfl | rfl | rfl | rfl | rfl | rfl <;>
    exact ⟨by decide, by decide, by decide, by decide⟩

theorem sign_append {s d : Txt} (r : Txt) (h : Sign s) (hd : Digits d) : sign (s ++ (d ++ r)) = d ++ r := by
  rcases h with rfl | rfl | rfl
  · obtain ⟨h0, hd⟩ := hd
    cases d with
    | nil => exact absurd rfl h0
    | cons c d =>
      obtain ⟨h1, h2, -⟩ := digit_ne (hd c (.head _))
      show (if c = '-' ∨ c = '+' then _ else _) = _
      rw [if_neg (by rintro (h | h); exacts [h1 h, h2 h])]
      rfl
  · rfl
  · rfl

theorem sign_split (t : Txt) : ∃ s, t = s ++ sign t ∧ Sign s := by
  cases t with
  | nil => exact ⟨[], rfl, .inl rfl⟩
  | cons c r =>
    by_cases h : c = '-' ∨ c = '+'
    · have e : sign (c :: r) = r := if_pos h
      rw [e]
      refine ⟨[c], rfl, ?_⟩
      rcases h with rfl | rfl
      · exact .inr (.inl rfl)
      · exact .inr (.inr rfl)
    · have e : sign (c :: r) = c :: r := if_neg h
      rw [e]
      exact ⟨[], rfl, .inl rfl⟩

theorem frac_of {f e : Txt} (hf : f = [] ∨ ∃ d, f = '.' :: d ∧ Digits d)
    (he : e = [] ∨ ∃ s' d, e = 'e' :: (s' ++ d) ∧ Sign s' ∧ Digits d) : frac (f ++ e) = e := by
  have hh : ∀ c ∈ e.head?, isDigit c = false ∧ c ≠ '.' := by
    intro c hc
    rcases he with rfl | ⟨s, d, rfl, -⟩
    · cases hc
    · cases hc; exact ⟨by decide, by decide⟩
  rcases hf with rfl | ⟨d, rfl, hd⟩
  · cases e with
    | nil => rfl
    | cons c e => exact if_neg (hh c rfl).2
  · show (if ('.' : Char) = '.' then (digits1 (d ++ e)).getD ('.' :: (d ++ e)) else '.' :: (d ++ e)) = _
    rw [if_pos rfl, digits1_append hd fun c hc => (hh c hc).1]
    rfl

theorem frac_split (s : Txt) : ∃ f, s = f ++ frac s ∧ (f = [] ∨ ∃ d, f = '.' :: d ∧ Digits d) := by
  cases s with
  | nil => exact ⟨[], rfl, .inl rfl⟩
  | cons c r =>
    by_cases h : c = '.'
    · have e : frac (c :: r) = (digits1 r).getD (c :: r) := if_pos h
      rw [e]
      cases hd : digits1 r with
      | none => exact ⟨[], rfl, .inl rfl⟩
      | some q =>
        obtain ⟨d, h1, h2⟩ := digits1_some hd
        exact ⟨c :: d, by rw [h1]; rfl, .inr ⟨d, by rw [h], h2⟩⟩
    · have e : frac (c :: r) = c :: r := if_neg h
      rw [e]
      exact ⟨[], rfl, .inl rfl⟩

theorem expo_of {e : Txt} (he : e = [] ∨ ∃ s' d, e = 'e' :: (s' ++ d) ∧ Sign s' ∧ Digits d) : expo e = [] := by
  rcases he with rfl | ⟨s, d, rfl, hs, hd⟩
  · rfl
  · show (if ('e' : Char) = 'e' then (digits1 (sign (s ++ d))).getD ('e' :: (s ++ d)) else 'e' :: (s ++ d)) = _
    have h1 := sign_append [] hs hd
    rw [List.append_nil] at h1
    have h2 := digits1_append (r := []) hd (by intro c h; cases h)
    rw [List.append_nil] at h2
    rw [if_pos rfl, h1, h2]
    rfl

theorem expo_nil {s : Txt} (h : expo s = []) : s = [] ∨ ∃ s' d, s = 'e' :: (s' ++ d) ∧ Sign s' ∧ Digits d := by
  cases s with
  | nil => exact .inl rfl
  | cons c r =>
    by_cases hc : c = 'e'
    · have e : expo (c :: r) = (digits1 (sign r)).getD (c :: r) := if_pos hc
      rw [e] at h
      cases hd : digits1 (sign r) with
      | none => rw [hd] at h; cases h
      | some q =>
        rw [hd] at h
        have hq : q = [] := h
        subst hq
        obtain ⟨d, h1, h2⟩ := digits1_some hd
        obtain ⟨s', h3, h4⟩ := sign_split r
        rw [h1, List.append_nil] at h3
        exact .inr ⟨s', d, by rw [hc, ← h3], h4, h2⟩
    · have e : expo (c :: r) = c :: r := if_neg hc
      rw [e] at h
      cases h

/-- The regular expression takes just these texts. -/
theorem isNumber_iff (t : Txt) : isNumber t = true ↔ IsNumber t := by
  constructor
  · intro h
    unfold isNumber at h
    cases hd : digits1 (sign t) with
    | none => rw [hd] at h; cases h
    | some r =>
      rw [hd] at h
      have he : expo (frac r) = [] := List.isEmpty_iff.mp h
      obtain ⟨s, h1, h2⟩ := sign_split t
      obtain ⟨i, h3, h4⟩ := digits1_some hd
      obtain ⟨f, h5, h6⟩ := frac_split r
      exact ⟨s, i, f, frac r, by rw [← h5, ← h3, ← h1], h2, h4, h6, expo_nil he⟩
  · rintro ⟨s, i, f, e, rfl, hs, hi, hf, he⟩
    unfold isNumber
    rw [sign_append _ hs hi, digits1_append hi]
    · simp only
      rw [frac_of hf he, expo_of he]
      rfl
    · intro c hc
      rcases hf with rfl | ⟨d, rfl, -⟩
      · rcases he with rfl | ⟨s, d, rfl, -⟩
        · cases hc
        · cases hc; decide
      · cases hc; decide

instance (t : Txt) : Decidable (IsNumber t) := decidable_of_iff _ (isNumber_iff t)

theorem filter_numbers {ws ns : List Txt} (h : Numbers ws ns) : ws.filter isNumber = ns := by
  induction h with
  | nil => rfl
  | keep h _ ih => rw [List.filter_cons_of_pos ((isNumber_iff _).mpr h), ih]
  | skip h _ ih => rw [List.filter_cons_of_neg (fun g => h ((isNumber_iff _).mp g)), ih]

theorem numbers_filter : ∀ ws : List Txt, Numbers ws (ws.filter isNumber)
  | [] => .nil
  | t :: ws => by
    by_cases h : isNumber t = true
    · rw [List.filter_cons_of_pos h]; exact .keep ((isNumber_iff _).mp h) (numbers_filter ws)
    · rw [List.filter_cons_of_neg h]; exact .skip (fun g => h ((isNumber_iff _).mpr g)) (numbers_filter ws)

theorem matrixData_of {R : Type} (num : FNum R) {lines ws ns : List Txt} (h : Words lines ws) (hn : Numbers ws ns) :
    matrixData num lines = ns.map num.val := by
  unfold matrixData
  rw [fields_joined h, filter_numbers hn]

theorem Numbers.append {a b c d : List Txt} (h : Numbers a b) (h' : Numbers c d) : Numbers (a ++ c) (b ++ d) := by
  induction h with
  | nil => exact h'
  | keep h _ ih => exact .keep h ih
  | skip h _ ih => exact .skip h ih

theorem numbers_all : ∀ {ws : List Txt}, (∀ w ∈ ws, IsNumber w) → Numbers ws ws
  | [], _ => .nil
  | w :: _, h => .keep (h w (.head _)) (numbers_all fun x hx => h x (.tail _ hx))

/-- No more numbers than words; as many only if all are numbers. -/
theorem Numbers.length_le {ws ns : List Txt} (h : Numbers ws ns) : ns.length ≤ ws.length := by
  induction h with
  | nil => exact Nat.le_refl _
  | keep _ _ ih => simp only [List.length_cons]; omega
  | skip _ _ ih => simp only [List.length_cons]; omega

theorem Numbers.length_lt {ws ns : List Txt} (h : Numbers ws ns) {w : Txt} (hw : w ∈ ws) (hn : ¬ IsNumber w) :
    ns.length < ws.length := by
  induction h with
  | nil => cases hw
  | keep g _ ih =>
    rcases List.mem_cons.mp hw with rfl | hw
    · exact absurd g hn
    · have := ih hw; simp only [List.length_cons]; omega
  | skip g h ih => have := h.length_le; simp only [List.length_cons]; omega

theorem packAll_ok {R : Type} {num : FNum R} : ∀ {v : List R} {w : List UInt32},
    List.Forall₂ (fun x y => num.pack x = some y) v w → packAll num v = .ok (w.map UInt32.toNat)
  | _, _, .nil => rfl
  | _, _, .cons h1 h2 => by
    have ih := packAll_ok h2
    unfold packAll at ih ⊢
    rw [List.mapM_cons, h1, ok_bind, ih, ok_bind]
    rfl

theorem packAll_throws {R : Type} {num : FNum R} : ∀ {v : List R} {x : R}, x ∈ v → num.pack x = none →
    packAll num v = .error .throw
  | y :: v, x, hx, hp => by
    unfold packAll
    rw [List.mapM_cons]
    rcases List.mem_cons.mp hx with rfl | hx
    · rw [hp]; rfl
    · cases hy : num.pack y with
      | none => rfl
      | some w =>
        have ih := packAll_throws hx hp
        unfold packAll at ih
        rw [ok_bind, ih]
        rfl

end Verif.CmvnConv
