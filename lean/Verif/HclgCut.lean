import Verif.HclgLemmas

/-!
# Reading a file that was cut off

If reading of a file succeeds, then reading of a part of it from the beginning gives the same, or it is refused, or a
character that is not initialised is copied. -/

namespace Verif.Hclg

open Verif Verif.Hclg.Spec

/-- The second stream lacks the bytes `cut` at the end. -/
structure Sim (cut : List UInt8) (s t : Strm) : Prop where
  rest : s.rest = t.rest ++ cut
  pos : s.pos = t.pos
  ok : s.fail = false
  ok' : t.fail = false

theorem read_failed {t : Strm} (h : t.fail = true) (n : Nat) : t.read n = ([], t) := by
  unfold Strm.read
  rw [if_pos h]

theorem read_sim {cut : List UInt8} {s t : Strm} (h : Sim cut s t) {n : Nat} (hs : (s.read n).2.fail = false) :
    ((t.read n).1 = (s.read n).1 ∧ Sim cut (s.read n).2 (t.read n).2) ∨ (t.read n).2.fail = true := by
  have n1 : ¬ s.fail = true := by rw [h.ok]; exact Bool.false_ne_true
  have n2 : ¬ t.fail = true := by rw [h.ok']; exact Bool.false_ne_true
  unfold Strm.read at hs ⊢
  rw [if_neg n1] at hs
  rw [if_neg n1, if_neg n2]
  by_cases hn : n ≤ t.rest.length
  · left
    have hn' : n ≤ s.rest.length := by rw [h.rest, List.length_append]; omega
    rw [if_pos hn, if_pos hn']
    refine ⟨?_, ⟨?_, by dsimp only; rw [h.pos], rfl, rfl⟩⟩
    · dsimp only
      rw [h.rest, List.take_append_of_le_length hn]
    · dsimp only
      rw [h.rest, List.drop_append_of_le_length hn]
  · right
    rw [if_neg hn]

theorem read_mono {s : Strm} {n : Nat} (h : (s.read n).2.fail = false) : s.fail = false := by
  cases hf : s.fail with
  | false => rfl
  | true =>
    rw [read_failed hf] at h
    rw [← h, hf]

theorem word_failed {t : Strm} (h : t.fail = true) (k old : Nat) : (readWord k old t).2.fail = true := by
  unfold readWord
  dsimp only
  rw [read_failed h]
  exact h

theorem word_mono {s : Strm} {k old : Nat} (h : (readWord k old s).2.fail = false) : s.fail = false := by
  cases hf : s.fail with
  | false => rfl
  | true =>
    rw [word_failed hf] at h
    exact h

theorem word_sim {cut : List UInt8} {s t : Strm} (h : Sim cut s t) {k old : Nat} (hs : (readWord k old s).2.fail = false) :
    ((readWord k old t).1 = (readWord k old s).1 ∧ Sim cut (readWord k old s).2 (readWord k old t).2) ∨
      (readWord k old t).2.fail = true := by
  unfold readWord at hs ⊢
  dsimp only at hs ⊢
  rcases read_sim h hs with ⟨h1, h2⟩ | h1
  · exact .inl ⟨by rw [h1], h2⟩
  · exact .inr h1

/-- The stream has failed, or a character was not initialised. -/
def Dead {α : Type} (r : Exec (α × Strm)) : Prop := (∃ b t', r = .ok (b, t') ∧ t'.fail = true) ∨ r = .error .ub

/-- The same result with a stream that lacks the same bytes. -/
def Same {α : Type} (cut : List UInt8) (a : α) (s' : Strm) (r : Exec (α × Strm)) : Prop := ∃ t', r = .ok (a,
  t') ∧ Sim cut s' t'

theorem chars_failed {t : Strm} (h : t.fail = true) : ∀ n, Dead (readChars n t)
  | 0 => .inl ⟨[], t, rfl, h⟩
  | n + 1 => by
    right
    rw [readChars, read_failed h]

theorem chars_sim {cut : List UInt8} : ∀ {n : Nat} {s t : Strm} {x : Str} {s' : Strm},
  Sim cut s t → readChars n s = .ok (x, s') →
    Same cut x s' (readChars n t) ∨ readChars n t = .error .ub
  | 0, s, t, x, s', h, hs => by
    injection hs with hs
    injection hs with h1 h2
    subst h1
    subst h2
    exact .inl ⟨t, rfl, h⟩
  | n + 1, s, t, x, s', h, hs => by
    rw [readChars] at hs ⊢
    generalize hr : s.read 1 = r at hs
    obtain ⟨cs, s1⟩ := r
    by_cases hcs : ∃ c, cs = [c]
    · obtain ⟨c, rfl⟩ := hcs
      dsimp only at hs
      have hs1 : s1.fail = false := by
        have : s1 = (s.read 1).2 := by rw [hr]
        rw [this]
        unfold Strm.read at hr ⊢
        rw [if_neg (by rw [h.ok]; exact Bool.false_ne_true)] at hr ⊢
        split at hr
        · rename_i hl
          rw [if_pos hl]
        · rename_i hl
          injection hr with h1 h2
          rw [h1] at hl
          exact absurd (Nat.le_refl 1) hl
      obtain ⟨⟨x1, s2⟩, h1, h2⟩ := bind_ok hs
      injection h2 with h2
      injection h2 with h2 h3
      subst h2
      subst h3
      rcases read_sim (n := 1) h (by rw [hr]; exact hs1) with ⟨h3, h4⟩ | h3
      · rw [hr] at h3 h4
        generalize t.read 1 = q at h3 h4 ⊢
        obtain ⟨q1, q2⟩ := q
        dsimp only at h3 h4
        subst h3
        dsimp only
        rcases chars_sim h4 h1 with ⟨t', h5, h6⟩ | h5
        · left
          rw [h5]
          exact ⟨t', rfl, h6⟩
        · right
          rw [h5]
          rfl
      · right
        have hl : t.read 1 = (t.rest, ⟨[], t.pos + t.rest.length, true⟩) ∧ ¬ 1 ≤ t.rest.length := by
          unfold Strm.read at h3 ⊢
          rw [if_neg (by rw [h.ok']; exact Bool.false_ne_true)] at h3 ⊢
          split at h3
          · exact absurd h3 Bool.false_ne_true
          · rename_i hl
            rw [if_neg hl]
            exact ⟨rfl, hl⟩
        have hnil : t.rest = [] := List.length_eq_zero_iff.1 (by omega)
        rw [hl.1, hnil]
    · exfalso
      match cs, hcs with
      | [], _ => exact absurd hs (by simp)
      | [c], hcs => exact hcs ⟨c, rfl⟩
      | _ :: _ :: _, _ => exact absurd hs (by simp)

theorem chars_mono {n : Nat} {s s' : Strm} {x : Str} (hs : readChars n s = .ok (x,
  s')) (h : s'.fail = false) : s.fail = false := by
  cases hf : s.fail with
  | false => rfl
  | true =>
    rcases chars_failed hf n with ⟨b, t', h1, h2⟩ | h1
    · rw [hs] at h1
      injection h1 with h1
      injection h1 with h1 h3
      rw [h3, h2] at h
      exact absurd h (by decide)
    · rw [hs] at h1
      cases h1

theorem string_failed {t : Strm} (h : t.fail = true) : Dead (readString t) := by
  unfold readString
  exact chars_failed (word_failed h 4 0) _

theorem string_sim {cut : List UInt8} {s t : Strm} {x : Str} {s' : Strm} (h : Sim cut s t) (hs : readString s = .ok (x, s'))
    (hf : s'.fail = false) : Same cut x s' (readString t) ∨ Dead (readString t) := by
  unfold readString at hs ⊢
  have h1 := chars_mono hs hf
  rcases word_sim h h1 with ⟨h2, h3⟩ | h2
  · dsimp only at hs ⊢
    rw [h2]
    rcases chars_sim h3 hs with h4 | h4
    · exact .inl h4
    · exact .inr (.inr h4)
  · exact .inr (chars_failed h2 _)

theorem string_mono {s s' : Strm} {x : Str} (hs : readString s = .ok (x, s')) (h : s'.fail = false) : s.fail = false :=
  word_mono (chars_mono hs h)

/-! ## The header -/

/-- The numbers of the header. -/
def headerWords (f a : Str) (m : Strm) : Exec (Option Header × Strm) :=
  let version := readWord 4 0 m
  let flags := readWord 4 0 version.2
  let properties := readWord 8 0 flags.2
  let start := readWord 8 18446744073709551615 properties.2
  let numStates := readWord 8 0 start.2
  let numArcs := readWord 8 0 numStates.2
  let s := numArcs.2
  if s.fail then .ok (none, s)
  else .ok (some ⟨f, a, signed 4294967296 version.1, flags.1, properties.1,
    signed 18446744073709551616 start.1, signed 18446744073709551616 numStates.1,
  signed 18446744073709551616 numArcs.1⟩, s)

/-- The header behind the magic number. -/
def headerRest (m : Strm) : Exec (Option Header × Strm) := do
  let f ← readString m
  let a ← readString f.2
  headerWords f.1 a.1 a.2

theorem headerRead_eq (s : Strm) : headerRead s =
    if (readWord 4 0 s).1 ≠ kFstMagicNumber then .ok (none,
  (readWord 4 0 s).2) else headerRest (readWord 4 0 s).2 := rfl

/-- Refused. -/
def Refused {α : Type} (r : Exec (Option α × Strm)) : Prop := ∃ t', r = .ok (none, t')

theorem words_failed {t : Strm} (h : t.fail = true) (f a : Str) : Refused (headerWords f a t) := by
  unfold headerWords
  dsimp only
  rw [if_pos (word_failed (word_failed (word_failed (word_failed (word_failed (word_failed h _ _) _ _) _ _) _ _) _ _) _ _)]
  exact ⟨_, rfl⟩

theorem words_sim {cut : List UInt8} {s t : Strm} {f a : Str} {h : Header} {s' : Strm} (hsim : Sim cut s t)
    (hs : headerWords f a s = .ok (some h, s')) :
    Same cut (some h) s' (headerWords f a t) ∨ Refused (headerWords f a t) := by
  unfold headerWords at hs
  dsimp only at hs
  split at hs
  · cases hs
  rename_i h6
  have h6 := Bool.eq_false_iff.2 h6
  have h5 := word_mono h6
  have h4 := word_mono h5
  have h3 := word_mono h4
  have h2 := word_mono h3
  have h1 := word_mono h2
  unfold headerWords
  dsimp only
  rcases word_sim hsim h1 with ⟨e1, hs1⟩ | e
  · rcases word_sim hs1 h2 with ⟨e2, hs2⟩ | e
    · rcases word_sim hs2 h3 with ⟨e3, hs3⟩ | e
      · rcases word_sim hs3 h4 with ⟨e4, hs4⟩ | e
        · rcases word_sim hs4 h5 with ⟨e5, hs5⟩ | e
          · rcases word_sim hs5 h6 with ⟨e6, hs6⟩ | e
            · left
              injection hs with hs
              injection hs with ha hb
              rw [if_neg (by rw [hs6.ok']; exact Bool.false_ne_true), e1, e2, e3, e4, e5, e6]
              exact ⟨_, by rw [ha], by rw [← hb]; exact hs6⟩
            · right
              rw [if_pos e]
              exact ⟨_, rfl⟩
          · right
            rw [if_pos (word_failed e _ _)]
            exact ⟨_, rfl⟩
        · right
          rw [if_pos (word_failed (word_failed e _ _) _ _)]
          exact ⟨_, rfl⟩
      · right
        rw [if_pos (word_failed (word_failed (word_failed e _ _) _ _) _ _)]
        exact ⟨_, rfl⟩
    · right
      rw [if_pos (word_failed (word_failed (word_failed (word_failed e _ _) _ _) _ _) _ _)]
      exact ⟨_, rfl⟩
  · right
    rw [if_pos (word_failed (word_failed (word_failed (word_failed (word_failed e _ _) _ _) _ _) _ _) _ _)]
    exact ⟨_, rfl⟩

theorem words_mono {s s' : Strm} {f a : Str} {h : Header} (hs : headerWords f a s = .ok (some h, s')) :
    s.fail = false ∧ s'.fail = false := by
  unfold headerWords at hs
  dsimp only at hs
  split at hs
  · cases hs
  · rename_i h6
    have h6 := Bool.eq_false_iff.2 h6
    injection hs with hs
    injection hs with h1 h2
    rw [← h2]
    exact ⟨word_mono (word_mono (word_mono (word_mono (word_mono (word_mono h6))))), h6⟩

theorem rest_dead {m : Strm} (h : m.fail = true) : Refused (headerRest m) ∨ headerRest m = .error .ub := by
  unfold headerRest
  rcases string_failed h with ⟨f, t1, h1, h2⟩ | h1
  · rw [h1]
    simp only [ok_bind]
    rcases string_failed h2 with ⟨a, t2, h3, h4⟩ | h3
    · rw [h3]
      simp only [ok_bind]
      exact .inl (words_failed h4 f a)
    · rw [h3]
      exact .inr rfl
  · rw [h1]
    exact .inr rfl

theorem headerRest_sim {cut : List UInt8} {s t : Strm} {h : Header} {s' : Strm} (hsim : Sim cut s t)
    (hs : headerRest s = .ok (some h, s')) :
    Same cut (some h) s' (headerRest t) ∨ Refused (headerRest t) ∨ headerRest t = .error .ub := by
  unfold headerRest at hs
  obtain ⟨⟨f, s1⟩, h1, hs⟩ := bind_ok hs
  obtain ⟨⟨a, s2⟩, h2, hs⟩ := bind_ok hs
  have m2 := (words_mono hs).1
  have m1 := string_mono h2 m2
  unfold headerRest
  rcases string_sim hsim h1 m1 with ⟨t1, e1, k1⟩ | ⟨f', t1, e1, k1⟩ | e1
  · rw [e1]
    simp only [ok_bind]
    rcases string_sim k1 h2 m2 with ⟨t2, e2, k2⟩ | ⟨a', t2, e2, k2⟩ | e2
    · rw [e2]
      simp only [ok_bind]
      rcases words_sim k2 hs with h | h
      · exact .inl h
      · exact .inr (.inl h)
    · rw [e2]
      simp only [ok_bind]
      exact .inr (.inl (words_failed k2 _ _))
    · rw [e2]
      exact .inr (.inr rfl)
  · rw [e1]
    simp only [ok_bind]
    rcases string_failed k1 with ⟨a', t2, e2, k2⟩ | e2
    · rw [e2]
      simp only [ok_bind]
      exact .inr (.inl (words_failed k2 _ _))
    · rw [e2]
      exact .inr (.inr rfl)
  · rw [e1]
    exact .inr (.inr rfl)

theorem headerRead_sim {cut : List UInt8} {s t : Strm} {h : Header} {s' : Strm} (hsim : Sim cut s t)
    (hs : headerRead s = .ok (some h, s')) :
    Same cut (some h) s' (headerRead t) ∨ Refused (headerRead t) ∨ headerRead t = .error .ub := by
  rw [headerRead_eq] at hs ⊢
  split at hs
  · cases hs
  rename_i hm
  have m1 : (readWord 4 0 s).2.fail = false := by
    unfold headerRest at hs
    obtain ⟨⟨f, s1⟩, h1, hs⟩ := bind_ok hs
    obtain ⟨⟨a, s2⟩, h2, hs⟩ := bind_ok hs
    exact string_mono h1 (string_mono h2 (words_mono hs).1)
  rcases word_sim hsim m1 with ⟨e, k⟩ | e
  · rw [e, if_neg hm]
    exact headerRest_sim k hs
  · split
    · exact .inr (.inl ⟨_, rfl⟩)
    · exact .inr (rest_dead e)

/-! ## Tables -/

/-- What comes of a function that only moves the stream. -/
def Moved (cut : List UInt8) (s' : Strm) (r : Exec Strm) : Prop :=
  (∃ t', r = .ok t' ∧ Sim cut s' t') ∨ (∃ t', r = .ok t' ∧ t'.fail = true) ∨ r = .error .ub

theorem symbols_failed {t : Strm} (h : t.fail = true) : ∀ (n : Nat) (seen : List Str),
    (∃ t', symbolLoop n seen t = .ok t' ∧ t'.fail = true) ∨ symbolLoop n seen t = .error .ub
  | 0, _ => .inl ⟨t, rfl, h⟩
  | n + 1, seen => by
    rw [symbolLoop]
    rcases string_failed h with ⟨x, t1, h1, h2⟩ | h1
    · rw [h1]
      simp only [ok_bind]
      rw [if_pos (word_failed h2 _ _)]
      exact .inl ⟨_, rfl, word_failed h2 _ _⟩
    · rw [h1]
      exact .inr rfl

theorem symbols_sim {cut : List UInt8} : ∀ {n : Nat} {seen : List Str} {s t s' : Strm}, Sim cut s t →
    symbolLoop n seen s = .ok s' → s'.fail = false → Moved cut s' (symbolLoop n seen t)
  | 0, _, s, t, s', h, hs, _ => by
    injection hs with hs
    subst hs
    exact .inl ⟨t, rfl, h⟩
  | n + 1, seen, s, t, s', h, hs, hf => by
    rw [symbolLoop] at hs ⊢
    obtain ⟨⟨x, s1⟩, h1, hs⟩ := bind_ok hs
    dsimp only at hs
    split at hs
    · rename_i hk
      injection hs with hs
      subst hs
      rw [hf] at hk
      cases hk
    rename_i hk
    have hk := Bool.eq_false_iff.2 hk
    obtain ⟨seen', h2, hs⟩ := bind_ok hs
    rcases string_sim h h1 (word_mono hk) with ⟨t1, e1, k1⟩ | ⟨x', t1, e1, k1⟩ | e1
    · rw [e1]
      simp only [ok_bind]
      rcases word_sim k1 hk with ⟨e2, k2⟩ | e2
      · rw [if_neg (by rw [k2.ok']; exact Bool.false_ne_true), e2, h2]
        simp only [ok_bind]
        exact symbols_sim k2 hs hf
      · rw [if_pos e2]
        exact .inr (.inl ⟨_, rfl, e2⟩)
    · rw [e1]
      simp only [ok_bind]
      rw [if_pos (word_failed k1 _ _)]
      exact .inr (.inl ⟨_, rfl, word_failed k1 _ _⟩)
    · rw [e1]
      exact .inr (.inr rfl)

theorem table_failed {t : Strm} (h : t.fail = true) (flag : Bool) :
    readTable flag t = .ok t ∨ readTable flag t = .ok (readWord 4 0 t).2 := by
  unfold readTable
  split
  · unfold readSymbols
    dsimp only
    rw [if_pos (word_failed h _ _)]
    exact .inr rfl
  · exact .inl rfl

theorem table_dead {t : Strm} (h : t.fail = true) (flag : Bool) : ∃ t', readTable flag t = .ok t' ∧ t'.fail = true := by
  rcases table_failed h flag with h1 | h1
  · exact ⟨_, h1, h⟩
  · exact ⟨_, h1, word_failed h _ _⟩

theorem symbols_mono {n : Nat} {seen : List Str} {s s' : Strm} (hs : symbolLoop n seen s = .ok s') (h : s'.fail = false) :
    s.fail = false := by
  cases hf : s.fail with
  | false => rfl
  | true =>
    rcases symbols_failed hf n seen with ⟨t', h1, h2⟩ | h1
    · rw [hs] at h1
      injection h1 with h1
      rw [h1, h2] at h
      exact h
    · rw [hs] at h1
      cases h1

theorem table_sim {cut : List UInt8} {s t s' : Strm} {flag : Bool} (h : Sim cut s t) (hs : readTable flag s = .ok s')
    (hf : s'.fail = false) : Moved cut s' (readTable flag t) := by
  cases flag with
  | false =>
    injection hs with hs
    subst hs
    exact .inl ⟨t, rfl, h⟩
  | true =>
    change readSymbols s = _ at hs
    change Moved cut s' (readSymbols t)
    unfold readSymbols at hs ⊢
    dsimp only at hs ⊢
    split at hs
    · rename_i hk
      injection hs with hs
      subst hs
      rw [hf] at hk
      cases hk
    rename_i m1
    have m1 := Bool.eq_false_iff.2 m1
    obtain ⟨⟨x, s1⟩, h1, hs⟩ := bind_ok hs
    dsimp only at hs
    split at hs
    · rename_i hk
      injection hs with hs
      subst hs
      rw [hf] at hk
      cases hk
    rename_i m4
    have m4 := Bool.eq_false_iff.2 m4
    have m3 := word_mono m4
    have m2 := word_mono m3
    rcases word_sim h m1 with ⟨e1, k1⟩ | e1
    · rw [if_neg (by rw [k1.ok']; exact Bool.false_ne_true)]
      rcases string_sim k1 h1 m2 with ⟨t1, e2, k2⟩ | ⟨x', t1, e2, k2⟩ | e2
      · rw [e2]
        simp only [ok_bind]
        rcases word_sim k2 m3 with ⟨e3, k3⟩ | e3
        · rcases word_sim k3 m4 with ⟨e4, k4⟩ | e4
          · rw [if_neg (by rw [k4.ok']; exact Bool.false_ne_true), e4]
            exact symbols_sim k4 hs hf
          · rw [if_pos e4]
            exact .inr (.inl ⟨_, rfl, e4⟩)
        · rw [if_pos (word_failed e3 _ _)]
          exact .inr (.inl ⟨_, rfl, word_failed e3 _ _⟩)
      · rw [e2]
        simp only [ok_bind]
        rw [if_pos (word_failed (word_failed k2 _ _) _ _)]
        exact .inr (.inl ⟨_, rfl, word_failed (word_failed k2 _ _) _ _⟩)
      · rw [e2]
        exact .inr (.inr rfl)
    · rw [if_pos e1]
      exact .inr (.inl ⟨_, rfl, e1⟩)

theorem table_mono {s s' : Strm} {flag : Bool} (hs : readTable flag s = .ok s') (h : s'.fail = false) : s.fail = false := by
  cases hf : s.fail with
  | false => rfl
  | true =>
    obtain ⟨t', h1, h2⟩ := table_dead hf flag
    rw [hs] at h1
    injection h1 with h1
    rw [h1, h2] at h
    exact h

/-! ## States and arcs -/

theorem alignLoop_failed {t : Strm} (h : t.fail = true) : ∀ n, (alignLoop n t).2.fail = true
  | 0 => h
  | n + 1 => by
    rw [alignLoop, if_pos h]
    exact h

theorem alignLoop_sim {cut : List UInt8} : ∀ {n : Nat} {s t : Strm}, Sim cut s t → (alignLoop n s).2.fail = false →
    ((alignLoop n t).1 = (alignLoop n s).1 ∧ Sim cut (alignLoop n s).2 (alignLoop n t).2) ∨ (alignLoop n t).2.fail = true
  | 0, s, t, h, _ => .inl ⟨rfl, h⟩
  | n + 1, s, t, h, hs => by
    have n1 : ¬ s.fail = true := by rw [h.ok]; exact Bool.false_ne_true
    have n2 : ¬ t.fail = true := by rw [h.ok']; exact Bool.false_ne_true
    have e1 : alignLoop (n + 1) s = if s.pos % 16 = 0 then (true, s) else alignLoop n (s.read 1).2 := by
      rw [alignLoop, if_neg n1]
    have e2 : alignLoop (n + 1) t = if s.pos % 16 = 0 then (true, t) else alignLoop n (t.read 1).2 := by
      rw [alignLoop, if_neg n2, h.pos]
    rw [e1] at hs
    rw [e1, e2]
    by_cases hp : s.pos % 16 = 0
    · rw [if_pos hp, if_pos hp]
      exact .inl ⟨rfl, h⟩
    · rw [if_neg hp] at hs
      rw [if_neg hp, if_neg hp]
      have hm : (s.read 1).2.fail = false := by
        cases hf : (s.read 1).2.fail with
        | false => rfl
        | true =>
          rw [alignLoop_failed hf] at hs
          exact hs
      rcases read_sim h hm with ⟨_, h2⟩ | h1
      · exact alignLoop_sim h2 hs
      · exact .inr (alignLoop_failed h1 n)

theorem readAlign_failed {t : Strm} (h : t.fail = true) (hd : Header) : (readAlign hd t).2.fail = true := by
  unfold readAlign
  split
  · exact alignLoop_failed h 16
  · exact h

theorem readAlign_sim {cut : List UInt8} {s t : Strm} (hd : Header) (h : Sim cut s t) (hs : (readAlign hd s).2.fail = false) :
    ((readAlign hd t).1 = (readAlign hd s).1 ∧ Sim cut (readAlign hd s).2 (readAlign hd t).2) ∨
      (readAlign hd t).2.fail = true := by
  unfold readAlign at hs ⊢
  split
  · rename_i hc
    rw [if_pos hc] at hs
    exact alignLoop_sim h hs
  · exact .inl ⟨rfl, h⟩

theorem chunks_failed {t : Strm} (h : t.fail = true) (fuel : Nat) {n : Nat} (hn : n ≠ 0) :
    readChunks (fuel + 1) n t = .ok (none, t) := by
  cases n with
  | zero => exact absurd rfl hn
  | succ n =>
    rw [readChunks]
    · rw [read_failed h]
      dsimp only
      rw [if_pos h]
    · intro h
      cases h

theorem chunks_sim {cut : List UInt8} : ∀ {fuel n : Nat} {s t s' : Strm} {x : Str}, Sim cut s t →
    readChunks fuel n s = .ok (some x, s') → s'.fail = false →
    Same cut (some x) s' (readChunks fuel n t) ∨ Refused (readChunks fuel n t)
  | fuel, 0, s, t, s', x, h, hs, _ => by
    rw [readChunks] at hs
    injection hs with hs
    injection hs with h1 h2
    subst h2
    left
    rw [readChunks]
    exact ⟨t, by rw [h1], h⟩
  | 0, n + 1, s, t, s', x, h, hs, _ => by
    rw [readChunks] at hs
    cases hs
  | fuel + 1, n + 1, s, t, s', x, h, hs, hf => by
    rw [readChunks] at hs ⊢
    rotate_left
    · intro h
      cases h
    · intro h
      cases h
    split at hs
    · cases hs
    rename_i hr
    have hr := Bool.eq_false_iff.2 hr
    obtain ⟨⟨y, s1⟩, h1, h2⟩ := bind_ok hs
    dsimp only at h2
    injection h2 with h2
    injection h2 with h2 h3
    subst h3
    cases y with
    | none => cases h2
    | some y =>
      rcases read_sim h hr with ⟨e1, k1⟩ | e1
      · rw [if_neg (by rw [k1.ok']; exact Bool.false_ne_true)]
        rcases chunks_sim k1 h1 hf with ⟨t', e2, k2⟩ | ⟨t', e2⟩
        · left
          rw [e2]
          refine ⟨t', ?_, k2⟩
          simp only [ok_bind]
          rw [e1, ← h2]
        · right
          rw [e2]
          exact ⟨t', rfl⟩
      · right
        rw [if_pos e1]
        exact ⟨_, rfl⟩

theorem map_failed {s t s' : Strm} {n : Nat} {x : Str} (hs : map n s = .ok (some x, s')) (h : t.fail = true) :
    ∃ y, map n t = .ok (y, t) := by
  unfold map at hs ⊢
  by_cases h0 : n = 0
  · rw [if_pos h0]
    exact ⟨_, rfl⟩
  · rw [if_neg h0] at hs ⊢
    split at hs
    · cases hs
    rename_i h1
    rw [if_neg h1]
    split at hs
    · split at hs <;> cases hs
    rename_i h2
    rw [if_neg h2, chunks_failed h _ h0]
    exact ⟨_, rfl⟩

theorem map_sim {cut : List UInt8} {s t s' : Strm} {n : Nat} {x : Str} (h : Sim cut s t) (hs : map n s = .ok (some x,
  s'))
    (hf : s'.fail = false) : Same cut (some x) s' (map n t) ∨ Refused (map n t) := by
  unfold map at hs ⊢
  by_cases h0 : n = 0
  · rw [if_pos h0] at hs ⊢
    injection hs with hs
    injection hs with h1 h2
    subst h2
    exact .inl ⟨t, by rw [h1], h⟩
  · rw [if_neg h0] at hs ⊢
    split at hs
    · cases hs
    rename_i h1
    rw [if_neg h1]
    split at hs
    · split at hs <;> cases hs
    rename_i h2
    rw [if_neg h2]
    exact chunks_sim h hs hf

theorem chunks_mono : ∀ {fuel n : Nat} {s s' : Strm} {x : Str}, readChunks fuel n s = .ok (some x,
  s') → s'.fail = false →
    s.fail = false
  | _, 0, s, s', x, hs, hf => by
    rw [readChunks] at hs
    injection hs with hs
    injection hs with h1 h2
    rw [h2, hf]
  | 0, n + 1, s, s', x, hs, _ => by
    rw [readChunks] at hs
    cases hs
  | fuel + 1, n + 1, s, s', x, hs, hf => by
    cases h : s.fail with
    | false => rfl
    | true =>
      rw [chunks_failed h fuel (by omega)] at hs
      cases hs

theorem map_mono {s s' : Strm} {n : Nat} {x : Str} (hs : map n s = .ok (some x,
  s')) (hf : s'.fail = false) : s.fail = false := by
  cases h : s.fail with
  | false => rfl
  | true =>
    obtain ⟨y, h1⟩ := map_failed hs h
    rw [hs] at h1
    injection h1 with h1
    injection h1 with h1 h2
    rw [← h, ← h2, hf]

theorem body_parts {h : Header} {s s' : Strm} {f : ConstFst} (hs : readBody h s = .ok (some f, s')) :
    ∃ x1 s1 x2, (readAlign h s).1 = true ∧
      map (unsigned 18446744073709551616 (signed 4294967296 (unsigned 4294967296 h.numStates) * 20)) (readAlign h s).2 = .ok (some x1, s1) ∧
      s1.fail = false ∧ (readAlign h s1).1 = true ∧
      map (unsigned 18446744073709551616 h.numArcs * 16 % 18446744073709551616) (readAlign h s1).2 = .ok (some x2, s') ∧
      s'.fail = false ∧ f = ⟨signed 4294967296 (unsigned 4294967296 h.start), x1, x2⟩ := by
  unfold readBody at hs
  dsimp only at hs
  split at hs
  · cases hs
  rename_i a1
  obtain ⟨⟨y1, s1⟩, h1, hs⟩ := bind_ok hs
  cases y1 with
  | none => cases hs
  | some x1 =>
    dsimp only at hs
    split at hs
    · cases hs
    rename_i f1
    split at hs
    · cases hs
    rename_i a2
    obtain ⟨⟨y2, s2⟩, h2, hs⟩ := bind_ok hs
    cases y2 with
    | none => cases hs
    | some x2 =>
      dsimp only at hs
      split at hs
      · cases hs
      rename_i f2
      injection hs with hs
      injection hs with e1 e2
      injection e1 with e1
      subst e2
      exact ⟨x1, s1, x2, by simpa using a1, h1, Bool.eq_false_iff.2 f1, by simpa using a2, h2, Bool.eq_false_iff.2 f2,
  e1.symm⟩

theorem body_failed {h : Header} {s s' t : Strm} {f : ConstFst} (hs : readBody h s = .ok (some f,
  s')) (ht : t.fail = true) :
    Refused (readBody h t) := by
  obtain ⟨x1, s1, x2, a1, h1, f1, a2, h2, f2, _⟩ := body_parts hs
  unfold readBody
  dsimp only
  split
  · exact ⟨_, rfl⟩
  · obtain ⟨y, e⟩ := map_failed h1 (readAlign_failed ht h)
    rw [e]
    simp only [ok_bind]
    cases y with
    | none => exact ⟨_, rfl⟩
    | some y =>
      dsimp only
      rw [if_pos (readAlign_failed ht h)]
      exact ⟨_, rfl⟩

theorem body_sim {cut : List UInt8} {h : Header} {s s' t : Strm} {f : ConstFst} (hsim : Sim cut s t)
    (hs : readBody h s = .ok (some f, s')) : Same cut (some f) s' (readBody h t) ∨ Refused (readBody h t) := by
  obtain ⟨x1, s1, x2, a1, h1, f1, a2, h2, f2, hf⟩ := body_parts hs
  unfold readBody
  dsimp only
  rcases readAlign_sim h hsim (map_mono h1 f1) with ⟨e1, k1⟩ | e1
  · rw [e1, a1, if_neg (by decide)]
    rcases map_sim k1 h1 f1 with ⟨t1, e2, k2⟩ | ⟨t1, e2⟩
    · rw [e2]
      simp only [ok_bind]
      rw [if_neg (by rw [k2.ok']; exact Bool.false_ne_true)]
      rcases readAlign_sim h k2 (map_mono h2 f2) with ⟨e3, k3⟩ | e3
      · rw [e3, a2, if_neg (by decide)]
        rcases map_sim k3 h2 f2 with ⟨t2, e4, k4⟩ | ⟨t2, e4⟩
        · rw [e4]
          simp only [ok_bind]
          rw [if_neg (by rw [k4.ok']; exact Bool.false_ne_true), ← hf]
          exact .inl ⟨t2, rfl, k4⟩
        · rw [e4]
          exact .inr ⟨_, rfl⟩
      · right
        split
        · exact ⟨_, rfl⟩
        · obtain ⟨y, e4⟩ := map_failed h2 e3
          rw [e4]
          simp only [ok_bind]
          cases y with
          | none => exact ⟨_, rfl⟩
          | some y =>
            dsimp only
            rw [if_pos e3]
            exact ⟨_, rfl⟩
    · rw [e2]
      exact .inr ⟨_, rfl⟩
  · right
    split
    · exact ⟨_, rfl⟩
    · obtain ⟨y, e⟩ := map_failed h1 e1
      rw [e]
      simp only [ok_bind]
      cases y with
      | none => exact ⟨_, rfl⟩
      | some y =>
        dsimp only
        rw [if_pos e1]
        exact ⟨_, rfl⟩

/-! ## The whole file -/

/-- What a header that is accepted looks like. -/
theorem readHeader_parts {s s' : Strm} {h : Header} (hs : readHeader s = .ok (some h, s')) :
    ∃ s1 s2, headerRead s = .ok (some h, s1) ∧ h.fstType = [99, 111, 110, 115, 116] ∧ h.arcType = [115, 116, 97, 110,
  100, 97, 114, 100] ∧ 1 ≤ h.version ∧
      readTable (h.flags % 2 = 1) s1 = .ok s2 ∧ readTable (h.flags / 2 % 2 = 1) s2 = .ok s' := by
  unfold readHeader at hs
  obtain ⟨⟨x, s1⟩, h1, hs⟩ := bind_ok hs
  cases x with
  | none => cases hs
  | some h' =>
    dsimp only at hs
    split at hs
    · cases hs
    rename_i c1
    split at hs
    · cases hs
    rename_i c2
    split at hs
    · cases hs
    rename_i c3
    obtain ⟨s2, h2, hs⟩ := bind_ok hs
    obtain ⟨s3, h3, hs⟩ := bind_ok hs
    injection hs with hs
    injection hs with e1 e2
    injection e1 with e1
    subst e1
    subst e2
    exact ⟨s1, s2, h1, Decidable.of_not_not c1, Decidable.of_not_not c2, by omega, h2, h3⟩

theorem readHeader_of {s s1 s2 s' : Strm} {h : Header} (h1 : headerRead s = .ok (some h, s1)) (c1 : h.fstType = [99,
  111, 110, 115, 116])
    (c2 : h.arcType = [115, 116, 97, 110, 100, 97, 114,
  100]) (c3 : 1 ≤ h.version) (h2 : readTable (h.flags % 2 = 1) s1 = .ok s2)
    (h3 : readTable (h.flags / 2 % 2 = 1) s2 = .ok s') : readHeader s = .ok (some h, s') := by
  unfold readHeader
  rw [h1]
  simp only [ok_bind]
  rw [if_neg (by rw [c1]; simp), if_neg (by rw [c2]; simp), if_neg (by omega), h2]
  simp only [ok_bind]
  rw [h3]
  rfl

/-- What is left of a file gives the same graph, or it is refused, or a character that is not initialised is copied; the
last not behind the header of a file without tables. -/
theorem impl_sim {cut : List UInt8} {s t s' : Strm} {f : ConstFst} (hsim : Sim cut s t) (hs : implRead s = .ok (some f, s')) :
    Same cut (some f) s' (implRead t) ∨ Refused (implRead t) ∨ implRead t = .error .ub := by
  unfold implRead at hs
  obtain ⟨⟨x, s1⟩, h1, hs⟩ := bind_ok hs
  cases x with
  | none => cases hs
  | some h =>
    dsimp only at hs
    obtain ⟨q1, q2, k1, c1, c2, c3, k2, k3⟩ := readHeader_parts h1
    have m3 : s1.fail = false := by
      cases hf : s1.fail with
      | false => rfl
      | true =>
        obtain ⟨t', e⟩ := body_failed hs hf
        rw [hs] at e
        cases e
    have m2 := table_mono k3 m3
    have m1 := table_mono k2 m2
    unfold implRead
    have dead : ∀ t1, t1.fail = true → readHeader t = .ok (some h, t1) →
        Refused (do
          let x ← readHeader t
          match x.1 with
          | none => .ok (none, x.2)
          | some h => readBody h x.2) := by
      intro t1 hf e
      rw [e]
      simp only [ok_bind]
      exact body_failed hs hf
    rcases headerRead_sim hsim k1 with ⟨t1, e1, j1⟩ | ⟨t1, e1⟩ | e1
    · rcases table_sim j1 k2 m2 with ⟨t2, e2, j2⟩ | ⟨t2, e2, j2⟩ | e2
      · rcases table_sim j2 k3 m3 with ⟨t3, e3, j3⟩ | ⟨t3, e3, j3⟩ | e3
        · rw [readHeader_of e1 c1 c2 c3 e2 e3]
          simp only [ok_bind]
          rcases body_sim j3 hs with h | h
          · exact .inl h
          · exact .inr (.inl h)
        · exact .inr (.inl (dead t3 j3 (readHeader_of e1 c1 c2 c3 e2 e3)))
        · right; right
          unfold readHeader
          rw [e1]
          simp only [ok_bind]
          rw [if_neg (by rw [c1]; simp), if_neg (by rw [c2]; simp), if_neg (by omega), e2]
          simp only [ok_bind]
          rw [e3]
          rfl
      · obtain ⟨t3, e3, j3⟩ := table_dead j2 (decide (h.flags / 2 % 2 = 1))
        exact .inr (.inl (dead t3 j3 (readHeader_of e1 c1 c2 c3 e2 e3)))
      · right; right
        unfold readHeader
        rw [e1]
        simp only [ok_bind]
        rw [if_neg (by rw [c1]; simp), if_neg (by rw [c2]; simp), if_neg (by omega), e2]
        rfl
    · right; left
      unfold readHeader
      rw [e1]
      exact ⟨t1, rfl⟩
    · right; right
      unfold readHeader
      rw [e1]
      rfl

end Verif.Hclg
