import Verif.MsgForget
import Verif.MsgSpec
import Verif.InitParts

/-!
# Lemmas about the texts
-/

namespace Verif.Msg

open Verif Verif.Text Verif.App Verif.App.Spec Verif.Msg.Spec

variable {G α β : Type}

/-! ## Format -/

/-- At least `k` places `{}`, one behind the other. -/
def Holes : Nat → Str → Prop
  | 0, _ => True
  | k + 1, s => ∃ p q, s = p ++ 123 :: 125 :: q ∧ Holes k q

theorem Holes.front : ∀ {k : Nat} {s : Str} (p : Str), Holes k s → Holes k (p ++ s)
  | 0, _, _, _ => trivial
  | _ + 1, _, p, ⟨a, b, he, hk⟩ => ⟨p ++ a, b, by rw [he, List.append_assoc], hk⟩

theorem Holes.less : ∀ {k : Nat} {s : Str}, Holes (k + 1) s → Holes k s
  | 0, _, _ => trivial
  | _ + 1, _, ⟨p, q, he, hk⟩ => ⟨p, q, he, Holes.less hk⟩

theorem startsWith_braces (s : Str) : startsWith [123, 125] s = true ↔ ∃ q, s = 123 :: 125 :: q := by
  rcases s with _ | ⟨a, _ | ⟨b, s⟩⟩
  · simp [startsWith]
  · simp [startsWith]
  · simp only [startsWith, Bool.and_true, Bool.and_eq_true, beq_iff_eq, List.cons.injEq]
    constructor
    · rintro ⟨rfl, rfl⟩
      exact ⟨s, rfl, rfl, rfl⟩
    · rintro ⟨_, h1, h2, _⟩
      exact ⟨h1.symm, h2.symm⟩

/-- The first place is found, and what follows it has the other places. -/
theorem Holes.found {k : Nat} : ∀ (p q : Str), Holes k q →
    ∃ pos, find [123, 125] (p ++ 123 :: 125 :: q) = some pos ∧ Holes k ((p ++ 123 :: 125 :: q).drop (pos + 2))
  | [], q, hq => by
    refine ⟨0, ?_, hq⟩
    show (if startsWith [123, 125] (123 :: 125 :: q) = true then some 0 else _) = _
    rw [if_pos ((startsWith_braces _).2 ⟨q, rfl⟩)]
  | c :: p, q, hq => by
    by_cases hs : startsWith [123, 125] (c :: p ++ 123 :: 125 :: q) = true
    · refine ⟨0, ?_, ?_⟩
      · show (if startsWith [123, 125] (c :: p ++ 123 :: 125 :: q) = true then some 0 else _) = _
        rw [if_pos hs]
      · obtain ⟨r, hr⟩ := (startsWith_braces _).1 hs
        rcases p with _ | ⟨d, p⟩
        · have : (123 : UInt8) = 125 := (List.cons.inj (List.cons.inj hr).2).1
          exact absurd this (by decide)
        · show Holes k (p ++ 123 :: 125 :: q)
          exact Holes.front p (Holes.front [123, 125] hq)
    · obtain ⟨pos, h1, h2⟩ := Holes.found p q hq
      refine ⟨pos + 1, ?_, h2⟩
      show (if startsWith [123, 125] (c :: p ++ 123 :: 125 :: q) = true then some 0
        else (find [123, 125] (p ++ 123 :: 125 :: q)).map (· + 1)) = _
      rw [if_neg hs, h1]
      rfl

/-- One argument is put in, whatever it is. -/
theorem format_step {k : Nat} {s : Str} (h : Holes (k + 1) s) (a : Str) (args : List Str) :
    ∃ u v, format s (a :: args) = format (u ++ a ++ v) args ∧ Holes k v := by
  obtain ⟨p, q, rfl, hk⟩ := h
  obtain ⟨pos, h1, h2⟩ := Holes.found p q hk
  refine ⟨(p ++ 123 :: 125 :: q).take pos, (p ++ 123 :: 125 :: q).drop (pos + 2), ?_, h2⟩
  show (match find [123, 125] (p ++ 123 :: 125 :: q) with
    | some pos => format (replace2 (p ++ 123 :: 125 :: q) pos a) args
    | none => format (p ++ 123 :: 125 :: q) args) = _
  rw [h1]
  rfl

/-- The last argument is in the text, wherever. -/
theorem format_last : ∀ (args : List Str) (s a : Str), Holes (args.length + 1) s → a <:+: format s (args ++ [a])
  | [], s, a, h => by
    obtain ⟨u, v, he, _⟩ := format_step (k := 0) h a []
    rw [List.nil_append, he]
    exact ⟨u, v, rfl⟩
  | b :: args, s, a, h => by
    obtain ⟨u, v, he, hv⟩ := format_step (k := args.length + 1) h b (args ++ [a])
    rw [List.cons_append, he]
    exact format_last args _ a (Holes.front _ hv)

/-- An argument in the first place. -/
theorem format_first (p q a : Str) (args : List Str) (hp : 123 ∉ p) :
    format (p ++ 123 :: 125 :: q) (a :: args) = format (p ++ a ++ q) args := by
  have hf : find [123, 125] (p ++ 123 :: 125 :: q) = some p.length := by
    induction p with
    | nil =>
      show (if startsWith [123, 125] (123 :: 125 :: q) = true then some 0 else _) = _
      rw [if_pos ((startsWith_braces _).2 ⟨q, rfl⟩)]
      rfl
    | cons c p ih =>
      show (if startsWith [123, 125] (c :: p ++ 123 :: 125 :: q) = true then some 0
        else (find [123, 125] (p ++ 123 :: 125 :: q)).map (· + 1)) = _
      rw [if_neg, ih (fun h => hp (List.mem_cons_of_mem _ h))]
      · rfl
      · intro hs
        obtain ⟨r, hr⟩ := (startsWith_braces _).1 hs
        exact hp ((List.cons.inj hr).1 ▸ List.mem_cons_self)
  show (match find [123, 125] (p ++ 123 :: 125 :: q) with
    | some pos => format (replace2 (p ++ 123 :: 125 :: q) pos a) args
    | none => format (p ++ 123 :: 125 :: q) args) = _
  rw [hf]
  show format (replace2 (p ++ 123 :: 125 :: q) p.length a) args = _
  unfold replace2
  rw [List.take_left, show p.length + 2 = p.length + 2 from rfl, ← List.drop_drop, List.drop_left]
  rfl

/-- What comes before the first place stays at the beginning. -/
theorem format_prefix : ∀ (args : List Str) (p q : Str), 123 ∉ p → p.getLast? ≠ some 123 →
    p <+: format (p ++ q) args
  | [], p, q, _, _ => ⟨q, rfl⟩
  | a :: args, p, q, hp, hl => by
    show p <+: (match find [123, 125] (p ++ q) with
      | some pos => format (replace2 (p ++ q) pos a) args
      | none => format (p ++ q) args)
    cases hf : find [123, 125] (p ++ q) with
    | none => exact format_prefix args p q hp hl
    | some pos =>
      have hpos : p.length ≤ pos := by
        clear hl
        induction p generalizing pos with
        | nil => exact Nat.zero_le _
        | cons c p ih =>
          have h1 : startsWith [123, 125] (c :: p ++ q) ≠ true := by
            intro hs
            obtain ⟨r, hr⟩ := (startsWith_braces _).1 hs
            exact hp ((List.cons.inj hr).1 ▸ List.mem_cons_self)
          have h2 : find [123, 125] (c :: p ++ q) = (find [123, 125] (p ++ q)).map (· + 1) := by
            show (if startsWith [123, 125] (c :: p ++ q) = true then some 0
              else (find [123, 125] (p ++ q)).map (· + 1)) = _
            rw [if_neg h1]
          rw [h2] at hf
          cases hg : find [123, 125] (p ++ q) with
          | none => rw [hg] at hf; cases hf
          | some k =>
            rw [hg] at hf
            cases hf
            have := ih (fun h => hp (List.mem_cons_of_mem _ h)) k hg
            simp only [List.length_cons]
            omega
      show p <+: format (replace2 (p ++ q) pos a) args
      have he : replace2 (p ++ q) pos a = p ++ (q.take (pos - p.length) ++ a ++ (p ++ q).drop (pos + 2)) := by
        unfold replace2
        rw [List.take_append, List.take_of_length_le hpos]
        simp only [List.append_assoc]
      rw [he]
      exact format_prefix args p _ hp hl

theorem format_open (f : Str) : label .io ++ format tOpen [f] = [73, 79, 69, 114, 114, 111, 114, 58, 32, 85, 110, 97,
  98, 108, 101, 32, 116, 111, 32, 111, 112, 101, 110, 32] ++ f := by
  have := format_first [85, 110, 97, 98, 108, 101, 32, 116, 111, 32, 111, 112, 101, 110, 32] [] f [] (by decide)
  rw [show tOpen = [85, 110, 97, 98, 108, 101, 32, 116, 111, 32, 111, 112, 101, 110, 32] ++ 123 :: 125 :: [] from rfl,
  this]
  simp [format, label]

theorem format_key (k conf : Str) (hk : 123 ∉ k) :
    label .corruption ++ format tKey [k, conf] = keyText k ++ [39] ++ conf ++ [39] := by
  have h1 := format_first [85, 110, 97, 98, 108, 101, 32, 116, 111, 32, 102, 105, 110, 100, 32, 107, 101, 121, 32,
  39] [39, 32, 105, 110, 32, 39, 123, 125, 39] k [conf] (by decide)
  have h2 := format_first ([85, 110, 97, 98, 108, 101, 32, 116, 111, 32, 102, 105, 110, 100, 32, 107, 101, 121, 32,
  39] ++ k ++ [39, 32, 105, 110, 32, 39]) [39] conf [] (by
    simp only [List.mem_append, not_or]
    exact ⟨⟨by decide, hk⟩, by decide⟩)
  rw [show tKey = [85, 110, 97, 98, 108, 101, 32, 116, 111, 32, 102, 105, 110, 100, 32, 107, 101, 121, 32,
  39] ++ 123 :: 125 :: [39, 32, 105, 110, 32, 39, 123, 125, 39] from rfl, h1,
    show [85, 110, 97, 98, 108, 101, 32, 116, 111, 32, 102, 105, 110, 100, 32, 107, 101, 121, 32, 39] ++ k ++ [39, 32,
  105, 110, 32, 39, 123, 125, 39] =
      ([85, 110, 97, 98, 108, 101, 32, 116, 111, 32, 102, 105, 110, 100, 32, 107, 101, 121, 32, 39] ++ k ++ [39, 32,
  105, 110, 32, 39]) ++ 123 :: 125 :: [39] by
      rw [List.append_assoc ([85, 110, 97, 98, 108, 101, 32, 116, 111, 32, 102, 105, 110, 100, 32, 107, 101, 121, 32,
  39] ++ k)]
      rfl, h2]
  simp [format, label, keyText]

/-! ## Statuses -/

/-- Every status has a property. -/
def Says (P : Code → Str → Prop) (x : Mio α) : Prop := ∀ c t, x = .error (.status c t) → P c t

theorem Says.ok {P : Code → Str → Prop} (a : α) : Says P (.ok a : Mio α) := by intro c t h; cases h

theorem Says.fault {P : Code → Str → Prop} (f : Fault) : Says P (.error (.fault f) : Mio α) := by intro c t h; cases h

theorem Says.ofExec {P : Code → Str → Prop} (x : Exec α) : Says P (Mio.ofExec x) := by
  cases x
  · exact .fault _
  · exact .ok _

theorem Says.failed {P : Code → Str → Prop} {c : Code} {t : Str} (h : P c (label c ++ t)) :
    Says P (failed c t : Mio α) := by
  intro c' t' he
  cases he
  exact h

theorem Says.bind {P : Code → Str → Prop} {x : Mio α} {f : α → Mio β} (hx : Says P x)
    (hf : ∀ a, x = .ok a → Says P (f a)) : Says P (x >>= f) := by
  rcases x with (⟨c, t⟩ | f') | a
  · intro c' t' he
    cases he
    exact hx _ _ rfl
  · exact .fault _
  · exact hf a rfl

theorem Says.ite {P : Code → Str → Prop} {q : Prop} [Decidable q] {x y : Mio α} (hx : Says P x) (hy : Says P y) :
    Says P (if q then x else y) := by split <;> assumption

theorem Says.imp {P Q : Code → Str → Prop} {x : Mio α} (hx : Says P x) (h : ∀ c t, P c t → Q c t) : Says Q x :=
  fun c t he => h c t (hx c t he)

theorem labelled {c : Code} (t : Str) (hc : c ≠ .runtime) : Labelled c (label c ++ t) := by
  cases c with
  | io => exact .inl ⟨rfl, t, rfl⟩
  | corruption => exact .inr ⟨rfl, t, rfl⟩
  | runtime => exact absurd rfl hc

/-- The text begins with the kind of the error and contains the name of the file. -/
def Tells (name : Str) (c : Code) (t : Str) : Prop := Labelled c t ∧ name <:+: t

/-- The text begins with the kind of the error and contains the name of the file, or is one of those that do not. -/
def TellsOr (name : Str) (c : Code) (t : Str) : Prop := Labelled c t ∧ (name <:+: t ∨ Mute t)

theorem Tells.or {name : Str} {c : Code} {t : Str} (h : Tells name c t) : TellsOr name c t := ⟨h.1, .inl h.2⟩

/-- A text made by `Format` with the file name as last argument. -/
theorem tells_format {c : Code} (hc : c ≠ .runtime) {fmt : Str} {args : List Str} {name : Str}
    (h : Holes (args.length + 1) fmt) : Tells name c (label c ++ format fmt (args ++ [name])) := by
  refine ⟨labelled _ hc, ?_⟩
  obtain ⟨u, v, he⟩ := format_last args fmt name h
  exact ⟨label c ++ u, v, by rw [← he]; simp only [List.append_assoc]⟩

theorem holes_read : Holes 1 tRead := ⟨[102, 97, 105, 108, 101, 100, 32, 116, 111, 32, 114, 101, 97, 100, 58, 32], [],
  rfl, trivial⟩

theorem holes_verify : Holes 3 tVerify :=
  ⟨[82, 101, 97, 100, 65, 110, 100, 86, 101, 114, 105, 102, 121, 83, 116, 114, 105, 110, 103, 58, 32, 39], [39, 32,
  101, 120, 112, 101, 99, 116, 101, 100, 32, 98, 117, 116, 32, 39, 123, 125, 39, 32, 102, 111, 117, 110, 100, 32, 105,
  110, 32, 123, 125], rfl, [39, 32, 101, 120, 112, 101, 99, 116, 101, 100, 32, 98, 117, 116, 32, 39], [39, 32, 102,
  111, 117, 110, 100, 32, 105, 110, 32, 123, 125], rfl,
    [39, 32, 102, 111, 117, 110, 100, 32, 105, 110, 32], [], rfl, trivial⟩

theorem holes_vecSize : Holes 4 tVecSize :=
  ⟨[115, 101, 99, 116, 105, 111, 110, 95, 115, 105, 122, 101, 32, 61, 32], [32, 42, 32, 123, 125, 32, 43, 32, 52, 32,
  101, 120, 112, 101, 99, 116, 101, 100, 44, 32, 98, 117, 116, 32, 123, 125, 32, 102, 111, 117, 110, 100, 58, 32, 123,
  125], rfl, [32, 42, 32], [32, 43, 32, 52, 32, 101, 120, 112, 101, 99, 116, 101, 100, 44, 32, 98, 117, 116, 32, 123,
  125, 32, 102, 111, 117, 110, 100, 58, 32, 123, 125], rfl,
    [32, 43, 32, 52, 32, 101, 120, 112, 101, 99, 116, 101, 100, 44, 32, 98, 117, 116, 32], [32, 102, 111, 117, 110,
  100, 58, 32, 123, 125], rfl, [32, 102, 111, 117, 110, 100, 58, 32], [], rfl, trivial⟩

theorem holes_row : Holes 3 tRow :=
  ⟨[77, 97, 116, 114, 105, 120, 58, 58, 82, 101, 97, 100, 58, 32, 114, 111, 119, 95, 114, 101, 97, 100, 46, 68, 105,
  109, 40, 41, 32, 61, 61, 32], [32, 101, 120, 112, 101, 99, 116, 101, 100, 44, 32, 98, 117, 116, 32, 123, 125, 32,
  102, 111, 117, 110, 100, 58, 32, 123, 125], rfl, [32, 101, 120, 112, 101, 99, 116, 101, 100, 44, 32, 98, 117, 116,
  32], [32, 102, 111, 117, 110, 100, 58, 32, 123, 125], rfl,
    [32, 102, 111, 117, 110, 100, 58, 32], [], rfl, trivial⟩

theorem holes_layer : Holes 2 tLayer :=
  ⟨[114, 101, 97, 100, 95, 108, 97, 121, 101, 114, 58, 32, 117, 110, 101, 120, 112, 101, 99, 116, 101, 100, 32, 108,
  97, 121, 101, 114, 32, 116, 121, 112, 101, 58, 32], [32, 40, 123, 125, 41], rfl, [32, 40], [41], rfl, trivial⟩

theorem holes_eof : Holes 1 tEof := ⟨[69, 79, 70, 32, 97, 108, 114, 101, 97, 100, 121, 32, 114, 101, 97, 99, 104, 101,
  100, 58, 32], [], rfl, trivial⟩

theorem holes_open : Holes 1 tOpen := ⟨[85, 110, 97, 98, 108, 101, 32, 116, 111, 32, 111, 112, 101, 110, 32], [], rfl,
  trivial⟩

/-- Every status of a reader has a property that depends on the name of the file. -/
def SaysRm (P : Str → Code → Str → Prop) (p : Rm α) : Prop := ∀ name bs, Says (P name) (p name bs)

theorem SaysRm.pure {P : Str → Code → Str → Prop} (a : α) : SaysRm P (Pure.pure a : Rm α) := fun _ _ => .ok _

theorem SaysRm.bind {P : Str → Code → Str → Prop} {p : Rm α} {f : α → Rm β} (hp : SaysRm P p)
    (hf : ∀ a, SaysRm P (f a)) : SaysRm P (p >>= f) :=
  fun name bs => (hp name bs).bind fun _ _ => hf _ _ _

theorem SaysRm.ite {P : Str → Code → Str → Prop} {c : Prop} [Decidable c] {p q : Rm α} (hp : SaysRm P p)
    (hq : SaysRm P q) : SaysRm P (if c then p else q) := by split <;> assumption

theorem SaysRm.fault {P : Str → Code → Str → Prop} (f : Fault) : SaysRm P (Rm.fault f : Rm α) := fun _ _ => .fault _

theorem SaysRm.fail {P : Str → Code → Str → Prop} {c : Code} {t : Str → Str} (h : ∀ name,
  P name c (label c ++ t name)) :
    SaysRm P (Rm.fail c t : Rm α) := fun name _ => .failed (h name)

theorem SaysRm.imp {P Q : Str → Code → Str → Prop} {p : Rm α} (hp : SaysRm P p)
    (h : ∀ name c t, P name c t → Q name c t) : SaysRm Q p := fun name bs => (hp name bs).imp (h name)

theorem says_readBytes (n : Nat) : SaysRm Tells (readBytes n) := fun _ _ =>
  .ite (.failed (tells_format (args := []) (by decide) holes_read)) (.ok _)

theorem says_readI32 : SaysRm Tells readI32 := (says_readBytes 4).bind fun _ => .pure _

theorem says_readTag (e : List UInt8) : SaysRm Tells (readTag e) :=
  (says_readBytes _).bind fun v => .ite (.pure _) (.fail fun _ =>
    tells_format (args := [e, cstr v]) (by decide) holes_verify)

theorem cantRead_tells {name : Str} {c : Code} {t : Str} (h : cantRead name = some (c, t)) : Tells name c t := by
  cases h
  exact tells_format (args := []) (by decide) holes_read

theorem readElements_tells {name : Str} {old : List (Option UInt8)} {size dim : Int} {bs : List UInt8} {r : VecResult}
    (h : readElements name old size dim bs = .ok r) {c : Code} {t : Str} (hs : r.status = some (c, t)) :
    Tells name c t := by
  unfold readElements at h
  split at h
  · cases h
    cases hs
    exact tells_format (args := [intText dim, natText 4, intText size]) (by decide) holes_vecSize
  · obtain ⟨mem, _, h⟩ := bind_ok h
    rcases hf : Ser.fread (4 * dim.toNat) bs with ⟨(_ | v), rest⟩
    · simp only [hf] at h
      split at h
      · cases h
        exact cantRead_tells hs
      · cases h
        exact cantRead_tells hs
    · simp only [hf] at h
      cases h
      cases hs

theorem vectorRead_tells {name : Str} {old : List (Option UInt8)} {bs : List UInt8} {r : VecResult}
    (h : vectorRead name old bs = .ok r) {c : Code} {t : Str} (hs : r.status = some (c, t)) : Tells name c t := by
  unfold vectorRead at h
  rcases hf : Ser.fread 4 bs with ⟨(_ | v), rest⟩
  · simp only [hf] at h
    cases h
    exact cantRead_tells hs
  · simp only [hf] at h
    split at h
    · cases h
      cases hs
      exact tells_format (args := [Ser.tagVec, cstr v]) (by decide) holes_verify
    · unfold readSized at h
      rcases hf2 : Ser.fread 4 rest with ⟨(_ | v), rest⟩
      · simp only [hf2] at h
        cases h
        exact cantRead_tells hs
      · simp only [hf2] at h
        rcases hf3 : Ser.fread 4 rest with ⟨(_ | v), rest⟩
        · simp only [hf3] at h
          cases h
          exact cantRead_tells hs
        · simp only [hf3] at h
          exact readElements_tells h hs

theorem says_readVec : SaysRm Tells readVec := by
  intro name bs c t h
  unfold readVec at h
  cases hv : vectorRead name [] bs with
  | error e => rw [hv] at h; cases h
  | ok r =>
    rw [hv] at h
    cases hs : r.status with
    | none => simp only [hs] at h; cases h
    | some p =>
      simp only [hs] at h
      cases h
      exact vectorRead_tells hv hs

theorem says_readRows (cols : Nat) : ∀ (n : Nat) (mem : List (Option UInt8)), SaysRm Tells (readRows cols n mem)
  | 0, _ => .pure _
  | n + 1, mem => by
    intro name bs c t h
    unfold readRows at h
    cases hv : vectorRead name mem bs with
    | error e => rw [hv] at h; cases h
    | ok r =>
      rw [hv] at h
      simp only at h
      split at h
      · cases h
        exact tells_format (args := [natText cols, natText (r.mem.length / 4)]) (by decide) holes_row
      · cases hr : readRows cols n r.mem name r.rest with
        | error e =>
          rw [hr] at h
          cases h
          exact says_readRows cols n r.mem name r.rest c t hr
        | ok x => rw [hr] at h; cases h

theorem says_readMat : SaysRm Tells readMat :=
  (says_readTag _).bind fun _ => says_readI32.bind fun _ => says_readI32.bind fun rows =>
    says_readI32.bind fun cols => by
      intro name bs
      unfold readMatBody
      cases matInit rows cols with
      | error e => exact .fault _
      | ok u => exact says_readRows _ _ _ _ _

theorem says_readIndices : ∀ n : Nat, SaysRm Tells (readIndices n)
  | 0 => .pure _
  | n + 1 => says_readI32.bind fun _ => (says_readIndices n).bind fun _ => .pure _

theorem SaysRm.or {p : Rm α} (h : SaysRm Tells p) : SaysRm TellsOr p := h.imp fun _ _ _ => Tells.or

theorem says_readBody (type : Int) : SaysRm TellsOr (readBody type) := by
  refine .ite (says_readMat.or.bind fun _ => says_readVec.or.bind fun _ => .pure _) ?_
  refine .ite (.pure _) (.ite (.pure _) (.ite (.pure _) ?_))
  refine .ite (says_readI32.or.bind fun n => .ite (.fail fun _ => ⟨labelled _ (by decide), .inr .splice⟩)
    ((says_readIndices _).or.bind fun _ => .pure _)) ?_
  refine .ite (says_readVec.or.bind fun _ => says_readVec.or.bind fun _ => .pure _) (.ite (.pure _) ?_)
  exact .ite (says_readI32.or.bind fun _ => says_readI32.or.bind fun _ => .pure _)
    (.fail fun _ => (tells_format (args := [intText type]) (by decide) holes_layer).or)

theorem says_readLayers : ∀ n : Nat, SaysRm TellsOr (readLayers n)
  | 0 => .pure _
  | n + 1 =>
    ((says_readTag _).or.bind fun _ => says_readI32.or.bind fun _ => says_readBody _).bind fun _ =>
      (says_readLayers n).bind fun _ => .pure _

theorem says_readNnet : SaysRm TellsOr readNnet :=
  (says_readTag _).or.bind fun _ => says_readI32.or.bind fun _ => says_readI32.or.bind fun _ =>
    says_readI32.or.bind fun _ => (says_readLayers _).bind fun _ => .pure _

theorem says_readArray (sz n : Nat) : SaysRm TellsOr (readArray sz n) := .ite (says_readBytes _).or (.fault _)

theorem says_resizeCheck (n : Int) : SaysRm TellsOr (resizeCheck n) := .ite (.fault _) (.pure _)

theorem says_fstRead : SaysRm TellsOr fstRead :=
  (says_readBytes _).or.bind fun _ => .ite (.fail fun name =>
    ⟨labelled _ (by decide), .inl ⟨label .corruption, [], by simp⟩⟩) <|
    says_readI32.or.bind fun size => says_readI32.or.bind fun st => says_readI32.or.bind fun ar =>
      says_readI32.or.bind fun _ =>
      .ite (.fail fun name => ⟨labelled _ (by decide), .inr (.size (by
        obtain ⟨v, hv⟩ := format_prefix [intText (Fst.expectedSize st ar), intText size] [115, 101, 99, 116, 105, 111,
  110, 95, 115, 105, 122, 101, 32, 61, 61, 32]
          [123, 125, 32, 101, 120, 112, 101, 99, 116, 101, 100, 44, 32, 98, 117, 116, 32, 123, 125, 32, 102, 111, 117,
  110, 100] (by decide) (by decide)
        exact ⟨v, by
          rw [show tFstSize = [115, 101, 99, 116, 105, 111, 110, 95, 115, 105, 122, 101, 32, 61, 61, 32] ++ [123, 125,
  32, 101, 120, 112, 101, 99, 116, 101, 100, 44, 32, 98, 117, 116, 32, 123, 125, 32, 102, 111, 117, 110,
  100] from rfl, ← hv]
          rfl⟩))⟩) <|
        (says_resizeCheck _).bind fun _ => (says_readArray _ _).bind fun _ => (says_readArray _ _).bind fun _ =>
          (says_resizeCheck _).bind fun _ => (says_readArray _ _).bind fun _ => .pure _

/-! ## Symbols -/

theorem says_symbolLine (t : Symbols) (line name : Str) : Says (TellsOr name) (symbolLine t line) := by
  unfold symbolLine
  refine (Says.ofExec _).bind fun fields _ => ?_
  have hcol : ∀ fs : List Str, Says (TellsOr name)
      (failed .corruption (format tColumns [natText fs.length, line]) : Mio Symbols) := fun fs =>
    .failed ⟨labelled _ (by decide), .inr (.columns (by
      obtain ⟨v, hv⟩ := format_prefix [natText fs.length, line] [50, 32, 99, 111, 108, 117, 109, 110, 32, 101, 120,
  112, 101, 99, 116, 101, 100, 32, 98, 117, 116, 32] [123, 125, 32, 102, 111, 117, 110, 100, 58, 32, 123, 125]
        (by decide) (by decide)
      exact ⟨v, by
        rw [show tColumns = [50, 32, 99, 111, 108, 117, 109, 110, 32, 101, 120, 112, 101, 99, 116, 101, 100, 32, 98,
  117, 116, 32] ++ [123, 125, 32, 102, 111, 117, 110, 100, 58, 32, 123, 125] from rfl, ← hv]
        rfl⟩))⟩
  rcases fields with _ | ⟨w, _ | ⟨x, _ | ⟨y, l⟩⟩⟩
  · exact hcol _
  · exact hcol _
  · dsimp only
    refine Says.bind ?_ fun id _ => (Says.ofExec _).bind fun _ _ => (Says.ofExec _).bind fun _ _ => .ok _
    unfold stringToLong
    refine (Says.ofExec _).bind fun s _ => ?_
    dsimp only
    refine .ite (.failed ⟨labelled _ (by decide), .inr (.number ?_)⟩) (.ok _)
    obtain ⟨v, hv⟩ := format_prefix [s] [117, 110, 101, 120, 112, 101, 99, 116, 101, 100, 32, 110, 117, 109, 98, 101,
  114, 32, 115, 116, 114, 105, 110, 103, 58, 32] [123, 125] (by decide) (by decide)
    exact ⟨v, by
      rw [show tNumber = [117, 110, 101, 120, 112, 101, 99, 116, 101, 100, 32, 110, 117, 109, 98, 101, 114, 32, 115,
  116, 114, 105, 110, 103, 58, 32] ++ [123, 125] from rfl, ← hv]
      rfl⟩
  · exact hcol _

theorem says_symbolLoop (name : Str) : ∀ (fuel : Nat) (f : File) (t : Symbols),
    Says (TellsOr name) (symbolLoop name fuel f t)
  | 0, _, _ => .fault _
  | fuel + 1, f, t => by
    unfold symbolLoop
    rcases readLine f with ⟨(l | _ | _), f⟩
    · exact (says_symbolLine t l name).bind fun t _ => says_symbolLoop name fuel f t
    · exact .ok _
    · exact .failed (tells_format (args := []) (by decide) holes_eof).or

theorem says_findBosEos (t : Symbols) (name : Str) : Says (TellsOr name) (findBosEos t) := by
  unfold findBosEos
  cases mapFind t.ids kBos <;> cases mapFind t.ids kEos
  all_goals first
    | exact .ok _
    | exact .failed ⟨labelled _ (by decide), .inr .sentence⟩

end Verif.Msg
