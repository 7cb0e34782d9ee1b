import Verif.Basic

/-!
# Bytes, little-endian integers, and reading from files

Shared by the models of all file readers and of the Python converters.
-/

namespace Verif

/-- Status codes of `src/status.h` other than OK that file readers produce. -/
inductive Code where
  | io
  | corruption
  | runtime
deriving DecidableEq, Repr

/-- How a reader ends when it does not return OK: a non-OK `Status`, or a fault. -/
inductive IoErr where
  | status (c : Code)
  | fault (f : Fault)
deriving DecidableEq, Repr

/-- Result of a reader. -/
abbrev Io (α : Type u) := Except IoErr α

/-- A non-OK `Status`. -/
def bad {α : Type u} (c : Code) : Io α := .error (.status c)

/-- A fault inside a reader. -/
def Io.ofExec {α : Type u} : Exec α → Io α
  | .ok a => .ok a
  | .error f => .error (.fault f)

theorem io_bind_ok {α β : Type u} {x : Io α} {f : α → Io β} {b : β}
    (h : (x >>= f) = .ok b) : ∃ a, x = .ok a ∧ f a = .ok b := by
  cases x with
  | error e => cases h
  | ok a => exact ⟨a, rfl, h⟩

@[simp] theorem io_ok_bind {α β : Type u} (a : α) (f : α → Io β) :
    ((Except.ok a : Io α) >>= f) = f a := rfl

@[simp] theorem io_error_bind {α β : Type u} (e : IoErr) (f : α → Io β) :
    ((Except.error e : Io α) >>= f) = .error e := rfl

@[simp] theorem bad_bind {α β : Type u} (c : Code) (f : α → Io β) :
    ((bad c : Io α) >>= f) = bad c := rfl

/-- A 32-bit word as four bytes, least significant first (`struct.pack("<i")`, and the memory layout
of `int32_t`/`float` on the little-endian machines the tool targets). -/
def encU32 (n : Nat) : List UInt8 :=
  [UInt8.ofNat n, UInt8.ofNat (n / 256), UInt8.ofNat (n / 65536), UInt8.ofNat (n / 16777216)]

/-- The 32-bit word stored in the first four bytes of a list (0 for missing bytes; the readers only
apply it to lists of exactly four bytes). -/
def decU32 : List UInt8 → Nat
  | [a, b, c, d] => a.toNat + 256 * b.toNat + 65536 * c.toNat + 16777216 * d.toNat
  | _ => 0

/-- Two's complement reading of a 32-bit word. -/
def toI32 (n : Nat) : Int := if n < 2147483648 then n else (n : Int) - 4294967296

/-- Reduction to `int32_t` of an arbitrary integer (conversion to a 32-bit signed type). -/
def wrap32 (x : Int) : Int := toI32 (x % 4294967296).toNat

/-- `struct.pack("<i", x)`. -/
def encI32 (x : Int) : List UInt8 := encU32 (x % 4294967296).toNat

/-- `int32_t` from four bytes. -/
def decI32 (bs : List UInt8) : Int := toI32 (decU32 bs)

/-- A reader: from the rest of the file to a value and the new rest.  (The state is the part of the
`FILE*` behind `ReadableFile`, `src/util.h`, that matters here.) -/
def Rd (α : Type) := List UInt8 → Io (α × List UInt8)

instance : Monad Rd where
  pure a := fun bs => .ok (a, bs)
  bind p q := fun bs => p bs >>= fun x => q x.1 x.2

/-- Return a non-OK status. -/
def Rd.fail {α : Type} (c : Code) : Rd α := fun _ => bad c

/-- A fault inside a reader. -/
def Rd.fault {α : Type} (f : Fault) : Rd α := fun _ => .error (.fault f)

/-- `ReadableFile::Read(ptr, size)`, `src/util.cc` 120-126, with `n` the size: `fread(ptr, size, 1, fd)`
returns 1 only if `size` is not zero and that many bytes remain. -/
def readBytes (n : Nat) : Rd (List UInt8) := fun bs =>
  if n = 0 ∨ bs.length < n then bad .io else .ok (bs.take n, bs.drop n)

/-- `ReadValue<int32_t>`, `src/util.h` (a `Read` of four bytes). -/
def readI32 : Rd Int := do
  let v ← readBytes 4
  pure (decI32 v)

/-- The bytes up to the first NUL, i.e. the C string in a buffer that ends with NUL. -/
def cstr (bs : List UInt8) : List UInt8 := bs.takeWhile (· ≠ 0)

/-- Split into consecutive groups of four bytes and decode each (array of 32-bit words in memory). -/
def words : Nat → List UInt8 → List Nat
  | 0, _ => []
  | n + 1, bs => decU32 (bs.take 4) :: words n (bs.drop 4)

/-! ## Facts -/

theorem encU32_length (n : Nat) : (encU32 n).length = 4 := rfl

theorem encI32_length (x : Int) : (encI32 x).length = 4 := rfl

theorem dec_encU32 {n : Nat} (h : n < 4294967296) : decU32 (encU32 n) = n := by
  simp only [encU32, decU32, UInt8.toNat_ofNat']
  omega

theorem toI32_in {n : Nat} (h : n < 4294967296) : InI32 (toI32 n) := by
  unfold toI32 InI32; split <;> omega

theorem decU32_lt (bs : List UInt8) : decU32 bs < 4294967296 := by
  unfold decU32
  split
  · rename_i a b c d
    have := a.toNat_lt
    have := b.toNat_lt
    have := c.toNat_lt
    have := d.toNat_lt
    omega
  · omega

theorem decI32_in (bs : List UInt8) : InI32 (decI32 bs) := toI32_in (decU32_lt bs)

theorem wrap32_of {x : Int} (h : InI32 x) : wrap32 x = x := by
  unfold InI32 at h
  unfold wrap32 toI32
  split <;> omega

theorem dec_encI32 {x : Int} (h : InI32 x) : decI32 (encI32 x) = x := by
  unfold decI32 encI32
  rw [dec_encU32 (by omega)]
  exact wrap32_of h

theorem Rd.bind_apply {α β : Type} (p : Rd α) (q : α → Rd β) (bs : List UInt8) :
    (p >>= q) bs = (p bs >>= fun x => q x.1 x.2) := rfl

@[simp] theorem Rd.pure_apply {α : Type} (a : α) (bs : List UInt8) :
    (pure a : Rd α) bs = .ok (a, bs) := rfl

@[simp] theorem Rd.fail_apply {α : Type} (c : Code) (bs : List UInt8) :
    (Rd.fail c : Rd α) bs = bad c := rfl

@[simp] theorem Rd.fault_apply {α : Type} (f : Fault) (bs : List UInt8) :
    (Rd.fault f : Rd α) bs = .error (.fault f) := rfl

/-- Run one reader and go on. -/
theorem Rd.bind_of {α β : Type} {p : Rd α} {q : α → Rd β} {bs r : List UInt8} {a : α}
    (h : p bs = .ok (a, r)) : (p >>= q) bs = q a r := by
  rw [Rd.bind_apply, h]; rfl

theorem Rd.bind_error {α β : Type} {p : Rd α} {q : α → Rd β} {bs : List UInt8} {e : IoErr}
    (h : p bs = .error e) : (p >>= q) bs = .error e := by
  rw [Rd.bind_apply, h]; rfl

theorem Rd.bind_ok {α β : Type} {p : Rd α} {q : α → Rd β} {bs r : List UInt8} {b : β}
    (h : (p >>= q) bs = .ok (b, r)) : ∃ a r', p bs = .ok (a, r') ∧ q a r' = .ok (b, r) := by
  rw [Rd.bind_apply] at h
  obtain ⟨⟨a, r'⟩, h1, h2⟩ := io_bind_ok h
  exact ⟨a, r', h1, h2⟩

theorem readBytes_append {n : Nat} {xs rest : List UInt8} (hn : n ≠ 0) (hx : xs.length = n) :
    readBytes n (xs ++ rest) = .ok (xs, rest) := by
  subst hx
  unfold readBytes
  rw [if_neg (by simp; exact List.length_pos_iff.mp (by omega))]
  simp

theorem readBytes_short {n : Nat} {bs : List UInt8} (h : bs.length < n) :
    readBytes n bs = bad .io := by
  unfold readBytes; rw [if_pos (Or.inr h)]

theorem readBytes_ok {n : Nat} {bs x rest : List UInt8} (h : readBytes n bs = .ok (x, rest)) :
    n ≠ 0 ∧ bs = x ++ rest ∧ x.length = n := by
  unfold readBytes at h
  split at h
  · cases h
  · rename_i hn
    cases h
    refine ⟨by omega, by simp, ?_⟩
    rw [List.length_take]; omega

theorem readI32_append {x : Int} (h : InI32 x) (rest : List UInt8) :
    readI32 (encI32 x ++ rest) = .ok (x, rest) := by
  unfold readI32
  rw [Rd.bind_of (readBytes_append (by decide) (encI32_length x)), Rd.pure_apply, dec_encI32 h]

theorem readI32_short {bs : List UInt8} (h : bs.length < 4) : readI32 bs = bad .io :=
  Rd.bind_error (readBytes_short h)

theorem readI32_ok {bs rest : List UInt8} {x : Int} (h : readI32 bs = .ok (x, rest)) :
    InI32 x ∧ ∃ v, v.length = 4 ∧ bs = v ++ rest ∧ x = decI32 v := by
  unfold readI32 at h
  obtain ⟨v, r, h1, h⟩ := Rd.bind_ok h
  obtain ⟨_, h2, h3⟩ := readBytes_ok h1
  cases h
  exact ⟨decI32_in v, v, h3, h2, rfl⟩

theorem readI32_total {bs : List UInt8} (h : 4 ≤ bs.length) :
    readI32 bs = .ok (decI32 (bs.take 4), bs.drop 4) := by
  have h1 : readBytes 4 bs = .ok (bs.take 4, bs.drop 4) := by
    unfold readBytes; rw [if_neg (by omega)]
  unfold readI32
  rw [Rd.bind_of h1]; rfl

/-- A reader is *local* when its outcome depends only on the bytes it consumes: adding bytes at the end
of the file changes nothing unless it ran into the end (an I/O error). -/
def Local {α : Type} (p : Rd α) : Prop :=
  ∀ bs tail, match p bs with
    | .ok (a, r) => p (bs ++ tail) = .ok (a, r ++ tail)
    | .error (.status .io) => True
    | .error e => p (bs ++ tail) = .error e

theorem Local.pure {α : Type} (a : α) : Local (pure a : Rd α) := fun _ _ => rfl

theorem Local.fail {α : Type} (c : Code) : Local (Rd.fail c : Rd α) := by
  intro bs tail; cases c <;> simp [bad]

theorem Local.fault {α : Type} (f : Fault) : Local (Rd.fault f : Rd α) := fun _ _ => rfl

theorem Local.bytes (n : Nat) : Local (readBytes n) := by
  intro bs tail
  by_cases h : n = 0 ∨ bs.length < n
  · have : readBytes n bs = bad .io := by unfold readBytes; rw [if_pos h]
    rw [this]; trivial
  · have h1 : readBytes n bs = .ok (bs.take n, bs.drop n) := by
      unfold readBytes; rw [if_neg h]
    have h2 : n ≤ bs.length := by omega
    rw [h1]
    show readBytes n (bs ++ tail) = _
    unfold readBytes
    rw [if_neg (by rw [List.length_append]; omega), List.take_append_of_le_length h2,
      List.drop_append_of_le_length h2]

theorem Local.bind {α β : Type} {p : Rd α} {q : α → Rd β} (hp : Local p) (hq : ∀ a, Local (q a)) :
    Local (p >>= q) := by
  intro bs tail
  have h1 := hp bs tail
  cases hc : p bs with
  | error e =>
    rw [hc] at h1
    rw [Rd.bind_error hc]
    cases e with
    | fault f => exact Rd.bind_error h1
    | status c =>
      cases c with
      | io => trivial
      | corruption => exact Rd.bind_error h1
      | runtime => exact Rd.bind_error h1
  | ok x =>
    obtain ⟨a, r⟩ := x
    rw [hc] at h1
    rw [Rd.bind_of hc, Rd.bind_of (show p (bs ++ tail) = .ok (a, r ++ tail) from h1)]
    exact hq a r tail

theorem Local.ite {α : Type} {c : Prop} [Decidable c] {p q : Rd α} (hp : Local p) (hq : Local q) :
    Local (if c then p else q) := by
  split
  · exact hp
  · exact hq

theorem Local.i32 : Local readI32 := Local.bind (Local.bytes 4) (fun _ => Local.pure _)

/-- What truncation does to a local reader: if the whole file is accepted with nothing left, every
proper prefix is rejected with an I/O error. -/
theorem Local.truncated {α : Type} {p : Rd α} (hp : Local p) {bs tail : List UInt8} {a : α}
    (h : p (bs ++ tail) = .ok (a, [])) (ht : tail ≠ []) : p bs = bad .io := by
  have h1 := hp bs tail
  cases hc : p bs with
  | error e =>
    rw [hc] at h1
    cases e with
    | fault f => rw [show p (bs ++ tail) = _ from h1] at h; cases h
    | status c =>
      cases c with
      | io => rfl
      | corruption => rw [show p (bs ++ tail) = _ from h1] at h; cases h
      | runtime => rw [show p (bs ++ tail) = _ from h1] at h; cases h
  | ok x =>
    obtain ⟨a', r⟩ := x
    rw [hc] at h1
    rw [show p (bs ++ tail) = _ from h1] at h
    have h2 : r ++ tail = [] := by
      injection h with h; exact (Prod.mk.inj h).2
    exact absurd (List.append_eq_nil_iff.mp h2).2 ht

theorem words_length : ∀ (n : Nat) (bs : List UInt8), (words n bs).length = n
  | 0, _ => rfl
  | n + 1, bs => by simp [words, words_length n]

/-- Encoding of a list of 32-bit words. -/
theorem words_flatMap : ∀ (ns : List Nat), (∀ n ∈ ns, n < 4294967296) →
    words ns.length (ns.flatMap encU32) = ns
  | [], _ => rfl
  | n :: ns, h => by
    have ih := words_flatMap ns (fun m hm => h m (by simp [hm]))
    have hd := dec_encU32 (h n (by simp))
    simp only [List.length_cons, List.flatMap_cons, words]
    rw [show (encU32 n ++ ns.flatMap encU32).take 4 = encU32 n by
        rw [List.take_append_of_le_length (Nat.le_refl 4)]; rfl,
      show (encU32 n ++ ns.flatMap encU32).drop 4 = ns.flatMap encU32 by
        rw [List.drop_append_of_le_length (Nat.le_refl 4)]; rfl, hd, ih]

theorem flatMap_encU32_length (ns : List Nat) : (ns.flatMap encU32).length = 4 * ns.length := by
  induction ns with
  | nil => rfl
  | cons n ns ih => simp only [List.flatMap_cons, List.length_append, encU32_length, List.length_cons]; omega

end Verif
