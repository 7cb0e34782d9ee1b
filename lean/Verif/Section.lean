import Verif.Bytes

/-!
# Section tags, 16-bit values and allocation

Pieces shared by the readers of wave headers, vectors, matrices and networks.
-/

namespace Verif

/-- `ReadableFile::ReadAndVerifyString`, `src/util.cc` 128-143: read as many bytes as the expected string
has, put a NUL behind them, and compare the C string in the buffer with the expected string. -/
def readTag (expected : List UInt8) : Rd Unit := do
  let v ← readBytes expected.length
  if cstr v = expected then pure () else Rd.fail .corruption

/-- `int16_t` from two bytes, least significant first. -/
def decI16 : List UInt8 → Int
  | [a, b] =>
    let n := a.toNat + 256 * b.toNat
    if n < 32768 then n else (n : Int) - 65536
  | _ => 0

/-- `ReadValue<int16_t>`, `src/util.h` (a `Read` of two bytes). -/
def readI16 : Rd Int := do
  let v ← readBytes 2
  pure (decI16 v)

/-- `Vector<Real>::Init`, `src/vector.cc` 32-50, as far as sizes go, for elements of `w` bytes: the size in
bytes is computed as `size_t` but stored in an `int`.  A negative value becomes an enormous request, for
which `posix_memalign` fails and `std::bad_alloc` is thrown; a value that wrapped around to something
too small gives a block that the caller then writes past.  Running out of memory for a representable
size is not modelled. -/
def vecInit (w : Nat) (dim : Int) : Exec Unit := do
  cassert (decide (0 ≤ dim))
  if dim = 0 then .ok ()
  else if wrap32 (dim * w) < 0 then .error .throw
  else if wrap32 (dim * w) < dim * w then .error .ub
  else .ok ()

/-- `Matrix<Real>::Init`, `src/matrix.cc` 61-95, as far as sizes go: `rows * cols` is an `int` product; the
block size itself is computed in `size_t`.  Running out of memory is not modelled. -/
def matInit (rows cols : Int) : Exec Unit := do
  let m ← i32 (rows * cols)
  if m = 0 then cassert (decide (rows = 0 ∧ cols = 0))
  else cassert (decide (0 < rows ∧ 0 < cols))

/-! ## Facts -/

theorem matInit_ok {rows cols : Int} (h1 : 0 < rows) (h2 : 0 < cols) (h : rows * cols ≤ 2147483647) :
    matInit rows cols = .ok () := by
  have h3 : 0 < rows * cols := Int.mul_pos h1 h2
  unfold matInit
  rw [i32_of ⟨by omega, h⟩, ok_bind, if_neg (by omega), decide_eq_true ⟨h1, h2⟩]
  rfl

theorem matInit_zero : matInit 0 0 = .ok () := rfl


theorem vecInit_ok {w : Nat} {dim : Int} (h0 : 0 ≤ dim) (h : dim * w ≤ 2147483647) :
    vecInit w dim = .ok () := by
  have h1 : 0 ≤ dim * w := Int.mul_nonneg h0 (by omega)
  have h2 : wrap32 (dim * w) = dim * w := wrap32_of ⟨by omega, h⟩
  unfold vecInit
  rw [decide_eq_true h0, cassert_true, ok_bind, h2]
  split
  · rfl
  · rw [if_neg (by omega), if_neg (by omega)]

theorem takeWhile_self : ∀ {l : List UInt8}, (∀ x ∈ l, x ≠ 0) → cstr l = l
  | [], _ => rfl
  | x :: l, h => by
    have h1 : x ≠ 0 := h x (by simp)
    have h2 := takeWhile_self (l := l) (fun y hy => h y (by simp [hy]))
    unfold cstr at h2 ⊢
    rw [List.takeWhile_cons_of_pos (by simp [h1]), h2]

theorem cstr_eq {expected v : List UInt8} (h0 : (0 : UInt8) ∉ expected)
    (hl : v.length = expected.length) : cstr v = expected ↔ v = expected := by
  constructor
  · intro h
    have h1 : cstr v ++ v.dropWhile (· ≠ 0) = v := by
      unfold cstr; exact List.takeWhile_append_dropWhile
    have h2 : (v.dropWhile (· ≠ 0)).length = 0 := by
      have := congrArg List.length h1
      rw [List.length_append, h] at this
      omega
    rw [List.length_eq_zero_iff.mp h2, List.append_nil] at h1
    rw [← h1]; exact h
  · intro h
    subst h
    exact takeWhile_self (fun x hx => by
      intro h; subst h; exact h0 hx)

theorem readTag_append {t rest : List UInt8} (h0 : (0 : UInt8) ∉ t) (hn : t ≠ []) :
    readTag t (t ++ rest) = .ok ((), rest) := by
  unfold readTag
  rw [Rd.bind_of (readBytes_append (by
    intro h; exact hn (List.length_eq_zero_iff.mp h)) rfl), if_pos ((cstr_eq h0 rfl).mpr rfl)]
  rfl

theorem readTag_ok {t bs rest : List UInt8} (h0 : (0 : UInt8) ∉ t)
    (h : readTag t bs = .ok ((), rest)) : bs = t ++ rest := by
  unfold readTag at h
  obtain ⟨v, r, h1, h⟩ := Rd.bind_ok h
  obtain ⟨_, h2, h3⟩ := readBytes_ok h1
  split at h
  · rename_i hc
    rw [Rd.pure_apply] at h
    cases h
    rw [h2, (cstr_eq h0 h3).mp hc]
  · cases h

/-- Reading a tag never faults. -/
theorem readTag_cases {t : List UInt8} (h0 : (0 : UInt8) ∉ t) (bs : List UInt8) :
    (∃ rest, bs = t ++ rest ∧ readTag t bs = .ok ((), rest)) ∨ ∃ c, readTag t bs = bad c := by
  cases hc : readTag t bs with
  | ok x =>
    obtain ⟨⟨⟩, r⟩ := x
    exact .inl ⟨r, readTag_ok h0 hc, rfl⟩
  | error e =>
    right
    unfold readTag at hc
    rw [Rd.bind_apply] at hc
    unfold readBytes at hc
    split at hc
    · rw [bad_bind] at hc; exact ⟨.io, hc.symm⟩
    · rw [io_ok_bind] at hc
      simp only at hc
      split at hc
      · cases hc
      · exact ⟨.corruption, hc.symm⟩

theorem Local.tag (t : List UInt8) : Local (readTag t) :=
  Local.bind (Local.bytes _) (fun _ => Local.ite (Local.pure _) (Local.fail _))

theorem Local.i16 : Local readI16 := Local.bind (Local.bytes 2) (fun _ => Local.pure _)

theorem readI16_ok {bs rest : List UInt8} {x : Int} (h : readI16 bs = .ok (x, rest)) :
    ∃ v, v.length = 2 ∧ bs = v ++ rest ∧ x = decI16 v := by
  unfold readI16 at h
  obtain ⟨v, r, h1, h⟩ := Rd.bind_ok h
  obtain ⟨_, h2, h3⟩ := readBytes_ok h1
  cases h
  exact ⟨v, h3, h2, rfl⟩

theorem readI16_append {v rest : List UInt8} (h : v.length = 2) :
    readI16 (v ++ rest) = .ok (decI16 v, rest) := by
  unfold readI16
  rw [Rd.bind_of (readBytes_append (by decide) h)]; rfl

theorem readI32_raw {v rest : List UInt8} (h : v.length = 4) :
    readI32 (v ++ rest) = .ok (decI32 v, rest) := by
  unfold readI32
  rw [Rd.bind_of (readBytes_append (by decide) h)]; rfl

theorem readI16_short {bs : List UInt8} (h : bs.length < 2) : readI16 bs = bad .io :=
  Rd.bind_error (readBytes_short h)

theorem decI16_in (v : List UInt8) : -32768 ≤ decI16 v ∧ decI16 v ≤ 32767 := by
  unfold decI16
  split
  · rename_i a b
    have := a.toNat_lt
    have := b.toNat_lt
    simp only
    split <;> omega
  · omega

end Verif
