/-!
# Outcomes of modelled C++ code

Shared vocabulary of all models: an execution either yields a value or ends in a fault.
-/

namespace Verif

/-- The ways in which a run of the C++ code can go wrong.  There is no counterpart in `/repo`; this is
the outcome type of the model.

* `assert` — a C `assert` failed (the program aborts; the repo never defines `NDEBUG`);
* `ub` — undefined behaviour: out-of-bounds access, signed overflow, null or dangling dereference;
* `throw` — a C++ exception leaves the function;
* `fuel` — the model's bound on loop iterations was exhausted (the C++ loop may not terminate). -/
inductive Fault where
  | assert
  | ub
  | throw
  | fuel
deriving DecidableEq, Repr

deriving instance DecidableEq for Except

/-- A run of C++ code: a value or a fault. -/
abbrev Exec (α : Type u) := Except Fault α

/-- Result of a signed 32-bit computation: overflow is undefined behaviour. -/
def i32 (x : Int) : Exec Int :=
  if -2147483648 ≤ x ∧ x ≤ 2147483647 then .ok x else .error .ub

/-- The value is representable in `int32_t`. -/
def InI32 (x : Int) : Prop := -2147483648 ≤ x ∧ x ≤ 2147483647

instance (x : Int) : Decidable (InI32 x) := by unfold InI32; infer_instance

/-- C `assert(c)`. -/
def cassert (c : Bool) : Exec Unit :=
  if c then .ok () else .error .assert

/-- Read `a[i]` of a C array / `std::vector` through a signed index; out of bounds is undefined. -/
def aget {α : Type u} (a : List α) (i : Int) : Exec α :=
  if i < 0 then .error .ub
  else match a[i.toNat]? with
    | some x => .ok x
    | none => .error .ub

/-- Write `a[i] = x` through a signed index; out of bounds is undefined. -/
def aset {α : Type u} (a : List α) (i : Int) (x : α) : Exec (List α) :=
  if i < 0 then .error .ub
  else if i.toNat < a.length then .ok (a.set i.toNat x)
  else .error .ub

theorem i32_ok {x y : Int} (h : i32 x = .ok y) : y = x ∧ InI32 x := by
  unfold i32 at h
  split at h
  · cases h; exact ⟨rfl, by assumption⟩
  · cases h

theorem i32_of {x : Int} (h : InI32 x) : i32 x = .ok x := by
  unfold InI32 at h; unfold i32; rw [if_pos h]

theorem i32_not {x : Int} (h : ¬ InI32 x) : i32 x = .error .ub := by
  unfold InI32 at h; unfold i32; rw [if_neg h]

theorem aget_ok {α : Type u} {a : List α} {i : Int} {x : α} (h : aget a i = .ok x) :
    0 ≤ i ∧ i.toNat < a.length ∧ a[i.toNat]? = some x := by
  unfold aget at h
  split at h
  · cases h
  · rename_i h0
    split at h
    · rename_i y hy
      cases h
      refine ⟨by omega, ?_, hy⟩
      exact (List.getElem?_eq_some_iff.mp hy).1
    · cases h

theorem aget_of {α : Type u} {a : List α} {i : Int} {x : α} (h0 : 0 ≤ i)
    (h : a[i.toNat]? = some x) : aget a i = .ok x := by
  unfold aget
  rw [if_neg (by omega), h]

theorem aget_nat {α : Type u} {a : List α} {n : Nat} {x : α} (h : a[n]? = some x) :
    aget a (n : Int) = .ok x := aget_of (by omega) h

theorem aset_nat {α : Type u} {a : List α} {n : Nat} {x : α} (h : n < a.length) :
    aset a (n : Int) x = .ok (a.set n x) := by
  unfold aset
  rw [if_neg (by omega), if_pos (by omega), Int.toNat_natCast]

theorem aset_ok {α : Type u} {a b : List α} {i : Int} {x : α} (h : aset a i x = .ok b) :
    0 ≤ i ∧ i.toNat < a.length ∧ b = a.set i.toNat x := by
  unfold aset at h
  split at h
  · cases h
  · split at h
    · cases h; exact ⟨by omega, by assumption, rfl⟩
    · cases h

theorem aset_of {α : Type u} {a : List α} {i : Int} {x : α} (h0 : 0 ≤ i)
    (h : i.toNat < a.length) : aset a i x = .ok (a.set i.toNat x) := by
  unfold aset
  rw [if_neg (by omega), if_pos h]

theorem bind_ok {α β : Type u} {x : Exec α} {f : α → Exec β} {b : β}
    (h : (x >>= f) = .ok b) : ∃ a, x = .ok a ∧ f a = .ok b := by
  cases x with
  | error e => cases h
  | ok a => exact ⟨a, rfl, h⟩

@[simp] theorem ok_bind {α β : Type u} (a : α) (f : α → Exec β) :
    ((Except.ok a : Exec α) >>= f) = f a := rfl

@[simp] theorem error_bind {α β : Type u} (e : Fault) (f : α → Exec β) :
    ((Except.error e : Exec α) >>= f) = .error e := rfl

theorem cassert_ok {c : Bool} {u : Unit} (h : cassert c = .ok u) : c = true := by
  unfold cassert at h; split at h
  · assumption
  · cases h

@[simp] theorem cassert_true : cassert true = .ok () := rfl
@[simp] theorem cassert_false : cassert false = .error .assert := rfl

end Verif
