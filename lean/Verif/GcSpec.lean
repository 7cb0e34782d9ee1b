import Verif.GcModel

/-!
# Specification for word histories under garbage collection

The client-visible meaning of a handle is the list of words it was built from, newest first.
-/

namespace Verif.Gc

open Verif.Pool (Addr Arena)

/-- The word lists of the held handles with the given numbers. -/
def pickWords (ws : List (List Int)) : List Nat → Option (List (List Int))
  | [] => some []
  | i :: is =>
    match ws[i]?, pickWords ws is with
    | some w, some t => some (w :: t)
    | _, _ => none

/-- What a client action means for the words of the held handles; `none` if the client names a handle
it does not hold. -/
def specStep (ws : List (List Int)) : Op → Option (List (List Int))
  | .start => some (ws ++ [[]])
  | .extend i l =>
    match ws[i]? with
    | some w => some (ws ++ [if l = 0 then w else l :: w])
    | none => none
  | .gc keep => pickWords ws keep

/-- The word lists after a history. -/
def specRun : List (List Int) → List Op → Option (List (List Int))
  | ws, [] => some ws
  | ws, op :: ops =>
    match specStep ws op with
    | some ws' => specRun ws' ops
    | none => none

/-- The slot handed out last by bumping. -/
def lastSlot (ar : Arena) : Addr := (ar.curBlock, ar.curPos - 1)

/-- No mark of an earlier collection is left on the slot that `GC` does not visit. -/
def Fresh (g : GPool) : Prop := ∀ n, g.mem (lastSlot g.arena) = some n → n.state ≠ .marked

/-- Every collection of the history starts with no such stale mark. -/
def FreshRun (B : Nat) (ops : List Op) : Prop :=
  ∀ pre keep post g hs, ops = pre ++ .gc keep :: post → run B init [] pre = .ok (g, hs) → Fresh g

/-- `b` is reached from `a` by following `previous`. -/
inductive Reach (m : Mem) : Addr → Addr → Prop where
  | refl (a : Addr) : Reach m a a
  | step {a p b : Addr} {n : Node} : m a = some n → n.previous = some p → Reach m p b → Reach m a b

end Verif.Gc
