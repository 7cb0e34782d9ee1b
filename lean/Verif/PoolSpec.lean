import Verif.PoolModel

/-!
# Specification of the object pool, in terms of what a client can see
-/

namespace Verif.Pool

variable {T : Type}

/-! ## Specification: what a client can conclude from the events it saw -/

/-- The slots the client holds, from the events so far (newest first). -/
def liveAfter : List (Event T) → List Addr
  | [] => []
  | .alloc _ a :: past => a :: liveAfter past
  | .dealloc a :: past => (liveAfter past).erase a
  | .clear :: _ => []

/-- The object the client put at `a`, from the events so far (newest first). -/
def valueAt (a : Addr) : List (Event T) → Option T
  | [] => none
  | .alloc x b :: past => if b = a then some x else valueAt a past
  | .dealloc b :: past => if b = a then none else valueAt a past
  | .clear :: _ => none

/-- The client only deallocates slots it holds. -/
def ClientOk (past : List (Event T)) : List (Event T) → Prop
  | [] => True
  | .dealloc a :: es => a ∈ liveAfter past ∧ ClientOk (.dealloc a :: past) es
  | e :: es => ClientOk (e :: past) es

/-- The history contains no `Clear`. -/
def NoClear : List (Op T) → Prop
  | [] => True
  | .clear :: _ => False
  | _ :: ops => NoClear ops

end Verif.Pool
