import Verif.NnetSpec
import Verif.NanSpec

/-!
# Arithmetic of the acoustic model that overflows
-/

namespace Verif.Nnet.Spec

variable {F : Type}

/-- Laws of IEEE 754 about sums of exponentials that overflow.  `num`: a number; `pos`: a number that is not negative;
`big`: a number whose exponential is above the largest `float`, as from 89 on; `pinf`: plus infinity; `lost`: minus infinity
or NaN. -/
structure OverflowLaws (o : Ops F) (num pos big lost : F → Prop) (pinf : F) : Prop where
  zero : pos o.zero
  exp : ∀ {x : F}, num x → pos (o.exp x) ∨ o.exp x = pinf
  exp_big : ∀ {x : F}, big x → o.exp x = pinf
  add : ∀ {x y : F}, pos x → pos y → pos (o.add x y) ∨ o.add x y = pinf
  add_infl : ∀ {x : F}, pos x → o.add pinf x = pinf
  add_infr : ∀ {x : F}, pos x → o.add x pinf = pinf
  add_inf : o.add pinf pinf = pinf
  log_inf : o.log pinf = pinf
  sub_inf : ∀ {x : F}, num x → lost (o.sub x pinf)
  lost_add : ∀ {x : F} (y : F), lost x → lost (o.add x y)

/-- The row of scores at time `t`, from the features of all frames: what the network makes of them, less the prior. -/
def scoreRow (o : Ops F) (vm : List F → List (List F) → List F) (layers : List (Layer F)) (prior : List F)
    (feats : List (List F)) (t : Nat) : List F :=
  List.zipWith (fun x y => o.add x (o.mul o.negOne y)) (series o vm layers (edge feats) t) prior

end Verif.Nnet.Spec
