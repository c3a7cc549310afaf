import Verif.BySub.Model

/-!
# Model of the reduced Jacobian of the solver by substitution

Source: `/repo/src/solver/by-substitution.cc`, lines 148-204, and
`/repo/src/solver/hierarchical-iterative.cc`, line 642.
-/

namespace Hpp

variable {α κ : Type}

/-- Body of the loop of `implicitDof` (by-substitution.cc:155-161).  `derF[i]` is `-1` if `i` is not an output. -/
def dofStep (ex : ECS α κ) (adp : List Bool) (out : Nat → Nat) (i : Nat) : Nat → Nat :=
  if adp.getD i false then
    match (ex.derFn[i]?).join with
    | some j => fun k => if k = i then 0 else out k + ex.dep j k
    | none => fun k => if k = i then out k + 1 else out k
  else out

/-- Loop of `implicitDof` (by-substitution.cc:152-162). -/
def dofLoop (ex : ECS α κ) (adp : List Bool) : Nat → Nat :=
  (List.range adp.length).foldl (dofStep ex adp) fun _ => 0

/-- `implicitDof` (by-substitution.cc:148-164); `none` where `activeDerivativeParameters` is undefined. -/
def BS.implicitDof (s : BS α κ) : Option Segs :=
  s.hi.activeDerivativeParameters.map fun adp =>
    fromLogical ((List.range adp.length).map fun k => dofLoop s.ex adp k != 0)

/-- Reduced Jacobian of a level as left by `computeValue<true>` (hierarchical-iterative.cc:642):
`d.activeRowsOfJ.rview(d.jacobian)`, for the rows `rows`; `J` is `d.jacobian`. -/
def BS.reducedJ0 [Zero α] (s : BS α κ) (rows : Segs) (J : Jac α) : Jac α := fun r c =>
  J ((indices rows).getD r 0) ((indices s.hi.free.segs).getD c 0)

/-- What `updateJacobian` does for a level (by-substitution.cc:170-204); `R` is `d.reducedJ`.  `none`: the
sizes of the two terms of the sum differ. -/
def BS.updateJ [Zero α] [One α] [Add α] [Mul α] (s : BS α κ) (q : Nat → α) (rows : Segs) (J R : Jac α) :
    Option (Jac α) :=
  if s.ex.inDers.nb = 0 then some R
  else if s.hi.free.nb = s.ex.notOutDers.nb then
    let Je : Jac α := fun v c => s.ex.jacobian q v ((indices s.ex.notOutDers.segs).getD c 0)
    some fun r c => R r c +
      ((indices s.ex.outDers.segs).map fun v => J ((indices rows).getD r 0) v * Je v c).sum
  else none

end Hpp
