import Verif.Pose.GenericLemmas

/-!
# Configuration constraint

Model of `ConfigurationConstraint`. Sources: `/repo/src/configuration-constraint.cc`,
`/repo/include/hpp/constraints/configuration-constraint.hh`.

The difference of configurations and its derivative (`LiegroupSpace` of hpp-pinocchio, external) are parameters. `numberDof` is
the number of velocity variables, extra degrees of freedom included.
-/

namespace Hpp.Conf

open Matrix Hpp.Sym Hpp.Pose Hpp.Log

/-- Configuration space. `diff q0 q1` is `q1 - q0`, of size `nv`; `dDiff0` is the matrix given by `dDifference_dq0`. -/
structure CSpace (nv : Nat) where
  Q : Type
  diff : Q → Q → Fin nv → ℝ
  dDiff0 : Q → Q → Matrix (Fin nv) (Fin nv) ℝ

variable {nv : Nat}

/-- Members `goal_` and `weights_` (configuration-constraint.hh:99-100) -/
structure ConfCon (S : CSpace nv) where
  goal : S.Q
  weights : Fin nv → ℝ

/-- Constructor from weights and `weights (ws)` (configuration-constraint.cc:64-81): `none` when an exception is thrown. -/
def ConfCon.new (S : CSpace nv) (goal : S.Q) (ws : List ℝ) : Option (ConfCon S) :=
  if ws.length ≠ nv then none else some ⟨goal, fun i => ws.getD i 0⟩

/-- Loop of `create` (configuration-constraint.cc:47-49) from index `i`: `none` if an element out of the vector is written. -/
def maskLoop : List Bool → Nat → List ℝ → Option (List ℝ)
  | [], _, ws => some ws
  | b :: mask, i, ws =>
    if b then maskLoop mask (i + 1) ws
    else if i < ws.length then maskLoop mask (i + 1) (ws.set i 0) else none

/-- `create` from a mask (configuration-constraint.cc:43-54) -/
def ConfCon.ofMask (S : CSpace nv) (goal : S.Q) (mask : List Bool) : Option (ConfCon S) :=
  (maskLoop mask 0 (List.replicate nv 1)).bind fun ws => ConfCon.new S goal ws

variable {S : CSpace nv}

/-- `impl_compute` (configuration-constraint.cc:108-113) -/
noncomputable def ConfCon.value (f : ConfCon S) (a : S.Q) : ℝ :=
  (1 / 2) * (f.weights ⬝ᵥ fun i => S.diff a f.goal i ^ 2)

/-- `impl_jacobian` (configuration-constraint.cc:115-128) -/
def ConfCon.jacobian (f : ConfCon S) (a : S.Q) : Fin nv → ℝ :=
  let J := S.diff a f.goal
  let J := J ᵥ* S.dDiff0 a f.goal
  fun i => J i * f.weights i

/-! ### Active parameters -/

/-- Joints of the robot: first index and number of their configuration and velocity variables. -/
structure CJoint where
  iq : Nat
  nq : Nat
  iv : Nat
  nv : Nat

/-- `segment (first, size).setConstant (false)` -/
def clearSeg (l : List Bool) (first size : Nat) : List Bool :=
  (List.range l.length).map fun k => if first ≤ k ∧ k < first + size then false else l.getD k false

open Classical in
/-- Loop of `weights (ws)` (configuration-constraint.cc:82-96): active parameters, active derivative parameters. -/
noncomputable def activeLoop (w : Nat → ℝ) : List CJoint → List Bool × List Bool → List Bool × List Bool
  | [], s => s
  | j :: js, s =>
    activeLoop w js
      (if ∀ k, j.iv ≤ k → k < j.iv + j.nv → w k = 0 then (clearSeg s.1 j.iq j.nq, clearSeg s.2 j.iv j.nv) else s)

/-! ### Spaces -/

/-- Vector space -/
def rnSpace (nv : Nat) : CSpace nv where
  Q := Fin nv → ℝ
  diff := fun a b => b - a
  dDiff0 := fun _ _ => -1

/-- Rotations (quaternions in the code): the difference is the logarithm, its derivative the opposite of the inverse of the left
Jacobian (pinocchio, external; proved to be the derivative in `SO3_lawful`). -/
noncomputable def so3Space : CSpace 3 where
  Q := M3 ℝ
  diff := fun a b => logSO3 (aᵀ * b)
  dDiff0 := fun a b => -computeJlog (angle (aᵀ * b)) (logSO3 (aᵀ * b))

end Hpp.Conf
