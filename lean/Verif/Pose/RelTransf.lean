import Verif.Pose.Inputs
import Verif.Pose.Generic
import Verif.Pose.Quat
import Mathlib.Algebra.BigOperators.Fin

/-!
# Explicit relative transformation and relative pose constraint

Sources: `/repo/src/explicit/relative-transformation.cc` and `/repo/src/explicit/relative-pose.cc`.

Simplifications: scalars are real numbers.  Elements of `SE(3)` are vectors of size 7, see `Verif/Pose/Quat.lean` for the conversion between rotation
matrices and quaternions (Eigen).  The exponential and logarithm of `SE(3)` (pinocchio) are the parameters `exp6`, `log6`.
-/

namespace Hpp.Pose

open Matrix Hpp.Sym

/-- `explicit_::RelativeTransformation` (relative-transformation.cc:103-122) -/
structure RelTr where
  robot : Robot ℝ
  joint1 : Option Nat
  joint2 : Nat
  F1 : SE3 ℝ
  F2 : SE3 ℝ

namespace RelTr

variable (f : RelTr)

/-- Number of the first joint, 0 if there is none -/
def id1 : Nat := f.joint1.getD 0

/-- `inConf_`, `inVel_`, `outConf_` -/
def inConf : Segs := f.robot.inConf f.id1 f.joint2
def inVel : Segs := f.robot.inVel f.id1 f.joint2
def outConf : Segs := f.robot.outConf f.joint2

/-- `F1inJ1_invF2inJ2_` (line 122) -/
def F1F2inv : SE3 ℝ := f.F1.mul f.F2.inv

/-- `hasParent` (lines 138, 171) -/
def hasParent : Bool := decide (0 < f.robot.parent f.joint2)

open Classical in
/-- `forwardKinematics` (lines 124-132): new current configuration of the robot; `cur` is the current one. -/
noncomputable def fkConfig (cur : Nat → ℝ) (arg : List ℝ) : Nat → ℝ :=
  if rview cur f.inConf ≠ arg then lview cur f.inConf arg else cur

/-- `impl_compute` (lines 134-159), as a transform -/
noncomputable def compute (cur : Nat → ℝ) (arg : List ℝ) : SE3 ℝ :=
  let q := f.fkConfig cur arg
  let pose := match f.joint1 with
    | none => f.F1F2inv
    | some j => (f.robot.fk q j).mul f.F1F2inv
  let pose := if f.hasParent then (f.robot.fk q (f.robot.parent f.joint2)).actInv pose else pose
  (f.robot.placement f.joint2).actInv pose

/-- `impl_jacobian` (lines 161-243) before the selection of the columns: linear and angular part.  `K` are the positions and
Jacobians of the joints for the current configuration, where the output variables have been set to the value of the
function (lines 163-169). -/
noncomputable def tmpJac {n : Nat} (K : Kin n) : Matrix (Fin 3) (Fin n) ℝ × Matrix (Fin 3) (Fin n) ℝ :=
  let R1 : M3 ℝ := match f.joint1 with
    | none => 1
    | some j => (K.M j).R
  let t1 : V3 ℝ := match f.joint1 with
    | none => 0
    | some j => (K.M j).p
  let R2 := (K.M f.joint2).R
  let par := f.robot.parent f.joint2
  let cross1 : M3 ℝ := hat (R1 *ᵥ f.F1F2inv.p)
  if f.hasParent then
    let cross2 : M3 ℝ := hat ((K.M par).p - t1)
    let dv : Matrix (Fin 3) (Fin n) ℝ := match f.joint1 with
      | none => K.Jv par
      | some j => K.Jv par - K.Jv j
    let dw : Matrix (Fin 3) (Fin n) ℝ := match f.joint1 with
      | none => K.Jw par
      | some j => K.Jw par - K.Jw j
    (((f.robot.placement f.joint2).Rᵀ * (K.M par).Rᵀ) * (cross1 * dw - cross2 * K.Jw par - dv),
      match f.joint1 with
      | none => (R2ᵀ * (K.M par).R) * K.Jw par
      | some j => (R2ᵀ * (K.M par).R) * K.Jw par - (R2ᵀ * R1) * K.Jw j)
  else
    match f.joint1 with
    | none => (0, 0)
    | some j => (R2ᵀ * ((-cross1 * R1) * K.Jw j + R1 * K.Jv j), (R2ᵀ * R1) * K.Jw j)

/-- `inVel_.rview(tmpJac_)`: row `i` -/
def viewRow {n : Nat} (l : Segs) (A : Matrix (Fin 3) (Fin n) ℝ) (i : Fin 3) : List ℝ :=
  (indices l).map fun c => if h : c < n then A i ⟨c, h⟩ else 0

/-- `impl_jacobian`: linear and angular rows -/
noncomputable def jacobian {n : Nat} (K : Kin n) : (Fin 3 → List ℝ) × (Fin 3 → List ℝ) :=
  (viewRow f.inVel (f.tmpJac K).1, viewRow f.inVel (f.tmpJac K).2)

end RelTr

/-! ### Relative pose -/

/-- Transform represented by an element of `SE(3)` or `R^3 x SO(3)` -/
def pose7 (v : List ℝ) : SE3 ℝ :=
  ⟨quatToRot (v.getD 3 0) (v.getD 4 0) (v.getD 5 0) (v.getD 6 0), ![v.getD 0 0, v.getD 1 0, v.getD 2 0]⟩

/-- Vector of size 7 representing a transform (relative-pose.cc:103-105, 123-125, relative-transformation.cc:156-158) -/
noncomputable def config7 (M : SE3 ℝ) : List ℝ := list3 M.p ++ rotToQuat M.R

/-- External operations: exponential and logarithm of `SE(3)` (pinocchio) -/
structure SE3Ops where
  exp6 : List ℝ → SE3 ℝ
  log6 : SE3 ℝ → List ℝ

variable (o : SE3Ops)

/-- `implicitToExplicitRhs` (relative-pose.cc:94-110) -/
noncomputable def implicitToExplicitRhs (F2 : SE3 ℝ) (implicitRhs : List ℝ) : List ℝ :=
  let M1 := pose7 implicitRhs
  let M2 := (F2.mul M1).mul F2.inv
  o.log6 (pose7 (config7 M2))

/-- `explicitToImplicitRhs` (relative-pose.cc:112-127) -/
noncomputable def explicitToImplicitRhs (F2 : SE3 ℝ) (explicitRhs : List ℝ) : List ℝ :=
  let M1 := pose7 (config7 (o.exp6 explicitRhs))
  let M2 := (F2.inv.mul M1).mul F2
  config7 M2

/-- `RelativePose::outputValue` (relative-pose.cc:70-76).  `result += v` is `result * exp(v)` in `SE(3)`. -/
noncomputable def RelTr.outputValue (f : RelTr) (cur : Nat → ℝ) (qin rhs : List ℝ) : List ℝ :=
  let v := implicitToExplicitRhs o f.F2 rhs
  let result := config7 (f.compute cur qin)
  config7 ((pose7 result).mul (o.exp6 v))

/-- The implicit function of the constraint: `RelativeTransformationR3xSO3` with all components (relative-pose.cc:134-137) -/
def RelTr.implicitFunction (f : RelTr) : GT where
  rel := true
  pos := true
  ori := true
  ose3 := true
  joint1 := f.joint1
  joint2 := some f.joint2
  F1 := f.F1
  F2 := f.F2
  mask := List.replicate 6 true

/-- The quaternion of the vector is normalised. -/
def Unit7 (v : List ℝ) : Prop :=
  v.getD 3 0 * v.getD 3 0 + v.getD 4 0 * v.getD 4 0 + v.getD 5 0 * v.getD 5 0 + v.getD 6 0 * v.getD 6 0 = 1

/-- Laws of the external operations -/
structure SE3Ops.Lawful (o : SE3Ops) : Prop where
  exp_rot : ∀ v, IsRot (o.exp6 v).R
  exp_log : ∀ M : SE3 ℝ, IsRot M.R → o.exp6 (o.log6 M) = M

end Hpp.Pose
