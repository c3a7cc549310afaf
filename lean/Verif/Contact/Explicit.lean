import Verif.Contact.FuncZero
import Verif.Pose.RelOut
import Verif.Log.Exp

/-!
# Explicit contact constraint

Source: `/repo/src/explicit/convex-shape-contact.cc`.

Simplifications: real numbers instead of double precision.  External operations are parameters: exponential and logarithm of `SE(3)`
(`SE3Ops`), exponential of `SO(3)` as a quaternion (`expq`), test that the configuration space of a joint is `SE(3)` or `R^3 x SO(3)`
(`isFF`).
-/

namespace Hpp.Contact

open Matrix Hpp.Sym Hpp.Pose Hpp.Log

/-- Loop of `checkContactSurfaces` (explicit/convex-shape-contact.cc:44-76).  The first argument is `joint`.  Null pointers are
dereferenced.  The test on the parent joint (60-67) is after a `throw`. -/
def checkLoop (isFF : Nat → Bool) : Option Nat → List JShape → Except Fail Unit
  | _, [] => .ok ()
  | none, (none, _) :: _ => .error .ub
  | none, (some j, _) :: l => if isFF j then checkLoop isFF (some j) l else .error .exn
  | some _, (none, _) :: _ => .error .ub
  | some j, (some k, _) :: l => if k ≠ j then .error .exn else checkLoop isFF (some j) l

/-- `checkContactSurfaces` (explicit/convex-shape-contact.cc:44-76) -/
def checkContactSurfaces (isFF : Nat → Bool) (objectSurfaces : List JShape) : Except Fail Unit := checkLoop isFF none objectSurfaces

/-- `posInJoint.translation() -= margin * posInJoint.rotation().col(0)` (explicit/convex-shape-contact.cc:196-199) -/
def movedFrame (margin : ℝ) (F : SE3 ℝ) : SE3 ℝ := ⟨F.R, F.p - margin • fun i => F.R i 0⟩

/-- Members of `explicit_::ConvexShapeContact`: the implicit function, `pose_`, `nObjSurf_`, input and output indices -/
structure Expl where
  robot : Robot ℝ
  fn : Fn
  poses : List RelTr
  nObjSurf : Nat
  inConf : Segs
  inVel : Segs
  outConf : Segs

/-- `create` (explicit/convex-shape-contact.cc:78-89) and the constructor (explicit/convex-shape-contact.cc:173-212); indices:
input-configurations.hh:132-185.  `joint2`: `os[iobject].joint_`, equal to the joint of the first object after the check. -/
noncomputable def Expl.create (isFF : Nat → Bool) (robot : Robot ℝ) (fs os : List JShape) (margin : ℝ) : Except Fail Expl :=
  match checkContactSurfaces isFF os with
  | .error e => .error e
  | .ok () => match os with
    | [] => .error .ub
    | (none, _) :: _ => .error .ub
    | (some j2, _) :: _ => match Fn.build fs os margin with
      | none => .error .exn
      | some f => .ok
        { robot := robot
          fn := f
          poses := f.floors.flatMap fun fl => f.objects.map fun ob =>
            ⟨robot, fl.joint, ob.joint.getD 0, movedFrame margin fl.shape.positionInJoint, ob.shape.positionInJoint⟩
          nObjSurf := f.objects.length
          inConf := fromLogical (Robot.contactBits robot.nq (fun j1 => robot.relPoseConfVariables j1 j2) (fs.map fun s => s.1.getD 0))
          inVel := fromLogical (Robot.contactBits robot.nv (fun j1 => robot.relPoseVelVariables j1 j2) (fs.map fun s => s.1.getD 0))
          outConf := robot.outConf j2 }

/-- `LiegroupSpace::R3xSO3()->exp(logRelativePoseRhs)` (convex-shape-contact.cc:401) -/
def rhsPose (expq : V3 ℝ → List ℝ) (w : Fin 6 → ℝ) : List ℝ := [w 0, w 1, w 2] ++ expq ![w 3, w 4, w 5]

/-- Inputs of the relative pose in the inputs of the constraint (explicit/convex-shape-contact.cc:136-143): `none` is not a number. -/
def relPoseInputs (inConf relInConf : Segs) (qin : List ℝ) : List (Option ℝ) :=
  rview (lview (fun _ => none) inConf (qin.map some)) relInConf

/-- `outputValue` (explicit/convex-shape-contact.cc:125-145).  `cur`: current configuration of the robot.  Values that are not
numbers (excluded by an assertion) are counted as undefined behaviour. -/
noncomputable def Expl.outputValue (o : SE3Ops) (expq : V3 ℝ → List ℝ) (E : Expl) (cur : Nat → ℝ) (qin : List ℝ) (rhs : Fin 8 → ℝ) :
    Except Fail (List ℝ) :=
  match decode E.fn.radius rhs with
  | none => .error .ub
  | some (ifloor, iobject, w) => match E.poses[ifloor * E.nObjSurf + iobject]? with
    | none => .error .ub
    | some g => match mapAll id (relPoseInputs E.inConf g.inConf qin) with
      | none => .error .ub
      | some x => .ok (g.outputValue o cur x (rhsPose expq w))

/-- `jacobianOutputValue` (explicit/convex-shape-contact.cc:147-171): the Jacobian of the relative pose is written in a matrix the
columns of which are the inputs of the constraint (relative-transformation.cc:207-241): the sizes must be the same, except if both
joints are fixed in the world, in which case the matrix is set to zero and multiplied on the left (relative-pose.cc:87-91).
`K`: positions and Jacobians of the joints, see `RelTr.tmpJac`. -/
noncomputable def Expl.jacobianOutputValue {n : Nat} (o : SE3Ops) (expq : V3 ℝ → List ℝ) (E : Expl) (K : Kin n) (rhs : Fin 8 → ℝ) :
    Except Fail ((Fin 3 → List ℝ) × (Fin 3 → List ℝ)) :=
  match decode E.fn.radius rhs with
  | none => .error .ub
  | some (ifloor, iobject, w) => match E.poses[ifloor * E.nObjSurf + iobject]? with
    | none => .error .ub
    | some g =>
      if g.hasParent = false ∧ g.joint1 = none then
        .ok (fun _ => List.replicate (indices E.inVel).length 0, fun _ => List.replicate (indices E.inVel).length 0)
      else if (indices g.inVel).length ≠ (indices E.inVel).length then .error .ub
      else .ok (g.jacobianOutputValue o K (rhsPose expq w))

/-! ### Specification -/

/-- The external exponential of `SO(3)`: a unit quaternion that represents the rotation -/
structure ExpqOk (expq : V3 ℝ → List ℝ) : Prop where
  len : ∀ w, (expq w).length = 4
  unit : ∀ w, (expq w).getD 0 0 * (expq w).getD 0 0 + (expq w).getD 1 0 * (expq w).getD 1 0 + (expq w).getD 2 0 * (expq w).getD 2 0 +
    (expq w).getD 3 0 * (expq w).getD 3 0 = 1
  rot : ∀ w, quatToRot ((expq w).getD 0 0) ((expq w).getD 1 0) ((expq w).getD 2 0) ((expq w).getD 3 0) = expSO3 w

/-- The robot, the freeflyer joint `j2` that holds the objects and the floors -/
structure Scene (r : Robot ℝ) (j2 : Nat) (fs os : List JShape) : Prop where
  robot : r.Ok
  surfaces : Surfaces fs os
  floorJoint : ∀ s ∈ fs, ∀ j, s.1 = some j → j < r.njoints ∧ ¬ r.Anc j2 j
  objectJoint : ∀ s ∈ os, s.1 = some j2
  lt : j2 < r.njoints
  size : r.jnq j2 = 7
  free : ∀ v, Unit7 v → r.jt j2 v = pose7 v

/-- Pose of a joint, or of the world -/
def poseOf (M : Nat → SE3 ℝ) : Option Nat → SE3 ℝ
  | none => SE3.one
  | some j => M j

end Hpp.Contact
