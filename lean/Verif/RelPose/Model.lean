import Verif.Contact.ExplicitRigid
import Verif.Implicit.Props
import Verif.Locked.Props

/-!
# Pairs of joints whose relative pose determines a function, or is determined by a constraint

`DifferentiableFunction::dependsOnRelPoseBetween`, `Implicit::doesConstrainRelPoseBetween` and their overrides.

Sources: `/repo/include/hpp/constraints/generic-transformation.hh:310-321`,
`/repo/include/hpp/constraints/explicit/relative-transformation.hh:91-102`,
`/repo/include/hpp/constraints/convex-shape-contact.hh:167-202, 312-315, 372-375`,
`/repo/src/explicit/implicit-function.cc:298-327`, `/repo/src/locked-joint.cc:213-230`, `/repo/src/implicit.cc:231-244`,
`/repo/include/hpp/constraints/differentiable-function.hh:174-177`.
-/

namespace Hpp.RelPose

open Matrix Hpp.Sym Hpp.Pose Hpp.Contact Hpp.Log

/-- `std::pair<JointConstPtr_t, JointConstPtr_t>`.  `none` is the null pointer. -/
abbrev JPair := Option Nat × Option Nat

/-- `std::pair (nullptr, nullptr)`, also returned by the base class (differentiable-function.hh:174-177) -/
def nullPair : JPair := (none, none)

/-- `Joint::index (joint)` (hpp-pinocchio, external): 0 for a null pointer -/
def jindex (j : Option Nat) : Nat := j.getD 0

/-- Comparison of the indices that ends all the functions below -/
def ordered (j1 j2 : Option Nat) : JPair := if jindex j1 ≤ jindex j2 then (j1, j2) else (j2, j1)

/-- `GenericTransformation::dependsOnRelPoseBetween` (generic-transformation.hh:310-321) -/
def ofGT (g : GT) : JPair := ordered g.j1 g.joint2

/-- `explicit_::RelativeTransformation::dependsOnRelPoseBetween` (relative-transformation.hh:91-102) -/
def ofRelTr (f : RelTr) : JPair := ordered f.joint1 (some f.joint2)

/-- `ConvexShapeContact::dependsOnRelPoseBetween` (convex-shape-contact.hh:167-202), also called by
`ConvexShapeContactComplement` (312-315) and `ConvexShapeContactHold` (372-375) -/
def ofContact (f : Contact.Fn) : JPair :=
  match f.floors, f.objects with
  | [], _ => nullPair
  | _, [] => nullPair
  | f0 :: _, o0 :: _ =>
    if f.floors.any (fun s => jindex s.joint ≠ jindex f0.joint) then nullPair
    else if f.objects.any (fun s => jindex s.joint ≠ jindex o0.joint) then nullPair
    else ordered f0.joint o0.joint

/-- `joint->parentJoint ()` (hpp-pinocchio, external): null if the parent is the universe -/
def parentJoint (r : Robot ℝ) (j : Nat) : Option Nat := if r.parent j = 0 then none else some (r.parent j)

/-- `Device::getJointAtConfigRank (rank)` (hpp-pinocchio, external): the joint one of whose variables has this rank; null if
there is none -/
def jointAtConfigRank (r : Robot ℝ) (rank : Nat) : Option Nat :=
  ((List.range r.njoints).drop 1).find? fun j => decide (r.idxq j ≤ rank ∧ rank < r.idxq j + r.jnq j)

/-- `ImplicitFunction::dependsOnRelPoseBetween` (implicit-function.cc:298-327).  `inputSize`: input size of the explicit
function, `outConf`: `outputConfIntervals_.rows()` -/
def ofImplicitFn (r : Robot ℝ) (inputSize : Nat) (outConf : Segs) : JPair :=
  if inputSize ≠ 0 then nullPair
  else match outConf with
    | [row] => match jointAtConfigRank r row.first with
      | none => nullPair
      | some j1 => if row.len ≠ r.jnq j1 then nullPair else ordered (some j1) (parentJoint r j1)
    | _ => nullPair

/-- `LockedJoint::doesConstrainRelPoseBetween` (locked-joint.cc:213-230).  `names`: names of the joints of the robot, `name`:
`jointName_`, `joint`: `joint_`.  `none`: a null pointer is dereferenced. -/
def ofLocked (r : Robot ℝ) (names : List String) (name : String) (joint : Option Nat) : Option JPair :=
  if name ∉ names then some nullPair
  else joint.map fun j => ordered (parentJoint r j) (some j)

/-- `Implicit::doesConstrainRelPoseBetween` (implicit.cc:231-244), with `checkAllRowsActive` (implicit.hh:219).  `joints`: result of
`function_->dependsOnRelPoseBetween (robot)` -/
def constrains {α κ : Type} (c : Impl α κ) (joints : JPair) : JPair :=
  if c.fn.space.nv ≠ 6 ∨ c.inactiveRows.nb ≠ 0 then nullPair else joints

/-- Function of the generic transformation as seen by constraints (see `Verif/Pose/Generic.lean`); `sp`: its output space
(generic-transformation.cc:44-65, 183-187), `jac`: its Jacobian -/
noncomputable def gtFn {κ : Type} (key : κ) (r : Robot ℝ) (g : GT) (quat : M3 ℝ → List ℝ) (sp : Space ℝ) (jac : (Nat → ℝ) → Jac ℝ) :
    Hpp.Fn ℝ κ where
  key := key
  inputSize := r.nq
  inputDer := r.nv
  spaceId := 0
  space := sp
  value := fun q => g.value quat (r.fk q)
  jac := jac
  activeQ := (r.activeBits (g.j1.getD 0) (g.joint2.getD 0)).1
  active := (r.activeBits (g.j1.getD 0) (g.joint2.getD 0)).2

/-- Implicit function `q_out - value` of a constant explicit function (implicit-function.cc); the output space is the vector space
of dimension `sp.nv`. -/
def constFn {κ : Type} (key : κ) (r : Robot ℝ) (sp : JSpace ℝ) (outConf : Segs) (value : List ℝ) (jac : (Nat → ℝ) → Jac ℝ)
    (activeQ active : List Bool) : Hpp.Fn ℝ κ where
  key := key
  inputSize := r.nq
  inputDer := r.nv
  spaceId := 0
  space := vspace sp.nv
  value := fun q => sp.diff (rview q outConf) value
  jac := jac
  activeQ := activeQ
  active := active

/-! ### Specification -/

/-- Relative pose of the joints of a pair; the null pointer is the universe. -/
def relPose (M : Nat → SE3 ℝ) (p : JPair) : SE3 ℝ := (poseOf M p.1).inv.mul (poseOf M p.2)

/-- The function `F` of the configuration depends only on the relative pose of the joints of the pair. -/
def DependsOnly {β : Type} (r : Robot ℝ) (F : (Nat → ℝ) → β) (p : JPair) : Prop :=
  ∀ q q', relPose (r.fk q) p = relPose (r.fk q') p → F q = F q'

/-- Rows of the error that meet their comparison type -/
def RowOk (t : Comp) (x : ℝ) : Prop :=
  match t with
  | .equality => x = 0
  | .equalToZero => x = 0
  | .superior => 0 ≤ x
  | .inferior => x ≤ 0

/-- The configuration meets the constraint `fn (q) - rhs` with the comparison types on the rows selected by the mask (an empty mask
selects all the rows). -/
def Meets {κ : Type} (fn : Hpp.Fn ℝ κ) (mask : List Bool) (comp : List Comp) (rhs : List ℝ) (q : Nat → ℝ) : Prop :=
  ∀ (i : Nat) (t : Comp) (x : ℝ), (mask = [] ∨ mask[i]? = some true) → comp[i]? = some t →
    (fn.space.sub (fn.value q) rhs)[i]? = some x → RowOk t x

/-- All configurations that satisfy the constraint for a given right hand side have the same relative pose of the joints. -/
def Fixes (r : Robot ℝ) (S : (Nat → ℝ) → Prop) (p : JPair) : Prop :=
  ∀ q q', S q → S q' → relPose (r.fk q) p = relPose (r.fk q') p

end Hpp.RelPose
