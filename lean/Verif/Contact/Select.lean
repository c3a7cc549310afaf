import Verif.Contact.ShapeProps

/-!
# Contact constraint: selection of the surfaces, value, complement

Source: `/repo/src/convex-shape-contact.cc`, `ConvexShapeData`: `/repo/include/hpp/constraints/convex-shape.hh:297-385`.

Simplifications: real numbers instead of double precision; the pose of the joints is the input (forward kinematics is external);
a null joint has no pose.  `none`: undefined behaviour or exception.
-/

namespace Hpp.Contact

open Matrix Hpp.Sym Hpp.Pose

/-- A surface: the shape and `joint_->currentTransformation ()` if the joint is not null -/
structure Surface where
  shape : Shape
  pose : Option (SE3 ℝ)

/-- `oMj_.act (x)`, skipped for a null joint -/
def act (M : Option (SE3 ℝ)) (x : V3 ℝ) : V3 ℝ :=
  match M with
  | none => x
  | some M => M.R *ᵥ x + M.p

/-- `oMj_.actInv (x)`, skipped for a null joint -/
def actInv (M : Option (SE3 ℝ)) (x : V3 ℝ) : V3 ℝ :=
  match M with
  | none => x
  | some M => M.Rᵀ *ᵥ (x - M.p)

/-- `oMj_.rotation () * x` -/
def rotate (M : Option (SE3 ℝ)) (x : V3 ℝ) : V3 ℝ :=
  match M with
  | none => x
  | some M => M.R *ᵥ x

/-- `ConvexShapeData::center_` (convex-shape.hh:330-339) -/
def Surface.center (s : Surface) : V3 ℝ := act s.pose s.shape.C

/-- `ConvexShapeData::normal_` -/
def Surface.normal (s : Surface) : V3 ℝ := rotate s.pose s.shape.N

/-- `linePlaneIntersection` (convex-shape.hh:71-75) -/
noncomputable def linePlaneIntersection (A u P n : V3 ℝ) : V3 ℝ := A + ((n ⬝ᵥ (P - A)) / (n ⬝ᵥ u)) • u

/-- `ConvexShapeData::intersection` (convex-shape.hh:343-345) -/
noncomputable def Surface.intersection (s : Surface) (A u : V3 ℝ) : V3 ℝ := linePlaneIntersection A u s.center s.normal

/-- `ConvexShapeData::isInside (cs, Ap)` (convex-shape.hh:356-360) -/
noncomputable def Surface.isInside (s : Surface) (a : V3 ℝ) : Bool := s.shape.isInsideLocal (actInv s.pose a)

/-- `ConvexShapeData::distance` (convex-shape.hh:384-387) -/
noncomputable def Surface.distance (s : Surface) (a : V3 ℝ) : Option ℝ := s.shape.distanceLocal (actInv s.pose a)

/-- Result of the selection: `minDist`, `iobject`, `ifloor`, `isInside` -/
structure Sel where
  minDist : ℝ
  iobject : Nat
  ifloor : Nat
  isInside : Bool

/-- Body of the inner loop (convex-shape-contact.cc:296-310).  `none`: `minDist` is infinite and the indices are not initialized. -/
noncomputable def selectStep (st : Option Sel) (f : Surface) (j : Nat) (o : Surface) (i : Nat) : Option Sel :=
  match f.distance (f.intersection o.center f.normal) with
  | none => st
  | some dp =>
    let dn := f.normal ⬝ᵥ (o.center - f.center)
    let dist := if dp < 0 then dn * dn else dp * dp + dn * dn
    match st with
    | none => some ⟨dist, i, j, decide (dp < 0)⟩
    | some s => if dist < s.minDist then some ⟨dist, i, j, decide (dp < 0)⟩ else st

/-- `selectConvexShapes` (convex-shape-contact.cc:284-314) -/
noncomputable def select (floors objects : List Surface) : Option Sel :=
  floors.zipIdx.foldl (fun st f => objects.zipIdx.foldl (fun st o => selectStep st f.1 f.2 o.1 o.2) st) none

/-- `computeRadius` (convex-shape-contact.cc:112-126), from `M_ = 0` -/
noncomputable def radius (floors : List Surface) : ℝ :=
  floors.foldl (fun M f => f.shape.Pts.foldl (fun M v => if M < norm3 (v - f.shape.C) then norm3 (v - f.shape.C) else M) M) 0 + 1

/-- `ContactType` -/
inductive CType where
  | pointOnPlane
  | lineOnPlane
  | planeOnPlane
deriving DecidableEq

/-- `contactType` (convex-shape-contact.cc:316-340); `none`: exception -/
def contactType (object floor : Shape) : Option CType :=
  match floor.Pts.length with
  | 0 => none
  | 1 => none
  | 2 => none
  | _ => match object.Pts.length with
    | 1 => some .pointOnPlane
    | 2 => some .lineOnPlane
    | _ => some .planeOnPlane

/-- `ConvexShapeContact::impl_compute` (convex-shape-contact.cc:192-223); `v`: position and orientation error of the relative pose
(`computeInternalValue`) -/
def contactValue (margin : ℝ) (isInside : Bool) (type : CType) (v : Fin 6 → ℝ) : Fin 5 → ℝ :=
  let r : V3 ℝ := if isInside then ![v 0 + margin, 0, 0] else ![v 0 + margin, v 1, v 2]
  match type with
  | .pointOnPlane => ![r 0, r 1, r 2, 0, 0]
  | .lineOnPlane => ![r 0, r 1, r 2, v 4, v 5]
  | .planeOnPlane => ![r 0, r 1, r 2, v 4, v 5]

/-- `ConvexShapeContactComplement::impl_compute` (convex-shape-contact.cc:405-423) -/
def complementValue (M : ℝ) (isInside : Bool) (v : Fin 6 → ℝ) (ifloor iobject : Nat) : V3 ℝ :=
  let h : Fin 2 → ℝ := if isInside then ![v 1, v 2] else ![0, 0]
  ![h 0 + (2 * ifloor : ℕ) * M, h 1 + (2 * iobject : ℕ) * M, v 3]

/-- `ConvexShapeContactHold::impl_compute` (convex-shape-contact.cc:487-494) -/
def holdValue (margin M : ℝ) (isInside : Bool) (type : CType) (v : Fin 6 → ℝ) (ifloor iobject : Nat) : Fin 8 → ℝ :=
  let a := contactValue margin isInside type v
  let b := complementValue M isInside v ifloor iobject
  ![a 0, a 1, a 2, a 3, a 4, b 0, b 1, b 2]

/-- `computeRelativePoseRightHandSide` (convex-shape-contact.cc:372-403): indices of floor and object surfaces, logarithm of the
relative pose in `R^3 x SO(3)`.  The conversion of a negative value to `size_t` is undefined behaviour: `none`. -/
noncomputable def decode (M : ℝ) (rhs : Fin 8 → ℝ) : Option (Nat × Nat × (Fin 6 → ℝ)) :=
  let Y := rhs 5
  let Z := rhs 6
  let a := ⌊Y / (2 * M) + 0.5⌋
  let b := ⌊Z / (2 * M) + 0.5⌋
  if a < 0 ∨ b < 0 then none
  else
    let ifloor := a.toNat
    let iobject := b.toNat
    let yz : Fin 2 → ℝ := if rhs 1 = 0 ∧ rhs 2 = 0 then ![Y - (2 * ifloor : ℕ) * M, Z - (2 * iobject : ℕ) * M] else ![rhs 1, rhs 2]
    some (ifloor, iobject, ![rhs 0, yz 0, yz 1, rhs 7, rhs 3, rhs 4])

/-! ### Specification -/

/-- The polygon of the surface in the world frame -/
def Surface.polygon (s : Surface) : Set (V3 ℝ) := act s.pose '' region s.shape.Pts

/-- Its outline -/
def Surface.outline (s : Surface) : Set (V3 ℝ) := act s.pose '' boundary s.shape.Pts

/-- The surface is a convex polygon on a joint whose pose is a rigid transformation. -/
structure Surface.Valid (s : Surface) : Prop where
  poly : ∃ P, IsConvexPolygon P ∧ Shape.new P = some s.shape
  rot : ∀ M, s.pose = some M → IsRot M.R

/-- `d` is the smallest squared distance from the center of `o` to the points of floor `f`. -/
def IsSqDist (f o : Surface) (d : ℝ) : Prop := IsLeast { r | ∃ x ∈ f.polygon, r = edist o.center x ^ 2 } d

/-- `p` is the orthogonal projection of the center of `o` on the plane of `f`. -/
structure IsFoot (f o : Surface) (p : V3 ℝ) : Prop where
  plane : InPlane (f.shape.Pts.map (act f.pose)) p
  orth : ∀ x ∈ f.polygon, ∀ y ∈ f.polygon, (o.center - p) ⬝ᵥ (x - y) = 0

end Hpp.Contact
