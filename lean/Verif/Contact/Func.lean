import Verif.Contact.Props
import Verif.Pose.Props

/-!
# Contact functions

`ConvexShapeContact`, `ConvexShapeContactComplement`, `ConvexShapeContactHold`: construction, value, Jacobian, contact points.

Source: `/repo/src/convex-shape-contact.cc`.

Simplifications: real numbers instead of double precision; forward kinematics and the Jacobians of the joints (pinocchio) are inputs;
joint 0 (universe) is represented by a null joint: surfaces fixed in the world have no joint.
-/

namespace Hpp.Contact

open Matrix Hpp.Sym Hpp.Pose Hpp.Log

/-- Reasons why there is no result: exception, undefined behaviour -/
inductive Fail where
  | exn
  | ub
deriving DecidableEq

/-- `ConvexShape` with its joint -/
structure CShape where
  shape : Shape
  joint : Option Nat

/-- The surface when the joints are in positions `M` (`updateToCurrentTransform`, convex-shape.hh:318-328) -/
def CShape.at (M : Nat → SE3 ℝ) (s : CShape) : Surface := ⟨s.shape, s.joint.map M⟩

/-- Members of `ConvexShapeContact`: `floorConvexShapes_`, `objectConvexShapes_`, `normalMargin_` -/
structure Fn where
  floors : List CShape
  objects : List CShape
  margin : ℝ

/-- Element of `JointAndShapes_t` -/
abbrev JShape := Option Nat × List (V3 ℝ)

/-- `addFloor (ConvexShape (it->second, it->first))` (convex-shape-contact.cc:61, 100-103): construction, copy, `reverse`, copy into
the vector -/
noncomputable def newFloor (s : JShape) : Option CShape :=
  (Shape.new s.2).bind fun a => (Shape.new a.Pts).bind fun b => b.reverse.bind fun c => (Shape.new c.Pts).map fun d => ⟨d, s.1⟩

/-- `addObject (ConvexShape (it->second, it->first))` (convex-shape-contact.cc:65, 90-91): construction, copy into the vector -/
noncomputable def newObject (s : JShape) : Option CShape :=
  (Shape.new s.2).bind fun a => (Shape.new a.Pts).map fun d => ⟨d, s.1⟩

/-- Construct the elements one after the other; `none`: exception. -/
def mapAll {α β : Type} (f : α → Option β) : List α → Option (List β)
  | [] => some []
  | a :: l => (f a).bind fun b => (mapAll f l).map fun bs => b :: bs

/-- Constructor and `setNormalMargin` (convex-shape-contact.cc:41-68, 128-131) -/
noncomputable def Fn.build (floorSurfaces objectSurfaces : List JShape) (margin : ℝ) : Option Fn :=
  (mapAll newFloor floorSurfaces).bind fun fs => (mapAll newObject objectSurfaces).map fun os => ⟨fs, os, margin⟩

/-- `M_` (convex-shape-contact.cc:112-126): the joints are not used. -/
noncomputable def Fn.radius (f : Fn) : ℝ := Hpp.Contact.radius (f.floors.map fun s => ⟨s.shape, none⟩)

/-- `relativeTransformationModel_` set from the selected surfaces (convex-shape-contact.cc:52-54, 181-186, 242-247).  `floor` is a
copy of the surface (line 178). -/
def relModel (floor object : CShape) : GT where
  rel := true
  pos := true
  ori := true
  ose3 := false
  joint1 := floor.joint
  joint2 := object.joint
  F1 := floor.shape.positionInJoint
  F2 := object.shape.positionInJoint
  mask := List.replicate 6 true

/-- Results of `selectConvexShapes`, `contactType` and the surfaces selected -/
structure Pick where
  sel : Sel
  floor : CShape
  object : CShape
  type : CType

/-- Selection of the surfaces (convex-shape-contact.cc:176-179, 237-240) -/
noncomputable def Fn.pick (f : Fn) (M : Nat → SE3 ℝ) : Except Fail Pick :=
  match Hpp.Contact.select (f.floors.map (·.at M)) (f.objects.map (·.at M)) with
  | none => .error .ub
  | some s =>
    match f.floors[s.ifloor]?, f.objects[s.iobject]? with
    | some fl, some object =>
      match Shape.new fl.shape.Pts with
      | none => .error .exn
      | some sh =>
        match contactType object.shape sh with
        | none => .error .exn
        | some type => .ok ⟨s, ⟨sh, fl.joint⟩, object, type⟩
    | _, _ => .error .ub

/-- `data.value` -/
noncomputable def poseError (p : Pick) (M : Nat → SE3 ℝ) : Fin 6 → ℝ := fun i =>
  ((relModel p.floor p.object).rawValue (fun _ => []) M).getD i 0

/-- `ConvexShapeContact::impl_compute` (convex-shape-contact.cc:192-223) with `computeInternalValue` (166-190) -/
noncomputable def Fn.value (f : Fn) (M : Nat → SE3 ℝ) : Except Fail (Fin 5 → ℝ) :=
  match f.pick M with
  | .error e => .error e
  | .ok p => .ok (contactValue f.margin p.sel.isInside p.type (poseError p M))

/-- `ConvexShapeContactComplement::impl_compute` (convex-shape-contact.cc:405-423) -/
noncomputable def Fn.complement (f : Fn) (M : Nat → SE3 ℝ) : Except Fail (V3 ℝ) :=
  match f.pick M with
  | .error e => .error e
  | .ok p => .ok (complementValue f.radius p.sel.isInside (poseError p M) p.sel.ifloor p.sel.iobject)

/-- `ConvexShapeContactHold::impl_compute` (convex-shape-contact.cc:490-496) -/
noncomputable def Fn.hold (f : Fn) (M : Nat → SE3 ℝ) : Except Fail (Fin 8 → ℝ) :=
  match f.value M with
  | .error e => .error e
  | .ok a => match f.complement M with
    | .error e => .error e
    | .ok b => .ok ![a 0, a 1, a 2, a 3, a 4, b 0, b 1, b 2]

/-! ### Jacobians -/

variable {n e : Nat}

/-- `computeInternalJacobian` (convex-shape-contact.cc:225-252).  `C`, `T`: initial content of the temporary matrices (not
initialised). -/
noncomputable def Fn.internalJacobian (f : Fn) (K : Kin n) (C : Rows n) (T : Rows2 n e) :
    Except Fail (Pick × Rows2 n e) :=
  match f.pick K.M with
  | .error e => .error e
  | .ok p => match (relModel p.floor p.object).jacobian K C T with
    | none => .error .ub
    | some T' => .ok (p, T')

/-- `ConvexShapeContact::impl_jacobian` (convex-shape-contact.cc:254-282) -/
noncomputable def Fn.jacobian (f : Fn) (K : Kin n) (C : Rows n) (T : Rows2 n e) :
    Except Fail (Matrix (Fin 5) (Fin n ⊕ Fin e) ℝ) :=
  match f.internalJacobian K C T with
  | .error e => .error e
  | .ok (p, T) =>
    let top : Fin 3 → Fin n ⊕ Fin e → ℝ := if p.sel.isInside then ![T 0, 0, 0] else ![T 0, T 1, T 2]
    match p.type with
    | .pointOnPlane => .ok ![top 0, top 1, top 2, 0, 0]
    | .lineOnPlane => .error .exn
    | .planeOnPlane => .ok ![top 0, top 1, top 2, T 4, T 5]

/-- `ConvexShapeContactComplement::impl_jacobian` (convex-shape-contact.cc:425-437) -/
noncomputable def Fn.complementJacobian (f : Fn) (K : Kin n) (C : Rows n) (T : Rows2 n e) :
    Except Fail (Matrix (Fin 3) (Fin n ⊕ Fin e) ℝ) :=
  match f.internalJacobian K C T with
  | .error e => .error e
  | .ok (p, T) => if p.sel.isInside then .ok ![T 1, T 2, T 3] else .ok ![0, 0, T 3]

/-- `ConvexShapeContactHold::impl_jacobian` (convex-shape-contact.cc:498-502); temporary matrices of each call -/
noncomputable def Fn.holdJacobian (f : Fn) (K : Kin n) (C C' : Rows n) (T T' : Rows2 n e) :
    Except Fail (Matrix (Fin 8) (Fin n ⊕ Fin e) ℝ) :=
  match f.jacobian K C T with
  | .error e => .error e
  | .ok A => match f.complementJacobian K C' T' with
    | .error e => .error e
    | .ok B => .ok ![A 0, A 1, A 2, A 3, A 4, B 0, B 1, B 2]

/-! ### Contact points -/

/-- `ForceData` (convex-shape-contact.hh) -/
structure ForceData where
  joint : Option Nat
  points : List (V3 ℝ)
  normal : V3 ℝ
  supportJoint : Option Nat

/-- `computeContactPoints` (convex-shape-contact.cc:133-164).  `isInside (cs, A, u)`: convex-shape.hh:351-354 -/
noncomputable def Fn.contactPoints (f : Fn) (M : Nat → SE3 ℝ) (normalMargin : ℝ) : List ForceData :=
  f.objects.flatMap fun o => f.floors.flatMap fun fl =>
    if (fl.at M).isInside ((fl.at M).intersection (o.at M).center (fl.at M).normal) then
      if (fl.at M).normal ⬝ᵥ ((o.at M).center - (fl.at M).center) < normalMargin then
        [⟨o.joint, o.shape.Pts, fl.shape.N, fl.joint⟩]
      else []
    else []

/-! ### Specification -/

/-- Position of a point of a joint -/
def place (M : Nat → SE3 ℝ) (j : Option Nat) (x : V3 ℝ) : V3 ℝ :=
  match j with
  | none => x
  | some j => (M j).R *ᵥ x + (M j).p

/-- Vector of the frame of a joint in the world frame -/
def orient (M : Nat → SE3 ℝ) (j : Option Nat) (x : V3 ℝ) : V3 ℝ :=
  match j with
  | none => x
  | some j => (M j).R *ᵥ x

/-- Barycenter of the points of a surface, in the world frame -/
noncomputable def JShape.center (M : Nat → SE3 ℝ) (s : JShape) : V3 ℝ := place M s.1 ((s.2.length : ℝ)⁻¹ • s.2.sum)

/-- The polygon in the world frame, its outline -/
def JShape.polygon (M : Nat → SE3 ℝ) (s : JShape) : Set (V3 ℝ) := place M s.1 '' region s.2

def JShape.outline (M : Nat → SE3 ℝ) (s : JShape) : Set (V3 ℝ) := place M s.1 '' boundary s.2

/-- `u` is the unit vector, in the world frame, normal to the plane of the polygon, on the side where the points are seen
counterclockwise. -/
def JShape.IsNormal (M : Nat → SE3 ℝ) (s : JShape) (u : V3 ℝ) : Prop :=
  ∃ m, ConvexFor s.2 m ∧ m ⬝ᵥ m = 1 ∧ u = orient M s.1 m

/-- Squared distance of the center of the object to the floor polygon -/
def JShape.IsSqDist (M : Nat → SE3 ℝ) (f o : JShape) (d : ℝ) : Prop :=
  IsLeast { r | ∃ x ∈ f.polygon M, r = edist (o.center M) x ^ 2 } d

/-- Surfaces accepted as objects: a point, a segment, a convex polygon -/
inductive IsObject : List (V3 ℝ) → Prop where
  | point (p : V3 ℝ) : IsObject [p]
  | segment (p q : V3 ℝ) : p ≠ q → IsObject [p, q]
  | polygon (P : List (V3 ℝ)) : IsConvexPolygon P → IsObject P

/-- The surfaces given to the constructor -/
structure Surfaces (floors objects : List JShape) : Prop where
  floor : ∀ s ∈ floors, IsConvexPolygon s.2 ∧ s.1 ≠ some 0
  object : ∀ s ∈ objects, IsObject s.2 ∧ s.1 ≠ some 0

/-- `y` is the orthogonal projection of `x` on the plane of the points of `s`. -/
structure JShape.IsProj (M : Nat → SE3 ℝ) (s : JShape) (x y : V3 ℝ) : Prop where
  plane : InPlane (s.2.map (place M s.1)) y
  orth : ∀ p ∈ s.2, ∀ q ∈ s.2, (x - y) ⬝ᵥ (place M s.1 p - place M s.1 q) = 0

end Hpp.Contact
