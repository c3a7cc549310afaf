import Verif.Pose.Props

/-!
# Setters of generic transformations

State of `GenericTransformation` with the flags and the active parameters it stores, and the operations that modify it.

Sources: `/repo/include/hpp/constraints/generic-transformation.hh`, `/repo/src/generic-transformation.cc`,
`/repo/src/generic-transformation/helper.hh`.

Unlike `Verif.Pose.Generic`, the tests `isIdentity()` and `isZero()` are those of Eigen, up to a precision of `1e-12`.

Simplifications: scalars are real numbers; the assertions on joints are not modelled; the active parameters of the extra
configuration variables (never set) are not in the vectors.
-/

namespace Hpp.Pose

open Matrix Hpp.Sym Hpp.Log

/-- `NumTraits<double>::dummy_precision()` (Eigen, external) -/
noncomputable def dummyPrec : ℝ := 1e-12

open Classical in
/-- `m.isIdentity()` (Eigen, external): `isApprox (m(i,i), 1)` on the diagonal, `isMuchSmallerThan (m(i,j), 1)` elsewhere -/
noncomputable def isIdentityE (R : M3 ℝ) : Bool :=
  decide (∀ i j : Fin 3, if i = j then |R i j - 1| ≤ min |R i j| 1 * dummyPrec else |R i j| ≤ dummyPrec)

open Classical in
/-- `v.isZero()` (Eigen, external) -/
noncomputable def isZeroE (v : V3 ℝ) : Bool := decide (∀ i : Fin 3, |v i| ≤ dummyPrec)

/-- `GenericTransformation` and its `GenericTransformationModel` (generic-transformation.hh:44-86, 310-316).  The fields
`joint1`, `joint2`, `F1`, `F2` of `g` are the members `joint1`, `joint2`, `F1inJ1`, `F2inJ2`. -/
structure GTS where
  g : GT
  R1isID : Bool
  R2isID : Bool
  t1isZero : Bool
  t2isZero : Bool
  active : List Bool × List Bool

/-- The constructors (generic-transformation.hh:55-67, 82-83; generic-transformation.cc:184-207;
differentiable-function.cc:239-251) -/
def GTS.new (r : Robot ℝ) (rel pos ori ose3 : Bool) (mask : List Bool) : GTS where
  g := { rel, pos, ori, ose3, joint1 := none, joint2 := none, F1 := SE3.one, F2 := SE3.one, mask }
  R1isID := true
  R2isID := true
  t1isZero := true
  t2isZero := true
  active := (List.replicate r.nq true, List.replicate r.nv true)

/-- `checkIsIdentity1` (generic-transformation.hh:68-71) -/
noncomputable def GTS.checkIsIdentity1 (s : GTS) : GTS :=
  { s with R1isID := isIdentityE s.g.F1.R, t1isZero := isZeroE s.g.F1.p }

/-- `checkIsIdentity2` (generic-transformation.hh:72-75) -/
noncomputable def GTS.checkIsIdentity2 (s : GTS) : GTS :=
  { s with R2isID := isIdentityE s.g.F2.R, t2isZero := isZeroE s.g.F2.p }

/-- `setJoint1` (generic-transformation.hh:54; generic-transformation.cc:80-86) -/
def GTS.setJoint1 (s : GTS) (j : Option Nat) : GTS :=
  if s.g.rel then { s with g := { s.g with joint1 := j.filter (fun j => decide (0 < j)) } } else s

/-- `computeActiveParams` (generic-transformation.cc:209-216) -/
def GTS.computeActiveParams (r : Robot ℝ) (s : GTS) : GTS :=
  { s with active := r.activeBits (s.g.joint1.getD 0) (s.g.joint2.getD 0) }

/-- Calls of the setters -/
inductive GTOp
  | reference (M : SE3 ℝ)
  | joint1 (j : Option Nat)
  | joint2 (j : Option Nat)
  | frame1 (M : SE3 ℝ)
  | frame2 (M : SE3 ℝ)

/-- The setters (generic-transformation.hh:232-237, 242-248, 253-258, 263-266, 270-273) -/
noncomputable def GTS.step (r : Robot ℝ) (s : GTS) : GTOp → GTS
  | .reference M =>
    let s : GTS := { s with g := { s.g with F1 := M } }
    let s := s.checkIsIdentity1
    let s : GTS := { s with g := { s.g with F2 := SE3.one } }
    s.checkIsIdentity2
  | .joint1 j => (s.setJoint1 j).computeActiveParams r
  | .joint2 j => GTS.computeActiveParams r { s with g := { s.g with joint2 := j } }
  | .frame1 M => GTS.checkIsIdentity1 { s with g := { s.g with F1 := M } }
  | .frame2 M => GTS.checkIsIdentity2 { s with g := { s.g with F2 := M } }

/-- A sequence of calls -/
noncomputable def GTS.run (r : Robot ℝ) (s : GTS) (l : List GTOp) : GTS := l.foldl (GTS.step r) s

/-- Getter `reference ()` (generic-transformation.hh:240) -/
def GTS.getReference (s : GTS) : SE3 ℝ := s.g.F1.actInv s.g.F2

/-- Absolute function defined by a reference (generic-transformation.cc:109-124) -/
noncomputable def GTS.createAbsRef (r : Robot ℝ) (rel pos ori ose3 : Bool) (j2 : Option Nat) (ref : SE3 ℝ)
    (mask : List Bool) : GTS :=
  (((GTS.new r rel pos ori ose3 mask).step r (.joint1 none)).step r (.joint2 j2)).step r (.reference ref)

/-- Absolute function defined by two frames (generic-transformation.cc:126-141) -/
noncomputable def GTS.createAbs (r : Robot ℝ) (rel pos ori ose3 : Bool) (j2 : Option Nat) (f2 f1 : SE3 ℝ)
    (mask : List Bool) : GTS :=
  ((((GTS.new r rel pos ori ose3 mask).step r (.joint1 none)).step r (.joint2 j2)).step r (.frame1 f1)).step r (.frame2 f2)

/-- Relative function defined by a reference (generic-transformation.cc:143-160) -/
noncomputable def GTS.createRelRef (r : Robot ℝ) (rel pos ori ose3 : Bool) (j1 j2 : Option Nat) (ref : SE3 ℝ)
    (mask : List Bool) : GTS :=
  (((GTS.new r rel pos ori ose3 mask).step r (.joint1 j1)).step r (.joint2 j2)).step r (.reference ref)

/-- Relative function defined by two frames (generic-transformation.cc:162-180) -/
noncomputable def GTS.createRel (r : Robot ℝ) (rel pos ori ose3 : Bool) (j1 j2 : Option Nat) (f1 f2 : SE3 ℝ)
    (mask : List Bool) : GTS :=
  ((((GTS.new r rel pos ori ose3 mask).step r (.joint1 j1)).step r (.joint2 j2)).step r (.frame1 f1)).step r (.frame2 f2)

/-! ### Evaluation with the stored flags -/

/-- Origin of the second frame in the first joint (helper.hh:347-352, 415-418) -/
def GTS.origin (s : GTS) (M : Nat → SE3 ℝ) : V3 ℝ :=
  match s.g.j1 with
  | none => (s.g.M2 M).act s.g.F2.p
  | some j1 => (M j1).Rᵀ *ᵥ ((s.g.M2 M).act s.g.F2.p - (M j1).p)

/-- `relativeTransform<., false>` (helper.hh:343-375, 411-429) with the stored flags -/
noncomputable def GTS.translation (s : GTS) (M : Nat → SE3 ℝ) : V3 ℝ :=
  let v := if s.t1isZero then s.origin M else s.origin M - s.g.F1.p
  if s.R1isID then v else s.g.F1.Rᵀ *ᵥ v

/-- `compute::error` (helper.hh:431-448, 213-222) with the stored flags: the flags are used for positions only -/
noncomputable def GTS.rawValue (s : GTS) (quat : M3 ℝ → List ℝ) (M : Nat → SE3 ℝ) : List ℝ :=
  if s.g.ori then s.g.rawValue quat M else list3 (s.translation M)

/-- `impl_compute` (generic-transformation.cc:219-232) with the stored flags -/
noncomputable def GTS.value (s : GTS) (quat : M3 ℝ → List ℝ) (M : Nat → SE3 ℝ) : List ℝ :=
  lread (s.rawValue quat M) (fromLogical s.g.valueMask)

variable {n : Nat}

/-- `unary<true>::Jlog` (helper.hh:223-236) with the stored flag -/
noncomputable def GTS.jlogFrom1 (s : GTS) (M : Nat → SE3 ℝ) : M3 ℝ :=
  if s.g.ose3 then
    let J := s.g.F2.Rᵀ * (s.g.M2 M).Rᵀ
    match s.g.j1 with
    | some j1 => J * (M j1).R
    | none => J
  else
    let J := computeJlog (angle (s.g.transform M).R) (logSO3 (s.g.transform M).R)
    if s.R1isID then J else J * s.g.F1.Rᵀ

/-- `d.cross2` (helper.hh:128, 458) with the stored flag -/
noncomputable def GTS.cross2 (s : GTS) (M : Nat → SE3 ℝ) : V3 ℝ := if s.t2isZero then 0 else (s.g.M2 M).R *ᵥ s.g.F2.p

/-- `Jtranslation` (helper.hh:271-296, 312-340) with the stored flags -/
noncomputable def GTS.jtranslation (s : GTS) (K : Kin n) : Option (Matrix (Fin 3) (Fin n) ℝ) :=
  let R2 := (s.g.M2 K.M).R
  match s.g.j1 with
  | none =>
    match s.g.joint2 with
    | none => none
    | some j2 =>
      if s.t2isZero then
        if s.R1isID then some (R2 * K.Jv j2) else some ((s.g.F1.Rᵀ * R2) * K.Jv j2)
      else
        let tmp := colCross R2 (s.cross2 K.M) * K.Jw j2 + R2 * K.Jv j2
        if s.R1isID then some tmp else some (s.g.F1.Rᵀ * tmp)
  | some j1 =>
    let R1 := (K.M j1).R
    let cross1 := s.cross2 K.M + (s.g.M2 K.M).p - (K.M j1).p
    let tmp := (-R1ᵀ * colCross R1 cross1) * K.Jw j1
    let tmp := match s.g.joint2 with
      | some j2 => tmp + (R1ᵀ * R2) * K.Jv j2
      | none => tmp
    let tmp := tmp - K.Jv j1
    let tmp := match s.g.joint2 with
      | some j2 => if s.t2isZero then tmp else tmp + R1ᵀ * colCross R2 (s.cross2 K.M) * K.Jw j2
      | none => tmp
    if s.R1isID then some tmp else some (s.g.F1.Rᵀ * tmp)

/-- `Jorientation` (helper.hh:264-270, 302-310) with the stored flag -/
noncomputable def GTS.jorientation (s : GTS) (K : Kin n) : Option (Matrix (Fin 3) (Fin n) ℝ) :=
  let R2 := (s.g.M2 K.M).R
  match s.g.j1 with
  | none =>
    match s.g.joint2 with
    | none => none
    | some j2 => some ((s.jlogFrom1 K.M * R2) * K.Jw j2)
  | some j1 =>
    let tmp := -K.Jw j1
    let tmp := match s.g.joint2 with
      | some j2 => tmp + ((K.M j1).Rᵀ * R2) * K.Jw j2
      | none => tmp
    some (s.jlogFrom1 K.M * tmp)

/-! ### Specification -/

/-- The argument of the last call that sets the first joint; `none`: there was none -/
def lastJoint1 (l : List GTOp) : Option (Option Nat) :=
  l.reverse.findSome? fun | .joint1 j => some j | _ => none

def lastJoint2 (l : List GTOp) : Option (Option Nat) :=
  l.reverse.findSome? fun | .joint2 j => some j | _ => none

/-- The pose last given to the first frame: a reference is a pose of the first frame -/
def lastFrame1 (l : List GTOp) : Option (SE3 ℝ) :=
  l.reverse.findSome? fun | .reference M => some M | .frame1 M => some M | _ => none

/-- The pose last given to the second frame: a reference resets it -/
def lastFrame2 (l : List GTOp) : Option (SE3 ℝ) :=
  l.reverse.findSome? fun | .reference _ => some SE3.one | .frame2 M => some M | _ => none

/-- A matrix is the identity, or not approximately the identity. -/
def SharpRot (R : M3 ℝ) : Prop := R = 1 ∨ ∃ i j, dummyPrec < |R i j - (1 : M3 ℝ) i j|

/-- A vector is zero, or not approximately zero. -/
def SharpVec (v : V3 ℝ) : Prop := v = 0 ∨ ∃ i, dummyPrec < |v i|

end Hpp.Pose
