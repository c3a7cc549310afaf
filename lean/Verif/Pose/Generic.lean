import Verif.Pose.SE3
import Verif.Log.Model
import Verif.Common.Space

/-!
# Generic transformations

Model of `GenericTransformation` (Position, Orientation, Transformation, their relative versions and the versions with values
in `SO(3)` and `R^3 x SO(3)`).

Sources: `/repo/src/generic-transformation.cc`, `/repo/src/generic-transformation/helper.hh`,
`/repo/include/hpp/constraints/generic-transformation.hh`.

Simplifications: scalars are real numbers; `isIdentity()`, `isZero()` (tests up to a precision) are exact tests; forward
kinematics and the Jacobians of joints (pinocchio, external) are inputs; the conversion from rotation matrix to quaternion
(Eigen, external) is a parameter.
-/

namespace Hpp.Pose

open Matrix Hpp.Sym Hpp.Log

/-- The function: template parameters (`rel`, `pos`, `ori`, `ose3`) and `GenericTransformationModel`
(generic-transformation.hh:44-86).  `joint1` is the argument of the last call to `joint1 (joint)`. -/
structure GT where
  rel : Bool
  pos : Bool
  ori : Bool
  ose3 : Bool
  joint1 : Option Nat
  joint2 : Option Nat
  F1 : SE3 ℝ
  F2 : SE3 ℝ
  mask : List Bool

/-- `getJoint1 ()` after `setJoint1` (generic-transformation.hh:53-54, 80; generic-transformation.cc:80-86) -/
def GT.j1 (g : GT) : Option Nat := if g.rel then g.joint1.filter (fun j => decide (0 < j)) else none

open Classical in
/-- `checkIsIdentity1`, `checkIsIdentity2` (generic-transformation.hh:68-75) -/
noncomputable def GT.R1isID (g : GT) : Bool := decide (g.F1.R = 1)

open Classical in
noncomputable def GT.t1isZero (g : GT) : Bool := decide (g.F1.p = 0)

open Classical in
noncomputable def GT.t2isZero (g : GT) : Bool := decide (g.F2.p = 0)

/-- Element of the mask -/
def GT.m (g : GT) (i : Nat) : Bool := g.mask.getD i false

/-- `rowOri` (generic-transformation.cc:195-199) -/
def GT.rowOri (g : GT) : Nat :=
  if g.pos then (if g.m 0 then 1 else 0) + (if g.m 1 then 1 else 0) + (if g.m 2 then 1 else 0) else 0

/-- `fullPos` (generic-transformation.cc:200-203) -/
def GT.fullPos (g : GT) : Bool := if g.pos then g.rowOri == 3 else false

/-- `lPos`, `lOri` (helper.hh:478); `lPos` is also `iOri` (generic-transformation.cc:194, 201) and `RowOri` (helper.hh:111) -/
def GT.lPos (g : GT) : Nat := if g.pos then 3 else 0
def GT.lOri (g : GT) : Nat := if g.ori then 3 else 0

/-- `fullOri` (generic-transformation.cc:204-207) -/
def GT.fullOri (g : GT) : Bool := if g.ori then g.m g.lPos && g.m (g.lPos + 1) && g.m (g.lPos + 2) else false

/-- `M2 ()` (helper.hh:73-78) -/
def GT.M2 (g : GT) (M : Nat → SE3 ℝ) : SE3 ℝ :=
  match g.joint2 with
  | some j => M j
  | none => SE3.one

/-- `M.act (v)` -/
def SE3.act (A : SE3 ℝ) (v : V3 ℝ) : V3 ℝ := A.R *ᵥ v + A.p

/-- `relativeTransform<false, false>` and `<true, false>` (helper.hh:343-375, 411-429): translation only -/
noncomputable def GT.translation (g : GT) (M : Nat → SE3 ℝ) : V3 ℝ :=
  let v := match g.j1 with
    | none => (g.M2 M).act g.F2.p
    | some j1 => (M j1).Rᵀ *ᵥ ((g.M2 M).act g.F2.p - (M j1).p)
  let v := if g.t1isZero then v else v - g.F1.p
  if g.R1isID then v else g.F1.Rᵀ *ᵥ v

/-- `relativeTransform<false, true>` and `<true, true>` (helper.hh:376-410): `d.M` -/
def GT.transform (g : GT) (M : Nat → SE3 ℝ) : SE3 ℝ :=
  match g.j1 with
  | none => g.F1.actInv ((g.M2 M).mul g.F2)
  | some j1 => g.F1.actInv ((M j1).actInv ((g.M2 M).mul g.F2))

def list3 (v : V3 ℝ) : List ℝ := [v 0, v 1, v 2]

/-- `d.value` computed by `compute::error` (helper.hh:431-448, 213-222) -/
noncomputable def GT.rawValue (g : GT) (quat : M3 ℝ → List ℝ) (M : Nat → SE3 ℝ) : List ℝ :=
  if g.ori then
    (if g.pos then list3 (g.transform M).p else []) ++
      (if g.ose3 then quat (g.transform M).R else list3 (logSO3 (g.transform M).R))
  else list3 (g.translation M)

/-- `indices` (generic-transformation.cc:66-78) -/
def GT.valueMask (g : GT) : List Bool := g.mask ++ (if g.ose3 then [true] else [])

/-- `impl_compute` (generic-transformation.cc:219-232) -/
noncomputable def GT.value (g : GT) (quat : M3 ℝ → List ℝ) (M : Nat → SE3 ℝ) : List ℝ :=
  lread (g.rawValue quat M) (fromLogical g.valueMask)

/-! ### Jacobian -/

/-- Positions and Jacobians of the joints; the Jacobian of a joint gives its velocity in its own frame. -/
structure Kin (n : Nat) where
  M : Nat → SE3 ℝ
  Jv : Nat → Matrix (Fin 3) (Fin n) ℝ
  Jw : Nat → Matrix (Fin 3) (Fin n) ℝ

variable {n e : Nat}

/-- `R.colwise().cross(c)` -/
def colCross (R : M3 ℝ) (c : V3 ℝ) : M3 ℝ := Matrix.of fun a b => crossProduct (fun i => R i b) c a

/-- `computeJlog` (helper.hh:165-190) -/
noncomputable def computeJlog (theta : ℝ) (log : V3 ℝ) : M3 ℝ :=
  if theta < 1e-6 then 1
  else
    let ct := Real.cos theta
    let st := Real.sin theta
    let st_1mct := st / (1 - ct)
    let alpha := 1 / (theta * theta) - st_1mct / (2 * theta)
    (2 : ℝ)⁻¹ • !![theta * st_1mct, log 2, -log 1; -log 2, theta * st_1mct, log 0; log 1, -log 0, theta * st_1mct]
      + alpha • vecMulVec log log

/-- `unary<true>::Jlog` (helper.hh:223-236) -/
noncomputable def GT.jlogFrom1 (g : GT) (M : Nat → SE3 ℝ) : M3 ℝ :=
  if g.ose3 then
    let J := g.F2.Rᵀ * (g.M2 M).Rᵀ
    match g.j1 with
    | some j1 => J * (M j1).R
    | none => J
  else
    let J := computeJlog (angle (g.transform M).R) (logSO3 (g.transform M).R)
    if g.R1isID then J else J * g.F1.Rᵀ

/-- `d.cross2` (helper.hh:128, 458) -/
noncomputable def GT.cross2 (g : GT) (M : Nat → SE3 ℝ) : V3 ℝ := if g.t2isZero then 0 else (g.M2 M).R *ᵥ g.F2.p

/-- `Jtranslation`: absolute (helper.hh:271-296) and relative (helper.hh:312-340).
`none`: the Jacobian of the null joint 2 is read (undefined behaviour). -/
noncomputable def GT.jtranslation (g : GT) (K : Kin n) : Option (Matrix (Fin 3) (Fin n) ℝ) :=
  let R2 := (g.M2 K.M).R
  match g.j1 with
  | none =>
    match g.joint2 with
    | none => none
    | some j2 =>
      if g.t2isZero then
        if g.R1isID then some (R2 * K.Jv j2) else some ((g.F1.Rᵀ * R2) * K.Jv j2)
      else
        let tmp := colCross R2 (g.cross2 K.M) * K.Jw j2 + R2 * K.Jv j2
        if g.R1isID then some tmp else some (g.F1.Rᵀ * tmp)
  | some j1 =>
    let R1 := (K.M j1).R
    let cross1 := g.cross2 K.M + (g.M2 K.M).p - (K.M j1).p
    let tmp := (-R1ᵀ * colCross R1 cross1) * K.Jw j1
    let tmp := match g.joint2 with
      | some j2 => tmp + (R1ᵀ * R2) * K.Jv j2
      | none => tmp
    let tmp := tmp - K.Jv j1
    let tmp := match g.joint2 with
      | some j2 => if g.t2isZero then tmp else tmp + R1ᵀ * colCross R2 (g.cross2 K.M) * K.Jw j2
      | none => tmp
    if g.R1isID then some tmp else some (g.F1.Rᵀ * tmp)

/-- `Jorientation`: absolute (helper.hh:264-270) and relative (helper.hh:302-310). -/
noncomputable def GT.jorientation (g : GT) (K : Kin n) : Option (Matrix (Fin 3) (Fin n) ℝ) :=
  let R2 := (g.M2 K.M).R
  match g.j1 with
  | none =>
    match g.joint2 with
    | none => none
    | some j2 => some ((g.jlogFrom1 K.M * R2) * K.Jw j2)
  | some j1 =>
    let tmp := -K.Jw j1
    let tmp := match g.joint2 with
      | some j2 => tmp + ((K.M j1).Rᵀ * R2) * K.Jw j2
      | none => tmp
    some (g.jlogFrom1 K.M * tmp)

/-- Rows of a matrix with `n` columns, of a matrix with `n` columns followed by `e` columns (extra configuration space) -/
abbrev Rows (n : Nat) := Nat → Fin n → ℝ
abbrev Rows2 (n e : Nat) := Nat → Fin n ⊕ Fin e → ℝ

/-- `d.jacobian.middleRows<3>(start) = B` -/
def writeCache (C : Rows n) (start : Nat) (B : Matrix (Fin 3) (Fin n) ℝ) : Rows n := fun i c =>
  if i = start then B 0 c else if i = start + 1 then B 1 c else if i = start + 2 then B 2 c else C i c

/-- `J.middleRows<3>(start).leftCols(cols) = B` -/
def writeLeft (J : Rows2 n e) (start : Nat) (B : Matrix (Fin 3) (Fin n) ℝ) : Rows2 n e := fun i c =>
  match c with
  | .inl c => if i = start then B 0 c else if i = start + 1 then B 1 c else if i = start + 2 then B 2 c else J i (.inl c)
  | .inr c => J i (.inr c)

/-- `jacobian.row(i).leftCols(cols) = r` -/
def writeRow (J : Rows2 n e) (i : Nat) (r : Fin n → ℝ) : Rows2 n e := fun k c =>
  match c with
  | .inl c => if k = i then r c else J k (.inl c)
  | .inr c => J k (.inr c)

/-- Loop copying the selected rows (helper.hh:480-486, 490-496) -/
def copyRows (m : Nat → Bool) (C : Rows n) : List Nat → Nat → Rows2 n e → Rows2 n e
  | [], _, J => J
  | i :: is, index, J => if m i then copyRows m C is (index + 1) (writeRow J index (C i)) else copyRows m C is index J

/-- Value of `index` after the loop -/
def copyIndex (m : Nat → Bool) : List Nat → Nat → Nat
  | [], index => index
  | i :: is, index => if m i then copyIndex m is (index + 1) else copyIndex m is index

/-- Call of `Jtranslation`, with `assign_if` (helper.hh:238-247, 467, 472).  `C` is the temporary matrix `d.jacobian`, `J` the
matrix passed to the function. -/
noncomputable def GT.writeTranslation (g : GT) (K : Kin n) (C : Rows n) (J : Rows2 n e) : Option (Rows n × Rows2 n e) :=
  if g.pos then (g.jtranslation K).map fun B => if g.fullPos then (C, writeLeft J 0 B) else (writeCache C 0 B, J)
  else some (C, J)

/-- Call of `Jorientation`, with `assign_if` (helper.hh:238-247, 468, 473) -/
noncomputable def GT.writeOrientation (g : GT) (K : Kin n) (C : Rows n) (J : Rows2 n e) : Option (Rows n × Rows2 n e) :=
  if g.ori then (g.jorientation K).map fun B =>
    if g.ose3 || g.fullOri then (C, writeLeft J g.rowOri B) else (writeCache C g.lPos B, J)
  else some (C, J)

/-- Copy of the necessary rows (helper.hh:476-498) -/
def GT.finish (g : GT) (C : Rows n) (J : Rows2 n e) : Rows2 n e :=
  let pidx := List.range' 0 g.lPos
  let oidx := List.range' g.lPos g.lOri
  let index := if g.fullPos then g.lPos else copyIndex g.m pidx 0
  let J := if g.fullPos then J else copyRows g.m C pidx 0 J
  let J := if g.fullOri then J else copyRows g.m C oidx index J
  fun i c => match c with
    | .inl c => J i (.inl c)
    | .inr _ => 0

/-- `compute::jacobian` (helper.hh:450-499).  `C`: `d.jacobian`, not initialised. -/
noncomputable def GT.jacobian (g : GT) (K : Kin n) (C : Rows n) (J : Rows2 n e) : Option (Rows2 n e) :=
  (g.writeTranslation K C J).bind fun s => (g.writeOrientation K s.1 s.2).map fun s => g.finish s.1 s.2

/-! ### Specification -/

/-- Position of the first frame; the frame of a null joint is the world frame. -/
def GT.frame1 (g : GT) (M : Nat → SE3 ℝ) : SE3 ℝ :=
  match g.j1 with
  | none => g.F1
  | some j => (M j).mul g.F1

/-- Position of the second frame -/
def GT.frame2 (g : GT) (M : Nat → SE3 ℝ) : SE3 ℝ :=
  match g.joint2 with
  | none => g.F2
  | some j => (M j).mul g.F2

/-- Position of the second frame in the first one -/
def GT.relative (g : GT) (M : Nat → SE3 ℝ) : SE3 ℝ := (g.frame1 M).inv.mul (g.frame2 M)

/-- All the components -/
noncomputable def GT.full (g : GT) (quat : M3 ℝ → List ℝ) (M : Nat → SE3 ℝ) : List ℝ :=
  (if g.pos then list3 (g.relative M).p else []) ++
    (if g.ori then (if g.ose3 then quat (g.relative M).R else list3 (logSO3 (g.relative M).R)) else [])

/-- Elements selected by a mask -/
def select {β : Type} : List Bool → List β → List β
  | true :: m, x :: l => x :: select m l
  | false :: m, _ :: l => select m l
  | _, _ => []

/-- The mask has the expected size, and the orientation is not masked when the value is in `SO(3)` (asserted by the
constructor, generic-transformation.cc:47-49, 70-73, 194); the function has position or orientation. -/
structure GT.Ok (g : GT) : Prop where
  mask : g.mask.length = g.lPos + g.lOri
  some : g.pos = true ∨ g.ori = true
  full : g.ose3 = true → g.fullOri = true
  rot1 : IsRot g.F1.R
  rot2 : IsRot g.F2.R

/-- The joints move with the velocities given by their Jacobians. -/
structure KMoves (K : ℝ → Kin n) (qd : Fin n → ℝ) (t : ℝ) : Prop where
  rot : ∀ t j, IsRot ((K t).M j).R
  moves : ∀ j, SE3.Moves (fun t => (K t).M j) ((K t).Jv j *ᵥ qd) ((K t).Jw j *ᵥ qd) t

end Hpp.Pose
