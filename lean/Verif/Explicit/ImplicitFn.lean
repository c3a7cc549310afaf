import Verif.MatrixView.Props
import Verif.Common.Space
import Verif.Pose.SE3

/-!
# Model of the implicit function of an explicit constraint

Source: `/repo/src/explicit/implicit-function.cc`.

Configurations are functions of the index, elements of Lie groups are lists of coefficients.  `none` is an access
outside of a matrix or an assertion that fails.  The exponentials, logarithms and the rotation matrix of a quaternion
are parameters (`LieOps`): the formulas of `tools.hh` are in the model of property C58.
-/

namespace Hpp.Explicit

open Matrix Hpp.Sym Hpp.Pose

/-- Index in a vector of size 6: linear part, angular part. -/
abbrev Six := Fin 3 ⊕ Fin 3

/-- A factor of the output space, as distinguished by `JacobianVisitor` (lines 74-147): `R3xSO3`, `SE3`, any other
elementary Lie group (sizes of elements and of velocities). -/
inductive LieKind where
  | other (nq nv : Nat)
  | r3so3
  | se3
deriving DecidableEq, Repr

def LieKind.nq : LieKind → Nat
  | .other nq _ => nq
  | .r3so3 => 7
  | .se3 => 7

def LieKind.nv : LieKind → Nat
  | .other _ nv => nv
  | .r3so3 => 6
  | .se3 => 6

/-- Functions defined elsewhere.  `subOther`: difference in the other Lie groups; `quat`: rotation matrix of a
quaternion; `log3`, `Jlog3`: `logSO3`, `JlogSO3`; `log6`, `Jlog6`: logarithm in SE(3) and `JlogSE3`. -/
structure LieOps (α : Type) where
  subOther : Nat → Nat → List α → List α → List α
  quat : List α → M3 α
  log3 : M3 α → V3 α
  Jlog3 : M3 α → M3 α
  log6 : SE3 α → Six → α
  Jlog6 : SE3 α → Matrix Six Six α

variable {α : Type} [CommRing α]

/-- `Transform3s(Quaternion(q.tail<4>()), q.head<3>())` (lines 121-126) -/
def LieOps.pose (ops : LieOps α) (q : List α) : SE3 α :=
  ⟨ops.quat (q.drop 3), fun i => q.getD i 0⟩

/-- Difference `a - b` in one factor (hpp-pinocchio, external). -/
def LieOps.sub (ops : LieOps α) : LieKind → List α → List α → List α
  | .other nq nv, a, b => ops.subOther nq nv a b
  | .r3so3, a, b =>
    List.ofFn (fun i : Fin 3 => (ops.pose a).p i - (ops.pose b).p i)
      ++ List.ofFn (ops.log3 ((ops.pose b).Rᵀ * (ops.pose a).R))
  | .se3, a, b =>
    let l := ops.log6 ((ops.pose b).inv.mul (ops.pose a))
    List.ofFn (fun i : Fin 3 => l (.inl i)) ++ List.ofFn (fun i : Fin 3 => l (.inr i))

/-- Difference in a product of Lie groups: factor by factor. -/
def LieOps.subAll (ops : LieOps α) : List LieKind → List α → List α → List α
  | [], _, _ => []
  | k :: ks, a, b =>
    ops.sub k (a.take k.nq) (b.take k.nq) ++ ops.subAll ks (a.drop k.nq) (b.drop k.nq)

/-- Members of `ImplicitFunction` (lines 164-183): size of velocities of the configuration space, indices, factors of
the output space of `inputToOutput_`, this function and its Jacobian (as a function of the input). -/
structure ImplicitFn (α : Type) where
  nv : Nat
  inConf : Segs
  outConf : Segs
  inVel : Segs
  outVel : Segs
  kinds : List LieKind
  f : List α → List α
  Jf : List α → Nat → Nat → α

/-- `impl_compute` (lines 209-224) -/
def ImplicitFn.value (ops : LieOps α) (F : ImplicitFn α) (q : Nat → α) : List α :=
  ops.subAll F.kinds (rview q F.outConf) (F.f (rview q F.inConf))

/-- An element of `outJacobian_` and the element of `inJacobian_` of same rank: they have the same rows. -/
structure JBlocks where
  rows : Segs
  outCols : Segs
  inCols : Segs

/-- `computeJacobianBlocks` (lines 252-270) -/
def jacobianBlocks (inVel : Segs) : List LieKind → Nat → Segs → List JBlocks
  | [], _, _ => []
  | k :: ks, iv, remaining =>
    let c := split remaining k.nv
    ⟨[⟨iv, k.nv⟩], c.1, inVel⟩ :: jacobianBlocks inVel ks (iv + k.nv) c.2

/-- `MatrixBlocks::block(i, j, ni, nj)` (matrix-view.hh:515-519) followed by `lview(m) = src`. -/
def writeSub (b : Segs × Segs) (i j ni nj : Nat) (m src : Mat α) : Option (Mat α) := do
  let r ← extract? b.1 i ni
  let c ← extract? b.2 j nj
  writeView (Blocks.ofSegs r) (Blocks.ofSegs c) m src

/-- Rank in a vector of size 6 -/
def six (k : Nat) : Six := if k < 3 then .inl (Fin.ofNat 3 k) else .inr (Fin.ofNat 3 (k - 3))

/-- Block of a matrix with coefficients indexed by natural numbers. -/
def top3 (J : Nat → Nat → α) (n : Nat) : Matrix (Fin 3) (Fin n) α := fun i j => J i j
def bottom3 (J : Nat → Nat → α) (n : Nat) : Matrix (Fin 3) (Fin n) α := fun i j => J (3 + i) j

/-- A matrix with 3 rows and `n` columns as a `Mat`. -/
def mat3 {n : Nat} (A : Matrix (Fin 3) (Fin n) α) : Mat α :=
  ⟨3, n, fun i j => if h : i < 3 ∧ j < n then A ⟨i, h.1⟩ ⟨j, h.2⟩ else 0⟩

/-- `R3xSO3` (lines 74-113) -/
def visitR3SO3 (ops : LieOps α) (qOut fq : List α) (Jf : Nat → Nat → α) (b : JBlocks) (m : Mat α) : Option (Mat α) := do
  let n := cardinal b.inCols
  let Rout := (ops.pose qOut).R
  let Rf := (ops.pose fq).R
  let Jlog := ops.Jlog3 (Rfᵀ * Rout)
  let m ← writeSub (b.rows, b.outCols) 0 0 3 3 m (mat3 (1 : M3 α))
  let m ← writeSub (b.rows, b.inCols) 0 0 3 n m (mat3 (-top3 Jf n))
  let m ← writeSub (b.rows, b.outCols) 3 3 3 3 m (mat3 Jlog)
  writeSub (b.rows, b.inCols) 3 0 3 n m (mat3 (-Jlog * Routᵀ * Rf * bottom3 Jf n))

/-- `inJ` of the `SE3` visitor (lines 133-139) -/
def inJSE3 (ops : LieOps α) (qOut fq : List α) (Jf : Nat → Nat → α) (n : Nat) : Matrix Six (Fin n) α :=
  let Mout := ops.pose qOut
  let Mf := ops.pose fq
  fun i j => match i with
    | .inl i => ((Mout.Rᵀ * hat (Mout.p - Mf.p) * Mf.R) * bottom3 Jf n - (Mout.Rᵀ * Mf.R) * top3 Jf n) i j
    | .inr i => ((-Mout.Rᵀ * Mf.R) * bottom3 Jf n) i j

/-- `SE3` (lines 115-141) -/
def visitSE3 (ops : LieOps α) (qOut fq : List α) (Jf : Nat → Nat → α) (b : JBlocks) (m : Mat α) : Option (Mat α) := do
  let n := cardinal b.inCols
  let Jlog := ops.Jlog6 ((ops.pose fq).inv.mul (ops.pose qOut))
  let inJ := Jlog * inJSE3 ops qOut fq Jf n
  let m ← writeView (Blocks.ofSegs b.rows) (Blocks.ofSegs b.outCols) m ⟨6, 6, fun i j => Jlog (six i) (six j)⟩
  writeView (Blocks.ofSegs b.rows) (Blocks.ofSegs b.inCols) m
    ⟨6, n, fun i j => if h : j < n then inJ (six i) ⟨j, h⟩ else 0⟩

/-- Default visitor (lines 143-147).  `setIdentity` on a view is the assignment of the identity of same size. -/
def visitOther (Jf : Nat → Nat → α) (nv : Nat) (b : JBlocks) (m : Mat α) : Option (Mat α) := do
  let m ← writeView (Blocks.ofSegs b.rows) (Blocks.ofSegs b.outCols) m
    ⟨cardinal b.rows, cardinal b.outCols, fun i j => if i = j then 1 else 0⟩
  writeView (Blocks.ofSegs b.rows) (Blocks.ofSegs b.inCols) m ⟨nv, cardinal b.inCols, fun i j => -Jf i j⟩

def jacVisit (ops : LieOps α) : LieKind → List α → List α → (Nat → Nat → α) → JBlocks → Mat α → Option (Mat α)
  | .other _ nv, _, _, Jf, b, m => visitOther Jf nv b m
  | .r3so3, qOut, fq, Jf, b, m => visitR3SO3 ops qOut fq Jf b m
  | .se3, qOut, fq, Jf, b, m => visitSE3 ops qOut fq Jf b m

/-- `m.middleRows(iv, nv)` -/
def middleRows (m : Mat α) (iv nv : Nat) : Mat α := ⟨nv, m.cols, fun i j => m.coeff (iv + i) j⟩

/-- The matrix `m` once its rows `iv, ..., iv + nv - 1` have been modified through `m.middleRows(iv, nv)`. -/
def putRows (m s : Mat α) (iv nv : Nat) : Mat α :=
  { m with coeff := fun i j => if iv ≤ i ∧ i < iv + nv then s.coeff (i - iv) j else m.coeff i j }

/-- Loop of `impl_jacobian` (lines 236-249) -/
def jacobianLoop (ops : LieOps α) (qOut fq : List α) (Jf : Nat → Nat → α) :
    List (LieKind × JBlocks) → Nat → Nat → Mat α → Option (Mat α)
  | [], _, _, m => some m
  | (k, b) :: r, iq, iv, m => do
    let s ← jacVisit ops k ((qOut.drop iq).take k.nq) ((fq.drop iq).take k.nq) (fun i j => Jf (iv + i) j) b
      (middleRows m iv k.nv)
    jacobianLoop ops qOut fq Jf r (iq + k.nq) (iv + k.nv) (putRows m s iv k.nv)

/-- `impl_jacobian` (lines 226-250) -/
def ImplicitFn.jacobian (ops : LieOps α) (F : ImplicitFn α) (q : Nat → α) : Option (Mat α) :=
  let qIn := rview q F.inConf
  jacobianLoop ops (rview q F.outConf) (F.f qIn) (F.Jf qIn)
    (F.kinds.zip (jacobianBlocks F.inVel F.kinds 0 F.outVel)) 0 0
    ⟨(F.kinds.map LieKind.nv).sum, F.nv, fun _ _ => 0⟩

end Hpp.Explicit
