import Mathlib.Data.Matrix.Mul
import Mathlib.LinearAlgebra.Matrix.Notation

/-!
# Model of symbolic expressions

Sources: `/repo/include/hpp/constraints/symbolic-calculus.hh`; `/repo/include/hpp/constraints/tools.hh`, lines 39-48;
`/repo/include/hpp/constraints/symbolic-function.hh`.

Nodes are objects pointed to by their parents; several parents may point to the same node: an expression is a tree
whose nodes have an identifier (`id`, the address of the object) and the members of the objects are in a memory `St`
indexed by identifiers.  `n` is the number of columns of the Jacobians.  Rotations, translations and Jacobians of the
joints, and centers of mass, are given by a `World`: what the robot contains once the forward kinematics have been
computed.  Not modelled here: `JointFrame` (see `Verif.Log.JointFrame`), `FunctionExp`, `MatrixOfExpressions` (see `Verif.Stab.Moe`).  Scalars form a commutative ring.
-/

namespace Hpp.Sym

open Matrix

abbrev V3 (α : Type) := Fin 3 → α
abbrev M3 (α : Type) := Matrix (Fin 3) (Fin 3) α

/-- `computeCrossMatrix` (tools.hh:39-48) -/
def hat {α : Type} [Zero α] [Neg α] (v : V3 α) : M3 α :=
  !![0, -v 2, v 1; v 2, 0, -v 0; -v 1, v 0, 0]

/-- State of the robot.  `Jv`, `Jw`: upper and lower parts of the Jacobian of a joint, in the frame of the joint. -/
structure World (α : Type) (n : Nat) where
  R : Nat → M3 α
  p : Nat → V3 α
  Jv : Nat → Matrix (Fin 3) (Fin n) α
  Jw : Nat → Matrix (Fin 3) (Fin n) α
  com : Nat → V3 α
  Jcom : Nat → Matrix (Fin 3) (Fin n) α

/-- Members of `CalculusBase` (lines 226-230). `value`, `jac`: what `value()` and `jacobian()` return.  `raw` is the
member `value_` of `PointCom`, whose `value()` is that of the computation of the center of mass (line 796): this
member is never assigned. -/
structure Cache (α : Type) (n : Nat) where
  value : V3 α
  jac : Matrix (Fin 3) (Fin n) α
  cross : M3 α
  raw : V3 α
  vV : Bool
  jV : Bool
  cV : Bool

/-- `Point` (lines 758-780; also `PointInJoint` and `VectorInJoint` without joint, lines 610-615), `PointInJoint`
(lines 574-651), `VectorInJoint` (lines 654-711), `PointCom` (lines 783-814). -/
inductive Leaf (α : Type) where
  | point (v : V3 α)
  | pointIn (j : Nat) (l : V3 α)
  | vectorIn (j : Nat) (v : V3 α)
  | com (c : Nat)

/-- `CrossProduct`, `Difference`, `Sum` -/
inductive BinOp where
  | cross
  | diff
  | sum

/-- `ScalarMultiply`, `RotationMultiply` (`transpose_`, joint). -/
inductive UnOp (α : Type) where
  | smul (a : α)
  | rot (transpose : Bool) (j : Nat)

inductive Expr (α : Type) where
  | leaf (id : Nat) (k : Leaf α)
  | bin (id : Nat) (op : BinOp) (l r : Expr α)
  | un (id : Nat) (op : UnOp α) (e : Expr α)

variable {α : Type} {n : Nat}

def Expr.id : Expr α → Nat
  | .leaf i _ => i
  | .bin i _ _ _ => i
  | .un i _ _ => i

/-- The members of all the nodes. -/
abbrev St (α : Type) (n : Nat) := Nat → Cache α n

/-- `CalculusBase::invalidate` (lines 212-216) -/
def Cache.invalid (c : Cache α n) : Cache α n := { c with vV := false, jV := false, cV := false }

/-- `invalidate` of the classes (lines 324-328, 415-419, 455-459, 495-498, 559-562). -/
def invalidate : Expr α → St α n → St α n
  | .leaf i _, st => Function.update st i (st i).invalid
  | .bin i _ l r, st =>
    let st := Function.update st i (st i).invalid
    let st := invalidate r st
    invalidate l st
  | .un i _ e, st =>
    let st := Function.update st i (st i).invalid
    invalidate e st

variable [CommRing α]

/-- `value_` as `computeCrossValue` reads it. -/
def rawValue (e : Expr α) (st : St α n) : V3 α :=
  match e with
  | .leaf i (.com _) => (st i).raw
  | e => (st e.id).value

/-- `impl_value` of the leaves (lines 620-623, 688-691, 778, 802-804). -/
def Leaf.implValue (w : World α n) (k : Leaf α) (c : Cache α n) : Cache α n :=
  match k with
  | .point _ => c
  | .pointIn j l => { c with value := w.R j *ᵥ l + w.p j }
  | .vectorIn j v => { c with value := w.R j *ᵥ v }
  | .com k => { c with value := w.com k }

/-- End of `computeCrossValue` (lines 221-222), once the value is computed. -/
def setCross (e : Expr α) (st : St α n) : St α n :=
  Function.update st e.id { st e.id with cross := hat (rawValue e st), cV := true }

/-- Store a value in a node and mark it as valid (line 205) -/
def setValue (i : Nat) (v : V3 α) (st : St α n) : St α n :=
  Function.update st i { st i with value := v, vV := true }

/-- `computeValue` (lines 202-206) with `impl_value` of each class: `CrossProduct` 311-315, `Difference` 405-409, `Sum`
445-449, `ScalarMultiply` 487-490, `RotationMultiply` 538-545. -/
def computeValue (w : World α n) : Expr α → St α n → St α n
  | .leaf i k, st =>
    if (st i).vV then st else Function.update st i { k.implValue w (st i) with vV := true }
  | .bin i .cross l r, st =>
    if (st i).vV then st
    else
      let st := if (st l.id).cV then st else setCross l (computeValue w l st)
      let st := computeValue w r st
      setValue i ((st l.id).cross *ᵥ (st r.id).value) st
  | .bin i .diff l r, st =>
    if (st i).vV then st
    else
      let st := computeValue w l st
      let st := computeValue w r st
      setValue i ((st l.id).value - (st r.id).value) st
  | .bin i .sum l r, st =>
    if (st i).vV then st
    else
      let st := computeValue w l st
      let st := computeValue w r st
      setValue i ((st l.id).value + (st r.id).value) st
  | .un i (.smul a) e, st =>
    if (st i).vV then st
    else
      let st := computeValue w e st
      setValue i (a • (st e.id).value) st
  | .un i (.rot tr j) e, st =>
    if (st i).vV then st
    else
      let st := computeValue w e st
      setValue i (if tr then (w.R j)ᵀ *ᵥ (st e.id).value else w.R j *ᵥ (st e.id).value) st

/-- `computeCrossValue` (lines 218-223) -/
def computeCross (w : World α n) (e : Expr α) (st : St α n) : St α n :=
  if (st e.id).cV then st else setCross e (computeValue w e st)

variable [DecidableEq α]

/-- `impl_jacobian` of the leaves (lines 624-633, 692-698, 779, 805-810): points and vectors in joints use the member
`cross_` for an intermediate result. `center_` is exact here (`isZero` has a tolerance). -/
def Leaf.implJac (w : World α n) (k : Leaf α) (c : Cache α n) : Cache α n :=
  match k with
  | .point _ => c
  | .pointIn j l =>
    if l = 0 then { c with jac := w.R j * w.Jv j }
    else { c with jac := w.R j * w.Jv j - (hat (w.R j *ᵥ l) * w.R j) * w.Jw j, cross := hat (w.R j *ᵥ l) }
  | .vectorIn j v => { c with jac := (-hat (w.R j *ᵥ v) * w.R j) * w.Jw j, cross := hat (w.R j *ᵥ v) }
  | .com k => { c with value := w.com k, jac := w.Jcom k }

/-- Store a Jacobian in a node and mark it as valid (line 210) -/
def setJac (i : Nat) (J : Matrix (Fin 3) (Fin n) α) (st : St α n) : St α n :=
  Function.update st i { st i with jac := J, jV := true }

/-- `computeJacobian` (lines 207-211) with `impl_jacobian` of each class: `CrossProduct` 316-323, `Difference`
410-414, `Sum` 450-454, `ScalarMultiply` 491-494, `RotationMultiply` 546-558. -/
def computeJac (w : World α n) : Expr α → St α n → St α n
  | .leaf i k, st =>
    if (st i).jV then st else Function.update st i { k.implJac w (st i) with jV := true }
  | .bin i .cross l r, st =>
    if (st i).jV then st
    else
      let st := computeCross w l st
      let st := computeCross w r st
      let st := computeJac w l st
      let st := computeJac w r st
      setJac i ((st l.id).cross * (st r.id).jac - (st r.id).cross * (st l.id).jac) st
  | .bin i .diff l r, st =>
    if (st i).jV then st
    else
      let st := computeJac w l st
      let st := computeJac w r st
      setJac i ((st l.id).jac - (st r.id).jac) st
  | .bin i .sum l r, st =>
    if (st i).jV then st
    else
      let st := computeJac w l st
      let st := computeJac w r st
      setJac i ((st l.id).jac + (st r.id).jac) st
  | .un i (.smul a) e, st =>
    if (st i).jV then st
    else
      let st := computeJac w e st
      setJac i (a • (st e.id).jac) st
  | .un i (.rot tr j) e, st =>
    if (st i).jV then st
    else
      let st := computeJac w e st
      let st := computeCross w e st
      setJac i
        (if tr then (w.R j)ᵀ * (((st e.id).cross * w.R j) * w.Jw j + (st e.id).jac)
          else w.R j * (((st e.id).cross * w.R j) * w.Jw j + (st e.id).jac)) st

/-! ### Scalar product (lines 338-383)

Its value is a vector of size 1: it can only be the root of an expression. -/

structure DotCache (α : Type) (n : Nat) where
  value : α
  jac : Fin n → α
  vV : Bool
  jV : Bool

/-- lines 373-377 -/
def dotInvalidate (l r : Expr α) (st : St α n × DotCache α n) : St α n × DotCache α n :=
  (invalidate l (invalidate r st.1), { st.2 with vV := false, jV := false })

/-- lines 360-364 -/
def dotValue (w : World α n) (l r : Expr α) (st : St α n × DotCache α n) : St α n × DotCache α n :=
  if st.2.vV then st
  else
    let m := computeValue w l st.1
    let m := computeValue w r m
    (m, { st.2 with value := (m l.id).value ⬝ᵥ (m r.id).value, vV := true })

/-- lines 365-372 -/
def dotJac (w : World α n) (l r : Expr α) (st : St α n × DotCache α n) : St α n × DotCache α n :=
  if st.2.jV then st
  else
    let m := computeValue w l st.1
    let m := computeValue w r m
    let m := computeJac w l m
    let m := computeJac w r m
    (m, { st.2 with jac := (m l.id).value ᵥ* (m r.id).jac + (m r.id).value ᵥ* (m l.id).jac, jV := true })

/-! ### Calls of the methods -/

inductive Call where
  | value
  | cross
  | jac

def call (w : World α n) (e : Expr α) : Call → St α n → St α n
  | .value, st => computeValue w e st
  | .cross, st => computeCross w e st
  | .jac, st => computeJac w e st

/-- A sequence of calls of the methods of the root of an expression. -/
def calls (w : World α n) (e : Expr α) (cs : List Call) (st : St α n) : St α n :=
  cs.foldl (fun (st : St α n) (c : Call) => call w e c st) st

/-- The objects just after their construction: nodes without joint know their value and Jacobian, the other members are
arbitrary. -/
def Constructed (st : St α n) : Expr α → Prop
  | .leaf i (.point v) => (st i).value = v ∧ (st i).jac = 0
  | .leaf _ _ => True
  | .bin _ _ l r => Constructed st l ∧ Constructed st r
  | .un _ _ e => Constructed st e

/-! ### Symbolic functions -/

/-- Copy of the components selected by the mask (symbolic-function.hh:120-123 and 148-150): writes at the beginning of
the output, whose other elements are unchanged.  `β`: number, or row of a Jacobian. -/
def maskCopy {β : Type} : List Bool → List β → List β → List β
  | [], _, out => out
  | _ :: _, [], out => out
  | true :: m, x :: xs, _ :: out => x :: maskCopy m xs out
  | true :: _, _ :: _, [] => []
  | false :: m, _ :: xs, out => maskCopy m xs out

/-- Size of the output space (symbolic-function.hh:88): that of the expression, whatever the mask. -/
def symOutputSize {β : Type} (expr : List β) (_mask : List Bool) : Nat := expr.length

end Hpp.Sym
