import Mathlib.Algebra.Field.Defs
import Mathlib.Algebra.Order.Group.Unbundled.Abs
import Mathlib.Logic.Function.Basic

/-!
# Model of Jacobians by finite differences

Source: `/repo/src/differentiable-function.cc`, lines 48-212.

Vectors are functions of their indices, `n` is the number of columns of the Jacobian.  `X` is the type of the points
(`Nat → α` for vector spaces), `Y` that of the values, with difference `sub`.  The points where the function is
evaluated are recorded.
-/

namespace Hpp.FD

/-- What `FiniteDiffRobotOp` and `FiniteDiffVectorSpaceOp` provide. `integ forward x h i result` -/
structure Op (α X : Type) where
  step : Nat → X → α
  integ : Bool → X → (Nat → α) → Nat → X → X
  reset : X → Nat → X → X

variable {α X Y : Type}

/-- `step` (lines 54-64 and 97-104) -/
def step [Mul α] [DecidableEq α] [AddGroup α] [Lattice α] (eps : α) (x : Nat → α) (i : Nat) : α :=
  let r := |x i|
  if r = 0 then eps else eps * r

/-- `FiniteDiffVectorSpaceOp` (lines 94-122) -/
def vecOp [Mul α] [DecidableEq α] [AddGroup α] [Lattice α] (eps : α) : Op α (Nat → α) where
  step i x := step eps x i
  integ forward x h i result := Function.update result i (x i + if forward then h i else -h i)
  reset x i result := Function.update result i (x i)

/-- `FiniteDiffRobotOp` (lines 48-92); `integrate` is that of the robot.  The step for velocity component `i` is computed
from configuration component `i`. -/
def robotOp [Mul α] [DecidableEq α] [AddGroup α] [Lattice α] (eps : α)
    (integrate : (Nat → α) → (Nat → α) → Nat → α) : Op α (Nat → α) where
  step i x := step eps x i
  integ forward x h _ _ := if forward then integrate x h else integrate x fun k => -h k
  reset x _ _ := x

/-- `jacobian.col(j) = c` -/
def setCol (J : Nat → Nat → α) (j : Nat) (c : Nat → α) : Nat → Nat → α := fun i => Function.update (J i) j (c i)

/-- Variables of `finiteDiffForward`. -/
structure Fwd (α X : Type) where
  xdx : X
  h : Nat → α
  J : Nat → Nat → α
  pts : List X

variable [Field α]

/-- Iteration of `finiteDiffForward` (lines 172-186). -/
def fwdStep (op : Op α X) (f : X → Y) (sub : Y → Y → Nat → α) (adp : Nat → Bool) (x : X) (fx : Y) (st : Fwd α X)
    (j : Nat) : Fwd α X :=
  if !adp j then { st with J := setCol st.J j fun _ => 0 }
  else
    let h := Function.update st.h j (op.step j x)
    let xdx := op.integ true x h j st.xdx
    let fxp := f xdx
    { xdx := op.reset x j xdx
      h := Function.update h j 0
      J := setCol st.J j fun i => sub fxp fx i / h j
      pts := st.pts ++ [xdx] }

/-- `finiteDiffForward` (lines 160-191): the Jacobian and the points of evaluation. -/
def forward (op : Op α X) (f : X → Y) (sub : Y → Y → Nat → α) (adp : Nat → Bool) (n : Nat) (x : X)
    (J : Nat → Nat → α) : (Nat → Nat → α) × List X :=
  let st := (List.range n).foldl (fwdStep op f sub adp x (f x)) ⟨x, fun _ => 0, J, [x]⟩
  (st.J, st.pts)

/-- Variables of `finiteDiffCentral`. -/
structure Ctr (α X : Type) where
  xp : X
  xm : X
  h : Nat → α
  J : Nat → Nat → α
  pts : List X

/-- Iteration of `finiteDiffCentral` (lines 135-153). -/
def ctrStep (op : Op α X) (f : X → Y) (sub : Y → Y → Nat → α) (adp : Nat → Bool) (x : X) (st : Ctr α X) (j : Nat) :
    Ctr α X :=
  if !adp j then { st with J := setCol st.J j fun _ => 0 }
  else
    let h := Function.update st.h j (op.step j x)
    let xm := op.integ false x h j st.xm
    let fm := f xm
    let xp := op.integ true x h j st.xp
    let fp := f xp
    { xp := op.reset x j xp
      xm := op.reset x j xm
      h := Function.update h j 0
      J := setCol st.J j fun i => sub fp fm i / h j / 2
      pts := st.pts ++ [xm, xp] }

/-- `finiteDiffCentral` (lines 125-158) -/
def central (op : Op α X) (f : X → Y) (sub : Y → Y → Nat → α) (adp : Nat → Bool) (n : Nat) (x : X)
    (J : Nat → Nat → α) : (Nat → Nat → α) × List X :=
  let st := (List.range n).foldl (ctrStep op f sub adp x) ⟨x, x, fun _ => 0, J, []⟩
  (st.J, st.pts)

end Hpp.FD
