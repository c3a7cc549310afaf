import Verif.Pose.Props
import Verif.Sym.Props

/-!
# Relative center of mass

Model of `RelativeCom`. Sources: `/repo/src/relative-com.cc`, `/repo/include/hpp/constraints/relative-com.hh`.

Positions, Jacobians of the joints and of the center of mass (pinocchio, external) are in a `World` (see `Verif.Sym.Model`).
The robot is locked and updated by each evaluation (`DeviceSync`): nothing of a previous evaluation is used.
A null joint (undefined behaviour) is not modelled. Debug output and serialization are not modelled.
-/

namespace Hpp.Com

open Matrix Hpp.Sym Hpp.Pose

variable {n e : Nat}

/-- Members of `RelativeCom` (relative-com.hh:119-125): joint, center of mass computation, reference, mask. -/
structure RelCom where
  joint : Nat
  comc : Nat
  reference : V3 ℝ
  mask : List Bool

def RelCom.m (f : RelCom) (i : Nat) : Bool := f.mask.getD i false

/-- `nominalCase_` (relative-com.cc:100) -/
def RelCom.nominal (f : RelCom) : Bool := f.m 0 && f.m 1 && f.m 2

/-- Loop copying the selected elements (relative-com.cc:129-134) -/
def copyElements (m : Nat → Bool) (res : Nat → ℝ) : List Nat → Nat → (Nat → ℝ) → Nat → ℝ
  | [], _, out => out
  | i :: is, index, out =>
    if m i then copyElements m res is (index + 1) (Function.update out index (res i)) else copyElements m res is index out

def read3 (v : V3 ℝ) (i : Nat) : ℝ := if i = 0 then v 0 else if i = 1 then v 1 else v 2

/-- `impl_compute` (relative-com.cc:113-136). `out` is the result passed by the caller. -/
def RelCom.value (f : RelCom) (w : World ℝ n) (out : Nat → ℝ) : Nat → ℝ :=
  let res := (w.R f.joint)ᵀ *ᵥ (w.com f.comc - w.p f.joint) - f.reference
  if f.nominal then fun i => if i < 3 then read3 res i else out i
  else copyElements f.m (read3 res) [0, 1, 2] 0 out

/-- `impl_jacobian` (relative-com.cc:138-174). `J` is the matrix passed by the caller; the `e` last columns correspond to
the extra degrees of freedom. -/
def RelCom.jacobian (f : RelCom) (w : World ℝ n) (J : Rows2 n e) : Rows2 n e :=
  let J : Rows2 n e := fun i c => match c with
    | .inl c => J i (.inl c)
    | .inr _ => 0
  let B := (w.R f.joint)ᵀ * w.Jcom f.comc
  let B := B + ((w.R f.joint)ᵀ * colCross (w.R f.joint) (w.p f.joint - w.com f.comc)) * w.Jw f.joint
  if f.nominal then writeLeft J 0 (B - w.Jv f.joint)
  else copyRows f.m (fun i => blockRow (B - w.Jv f.joint) i) [0, 1, 2] 0 J

/-! ### Specification -/

/-- Output `k` of the function is coordinate `i`: `i` is the position of true element number `k` of the mask. -/
def IsOutput (mask : List Bool) (k i : Nat) : Prop :=
  mask[i]? = some true ∧ ((mask.take i).count true) = k

end Hpp.Com
