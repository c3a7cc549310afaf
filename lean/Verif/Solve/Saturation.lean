import Mathlib.Order.Defs.LinearOrder
import Mathlib.Logic.Function.Basic
import Mathlib.Data.List.Nodup

/-!
# Model of the saturation of configurations

Source: `/repo/src/solver/hierarchical-iterative.cc`, lines 113-174 (`saturation::Base`, `clamp`, `Bounds`,
`Device`) and `/repo/include/hpp/constraints/solver/hierarchical-iterative.hh`, lines 96-165.

Vectors are functions on indices.  Indices outside of the vectors (undefined behaviour) are not
represented: the sizes of the vectors are assumed to be those of the robot.
-/

namespace Hpp

variable {α : Type}

/-- `saturation::clamp` (hierarchical-iterative.cc:121-136): value, flag, value returned. -/
def clamp [LE α] [DecidableLE α] (lb ub v : α) : α × Int × Bool :=
  if v ≤ lb then (lb, -1, true) else if v ≥ ub then (ub, 1, true) else (v, 0, false)

/-- One call of `clamp` in the loops: index of the coordinate, index of the flag, bounds. -/
structure SatEntry (α : Type) where
  iq : Nat
  iv : Nat
  lb : α
  ub : α

/-- State of the loops: `qSat`, `saturation`, value to return. -/
structure SatState (α : Type) where
  qSat : Nat → α
  sat : Nat → Int
  ret : Bool

/-- One iteration. -/
def satStep [LE α] [DecidableLE α] (q : Nat → α) (s : SatState α) (e : SatEntry α) : SatState α :=
  let c := clamp e.lb e.ub (q e.iq)
  ⟨Function.update s.qSat e.iq c.1, Function.update s.sat e.iv c.2.1, s.ret || c.2.2⟩

/-- The loops. -/
def clampLoop [LE α] [DecidableLE α] (q : Nat → α) (entries : List (SatEntry α)) (qSat : Nat → α)
    (sat : Nat → Int) : SatState α :=
  entries.foldl (satStep q) ⟨qSat, sat, false⟩

/-- The loops when `q` and `qSat` are the same vector, as in `integrate`
(hierarchical-iterative.cc:718). -/
def satLoopInPlace [LE α] [DecidableLE α] (entries : List (SatEntry α)) (q : Nat → α)
    (sat : Nat → Int) : SatState α :=
  entries.foldl (fun s e => satStep s.qSat s e) ⟨q, sat, false⟩

/-- `saturation::Base::saturate` (hierarchical-iterative.cc:114-119). -/
def satBase (q : Nat → α) : SatState α := ⟨q, fun _ => 0, false⟩

/-- `saturation::Bounds::saturate` (hierarchical-iterative.cc:138-144); `n` is `q.size()`. -/
def boundsEntries (n : Nat) (lb ub : Nat → α) (iq2iv : Nat → Nat) : List (SatEntry α) :=
  (List.range n).map fun i => ⟨i, iq2iv i, lb i, ub i⟩

/-- A joint of the model: sizes and ranks in configuration and velocity vectors. -/
structure JointLayout where
  nq : Nat
  nv : Nat
  idxQ : Nat
  idxV : Nat

/-- Ranks of joints as computed by pinocchio: each joint follows the previous one. -/
def layout : List (Nat × Nat) → (idxQ idxV : Nat) → List JointLayout
  | [], _, _ => []
  | (nq, nv) :: l, iq, iv => ⟨nq, nv, iq, iv⟩ :: layout l (iq + nq) (iv + nv)

/-- `saturation::Device::saturate` (hierarchical-iterative.cc:146-173): entries of the joints then of the
extra configuration space of dimension `d`.  Subtraction `nv - 1` is only evaluated for joints with
coordinates. -/
def deviceEntries (joints : List JointLayout) (lower upper : Nat → α) (mnq mnv d : Nat)
    (exLower exUpper : Nat → α) : List (SatEntry α) :=
  (joints.flatMap fun j => (List.range j.nq).map fun k =>
    ⟨j.idxQ + k, j.idxV + min k (j.nv - 1), lower (j.idxQ + k), upper (j.idxQ + k)⟩) ++
  (List.range d).map fun k => ⟨mnq + k, mnv + k, exLower k, exUpper k⟩

end Hpp
