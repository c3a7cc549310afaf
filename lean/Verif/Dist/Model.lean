import Verif.Pose.GenericLemmas

/-!
# Distance between points of bodies, and between bodies

Sources: `/repo/src/distance-between-points-in-bodies.cc`, `/repo/src/distance-between-bodies.cc`.

Configurations form a type `Q`; the robot is shared with other functions: it contains the positions of the joints for the last
configuration for which they were computed, and the Jacobians of the joints for the last configuration for which they were
computed (`computeForwardKinematics` with flag `JOINT_POSITION` alone does not compute the Jacobians). Nearest points of
bodies (hpp-fcl, external) are a parameter. Robots without configuration variable are not modelled (for them an argument is
equal to the initial value of `latestArgument_`).
-/

namespace Hpp.Dist

open Matrix Hpp.Sym Hpp.Pose

variable {n : Nat} {Q : Type} [DecidableEq Q]

/-- Members set by the constructors (distance-between-points-in-bodies.cc:70-98): `joint2` is `none` for the second one. -/
structure DistPts where
  joint1 : Nat
  joint2 : Option Nat
  point1 : V3 ℝ
  point2 : V3 ℝ

/-- Configurations for which the robot contains the positions and the Jacobians of the joints. -/
structure Rob (Q : Type) where
  pos : Q
  jac : Q

/-- Mutable members of the function. -/
structure DMem (Q : Type) where
  latest : Option Q
  result : ℝ
  global1 : V3 ℝ
  global2 : V3 ℝ

/-- Members after the construction (lines 80-82, 95-97) -/
def DistPts.init (f : DistPts) : DMem Q := ⟨none, 0, 0, f.point2⟩

noncomputable def norm (v : V3 ℝ) : ℝ := Real.sqrt (v ⬝ᵥ v)

/-- `impl_compute` (lines 100-120). The result is in the member `result`. -/
noncomputable def DistPts.compute (f : DistPts) (K : Q → Kin n) (s : Rob Q × DMem Q) (q : Q) : Rob Q × DMem Q :=
  if s.2.latest = some q then s
  else
    let r : Rob Q := ⟨q, q⟩
    let g1 := ((K r.pos).M f.joint1).act f.point1
    match f.joint2 with
    | some j2 =>
      let g2 := ((K r.pos).M j2).act f.point2
      (r, ⟨some q, norm (g2 - g1), g1, g2⟩)
    | none => (r, ⟨some q, norm g1, g1, s.2.global2⟩)

/-- `(P1-P2)^T R J.topRows (3) + (P1-P2)^T R.colwise().cross(P - t) J.bottomRows (3)` (lines 143-145, 155-157) -/
def gradientRow (d : V3 ℝ) (M : SE3 ℝ) (P : V3 ℝ) (Jv Jw : Matrix (Fin 3) (Fin n) ℝ) : Fin n → ℝ :=
  (d ᵥ* M.R) ᵥ* Jv + (d ᵥ* colCross M.R (P - M.p)) ᵥ* Jw

/-- `impl_jacobian` (lines 122-162) -/
noncomputable def DistPts.jacobian (f : DistPts) (K : Q → Kin n) (s : Rob Q × DMem Q) (q : Q) :
    (Rob Q × DMem Q) × (Fin n → ℝ) :=
  let s := f.compute K s q
  let dist := s.2.result
  let P1_minus_P2 := s.2.global1 - s.2.global2
  let tmp1 := gradientRow P1_minus_P2 ((K s.1.pos).M f.joint1) s.2.global1 ((K s.1.jac).Jv f.joint1) ((K s.1.jac).Jw f.joint1)
  match f.joint2 with
  | some j2 =>
    let tmp2 := gradientRow P1_minus_P2 ((K s.1.pos).M j2) s.2.global2 ((K s.1.jac).Jv j2) ((K s.1.jac).Jw j2)
    (s, fun c => (tmp1 c - tmp2 c) / dist)
  | none => (s, fun c => tmp1 c / dist)

/-- What may happen on the robot: evaluations of the function, other uses of the robot. -/
inductive Op (Q : Type) where
  | value (q : Q)
  | jacobian (q : Q)
  | other (q : Q) (withJacobian : Bool)

noncomputable def DistPts.run (f : DistPts) (K : Q → Kin n) : List (Op Q) → Rob Q × DMem Q → Rob Q × DMem Q
  | [], s => s
  | .value q :: l, s => f.run K l (f.compute K s q)
  | .jacobian q :: l, s => f.run K l (f.jacobian K s q).1
  | .other q b :: l, s => f.run K l (⟨q, if b then q else s.1.jac⟩, s.2)

/-! ### Distance between bodies -/

/-- `DistanceBetweenBodies`: joints, and nearest points of the bodies, with their distance, computed by hpp-fcl
(distance-between-bodies.cc:119-125, 137-138). -/
structure DistBodies (Q : Type) where
  joint1 : Nat
  joint2 : Option Nat
  nearest : Q → V3 ℝ × V3 ℝ
  minDist : Q → ℝ

/-- Mutable members: `latestArgument_`, `latestResult_`, nearest points in `data_`. -/
structure BodMem (Q : Type) where
  latest : Option Q
  result : ℝ
  near : V3 ℝ × V3 ℝ

/-- `impl_compute` (distance-between-bodies.cc:112-128) -/
def DistBodies.compute (f : DistBodies Q) (s : Rob Q × BodMem Q) (q : Q) : Rob Q × BodMem Q :=
  if s.2.latest = some q then s else (⟨q, q⟩, ⟨some q, f.minDist q, f.nearest q⟩)

/-- `impl_jacobian` (distance-between-bodies.cc:130-164) -/
noncomputable def DistBodies.jacobian (f : DistBodies Q) (K : Q → Kin n) (s : Rob Q × BodMem Q) (q : Q) :
    (Rob Q × BodMem Q) × (Fin n → ℝ) :=
  let s := f.compute s q
  let P1_minus_P2 := s.2.near.1 - s.2.near.2
  let J : Fin n → ℝ := fun c => gradientRow P1_minus_P2 ((K s.1.pos).M f.joint1) s.2.near.1 ((K s.1.jac).Jv f.joint1)
    ((K s.1.jac).Jw f.joint1) c / s.2.result
  match f.joint2 with
  | some j2 =>
    let tmp2 := gradientRow P1_minus_P2 ((K s.1.pos).M j2) s.2.near.2 ((K s.1.jac).Jv j2) ((K s.1.jac).Jw j2)
    (s, fun c => J c - tmp2 c / s.2.result)
  | none => (s, J)

def DistBodies.run (f : DistBodies Q) : List (Op Q) → Rob Q × BodMem Q → Rob Q × BodMem Q
  | [], s => s
  | .value q :: l, s => f.run l (f.compute s q)
  | .jacobian q :: l, s => f.run l (f.compute s q)
  | .other q b :: l, s => f.run l (⟨q, if b then q else s.1.jac⟩, s.2)

/-! ### Specification -/

/-- Position in the world of a point attached to a joint, or to the world. -/
def worldPos (K : Kin n) (j : Option Nat) (p : V3 ℝ) : V3 ℝ :=
  match j with
  | some j => (K.M j).R *ᵥ p + (K.M j).p
  | none => p

/-- Euclidean distance -/
noncomputable def edist (a b : V3 ℝ) : ℝ := Real.sqrt ((a 0 - b 0) ^ 2 + (a 1 - b 1) ^ 2 + (a 2 - b 2) ^ 2)

/-- Contract of hpp-fcl: the nearest points belong to the bodies (`B1` in the frame of `joint1`, `B2` in the frame of
`joint2` or in the world), their distance is the distance returned, and no pair of points is closer. -/
structure DistBodies.Nearest (f : DistBodies Q) (K : Q → Kin n) (B1 B2 : Set (V3 ℝ)) : Prop where
  mem : ∀ q, ∃ p1 ∈ B1, ∃ p2 ∈ B2, f.nearest q = (worldPos (K q) (some f.joint1) p1, worldPos (K q) f.joint2 p2)
  dist : ∀ q, f.minDist q = edist (f.nearest q).1 (f.nearest q).2
  least : ∀ q, ∀ p1 ∈ B1, ∀ p2 ∈ B2, f.minDist q ≤ edist (worldPos (K q) (some f.joint1) p1) (worldPos (K q) f.joint2 p2)

end Hpp.Dist
