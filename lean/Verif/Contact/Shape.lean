import Verif.Pose.SE3
import Mathlib.LinearAlgebra.CrossProduct
import Mathlib.Analysis.Convex.Combination
import Mathlib.Analysis.SpecialFunctions.Sqrt

/-!
# Convex shapes

Source: `/repo/include/hpp/constraints/convex-shape.hh`.

Simplifications: real numbers instead of double precision; infinite values are `none`; asserts are not modelled (release build).
-/

namespace Hpp.Contact

open Matrix Hpp.Sym Hpp.Pose

/-- `v.norm ()` (Eigen) -/
noncomputable def norm3 (v : V3 ℝ) : ℝ := √(v ⬝ᵥ v)

/-- `v.normalize ()` (Eigen): unchanged if the norm is zero -/
noncomputable def normalize (v : V3 ℝ) : V3 ℝ := if 0 < v ⬝ᵥ v then (norm3 v)⁻¹ • v else v

/-- `ConvexShape` (convex-shape.hh:80-295); the joint is stored elsewhere. `Pts_`, `C_`, `N_`, `Ns_`, `Us_`, `Ls_` -/
structure Shape where
  Pts : List (V3 ℝ)
  C : V3 ℝ
  N : V3 ℝ
  Ns : List (V3 ℝ)
  Us : List (V3 ℝ)
  Ls : List ℝ

/-- `Pts_[i]`, in range in all uses -/
def at3 (l : List (V3 ℝ)) (i : Nat) : V3 ℝ := l.getD i 0

/-- `init` (convex-shape.hh:232-294).  `Ns`, `Us` are the members before the call (empty for constructors): shapes of one and two
points append to them and go on with the first elements.  `none`: exception, empty shape. -/
noncomputable def Shape.init (Pts Ns Us : List (V3 ℝ)) : Option Shape :=
  match Pts with
  | [] => none
  | [p] => some ⟨[p], p, ![1, 0, 0], Ns ++ [![0, 1, 0]], Us ++ [![0, 0, 1]], []⟩
  | [p0, p1] =>
    let Us1 := Us ++ [p1 - p0]
    let L0 := norm3 (at3 Us1 0)
    let U0 := normalize (at3 Us1 0)
    let N := normalize (if U0 0 ≠ 0 then ![-U0 1, U0 0, 0] else ![0, -U0 2, U0 1])
    let Ns1 := Ns ++ [U0 ⨯₃ N]
    some ⟨[p0, p1], (1 / 2 : ℝ) • (p0 + p1), N, Ns1.set 0 (normalize (at3 Ns1 0)), Us1.set 0 U0, [L0]⟩
  | Pts =>
    let n := Pts.length
    let N := normalize ((at3 Pts 1 - at3 Pts 0) ⨯₃ (at3 Pts 2 - at3 Pts 1))
    let U := fun i => at3 Pts ((i + 1) % n) - at3 Pts i
    some ⟨Pts, (n : ℝ)⁻¹ • Pts.sum, N, (List.range n).map fun i => normalize (normalize (U i) ⨯₃ N),
      (List.range n).map fun i => normalize (U i), (List.range n).map fun i => norm3 (U i)⟩

/-- Constructors, including the copy constructor (convex-shape.hh:90-107) -/
noncomputable def Shape.new (Pts : List (V3 ℝ)) : Option Shape := Shape.init Pts [] []

/-- `reverse` (convex-shape.hh:109-112) -/
noncomputable def Shape.reverse (s : Shape) : Option Shape := Shape.init s.Pts.reverse s.Ns s.Us

/-- `isInsideLocal` (convex-shape.hh:122-128) -/
noncomputable def Shape.isInsideLocal (s : Shape) (a : V3 ℝ) : Bool :=
  (List.range s.Pts.length).all fun i => ¬ (0 < at3 s.Ns i ⬝ᵥ (a - at3 s.Pts i))

/-- `dist` (convex-shape.hh:202-212) -/
noncomputable def distEdge (w : V3 ℝ) (c2 : ℝ) (v u : V3 ℝ) : ℝ :=
  let c1 := v ⬝ᵥ w
  if c1 ≤ 0 then (if 0 < u ⬝ᵥ w then norm3 w else -norm3 w)
  else if c2 ≤ c1 then (if 0 < u ⬝ᵥ w then norm3 (w - c2 • v) else -norm3 (w - c2 • v))
  else u ⬝ᵥ w

/-- One iteration of the loop of `distanceLocal` (convex-shape.hh:139-146): `outside`, `minPosDist` (`none` is `+inf`),
`maxNegDist` (`none` is `-inf`) -/
noncomputable def distStep (st : Bool × Option ℝ × Option ℝ) (d : ℝ) : Bool × Option ℝ × Option ℝ :=
  let st1 : Bool × Option ℝ := if 0 < d then
      (true, match st.2.1 with | none => some d | some m => if d < m then some d else some m)
    else (st.1, st.2.1)
  let mx : Option ℝ := if d ≤ 0 then
      (match st.2.2 with | none => some d | some m => if m < d then some d else some m)
    else st.2.2
  (st1.1, st1.2, mx)

/-- `distanceLocal` (convex-shape.hh:134-149); `none` if infinite -/
noncomputable def Shape.distanceLocal (s : Shape) (a : V3 ℝ) : Option ℝ :=
  let st := ((List.range s.Pts.length).map fun i =>
    distEdge (a - at3 s.Pts i) (s.Ls.getD i 0) (at3 s.Us i) (at3 s.Ns i)).foldl distStep (false, none, none)
  if st.1 then st.2.1 else st.2.2

/-- `positionInJoint ()`: frame of the shape (convex-shape.hh:289-293) -/
def Shape.positionInJoint (s : Shape) : SE3 ℝ := ⟨(of ![s.N, at3 s.Ns 0, at3 s.Us 0])ᵀ, s.C⟩

/-! ### Specification -/

/-- Distance of two points -/
noncomputable def edist (a b : V3 ℝ) : ℝ := √((a - b) ⬝ᵥ (a - b))

/-- `m` is normal to the plane of the points and each vertex is strictly on the left of each edge it does not belong to, when the
plane is seen from the side `m` points to. -/
structure ConvexFor (P : List (V3 ℝ)) (m : V3 ℝ) : Prop where
  three : 3 ≤ P.length
  plane : ∀ p ∈ P, ∀ q ∈ P, m ⬝ᵥ (p - q) = 0
  left : ∀ i j k, j = (i + 1) % P.length → i < P.length → k < P.length → k ≠ i → k ≠ j →
    ∀ p q r, P[i]? = some p → P[j]? = some q → P[k]? = some r → 0 < m ⬝ᵥ ((q - p) ⨯₃ (r - p))

/-- The points are the successive vertices of a convex polygon. -/
def IsConvexPolygon (P : List (V3 ℝ)) : Prop := ∃ m, ConvexFor P m

/-- The closed polygonal line -/
def boundary (P : List (V3 ℝ)) : Set (V3 ℝ) :=
  { x | ∃ i p q, P[i]? = some p ∧ P[(i + 1) % P.length]? = some q ∧ x ∈ segment ℝ p q }

/-- The polygon -/
def region (P : List (V3 ℝ)) : Set (V3 ℝ) := convexHull ℝ { p | p ∈ P }

/-- `a` is in the plane of the points. -/
def InPlane (P : List (V3 ℝ)) (a : V3 ℝ) : Prop := ∀ m : V3 ℝ, (∀ p ∈ P, ∀ q ∈ P, m ⬝ᵥ (p - q) = 0) → ∀ p ∈ P, m ⬝ᵥ (a - p) = 0

end Hpp.Contact
