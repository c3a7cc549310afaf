import Verif.Stab.Contacts

/-!
# Static stability

Model of `StaticStability`. Source: `/repo/src/static-stability.cc`.

The members `u_`, `uMinus_`, `v_`, `uDot_`, `uMinusDot_`, `vDot_` are assigned by each call before they are read: they are
local to the model. `findBoundIndex` and `computeLambdaDot` are not called. `currentConfiguration` and
`computeForwardKinematics` (lines 94-95, 118-120): the world is an argument.
-/

namespace Hpp.Stab

open Matrix Hpp.Sym

variable {n : Nat}

/-- Type of the function that computes the decomposition -/
abbrev SvdOf (nb : Nat) := Matrix (Fin (2 * 3)) (Fin nb) ℝ → Svd ℝ (2 * 3) nb

/-- `uMinus` (line 180) -/
noncomputable def uMinusOf {nb : Nat} (u : Fin nb → ℝ) : Fin nb → ℝ := fun i => if 0 ≤ u i then 0 else -u i

/-- `isZero ()` of Eigen: the absolute values of the coefficients are at most a precision `prec`. -/
def isZeroVec {nb : Nat} (prec : ℝ) (x : Fin nb → ℝ) : Prop := ∀ i, |x i| ≤ prec

open Classical in
/-- `computeUminusAndV` (lines 176-191): `none` for `false`, `v` otherwise. -/
noncomputable def computeV {nb : Nat} (prec : ℝ) (svd : Svd ℝ (2 * 3) nb) (u : Fin nb → ℝ) : Option (Fin nb → ℝ) :=
  if isZeroVec prec (uMinusOf u) then none else some (svd.V2 *ᵥ (svd.V2ᵀ *ᵥ uMinusOf u))

/-- `impl_compute` (lines 92-114): members of the matrix, the first `contacts_.size()` coordinates of the result and the six
last ones. -/
noncomputable def staticCompute (com : Nat) (l : List Col) (svdOf : SvdOf l.length) (prec : ℝ) (w : World ℝ n)
    (m : MMem n 2 l.length) : MMem n 2 l.length × (Fin l.length → ℝ) × (Fin (2 * 3) → ℝ) :=
  let m := (phi com l).invalidate m
  let m := (phi com l).computeSVD svdOf w m
  let u := m.svd.pinv *ᵥ ((-1 : ℝ) • gravity)
  let x := match computeV prec m.svd u with
    | some v => u + (1 : ℝ) • v
    | none => u
  (m, x, gravity + m.value *ᵥ u)

/-- `S.diagonal ()` (line 137) -/
noncomputable def sDiag {nb : Nat} (u : Fin nb → ℝ) : Fin nb → ℝ := fun i => if 0 ≤ u i then 0 else -1

/-- `computeVDot` (lines 193-214): members of the matrix, and `vDot`. -/
noncomputable def computeVDot (com : Nat) (l : List Col) (svdOf : SvdOf l.length) (w : World ℝ n) (m : MMem n 2 l.length)
    (uMinus S : Fin l.length → ℝ) (uDot : Matrix (Fin l.length) (Fin n) ℝ) :
    MMem n 2 l.length × Matrix (Fin l.length) (Fin n) ℝ :=
  let uMinusDot := diagonal S * uDot
  let vDot := uMinusDot
  let vDot := vDot - m.svd.V1 * (m.svd.V1ᵀ * uMinusDot)
  let x := (phi com l).jacobianTimes w m uMinus
  let m := x.1
  let vDot := vDot - m.pi * x.2
  let y := (phi com l).pinvJacobian svdOf w m (m.value *ᵥ uMinus)
  (y.1, vDot - y.2)

open Classical in
/-- `impl_jacobian` (lines 116-162): members of the matrix, the first `contacts_.size()` rows of the Jacobian and the six
last ones. -/
noncomputable def staticJac (com : Nat) (l : List Col) (svdOf : SvdOf l.length) (prec : ℝ) (w : World ℝ n)
    (m : MMem n 2 l.length) : MMem n 2 l.length × Matrix (Fin l.length) (Fin n) ℝ × Matrix (Fin (2 * 3)) (Fin n) ℝ :=
  let m := (phi com l).invalidate m
  let m := (phi com l).computeSVD svdOf w m
  let m := (phi com l).computeJac w m
  let m := (phi com l).computePinv svdOf w m
  let G := (-1 : ℝ) • gravity
  let u := m.svd.pinv *ᵥ G
  let y := (phi com l).pinvJacobian svdOf w m G
  let m := y.1
  let uDot := y.2
  let z := match computeV prec m.svd u with
    | some _ =>
      let d := computeVDot com l svdOf w m (uMinusOf u) (sDiag u) uDot
      (d.1, uDot + (1 : ℝ) • d.2)
    | none => (m, uDot)
  let m := z.1
  let x := (phi com l).jacobianTimes w m u
  let m := x.1
  let y := (phi com l).pinvJacobian svdOf w m gravity
  let m := y.1
  (m, z.2, x.2 + -m.value * y.2)

end Hpp.Stab
