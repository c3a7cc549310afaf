import Verif.Pose.SE3
import Mathlib.Analysis.SpecialFunctions.Trigonometric.InverseDeriv
import Mathlib.Analysis.SpecialFunctions.Trigonometric.Inverse

/-!
# Model of the logarithms and of their Jacobians

Source: `/repo/include/hpp/constraints/tools.hh`, lines 53-228.

Scalars are real numbers: rounding is not modelled.  All the thresholds of the code are kept.
-/

namespace Hpp.Log

open Matrix Hpp.Sym Hpp.Pose

/-- Angle computed by `logSO3` (lines 64-71) -/
noncomputable def angle (R : M3 ℝ) : ℝ :=
  let tr := R 0 0 + R 1 1 + R 2 2
  if 3 < tr then 0 else if tr < -1 then Real.pi else Real.arccos ((tr - 1) / 2)

/-- `logSO3` (lines 59-93), vector part -/
noncomputable def logSO3 (R : M3 ℝ) : V3 ℝ :=
  let theta := angle R
  if theta < Real.pi - 1e-2 then
    let t := (if 1e-6 < theta then theta / Real.sin theta else 1) / 2
    ![t * (R 2 1 - R 1 2), t * (R 0 2 - R 2 0), t * (R 1 0 - R 0 1)]
  else
    let cphi := Real.cos (theta - Real.pi)
    let beta := theta * theta / (1 + cphi)
    let tmp0 := (R 0 0 + cphi) * beta
    let tmp1 := (R 1 1 + cphi) * beta
    let tmp2 := (R 2 2 + cphi) * beta
    ![(if R 1 2 < R 2 1 then 1 else -1) * (if 0 < tmp0 then Real.sqrt tmp0 else 0),
      (if R 2 0 < R 0 2 then 1 else -1) * (if 0 < tmp1 then Real.sqrt tmp1 else 0),
      (if R 0 1 < R 1 0 then 1 else -1) * (if 0 < tmp2 then Real.sqrt tmp2 else 0)]

/-- `JlogSO3` (lines 128-153) -/
noncomputable def JlogSO3 (theta : ℝ) (log : V3 ℝ) : M3 ℝ :=
  if theta < 1e-6 then 1
  else
    let ct := Real.cos theta
    let st := Real.sin theta
    let st_1mct := st / (1 - ct)
    let alpha := 1 / (theta * theta) - st_1mct / (2 * theta)
    (2 : ℝ)⁻¹ • !![theta * st_1mct, -log 2, log 1; log 2, theta * st_1mct, -log 0; -log 1, log 0, theta * st_1mct]
      + alpha • vecMulVec log log

/-- Coefficients `alpha`, `beta` of `logSE3` (lines 174-181) and `JlogSE3` (lines 199-206) -/
noncomputable def alphaSE3 (theta : ℝ) : ℝ :=
  if |theta| < 1e-2 then 1 - theta * theta / 12 - theta * theta * theta * theta / 720
  else theta * Real.sin theta / (2 * (1 - Real.cos theta))

noncomputable def betaSE3 (theta : ℝ) : ℝ :=
  if |theta| < 1e-2 then 1 / 12 + theta * theta / 720
  else 1 / (theta * theta) - Real.sin theta / (2 * theta * (1 - Real.cos theta))

/-- `beta_dot_over_theta` (lines 203, 207-209) -/
noncomputable def betaDot (theta : ℝ) : ℝ :=
  if |theta| < 1e-2 then 1 / 360
  else -2 / (theta * theta * theta * theta)
    + (theta + Real.sin theta) / (2 * theta * theta * theta * (1 - Real.cos theta))

/-- `logSE3` (lines 163-185): linear part, angular part -/
noncomputable def logSE3 (M : SE3 ℝ) : V3 ℝ × V3 ℝ :=
  let theta := angle M.R
  let r := logSO3 M.R
  (alphaSE3 theta • M.p - (2 : ℝ)⁻¹ • (hat r *ᵥ M.p) + (betaSE3 theta * (r ⬝ᵥ M.p)) • r, r)

/-- `JlogSE3` (lines 187-228): the four blocks -/
noncomputable def JlogSE3 (M : SE3 ℝ) : Matrix (Fin 3 ⊕ Fin 3) (Fin 3 ⊕ Fin 3) ℝ :=
  let theta := angle M.R
  let r := logSO3 M.R
  let p := M.p
  let Jlog3 := JlogSO3 theta r
  let alpha := alphaSE3 theta
  let beta := betaSE3 theta
  let bd := betaDot theta
  let V : M3 ℝ := alpha • 1 - (2 : ℝ)⁻¹ • hat r + beta • vecMulVec r r
  let rTp := r ⬝ᵥ p
  let J := ((2 : ℝ)⁻¹ • hat p + (bd * rTp) • vecMulVec r r - (theta * theta * bd + 2 * beta) • vecMulVec p r
    + (rTp * beta) • 1 + beta • vecMulVec r p) * Jlog3
  Matrix.fromBlocks (V * M.R) J 0 Jlog3

end Hpp.Log
