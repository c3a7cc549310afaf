import Verif.Log.SE3Deriv
import Mathlib.Analysis.SpecialFunctions.Sqrt

namespace Hpp.Log

open Matrix Hpp.Sym Hpp.Pose Filter Topology

/-! ### Right Jacobian of the exponential -/

/-- Specification: right Jacobian of the exponential, in closed form.  `exp_deriv` shows that it is what its name says. -/
noncomputable def rightJacobian (r : V3 ℝ) : M3 ℝ :=
  (Real.sin (norm3 r) / norm3 r) • 1 - ((1 - Real.cos (norm3 r)) / norm3 r ^ 2) • hat r
    + ((1 - Real.sin (norm3 r) / norm3 r) / norm3 r ^ 2) • vecMulVec r r

theorem rightJacobian_lin3 {th : ℝ} (h : 0 < th) {u : V3 ℝ} (hu : u ⬝ᵥ u = 1) :
    rightJacobian (th • u) = lin3 (Real.sin th / th) (-((1 - Real.cos th) / th)) (1 - Real.sin th / th) u := by
  unfold rightJacobian
  rw [norm3_smul h.le hu]
  ext i j
  fin_cases i <;> fin_cases j <;> simp [lin3_apply, hat, vecMulVec_apply] <;> field_simp

theorem hat_hat' {u d : V3 ℝ} (h : u ⬝ᵥ d = 0) : hat u * hat d = vecMulVec d u := by
  rw [dot_three] at h
  ext i j
  fin_cases i <;> fin_cases j <;> simp [hat, vecMulVec_apply, Matrix.mul_apply, Fin.sum_univ_three] <;>
    first | linear_combination -h | ring

theorem hat_cross (u d : V3 ℝ) : hat (crossProduct u d) = vecMulVec d u - vecMulVec u d := by
  ext i j
  fin_cases i <;> fin_cases j <;> simp [hat, vecMulVec_apply, cross_apply] <;> ring

theorem outer_mul_hat (u v d : V3 ℝ) : vecMulVec u v * hat d = vecMulVec u (crossProduct v d) := by
  ext i j
  fin_cases j <;> simp [hat, vecMulVec_apply, cross_apply, Matrix.mul_apply, Fin.sum_univ_three] <;> ring

theorem cross_cross_perp {u d : V3 ℝ} (hu : u ⬝ᵥ u = 1) (h : u ⬝ᵥ d = 0) :
    crossProduct u (crossProduct u d) = -d ∧ hat d = vecMulVec u (crossProduct u d) - vecMulVec (crossProduct u d) u := by
  have e : crossProduct u (crossProduct u d) = -d := by
    rw [dot_three] at h hu
    funext i
    fin_cases i <;> simp [cross_apply] <;> grind
  refine ⟨e, ?_⟩
  rw [← hat_cross, ← cross_anticomm, e, neg_neg]

/-- Turning the axis -/
theorem axis_turns {c s : ℝ} (hcs : s ^ 2 + c ^ 2 = 1) {u d : V3 ℝ} (hu : u ⬝ᵥ u = 1) (h : u ⬝ᵥ d = 0) :
    rodrigues c s u * hat (s • d - (1 - c) • crossProduct u d)
      = s • hat d + (1 - c) • (vecMulVec d u + vecMulVec u d) := by
  obtain ⟨hx, hd⟩ := cross_cross_perp hu h
  have h' : u ⬝ᵥ crossProduct u d = 0 := dot_self_cross u d
  have e1 : hat (s • d - (1 - c) • crossProduct u d) = s • hat d - (1 - c) • hat (crossProduct u d) := by
    ext i j
    fin_cases i <;> fin_cases j <;> simp [hat] <;> ring
  rw [e1]
  simp only [rodrigues, Matrix.add_mul, Matrix.mul_sub, Matrix.smul_mul, Matrix.mul_smul, Matrix.one_mul,
    hat_hat' h, hat_hat' h', outer_mul_hat, hx]
  rw [hat_cross]
  have hs2 : s * s = 1 - c * c := by linear_combination hcs
  have hn : vecMulVec u (-d) = -vecMulVec u d := by ext i j; simp [vecMulVec_apply]
  rw [hn]
  have hs3 : (s * s) • vecMulVec d u = (1 - c * c) • vecMulVec d u := by rw [hs2]
  have hd3 : (s * (1 - c)) • hat d = (s * (1 - c)) • (vecMulVec u (crossProduct u d) - vecMulVec (crossProduct u d) u) := by
    rw [← hd]
  generalize vecMulVec u (crossProduct u d) = X at *
  generalize vecMulVec (crossProduct u d) u = Y at *
  generalize hat d = H at *
  linear_combination (norm := module) hs3 - hd3

/-- Norm and direction of a moving vector -/
theorem norm3_deriv {r : ℝ → V3 ℝ} {rho : V3 ℝ} {t : ℝ} (hr : VDeriv r rho t) (h0 : 0 < norm3 (r t)) :
    HasDerivAt (fun t => norm3 (r t)) ((norm3 (r t))⁻¹ * (r t ⬝ᵥ rho)) t := by
  have h1 := VDeriv.dot hr hr
  have hpos : r t ⬝ᵥ r t ≠ 0 := by rw [← norm3_sq]; positivity
  refine (h1.sqrt hpos).congr_deriv ?_
  rw [dotProduct_comm rho]
  show _ / (2 * norm3 (r t)) = _
  field_simp
  ring

/-- The derivative of the exponential is given by the right Jacobian. -/
theorem exp_deriv {r : ℝ → V3 ℝ} {rho : V3 ℝ} {t : ℝ} (hr : VDeriv r rho t) (h0 : 0 < norm3 (r t)) :
    ∀ i j, HasDerivAt (fun t => expSO3 (r t) i j) ((expSO3 (r t) * hat (rightJacobian (r t) *ᵥ rho)) i j) t := by
  have hn := norm3_deriv hr h0
  have hu := unit_of_norm h0
  have hU : VDeriv (fun t => (norm3 (r t))⁻¹ • r t) _ t := VDeriv.smul' (hn.inv h0.ne') hr
  set th := norm3 (r t) with hth
  set u := th⁻¹ • r t with hud
  have hru : r t = th • u := by rw [hud, smul_smul, mul_inv_cancel₀ h0.ne', one_smul]
  set d : V3 ℝ := th⁻¹ • (rho - (u ⬝ᵥ rho) • u) with hd
  have hdu : u ⬝ᵥ d = 0 := by
    rw [hd, dotProduct_smul, dotProduct_sub, dotProduct_smul, hu]
    simp
  have hU' : VDeriv (fun t => (norm3 (r t))⁻¹ • r t) d t := by
    refine hU.congr ?_
    rw [hd, hru, smul_dotProduct, smul_eq_mul]
    have : th⁻¹ * (th * (u ⬝ᵥ rho)) = u ⬝ᵥ rho := by field_simp
    rw [this, smul_smul, smul_sub, smul_smul]
    have e : -(u ⬝ᵥ rho) / th ^ 2 * th = -(th⁻¹ * (u ⬝ᵥ rho)) := by field_simp
    rw [e]
    module
  have hn' : HasDerivAt (fun t => norm3 (r t)) (u ⬝ᵥ rho) t := by
    refine hn.congr_deriv ?_
    rw [hud, smul_dotProduct, smul_eq_mul]
  have hJ : rightJacobian (r t) *ᵥ rho
      = (u ⬝ᵥ rho) • u + (Real.sin th • d - (1 - Real.cos th) • crossProduct u d) := by
    rw [hru, rightJacobian_lin3 h0 hu]
    have hrho : rho = (u ⬝ᵥ rho) • u + th • d := by
      rw [hd, smul_smul th, mul_inv_cancel₀ h0.ne', one_smul]; module
    have hv : lin3 (Real.sin th / th) (-((1 - Real.cos th) / th)) (1 - Real.sin th / th) u *ᵥ rho
        = (Real.sin th / th) • rho + (-((1 - Real.cos th) / th)) • crossProduct u rho
          + ((1 - Real.sin th / th) * (u ⬝ᵥ rho)) • u := by
      simp only [lin3, add_mulVec, smul_mulVec, one_mulVec, hat_mulVec, vecMulVec_mulVec, op_smul_eq_smul, smul_smul]
    have hc : crossProduct u rho = th • crossProduct u d := by
      conv_lhs => rw [hrho]
      simp
    rw [hv, hc]
    have : (Real.sin th / th) • rho = (Real.sin th / th) • ((u ⬝ᵥ rho) • u) + Real.sin th • d := by
      conv_lhs => rw [hrho]
      rw [smul_add, smul_smul (Real.sin th / th) th d, div_mul_cancel₀ _ h0.ne']
    rw [this]
    have e2 : -((1 - Real.cos th) / th) * th = -(1 - Real.cos th) := by field_simp
    rw [smul_smul (-((1 - Real.cos th) / th)), e2]
    module
  have hR : expSO3 (r t) = rodrigues (Real.cos th) (Real.sin th) u := rfl
  have e1 : expSO3 (r t) * hat (rightJacobian (r t) *ᵥ rho)
      = (u ⬝ᵥ rho) • ((-Real.sin th) • 1 + Real.cos th • hat u + Real.sin th • vecMulVec u u)
        + (Real.sin th • hat d + (1 - Real.cos th) • (vecMulVec d u + vecMulVec u d)) := by
    rw [hJ, hat_add, Matrix.mul_add, hR, axis_turns (Real.sin_sq_add_cos_sq th) hu hdu]
    congr 1
    rw [lin3_hat, rodrigues_lin3, lin3_mul hu]
    simp only [lin3]
    module
  intro i j
  rw [e1]
  have hc := hn'.cos
  have hs := hn'.sin
  have hhat : HasDerivAt (fun t => hat ((norm3 (r t))⁻¹ • r t) i j) (hat d i j) t := by
    have h0' := hU' 0
    have h1' := hU' 1
    have h2' := hU' 2
    fin_cases i <;> fin_cases j <;> simp only [hat, Fin.zero_eta, Fin.mk_one, Fin.reduceFinMk, of_apply, cons_val', cons_val_zero,
      cons_val_one, cons_val, cons_val_fin_one] <;>
      first | exact hasDerivAt_const _ _ | assumption | exact h0'.neg | exact h1'.neg | exact h2'.neg
  have hout : HasDerivAt (fun t => vecMulVec ((norm3 (r t))⁻¹ • r t) ((norm3 (r t))⁻¹ • r t) i j)
      ((vecMulVec d u + vecMulVec u d) i j) t := (hU' i).mul (hU' j)
  have h := ((hc.mul_const ((1 : M3 ℝ) i j)).add (hs.mul hhat)).add ((hc.const_sub 1).mul hout)
  refine HasDerivAt.congr_deriv (f := fun t => expSO3 (r t) i j) h ?_
  simp only [Matrix.add_apply, Matrix.smul_apply, smul_eq_mul, ← hth, ← hud]
  ring

end Hpp.Log
