import Verif.Log.Deriv

namespace Hpp.Log

open Matrix Hpp.Sym Hpp.Pose Filter Topology

/-! ### The algebra generated by `[u]ₓ` and `u uᵀ` for a unit vector `u` -/

/-- `a I + b [u]ₓ + d u uᵀ` -/
def lin3 (a b d : ℝ) (u : V3 ℝ) : M3 ℝ := a • 1 + b • hat u + d • vecMulVec u u

theorem rodrigues_lin3 (c s : ℝ) (u : V3 ℝ) : rodrigues c s u = lin3 c s (1 - c) u := rfl

theorem lin3_apply (a b d : ℝ) (u : V3 ℝ) : lin3 a b d u =
    !![a + d * (u 0 * u 0), -b * u 2 + d * (u 0 * u 1), b * u 1 + d * (u 0 * u 2);
       b * u 2 + d * (u 1 * u 0), a + d * (u 1 * u 1), -b * u 0 + d * (u 1 * u 2);
       -b * u 1 + d * (u 2 * u 0), b * u 0 + d * (u 2 * u 1), a + d * (u 2 * u 2)] := by
  ext i j
  fin_cases i <;> fin_cases j <;> simp [lin3, hat, vecMulVec_apply]

theorem dot_three (u v : V3 ℝ) : u ⬝ᵥ v = u 0 * v 0 + u 1 * v 1 + u 2 * v 2 := by
  simp [dotProduct, Fin.sum_univ_three]

theorem hat_hat {u : V3 ℝ} (h : u ⬝ᵥ u = 1) : hat u * hat u = vecMulVec u u - 1 := by
  rw [dot_three] at h
  ext i j
  fin_cases i <;> fin_cases j <;> simp [hat, vecMulVec_apply, Matrix.mul_apply, Fin.sum_univ_three] <;>
    first | linear_combination -h | ring

theorem hat_outer (u : V3 ℝ) : hat u * vecMulVec u u = 0 := by
  ext i j
  fin_cases i <;> fin_cases j <;> simp [hat, vecMulVec_apply, Matrix.mul_apply, Fin.sum_univ_three] <;> ring

theorem outer_hat (u : V3 ℝ) : vecMulVec u u * hat u = 0 := by
  ext i j
  fin_cases i <;> fin_cases j <;> simp [hat, vecMulVec_apply, Matrix.mul_apply, Fin.sum_univ_three] <;> ring

theorem outer_outer {u : V3 ℝ} (h : u ⬝ᵥ u = 1) : vecMulVec u u * vecMulVec u u = vecMulVec u u := by
  rw [dot_three] at h
  ext i j
  simp only [vecMulVec_apply, Matrix.mul_apply, Fin.sum_univ_three]
  linear_combination u i * u j * h

theorem lin3_mul {u : V3 ℝ} (h : u ⬝ᵥ u = 1) (a b d a' b' d' : ℝ) :
    lin3 a b d u * lin3 a' b' d' u = lin3 (a * a' - b * b') (a * b' + b * a') (a * d' + d * a' + d * d' + b * b') u := by
  simp only [lin3, Matrix.add_mul, Matrix.mul_add, Matrix.smul_mul, Matrix.mul_smul, Matrix.one_mul, Matrix.mul_one,
    hat_hat h, hat_outer, outer_hat, outer_outer h, smul_zero, add_zero, smul_sub]
  module

theorem lin3_transpose (a b d : ℝ) (u : V3 ℝ) : (lin3 a b d u)ᵀ = lin3 a (-b) d u := by
  simp only [lin3, transpose_add, transpose_smul, transpose_one, hat_transpose, transpose_vecMulVec]
  module

theorem lin3_one (u : V3 ℝ) : lin3 1 0 0 u = 1 := by simp [lin3]

theorem lin3_hat (th : ℝ) (u : V3 ℝ) : hat (th • u) = lin3 0 th 0 u := by
  ext i j
  fin_cases i <;> fin_cases j <;> simp [lin3_apply, hat]

theorem rodrigues_isRot {c s : ℝ} {u : V3 ℝ} (hu : u ⬝ᵥ u = 1) (h : s ^ 2 + c ^ 2 = 1) : IsRot (rodrigues c s u) := by
  constructor
  · rw [rodrigues_lin3, lin3_transpose, lin3_mul hu, ← lin3_one u]
    congr 1
    · linear_combination h
    · ring
    · linear_combination -h
  · rw [rodrigues_lin3, lin3_apply, det_fin_three]
    rw [dot_three] at hu
    simp
    have hc : (c - 1) * (s ^ 2 + c ^ 2 - 1) = 0 := by rw [h]; ring
    grind

/-! ### Exponential -/

/-- Norm of a vector -/
noncomputable def norm3 (r : V3 ℝ) : ℝ := Real.sqrt (r ⬝ᵥ r)

/-- Specification: exponential of a vector, by Rodrigues' formula.  `exp_flow` below shows that it is the rotation reached in
unit time at the constant angular velocity `r`. -/
noncomputable def expSO3 (r : V3 ℝ) : M3 ℝ :=
  rodrigues (Real.cos (norm3 r)) (Real.sin (norm3 r)) ((norm3 r)⁻¹ • r)

theorem dot_self_nonneg (r : V3 ℝ) : 0 ≤ r ⬝ᵥ r := by
  rw [dot_three]; nlinarith [mul_self_nonneg (r 0), mul_self_nonneg (r 1), mul_self_nonneg (r 2)]

theorem norm3_sq (r : V3 ℝ) : norm3 r ^ 2 = r ⬝ᵥ r := Real.sq_sqrt (dot_self_nonneg r)

theorem unit_of_norm {r : V3 ℝ} (h : 0 < norm3 r) : ((norm3 r)⁻¹ • r) ⬝ᵥ ((norm3 r)⁻¹ • r) = 1 := by
  simp only [dotProduct_smul, smul_dotProduct, smul_eq_mul]
  rw [← norm3_sq]
  field_simp

theorem norm3_smul {th : ℝ} (h : 0 ≤ th) {u : V3 ℝ} (hu : u ⬝ᵥ u = 1) : norm3 (th • u) = th := by
  unfold norm3
  rw [smul_dotProduct, dotProduct_smul, hu]
  simp [h]

theorem expSO3_axis {th : ℝ} (h : 0 < th) {u : V3 ℝ} (hu : u ⬝ᵥ u = 1) :
    expSO3 (th • u) = rodrigues (Real.cos th) (Real.sin th) u := by
  unfold expSO3
  rw [norm3_smul h.le hu, smul_smul, inv_mul_cancel₀ h.ne', one_smul]

theorem rodrigues_cosOf {u : V3 ℝ} (hu : u ⬝ᵥ u = 1) (c s : ℝ) : cosOf (rodrigues c s u) = c := by
  rw [dot_three] at hu
  simp [cosOf, rodrigues_apply]
  linear_combination (1 - c) / 2 * hu

theorem rodrigues_axial (c s : ℝ) (u : V3 ℝ) : axial (rodrigues c s u) = (2 * s) • u := by
  funext i
  fin_cases i <;> simp [axial, rodrigues_apply] <;> ring

theorem rodrigues_angle {th : ℝ} (h : 0 ≤ th) (h' : th ≤ Real.pi) {u : V3 ℝ} (hu : u ⬝ᵥ u = 1) :
    angle (rodrigues (Real.cos th) (Real.sin th) u) = th := by
  rw [angle_eq (rodrigues_isRot hu (Real.sin_sq_add_cos_sq th)), rodrigues_cosOf hu, Real.arccos_cos h h']

/-- Logarithm of the exponential -/
theorem log_exp {r : V3 ℝ} (h : 1e-6 < norm3 r) (h' : norm3 r < Real.pi) :
    logSO3 (expSO3 r) = r ∧ angle (expSO3 r) = norm3 r ∧ IsRot (expSO3 r) := by
  have h0 : 0 < norm3 r := lt_trans (by norm_num) h
  have hu := unit_of_norm h0
  have hR : IsRot (expSO3 r) := rodrigues_isRot hu (Real.sin_sq_add_cos_sq (norm3 r))
  have ha : angle (expSO3 r) = norm3 r := rodrigues_angle h0.le h'.le hu
  have hs : 0 < Real.sin (norm3 r) := Real.sin_pos_of_pos_of_lt_pi h0 h'
  refine ⟨?_, ha, hR⟩
  rw [logSO3_eq hR (by rw [ha]; exact h) (by rw [ha]; exact h'), ha, expSO3, rodrigues_axial, smul_smul, smul_smul]
  have : norm3 r / (2 * Real.sin (norm3 r)) * (2 * Real.sin (norm3 r)) * (norm3 r)⁻¹ = 1 := by field_simp
  rw [this, one_smul]

/-- Exponential of the logarithm -/
theorem exp_log {R : M3 ℝ} (h : IsRot R) (hp : 1e-6 < angle R) (hp' : angle R < Real.pi) :
    expSO3 (logSO3 R) = R ∧ norm3 (logSO3 R) = angle R := by
  have h0 : 0 < angle R := lt_trans (by norm_num) hp
  obtain ⟨u, hu, -, hl, hR⟩ := logSO3_axis h hp hp'
  rw [hl, expSO3_axis h0 hu, norm3_smul h0.le hu]
  exact ⟨hR.symm, rfl⟩

/-! ### Rotation at constant velocity, screw motion -/

/-- Rotation about a fixed axis -/
theorem rodrigues_moves {u : V3 ℝ} (hu : u ⬝ᵥ u = 1) (th t : ℝ) (i j : Fin 3) :
    HasDerivAt (fun t => rodrigues (Real.cos (t * th)) (Real.sin (t * th)) u i j)
      ((rodrigues (Real.cos (t * th)) (Real.sin (t * th)) u * hat (th • u)) i j) t := by
  have hid : HasDerivAt (fun t : ℝ => t * th) th t := by simpa using (hasDerivAt_id t).mul_const th
  have hc := hid.cos
  have hs := hid.sin
  have h := ((hc.mul_const ((1 : M3 ℝ) i j)).add (hs.mul_const (hat u i j))).add ((hc.const_sub 1).mul_const (vecMulVec u u i j))
  refine HasDerivAt.congr_deriv (f := fun t => rodrigues (Real.cos (t * th)) (Real.sin (t * th)) u i j) h ?_
  rw [rodrigues_lin3, lin3_hat, lin3_mul hu]
  simp only [lin3, Matrix.add_apply, Matrix.smul_apply, smul_eq_mul]
  ring

/-- Integral of the rotation about a fixed axis, applied to a constant velocity -/
theorem screw_deriv {u : V3 ℝ} {th : ℝ} (hth : th ≠ 0) (t : ℝ) (v : V3 ℝ) :
    VDeriv (fun t => lin3 (Real.sin (t * th) / th) ((1 - Real.cos (t * th)) / th) (t - Real.sin (t * th) / th) u *ᵥ v)
      (rodrigues (Real.cos (t * th)) (Real.sin (t * th)) u *ᵥ v) t := by
  have hid : HasDerivAt (fun t : ℝ => t * th) th t := by simpa using (hasDerivAt_id t).mul_const th
  have hc := hid.cos
  have hs := hid.sin
  have hM : ∀ i j, HasDerivAt (fun t => lin3 (Real.sin (t * th) / th) ((1 - Real.cos (t * th)) / th)
      (t - Real.sin (t * th) / th) u i j) (rodrigues (Real.cos (t * th)) (Real.sin (t * th)) u i j) t := by
    intro i j
    have h := (((hs.div_const th).mul_const ((1 : M3 ℝ) i j)).add
      (((hc.const_sub 1).div_const th).mul_const (hat u i j))).add
      (((hasDerivAt_id t).sub (hs.div_const th)).mul_const (vecMulVec u u i j))
    refine HasDerivAt.congr_deriv (f := fun t => lin3 (Real.sin (t * th) / th) ((1 - Real.cos (t * th)) / th)
      (t - Real.sin (t * th) / th) u i j) h ?_
    simp only [rodrigues, Matrix.add_apply, Matrix.smul_apply, smul_eq_mul]
    field_simp
  refine (VDeriv.mulVec hM (VDeriv.const v t)).congr ?_
  simp

end Hpp.Log
