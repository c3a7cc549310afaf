import Verif.Log.Props
import Verif.Log.AtId
import Verif.Log.Inject

/-!
# The logarithm of rotations whose angle is at most 1e-6 (C58, C77)

Below 1e-6 `logSO3` returns half of the axial vector of the rotation and `JlogSO3` the identity. The second is not the derivative
of the first, except at the identity; it is within 1e-6 of it.
-/

namespace Hpp.Log

open Matrix Hpp.Sym Hpp.Pose Filter Topology

theorem abs_le_of_sq_le_dot {v : V3 ℝ} {b : ℝ} (hb : 0 ≤ b) (h : v ⬝ᵥ v ≤ b ^ 2) (i : Fin 3) : |v i| ≤ b := by
  rw [dot_three] at h
  refine abs_le_of_sq_le_sq ?_ hb
  fin_cases i <;> simp <;> nlinarith [sq_nonneg (v 0), sq_nonneg (v 1), sq_nonneg (v 2)]

/-- Matrix of the derivative of half of the axial vector -/
noncomputable def axialJ (R : M3 ℝ) : M3 ℝ := (2 : ℝ)⁻¹ • (R.trace • (1 : M3 ℝ) - Rᵀ)

theorem axial_deriv {M : ℝ → M3 ℝ} {w : V3 ℝ} {t : ℝ} (hd : ∀ a b, HasDerivAt (fun t => M t a b) ((M t * hat w) a b) t) :
    VDeriv (fun t => (2 : ℝ)⁻¹ • axial (M t)) (axialJ (M t) *ᵥ w) t := by
  intro i
  fin_cases i
  · refine (((hd 2 1).sub (hd 1 2)).const_mul (2 : ℝ)⁻¹).congr_deriv ?_
    simp [hat, axialJ, Matrix.mul_apply, Fin.sum_univ_three, Matrix.mulVec, dotProduct, Matrix.trace]; ring
  · refine (((hd 0 2).sub (hd 2 0)).const_mul (2 : ℝ)⁻¹).congr_deriv ?_
    simp [hat, axialJ, Matrix.mul_apply, Fin.sum_univ_three, Matrix.mulVec, dotProduct, Matrix.trace]; ring
  · refine (((hd 1 0).sub (hd 0 1)).const_mul (2 : ℝ)⁻¹).congr_deriv ?_
    simp [hat, axialJ, Matrix.mul_apply, Fin.sum_univ_three, Matrix.mulVec, dotProduct, Matrix.trace]; ring

theorem axialJ_near {R : M3 ℝ} (h : IsRot R) (ha : angle R ≤ 1e-6) (i j : Fin 3) : |axialJ R i j - (1 : M3 ℝ) i j| ≤ 1e-6 := by
  have h0 := angle_nonneg h
  have hc : cosOf R = Real.cos (angle R) := (cos_angle h).symm
  have hc1 : 1 - angle R ^ 2 / 2 ≤ cosOf R := by rw [hc]; exact Real.one_sub_sq_div_two_le_cos
  have hc2 : cosOf R ≤ 1 := by rw [hc]; exact Real.cos_le_one _
  have hsq : angle R ^ 2 ≤ 1e-12 := by nlinarith
  have hx : axial R ⬝ᵥ axial R ≤ (2 * 1e-6) ^ 2 := by
    rw [dot_axial h, ← hc]
    nlinarith
  have hax := abs_le_of_sq_le_dot (by norm_num) hx
  have ht : R.trace = 2 * cosOf R + 1 := by
    simp [cosOf, Matrix.trace, Fin.sum_univ_three]; ring
  have e := entries h (by intro e; rw [e] at hc1; linarith) j i
  have hq : |axial R j * axial R i / (4 * (1 + cosOf R))| ≤ 1e-12 := by
    rw [abs_div, abs_mul, abs_of_pos (by nlinarith : (0 : ℝ) < 4 * (1 + cosOf R)), div_le_iff₀ (by nlinarith)]
    have := mul_le_mul (hax j) (hax i) (abs_nonneg _) (by norm_num)
    nlinarith
  have hhat : |hat (axial R) j i / 2| ≤ 1e-6 := by
    rw [abs_div, abs_two, div_le_iff₀ (by norm_num)]
    have a0 := hax 0
    have a1 := hax 1
    have a2 := hax 2
    fin_cases i <;> fin_cases j <;> simp [hat] <;> linarith
  have hval : axialJ R i j - (1 : M3 ℝ) i j
      = (2 : ℝ)⁻¹ * ((if j = i then cosOf R - 1 else 0) - hat (axial R) j i / 2 - axial R j * axial R i / (4 * (1 + cosOf R))) := by
    simp only [axialJ, Matrix.smul_apply, Matrix.sub_apply, Matrix.transpose_apply, smul_eq_mul, e, ht, Matrix.one_apply]
    by_cases hij : i = j
    · simp [hij]; ring
    · simp [hij, Ne.symm hij]; ring
  rw [hval, abs_mul, abs_of_pos (by norm_num : (0 : ℝ) < (2 : ℝ)⁻¹)]
  have h1 : |(if j = i then cosOf R - 1 else 0)| ≤ 1e-12 := by
    split
    · rw [abs_le]; constructor <;> linarith
    · norm_num
  have h2 := abs_sub ((if j = i then cosOf R - 1 else 0) - hat (axial R) j i / 2) (axial R j * axial R i / (4 * (1 + cosOf R)))
  have h3 := abs_sub (if j = i then cosOf R - 1 else 0) (hat (axial R) j i / 2)
  linarith

theorem angle_eventually_lt {M : ℝ → M3 ℝ} {w : V3 ℝ} {t b : ℝ} (hrot : ∀ᶠ t' in 𝓝 t, IsRot (M t'))
    (hd : ∀ a b, HasDerivAt (fun t => M t a b) ((M t * hat w) a b) t) (h : angle (M t) < b) : ∀ᶠ t' in 𝓝 t, angle (M t') < b := by
  have hc : ContinuousAt (fun t => cosOf (M t)) t :=
    (((((hd 0 0).add (hd 1 1)).add (hd 2 2)).sub_const 1).div_const 2).continuousAt
  have hc2 : ContinuousAt (fun t => Real.arccos (cosOf (M t))) t := Real.continuous_arccos.continuousAt.comp hc
  have he : ∀ᶠ t' in 𝓝 t, Real.arccos (cosOf (M t')) < b := by
    refine hc2.eventually_lt_const ?_
    show Real.arccos (cosOf (M t)) < b
    rw [← angle_eq hrot.self_of_nhds]
    exact h
  filter_upwards [he, hrot] with t' h1 h2
  rw [angle_eq h2]
  exact h1

/-- Below 1e-6, `logSO3` has a derivative along every motion: the matrix `axialJ`. -/
theorem log_small {M : ℝ → M3 ℝ} {w : V3 ℝ} {t : ℝ} (hrot : ∀ᶠ t' in 𝓝 t, IsRot (M t'))
    (hd : ∀ a b, HasDerivAt (fun t => M t a b) ((M t * hat w) a b) t) (h : angle (M t) < 1e-6) :
    VDeriv (fun t => logSO3 (M t)) (axialJ (M t) *ᵥ w) t := by
  intro i
  refine (axial_deriv hd i).congr_of_eventuallyEq ?_
  filter_upwards [angle_eventually_lt hrot hd h] with t' ht'
  rw [logSO3_small ht'.le]

/-- C58. Below 1e-6: the logarithm has a derivative along every motion, and each coefficient of `JlogSO3` is within 1e-6 of the
coefficient of this derivative. -/
theorem C58_derivative_small (M : ℝ → M3 ℝ) (t : ℝ) (hrot : ∀ᶠ t' in 𝓝 t, IsRot (M t')) (h : angle (M t) < 1e-6) :
    ∃ D : M3 ℝ, (∀ w : V3 ℝ, (∀ a b, HasDerivAt (fun t => M t a b) ((M t * hat w) a b) t) →
        VDeriv (fun t => logSO3 (M t)) (D *ᵥ w) t) ∧
      ∀ i j, |JlogSO3 (angle (M t)) (logSO3 (M t)) i j - D i j| ≤ 1e-6 := by
  refine ⟨axialJ (M t), fun w hd => log_small hrot hd h, fun i j => ?_⟩
  unfold JlogSO3
  rw [if_pos h, abs_sub_comm]
  exact axialJ_near hrot.self_of_nhds h.le i j

theorem exTurn_rot (t : ℝ) : IsRot (exTurn t) := rodrigues_isRot exAxis_unit (Real.sin_sq_add_cos_sq _)

theorem exTurn_angle {t : ℝ} (h : 0 ≤ t) (h' : t ≤ 3) : angle (exTurn t) = t := by
  unfold exTurn
  rw [mul_one]
  exact rodrigues_angle h (by linarith [Real.pi_gt_three]) exAxis_unit

theorem exTurn_moves (t : ℝ) (a b : Fin 3) : HasDerivAt (fun t => exTurn t a b) ((exTurn t * hat exAxis) a b) t := by
  have := rodrigues_moves exAxis_unit 1 t a b
  rwa [one_smul] at this

theorem exTurn_axialJ (t : ℝ) : (axialJ (exTurn t) *ᵥ exAxis) 2 = Real.cos t := by
  simp [axialJ, exTurn, rodrigues_apply, exAxis, Matrix.trace, Fin.sum_univ_three, Matrix.mulVec, dotProduct]
  ring

/-- Non-vacuity of `C58_derivative_small`: a rotation of angle 5e-7 -/
example : (∀ᶠ t' in 𝓝 (5e-7 : ℝ), IsRot (exTurn t')) ∧ angle (exTurn 5e-7) < 1e-6 ∧ angle (exTurn 5e-7) ≠ 0 := by
  refine ⟨Eventually.of_forall exTurn_rot, ?_, ?_⟩ <;> rw [exTurn_angle (by norm_num) (by norm_num)] <;> norm_num

/-- C58 is false below 1e-6, except at the identity: for the rotation of angle 5e-7 about the vertical axis, turning about this
axis, the logarithm computed is the sine of the angle, and `JlogSO3` gives 1 in place of the cosine. -/
theorem C58_small_refuted :
    ¬ ∀ (M : ℝ → M3 ℝ) (w : V3 ℝ) (t : ℝ), (∀ t, IsRot (M t)) →
      (∀ a b, HasDerivAt (fun t => M t a b) ((M t * hat w) a b) t) → angle (M t) < Real.pi →
      VDeriv (fun t => logSO3 (M t)) (JlogSO3 (angle (M t)) (logSO3 (M t)) *ᵥ w) t := by
  intro H
  have ha : angle (exTurn 5e-7) = 5e-7 := exTurn_angle (by norm_num) (by norm_num)
  have h1 := H exTurn exAxis 5e-7 exTurn_rot (exTurn_moves _) (by rw [ha]; linarith [Real.pi_gt_three]) 2
  have h2 := log_small (Eventually.of_forall exTurn_rot) (exTurn_moves 5e-7) (by rw [ha]; norm_num) 2
  have h3 := h1.unique h2
  rw [exTurn_axialJ] at h3
  unfold JlogSO3 at h3
  rw [if_pos (by rw [ha]; norm_num), one_mulVec] at h3
  have h4 : Real.cos 5e-7 < 1 := by
    rw [← Real.cos_zero]
    exact Real.cos_lt_cos_of_nonneg_of_le_pi (le_refl _) (by linarith [Real.pi_gt_three]) (by norm_num)
  simp [exAxis] at h3
  linarith

/-- C58. Below 1e-6 `JlogSO3` is not the inverse of the right Jacobian: a rotation vector of norm 5e-7. -/
theorem C58_inverse_small_refuted :
    ¬ ∀ r : V3 ℝ, 0 < norm3 r → norm3 r < Real.pi → JlogSO3 (norm3 r) r * rightJacobian r = 1 := by
  intro H
  have hn : norm3 ((5e-7 : ℝ) • exAxis) = 5e-7 := norm3_smul (by norm_num) exAxis_unit
  have h1 := H ((5e-7 : ℝ) • exAxis) (by rw [hn]; norm_num) (by rw [hn]; linarith [Real.pi_gt_three])
  unfold JlogSO3 at h1
  rw [if_pos (by rw [hn]; norm_num), Matrix.one_mul] at h1
  have h2 := inverse_lin3 (th := 5e-7) (by norm_num) (by linarith [Real.pi_gt_three]) exAxis_unit
  rw [h1] at h2
  have h3 := congrFun (congrFun h2.1 1) 0
  rw [Matrix.mul_one, lin3_apply] at h3
  simp [exAxis] at h3
  norm_num at h3

/-- C77 is false below 1e-6 also, for the same motion about a fixed point. -/
theorem C77_small_refuted :
    ¬ ∀ (M : ℝ → SE3 ℝ) (v w : V3 ℝ) (t : ℝ), SE3.Moves M v w t → (∀ t, IsRot (M t).R) → angle (M t).R ≠ 1e-2 →
      angle (M t).R < Real.pi → ∀ i, HasDerivAt (fun t => Sum.elim (logSE3 (M t)).1 (logSE3 (M t)).2 i)
        ((JlogSE3 (M t) *ᵥ Sum.elim v w) i) t := by
  intro H
  have ha : angle (exTurn 5e-7) = 5e-7 := exTurn_angle (by norm_num) (by norm_num)
  have h1 := H (fun t => ⟨exTurn t, 0⟩) 0 exAxis 5e-7 ⟨exTurn_rot _, exTurn_moves _, fun i => by
    simpa using hasDerivAt_const _ _⟩ exTurn_rot (by rw [ha]; norm_num) (by rw [ha]; linarith [Real.pi_gt_three]) (.inr 2)
  have h2 := log_small (Eventually.of_forall exTurn_rot) (exTurn_moves 5e-7) (by rw [ha]; norm_num) 2
  have h3 := h1.unique (show HasDerivAt (fun t => Sum.elim (logSE3 ⟨exTurn t, 0⟩).1 (logSE3 ⟨exTurn t, 0⟩).2 (.inr 2)) _ _ from h2)
  rw [exTurn_axialJ] at h3
  have hJ : JlogSO3 (angle (exTurn 5e-7)) (logSO3 (exTurn 5e-7)) = 1 := by
    unfold JlogSO3
    rw [if_pos (by rw [ha]; norm_num)]
  have h4 : Real.cos 5e-7 < 1 := by
    rw [← Real.cos_zero]
    exact Real.cos_lt_cos_of_nonneg_of_le_pi (le_refl _) (by linarith [Real.pi_gt_three]) (by norm_num)
  simp [JlogSE3, fromBlocks_mulVec, hJ, exAxis] at h3
  linarith

end Hpp.Log
