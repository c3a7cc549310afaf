import Verif.Log.Bounds
import Verif.Explicit.ImplicitFnProps

/-!
# Properties C58, C76, C77: logarithms and their Jacobians

Specification, independent of the formulas of `tools.hh`: a motion `M : ℝ → M3 ℝ` has angular velocity `w` (in the moving
frame) at `t` when the derivative of its entries at `t` is `M t * [w]ₓ`; `SE3.Moves` is the same for rigid body
transforms.
-/

namespace Hpp.Log

open Matrix Hpp.Sym Hpp.Pose Filter Topology

/-! ### C58 -/

/-- C58. `JlogSO3` is the inverse of the right Jacobian of the exponential (both sides), up to π. -/
theorem C58_inverse (r : V3 ℝ) (h : 1e-6 ≤ norm3 r) (h' : norm3 r < Real.pi) :
    JlogSO3 (norm3 r) r * rightJacobian r = 1 ∧ rightJacobian r * JlogSO3 (norm3 r) r = 1 := by
  have h0 : 0 < norm3 r := lt_of_lt_of_le (by norm_num) h
  obtain ⟨u, hu, hr⟩ := polar h0
  have hs : 0 < Real.sin (norm3 r) := Real.sin_pos_of_pos_of_lt_pi h0 h'
  have hJ := JlogSO3_lin3 h hs u
  rw [← hr] at hJ
  have := inverse_lin3 h0 h' hu
  rw [← hr] at this
  rw [hJ]
  exact this

/-- C58. `rightJacobian` is indeed the right Jacobian of the exponential: when a rotation vector `r` moves at velocity
`rho`, its exponential turns at angular velocity `rightJacobian r *ᵥ rho` in the moving frame. -/
theorem C58_right_jacobian (r : ℝ → V3 ℝ) (rho : V3 ℝ) (t : ℝ) (hr : VDeriv r rho t) (h0 : 0 < norm3 (r t)) (i j : Fin 3) :
    HasDerivAt (fun t => expSO3 (r t) i j) ((expSO3 (r t) * hat (rightJacobian (r t) *ᵥ rho)) i j) t :=
  exp_deriv hr h0 i j

/-- C58. Near zero: `JlogSO3` tends to the identity (at most linearly in the norm); below the threshold of the code, it is the identity
and differs from the exact inverse of the right Jacobian by less than 1e-6 in every entry. -/
theorem C58_near_zero (r : V3 ℝ) (h : norm3 r ≤ 1) (i j : Fin 3) :
    |JlogSO3 (norm3 r) r i j - (1 : M3 ℝ) i j| ≤ norm3 r ∧
    (0 < norm3 r → |rightJacobian r i j - (1 : M3 ℝ) i j| ≤ norm3 r) ∧
    (0 < norm3 r → norm3 r < 1e-6 → ∃ K : M3 ℝ, K * rightJacobian r = 1 ∧ rightJacobian r * K = 1 ∧
      |JlogSO3 (norm3 r) r i j - K i j| < 1e-6) := by
  have hn : 0 ≤ norm3 r := Real.sqrt_nonneg _
  have hpi := Real.pi_gt_three
  refine ⟨?_, ?_, ?_⟩
  · by_cases hlt : norm3 r < 1e-6
    · unfold JlogSO3
      rw [if_pos hlt]
      simpa using hn
    · rw [not_lt] at hlt
      have h0 : 0 < norm3 r := lt_of_lt_of_le (by norm_num) hlt
      obtain ⟨u, hu, hr⟩ := polar h0
      have hs : 0 < Real.sin (norm3 r) := Real.sin_pos_of_pos_of_le_one h0 h
      have hJ := JlogSO3_lin3 hlt hs u
      rw [← hr] at hJ
      rw [hJ]
      exact lin3_near hu (coeff_near h0 h) (by rw [abs_of_nonneg (by positivity)]) i j
  · intro h0
    obtain ⟨u, hu, hr⟩ := polar h0
    have hb := sin_div_bounds h0 h
    have hJ := rightJacobian_lin3 h0 hu
    rw [← hr] at hJ
    rw [hJ]
    exact lin3_near hu hb.1 hb.2 i j
  · intro h0 hlt
    obtain ⟨u, hu, hr⟩ := polar h0
    have hi := inverse_lin3 h0 (by linarith) hu
    rw [← hr] at hi
    refine ⟨_, hi.1, hi.2, ?_⟩
    unfold JlogSO3
    rw [if_pos hlt, abs_sub_comm]
    exact lt_of_le_of_lt (lin3_near hu (coeff_near h0 h) (by rw [abs_of_nonneg (by positivity)]) i j) hlt

/-- C58. `JlogSO3` is the derivative of `logSO3` along every motion through a rotation of angle between 1e-6 and π: rotations near the
time considered (the branch of `logSO3` close to π assumes that its argument is a rotation). -/
theorem C58_derivative (M : ℝ → M3 ℝ) (w : V3 ℝ) (t : ℝ) (hrot : ∀ᶠ t' in 𝓝 t, IsRot (M t'))
    (hd : ∀ a b, HasDerivAt (fun t => M t a b) ((M t * hat w) a b) t)
    (h : 1e-6 < angle (M t)) (h' : angle (M t) < Real.pi) :
    VDeriv (fun t => logSO3 (M t)) (JlogSO3 (angle (M t)) (logSO3 (M t)) *ᵥ w) t := by
  obtain ⟨u, hu⟩ := turns hrot.self_of_nhds (lt_trans (by norm_num) h) h' hd
  exact hu.log hrot h

/-- C58. The same at the identity. -/
theorem C58_derivative_identity (M : ℝ → M3 ℝ) (w : V3 ℝ) (t : ℝ) (h1 : M t = 1)
    (hd : ∀ a b, HasDerivAt (fun t => M t a b) ((M t * hat w) a b) t) :
    VDeriv (fun t => logSO3 (M t)) (JlogSO3 (angle (M t)) (logSO3 (M t)) *ᵥ w) t := log_atId h1 hd

/-- The vertical axis -/
def exAxis : V3 ℝ := ![0, 0, 1]

theorem exAxis_unit : exAxis ⬝ᵥ exAxis = 1 := by simp [exAxis, dotProduct, Fin.sum_univ_three]

/-- Rotation of angle `t` about the vertical axis -/
noncomputable def exTurn (t : ℝ) : M3 ℝ := rodrigues (Real.cos (t * 1)) (Real.sin (t * 1)) exAxis

/-- Non-vacuity of `C58_inverse`, `C58_near_zero`: a vector of norm 1 -/
example : norm3 (exAxis) = 1 ∧ 1e-6 ≤ (1 : ℝ) ∧ (1 : ℝ) < Real.pi := by
  refine ⟨?_, by norm_num, by linarith [Real.pi_gt_three]⟩
  have := norm3_smul zero_le_one exAxis_unit
  simpa using this

/-- Non-vacuity of `C58_derivative`: a rotation of angle 3.135 about the vertical axis (branch of `logSO3` close to π) -/
example : (∀ᶠ t' in 𝓝 (3.135 : ℝ), IsRot (exTurn t')) ∧
    (∀ a b, HasDerivAt (fun t => exTurn t a b) ((exTurn 3.135 * hat ((1 : ℝ) • exAxis)) a b) 3.135) ∧
    1e-6 < angle (exTurn 3.135) ∧ angle (exTurn 3.135) < Real.pi ∧ ¬ angle (exTurn 3.135) < Real.pi - 1e-2 := by
  have h1 := Real.pi_gt_d4
  have h2 := Real.pi_lt_d4
  have ha : angle (exTurn 3.135) = 3.135 := by
    unfold exTurn
    rw [mul_one]
    exact rodrigues_angle (by norm_num) (by norm_num at h1 ⊢; linarith) exAxis_unit
  refine ⟨.of_forall fun t => rodrigues_isRot exAxis_unit (Real.sin_sq_add_cos_sq _), fun a b => ?_, ?_, ?_, ?_⟩
  · exact rodrigues_moves exAxis_unit 1 3.135 a b
  · rw [ha]; norm_num
  · rw [ha]; norm_num at h1 ⊢; linarith
  · rw [ha]; norm_num at h2 ⊢; linarith

/-- Non-vacuity of `C58_derivative_identity` -/
example : exTurn 0 = 1 ∧ ∀ a b, HasDerivAt (fun t => exTurn t a b) ((exTurn 0 * hat ((1 : ℝ) • exAxis)) a b) 0 := by
  refine ⟨?_, fun a b => rodrigues_moves exAxis_unit 1 0 a b⟩
  simp [exTurn, rodrigues]

/-! ### C76 -/

/-- C76. `logSO3` returns a vector `r` such that the rotation at constant angular velocity `r` reaches `R` in unit time; its norm is the
angle of the rotation. -/
theorem C76_rotation (R : M3 ℝ) (hR : IsRot R) (h : 1e-6 < angle R) (h' : angle R < Real.pi) :
    ∃ γ : ℝ → M3 ℝ, γ 0 = 1 ∧ γ 1 = R ∧ (∀ t, IsRot (γ t)) ∧
      (∀ t a b, HasDerivAt (fun t => γ t a b) ((γ t * hat (logSO3 R)) a b) t) ∧ norm3 (logSO3 R) = angle R := by
  have h0 : 0 < angle R := lt_trans (by norm_num) h
  obtain ⟨u, hu, -, hl, hRu⟩ := logSO3_axis hR h h'
  refine ⟨fun t => rodrigues (Real.cos (t * angle R)) (Real.sin (t * angle R)) u, ?_, ?_, ?_, ?_, (exp_log hR h h').2⟩
  · simp [rodrigues]
  · simp only [one_mul]; exact hRu.symm
  · intro t; exact rodrigues_isRot hu (Real.sin_sq_add_cos_sq _)
  · intro t a b
    rw [hl]
    exact rodrigues_moves hu (angle R) t a b

/-- C76. `logSO3` inverts the exponential. -/
theorem C76_log_exp (r : V3 ℝ) (h : 1e-6 < norm3 r) (h' : norm3 r < Real.pi) :
    IsRot (expSO3 r) ∧ logSO3 (expSO3 r) = r ∧ angle (expSO3 r) = norm3 r := by
  obtain ⟨a, b, c⟩ := log_exp h h'
  exact ⟨c, a, b⟩

/-- C76. Below the threshold 1e-6, `logSO3` is accurate up to 1e-18. -/
theorem C76_small_rotation (th : ℝ) (u : V3 ℝ) (hu : u ⬝ᵥ u = 1) (h : 0 ≤ th) (h' : th ≤ 1e-6) (i : Fin 3) :
    |logSO3 (rodrigues (Real.cos th) (Real.sin th) u) i - (th • u) i| ≤ 1e-18 := by
  have hpi := Real.pi_gt_three
  have ha := rodrigues_angle h (by norm_num at h'; linarith) hu
  rw [logSO3_small (by rw [ha]; exact h'), rodrigues_axial, smul_smul]
  simp only [Pi.smul_apply, smul_eq_mul]
  have e : 2⁻¹ * (2 * Real.sin th) * u i - th * u i = -((th - Real.sin th) * u i) := by ring
  rw [e, abs_neg, abs_mul]
  rcases h.eq_or_lt with rfl | h0
  · simp; norm_num
  have h1 := Real.sin_lt h0
  have h2 := Real.sin_gt_sub_cube h0
  rw [abs_of_nonneg (by linarith)]
  have h3 : th ^ 3 ≤ (1e-6 : ℝ) ^ 3 := by gcongr
  have h4 := (unit_comp hu i).1
  calc (th - Real.sin th) * |u i| ≤ th ^ 3 / 6 * 1 := by gcongr; linarith
    _ ≤ 1e-18 := by norm_num at h3 ⊢; linarith

/-- C76. `logSE3` returns velocities `(v, r)` such that the screw motion from the identity, of constant linear velocity `v` and
angular velocity `r` (both in the moving frame), reaches `M` in unit time. -/
theorem C76_screw (M : SE3 ℝ) (hR : IsRot M.R) (h : 1e-2 ≤ angle M.R) (h' : angle M.R < Real.pi) :
    ∃ γ : ℝ → SE3 ℝ, γ 0 = SE3.one ∧ γ 1 = M ∧ ∀ t, SE3.Moves γ (logSE3 M).1 (logSE3 M).2 t := by
  have h6 : 1e-6 < angle M.R := lt_of_lt_of_le (by norm_num) h
  have h0 : 0 < angle M.R := lt_trans (by norm_num) h6
  obtain ⟨u, hu, -, hl, hRu⟩ := logSO3_axis hR h6 h'
  have hs : 0 < Real.sin (angle M.R) := Real.sin_pos_of_pos_of_lt_pi h0 h'
  set th := angle M.R with hth
  have hsc := Real.sin_sq_add_cos_sq th
  have hc := (half_angle hs).2
  refine ⟨fun t => ⟨rodrigues (Real.cos (t * th)) (Real.sin (t * th)) u,
    lin3 (Real.sin (t * th) / th) ((1 - Real.cos (t * th)) / th) (t - Real.sin (t * th) / th) u *ᵥ (logSE3 M).1⟩, ?_, ?_, ?_⟩
  · refine SE3.ext' ?_ ?_
    · simp [rodrigues, SE3.one]
    · simp [lin3, SE3.one]
  · refine SE3.ext' ?_ ?_
    · simp only [one_mul]; exact hRu.symm
    · simp only [one_mul]
      have hv : (logSE3 M).1 = lin3 (alphaSE3 th) (-(th / 2)) (th * th * betaSE3 th) u *ᵥ M.p := by
        simp only [logSE3, hl, ← hth]
        simp only [lin3, add_mulVec, smul_mulVec, one_mulVec, hat_mulVec, vecMulVec_mulVec, op_smul_eq_smul, smul_smul,
          map_smul, LinearMap.smul_apply, smul_dotProduct, smul_eq_mul]
        module
      have ha : alphaSE3 th = th * Real.sin th / (2 * (1 - Real.cos th)) := by
        unfold alphaSE3
        rw [if_neg]
        rw [abs_of_pos h0]; exact not_lt.2 h
      have hb : th * th * betaSE3 th = 1 - alphaSE3 th := by rw [alpha_beta h0]; ring
      rw [hv, hb, mulVec_mulVec, lin3_mul hu, ha]
      have e : ∀ A : M3 ℝ, A = 1 → A *ᵥ M.p = M.p := by rintro _ rfl; simp
      apply e
      rw [← lin3_one u]
      have e1 : Real.sin th / th * (th * Real.sin th / (2 * (1 - Real.cos th))) = (1 + Real.cos th) / 2 := by
        field_simp; linear_combination hsc
      have e2 : (1 - Real.cos th) / th * (th * Real.sin th / (2 * (1 - Real.cos th))) = Real.sin th / 2 := by field_simp
      have e3 : (1 - Real.cos th) / th * (th / 2) = (1 - Real.cos th) / 2 := by field_simp
      have e4 : Real.sin th / th * (th / 2) = Real.sin th / 2 := by field_simp
      congr 1
      · linear_combination e1 + e3
      · linear_combination e2 - e4
      · linear_combination -e1 - e3
  · intro t
    refine ⟨rodrigues_isRot hu (Real.sin_sq_add_cos_sq _), fun a b => ?_, screw_deriv h0.ne' t _⟩
    have hr : (logSE3 M).2 = th • u := hl
    rw [hr]
    exact rodrigues_moves hu th t a b

/-- Rotation of angle π about the axis `(1, -1, 0)/√2` -/
def exHalfTurn : M3 ℝ := !![0, -1, 0; -1, 0, 0; 0, 0, -1]

/-- C76 (refutation). For an angle of exactly π the signs chosen by `logSO3` are all negative: the exponential of the returned vector is another
rotation when the axis has components of different signs. -/
theorem C76_half_turn_refuted :
    IsRot exHalfTurn ∧ angle exHalfTurn = Real.pi ∧ norm3 (logSO3 exHalfTurn) = Real.pi ∧
      expSO3 (logSO3 exHalfTurn) ≠ exHalfTurn := by
  have hpi := Real.pi_pos
  have ha : angle exHalfTurn = Real.pi := by
    simp [angle, exHalfTurn]
    norm_num [Real.arccos_neg_one]
  have hl : logSO3 exHalfTurn = Real.pi • ![-(Real.sqrt 2)⁻¹, -(Real.sqrt 2)⁻¹, 0] := by
    unfold logSO3
    simp only [ha, sub_self, Real.cos_zero]
    rw [if_neg (by norm_num)]
    have hq : Real.sqrt (Real.pi * Real.pi / (1 + 1)) = Real.pi * (Real.sqrt 2)⁻¹ := by
      rw [show Real.pi * Real.pi / (1 + 1) = (Real.pi * (Real.sqrt 2)⁻¹) ^ 2 by
        rw [mul_pow, inv_pow, Real.sq_sqrt (by norm_num)]; ring]
      exact Real.sqrt_sq (by positivity)
    have hp : 0 < Real.pi * Real.pi / (1 + 1) := by positivity
    funext i
    fin_cases i <;> simp [exHalfTurn, hp, hq]
  have hu : (![-(Real.sqrt 2)⁻¹, -(Real.sqrt 2)⁻¹, 0] : V3 ℝ) ⬝ᵥ ![-(Real.sqrt 2)⁻¹, -(Real.sqrt 2)⁻¹, 0] = 1 := by
    rw [dot_three]
    have : (Real.sqrt 2)⁻¹ * (Real.sqrt 2)⁻¹ = 2⁻¹ := by
      rw [← mul_inv, Real.mul_self_sqrt (by norm_num)]
    simp [this]
    norm_num
  refine ⟨⟨?_, ?_⟩, ha, ?_, ?_⟩
  · ext i j
    fin_cases i <;> fin_cases j <;> simp [exHalfTurn, Matrix.mul_apply, Fin.sum_univ_three]
  · simp [exHalfTurn, det_fin_three]
  · rw [hl]; exact norm3_smul hpi.le hu
  · rw [hl, expSO3_axis hpi hu, Real.cos_pi, Real.sin_pi, rodrigues_apply]
    intro e
    have := congrFun (congrFun e 0) 1
    have h2 : (Real.sqrt 2)⁻¹ * (Real.sqrt 2)⁻¹ = 2⁻¹ := by
      rw [← mul_inv, Real.mul_self_sqrt (by norm_num)]
    simp [exHalfTurn, h2] at this
    norm_num at this

/-- Non-vacuity of `C76_rotation`, `C76_screw` -/
example : IsRot (exTurn 1) ∧ 1e-2 ≤ angle (exTurn 1) ∧ angle (exTurn 1) < Real.pi := by
  have hpi := Real.pi_gt_three
  have ha : angle (exTurn 1) = 1 := by
    unfold exTurn
    rw [mul_one]
    exact rodrigues_angle (by norm_num) (by linarith) exAxis_unit
  refine ⟨rodrigues_isRot exAxis_unit (Real.sin_sq_add_cos_sq _), ?_, ?_⟩ <;> rw [ha]
  · norm_num
  · linarith

/-! ### C77 -/

/-- C77. `JlogSE3` is the derivative of `logSE3` along every motion, when the angle is between 1e-6 and π and is not the threshold
1e-2 at which the code switches to truncated series: below it, the Jacobian is still the exact derivative of the truncated series. -/
theorem C77_derivative (M : ℝ → SE3 ℝ) (v w : V3 ℝ) (t : ℝ) (hM : SE3.Moves M v w t)
    (hrot : ∀ᶠ t' in 𝓝 t, IsRot (M t').R) (h : 1e-6 < angle (M t).R) (hne : angle (M t).R ≠ 1e-2)
    (h' : angle (M t).R < Real.pi) (i : Fin 3 ⊕ Fin 3) :
    HasDerivAt (fun t => Sum.elim (logSE3 (M t)).1 (logSE3 (M t)).2 i) ((JlogSE3 (M t) *ᵥ Sum.elim v w) i) t :=
  logSE3_deriv hM h hne h' (C58_derivative (fun t => (M t).R) w t hrot hM.R h h') i

/-- C77. The same when the rotation is the identity, whatever the translation. -/
theorem C77_derivative_identity (M : ℝ → SE3 ℝ) (v w : V3 ℝ) (t : ℝ) (hM : SE3.Moves M v w t) (h1 : (M t).R = 1)
    (i : Fin 3 ⊕ Fin 3) :
    HasDerivAt (fun t => Sum.elim (logSE3 (M t)).1 (logSE3 (M t)).2 i) ((JlogSE3 (M t) *ᵥ Sum.elim v w) i) t :=
  logSE3_atId hM h1 i

/-- Non-vacuity of `C77_derivative` (angle 1, moving origin) and of `C77_derivative_identity` (same motion at time 0) -/
example : ∃ (M : ℝ → SE3 ℝ) (v w : V3 ℝ), (∀ t, SE3.Moves M v w t) ∧ v ≠ 0 ∧ angle (M 1).R = 1 ∧ (M 0).R = 1 := by
  have hpi := Real.pi_gt_three
  have ha : angle (exTurn 1) = 1 := by
    unfold exTurn
    rw [mul_one]
    exact rodrigues_angle (by norm_num) (by linarith) exAxis_unit
  refine ⟨fun t => ⟨exTurn t, lin3 (Real.sin (t * 1) / 1) ((1 - Real.cos (t * 1)) / 1) (t - Real.sin (t * 1) / 1) exAxis *ᵥ ![1, 2, 3]⟩,
    ![1, 2, 3], (1 : ℝ) • exAxis, fun t => ⟨rodrigues_isRot exAxis_unit (Real.sin_sq_add_cos_sq _), ?_, ?_⟩, ?_, ha, ?_⟩
  · intro a b; exact rodrigues_moves exAxis_unit 1 t a b
  · exact screw_deriv one_ne_zero t _
  · intro e
    have := congrFun e 0
    simp at this
  · simp [exTurn, rodrigues]

end Hpp.Log

namespace Hpp.Explicit

open Matrix Hpp.Sym Hpp.Pose Hpp.Log Filter Topology

/-- Lie group operations whose logarithms and Jacobians are those of `tools.hh`. -/
structure LieOps.Tools (ops : LieOps ℝ) : Prop where
  log3 : ops.log3 = logSO3
  Jlog3 : ∀ R, ops.Jlog3 R = JlogSO3 (angle R) (logSO3 R)
  log6 : ∀ A i, ops.log6 A i = Sum.elim (logSE3 A).1 (logSE3 A).2 i
  Jlog6 : ops.Jlog6 = JlogSE3

/-- Relative rotations for which the formulas are the exact derivatives whatever the motion. -/
def Regular3 (R : M3 ℝ) : Prop := R = 1 ∨ (1e-6 < angle R ∧ angle R < Real.pi - 1e-2)

/-- C77. The hypothesis of the theorems about the implicit function of an explicit constraint (C56) holds for the logarithm on SO(3) of `tools.hh`. -/
theorem C77_log3_regular (ops : LieOps ℝ) (hops : ops.Tools) (R : M3 ℝ) (h : Regular3 R) : ops.Log3At R := by
  intro M w t hM hR hd
  rw [hops.log3, hops.Jlog3]
  rw [← hM]
  have hd' : ∀ a b, HasDerivAt (fun t => M t a b) ((M t * hat w) a b) t := by rw [hM]; exact hd
  rcases h with h | ⟨h, h'⟩
  · exact log_atId (hM.trans h) hd'
  · rw [← hM] at h h' hR
    obtain ⟨u, hu⟩ := turns hR (lt_trans (by norm_num) h) (lt_trans h' (by norm_num)) hd'
    exact hu.log_nominal h h'

/-- C77. The same for the logarithm on SE(3): together with `C56_derivative_se3_partial`, the Jacobian of the implicit function is its derivative. -/
theorem C77_log6_regular (ops : LieOps ℝ) (hops : ops.Tools) (A : SE3 ℝ) (h : Regular3 A.R) (hne : angle A.R ≠ 1e-2) :
    ops.Log6At A := by
  intro M v w t hA hM i
  simp only [hops.log6, hops.Jlog6]
  rw [← hA]
  rcases h with h | ⟨h, h'⟩
  · exact logSE3_atId hM (by rw [hA]; exact h) i
  · rw [← hA] at h h' hne
    obtain ⟨u, hu⟩ := turns hM.rot (lt_trans (by norm_num) h) (lt_trans h' (by norm_num)) hM.R
    exact logSE3_deriv hM h hne (lt_trans h' (by norm_num)) (hu.log_nominal h h') i

/-- Non-vacuity: such operations exist, and both kinds of relative rotation exist. -/
example : ∃ ops : LieOps ℝ, ops.Tools :=
  ⟨⟨fun _ _ a _ => a, fun _ => 1, logSO3, fun R => JlogSO3 (angle R) (logSO3 R), fun A => Sum.elim (logSE3 A).1 (logSE3 A).2, JlogSE3⟩,
    rfl, fun _ => rfl, fun _ _ => rfl, rfl⟩

example : Regular3 1 ∧ Regular3 (exTurn 1) ∧ IsRot (exTurn 1) := by
  have hpi := Real.pi_gt_three
  have ha : angle (exTurn 1) = 1 := by
    unfold exTurn
    rw [mul_one]
    exact rodrigues_angle (by norm_num) (by linarith) exAxis_unit
  refine ⟨.inl rfl, .inr ⟨?_, ?_⟩, rodrigues_isRot exAxis_unit (Real.sin_sq_add_cos_sq _)⟩ <;> rw [ha]
  · norm_num
  · norm_num; linarith

end Hpp.Explicit
