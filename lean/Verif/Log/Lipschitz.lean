import Verif.Log.ScrewSmall
import Verif.Log.Inject
import Mathlib.Analysis.InnerProductSpace.PiL2
import Mathlib.Analysis.Calculus.MeanValue

/-!
# Distance between two rotations and between their logarithms

The exponential does not increase distances; the logarithm computed by the code is the inverse of the exponential up to 1e-18 for
angles less than π.
-/

namespace Hpp.Log

open Matrix Hpp.Sym Hpp.Pose

theorem norm3_eq (v : V3 ℝ) : norm3 v = ‖(WithLp.toLp 2 v : EuclideanSpace ℝ (Fin 3))‖ := by
  rw [EuclideanSpace.norm_eq, norm3, dot_three, Fin.sum_univ_three]
  simp [sq]

theorem norm3_nonneg (v : V3 ℝ) : 0 ≤ norm3 v := Real.sqrt_nonneg _

theorem norm3_add_le (u v : V3 ℝ) : norm3 (u + v) ≤ norm3 u + norm3 v := by
  simp only [norm3_eq, WithLp.toLp_add]
  exact norm_add_le _ _

theorem norm3_neg (u : V3 ℝ) : norm3 (-u) = norm3 u := by
  simp [norm3]

theorem norm3_sub_comm (u v : V3 ℝ) : norm3 (u - v) = norm3 (v - u) := by
  rw [← norm3_neg, neg_sub]

theorem norm3_scale {c : ℝ} (h : 0 ≤ c) (v : V3 ℝ) : norm3 (c • v) = c * norm3 v := by
  rw [norm3_eq, norm3_eq, WithLp.toLp_smul, norm_smul, Real.norm_of_nonneg h]

theorem norm3_le {v : V3 ℝ} {b : ℝ} (hb : 0 ≤ b) (h : v ⬝ᵥ v ≤ b ^ 2) : norm3 v ≤ b :=
  Real.sqrt_le_iff.2 ⟨hb, h⟩

/-- Cauchy-Schwarz -/
theorem dot_le (u v : V3 ℝ) : u ⬝ᵥ v ≤ norm3 u * norm3 v := by
  rw [norm3, norm3, ← Real.sqrt_mul (dot_self_nonneg u)]
  apply Real.le_sqrt_of_sq_le
  simp only [dot_three]
  nlinarith [sq_nonneg (u 0 * v 1 - u 1 * v 0), sq_nonneg (u 0 * v 2 - u 2 * v 0), sq_nonneg (u 1 * v 2 - u 2 * v 1)]

theorem rot_norm {R : M3 ℝ} (h : IsRot R) (v : V3 ℝ) : norm3 (R *ᵥ v) = norm3 v := by
  unfold norm3
  rw [dotProduct_mulVec, vecMul_mulVec, h.1, vecMul_one]

theorem hat_norm (w v : V3 ℝ) : norm3 (hat w *ᵥ v) ≤ norm3 w * norm3 v := by
  apply norm3_le (mul_nonneg (norm3_nonneg _) (norm3_nonneg _))
  rw [mul_pow, norm3_sq, norm3_sq]
  simp only [dot_three, mulVec, hat]
  simp
  nlinarith [sq_nonneg (w 0 * v 0 + w 1 * v 1 + w 2 * v 2)]

theorem lin3_mulVec (a b d : ℝ) (u w : V3 ℝ) : lin3 a b d u *ᵥ w = a • w + b • (hat u *ᵥ w) + (d * (u ⬝ᵥ w)) • u := by
  unfold lin3
  rw [add_mulVec, add_mulVec, smul_mulVec, smul_mulVec, smul_mulVec, one_mulVec]
  congr 1
  funext i
  simp [vecMulVec_apply, mulVec, dotProduct, Fin.sum_univ_three]
  ring

theorem lin3_norm {u : V3 ℝ} (hu : u ⬝ᵥ u = 1) (a b d : ℝ) (w : V3 ℝ) :
    (lin3 a b d u *ᵥ w) ⬝ᵥ (lin3 a b d u *ᵥ w) =
      (a ^ 2 + b ^ 2) * (w ⬝ᵥ w) + (d ^ 2 + 2 * a * d - b ^ 2) * (u ⬝ᵥ w) ^ 2 := by
  have h1 : (hat u *ᵥ w) ⬝ᵥ (hat u *ᵥ w) = (u ⬝ᵥ u) * (w ⬝ᵥ w) - (u ⬝ᵥ w) ^ 2 := by
    simp only [dot_three, mulVec, hat]
    simp
    ring
  have h2 : w ⬝ᵥ (hat u *ᵥ w) = 0 := by
    simp only [dot_three, mulVec, hat]
    simp
    ring
  have h3 : u ⬝ᵥ (hat u *ᵥ w) = 0 := by
    simp only [dot_three, mulVec, hat]
    simp
    ring
  rw [lin3_mulVec]
  simp only [dotProduct_add, add_dotProduct, smul_dotProduct, dotProduct_smul, smul_eq_mul]
  rw [h1, dotProduct_comm (hat u *ᵥ w) w, dotProduct_comm (hat u *ᵥ w) u, dotProduct_comm w u, h2, h3, hu]
  ring

/-- Displacement of a point by a rotation -/
theorem rodrigues_displace {u : V3 ℝ} (hu : u ⬝ᵥ u = 1) {th : ℝ} (h : 0 ≤ th) (x : V3 ℝ) :
    norm3 (rodrigues (Real.cos th) (Real.sin th) u *ᵥ x - x) ≤ th * norm3 x := by
  apply norm3_le (mul_nonneg h (norm3_nonneg x))
  have e : rodrigues (Real.cos th) (Real.sin th) u *ᵥ x - x =
      lin3 (Real.cos th - 1) (Real.sin th) (1 - Real.cos th) u *ᵥ x := by
    rw [rodrigues_lin3, lin3_mulVec, lin3_mulVec, sub_smul, one_smul]
    abel
  rw [e, lin3_norm hu, mul_pow, norm3_sq]
  have h1 := Real.sin_sq_add_cos_sq th
  have h2 := Real.one_sub_sq_div_two_le_cos (x := th)
  have h3 := dot_self_nonneg x
  have h4 : (Real.cos th - 1) ^ 2 + Real.sin th ^ 2 = 2 * (1 - Real.cos th) := by linear_combination h1
  have h5 : (1 - Real.cos th) ^ 2 + 2 * (Real.cos th - 1) * (1 - Real.cos th) - Real.sin th ^ 2 = -(2 * (1 - Real.cos th)) := by
    linear_combination -h1
  rw [h4, h5]
  have h6 := Real.cos_le_one th
  nlinarith [sq_nonneg (u ⬝ᵥ x), mul_nonneg (sub_nonneg.2 h6) (sq_nonneg (u ⬝ᵥ x)), mul_le_mul_of_nonneg_right h2 h3]

theorem exp_zero_eq {r : V3 ℝ} (h : norm3 r = 0) : expSO3 r = 1 := by
  unfold expSO3
  rw [h]
  ext i j
  simp [rodrigues]

theorem exp_displace (r x : V3 ℝ) : norm3 (expSO3 r *ᵥ x - x) ≤ norm3 r * norm3 x := by
  rcases (norm3_nonneg r).eq_or_lt with h | h
  · rw [exp_zero_eq h.symm, one_mulVec, sub_self, ← h, zero_mul]
    simp [norm3]
  · exact rodrigues_displace (unit_of_norm h) h.le x

theorem exp_isRot (r : V3 ℝ) : IsRot (expSO3 r) := by
  rcases (norm3_nonneg r).eq_or_lt with h | h
  · rw [exp_zero_eq h.symm]
    exact ⟨by simp, by simp⟩
  · exact rodrigues_isRot (unit_of_norm h) (Real.sin_sq_add_cos_sq _)

/-- The right Jacobian does not increase norms. -/
theorem rightJacobian_norm {r : V3 ℝ} (h : 0 < norm3 r) (w : V3 ℝ) : norm3 (rightJacobian r *ᵥ w) ≤ norm3 w := by
  have hu := unit_of_norm h
  have hr : r = norm3 r • ((norm3 r)⁻¹ • r) := by rw [smul_smul, mul_inv_cancel₀ h.ne', one_smul]
  generalize (norm3 r)⁻¹ • r = u at hu hr
  generalize norm3 r = th at h hr
  subst hr
  rw [rightJacobian_lin3 h hu]
  apply norm3_le (norm3_nonneg w)
  rw [lin3_norm hu, norm3_sq]
  have h1 := Real.sin_sq_add_cos_sq th
  have h2 := Real.one_sub_sq_div_two_le_cos (x := th)
  set a := Real.sin th / th with ha
  set b := -((1 - Real.cos th) / th) with hb
  have h4 : a ^ 2 + b ^ 2 ≤ 1 := by
    have : a ^ 2 + b ^ 2 = 2 * (1 - Real.cos th) / th ^ 2 := by
      rw [ha, hb]
      field_simp
      linear_combination h1
    rw [this, div_le_one (by positivity)]
    linarith
  have h5 : (u ⬝ᵥ w) ^ 2 ≤ w ⬝ᵥ w := by
    have c1 := dot_le u w
    have c2 := dot_le (-u) w
    rw [norm3_neg, neg_dotProduct] at c2
    have c3 : norm3 u = 1 := by rw [norm3, hu, Real.sqrt_one]
    rw [c3, one_mul] at c1 c2
    rw [← norm3_sq]
    exact sq_le_sq' (by linarith) c1
  have h6 : (1 - a) ^ 2 + 2 * a * (1 - a) - b ^ 2 = 1 - (a ^ 2 + b ^ 2) := by ring
  rw [h6]
  nlinarith [mul_le_mul_of_nonneg_left h5 (sub_nonneg.2 h4)]

/-- The exponential does not increase distances. -/
theorem exp_lipschitz (a b x : V3 ℝ) : norm3 (expSO3 a *ᵥ x - expSO3 b *ᵥ x) ≤ norm3 (a - b) * norm3 x := by
  by_cases hz : ∃ s : ℝ, 0 ≤ s ∧ s ≤ 1 ∧ b + s • (a - b) = 0
  · obtain ⟨s, h0, h1, hs⟩ := hz
    have hb : b = -(s • (a - b)) := eq_neg_of_add_eq_zero_left hs
    have ha : a = (1 - s) • (a - b) := by
      have : a = b + (a - b) := by abel
      rw [sub_smul, one_smul]
      nth_rw 1 [this]
      nth_rw 1 [hb]
      abel
    have na : norm3 a = (1 - s) * norm3 (a - b) := by
      conv_lhs => rw [ha]
      exact norm3_scale (by linarith) _
    have nb : norm3 b = s * norm3 (a - b) := by
      conv_lhs => rw [hb]
      rw [norm3_neg]
      exact norm3_scale h0 _
    have d1 := exp_displace a x
    have d2 := exp_displace b x
    have e : expSO3 a *ᵥ x - expSO3 b *ᵥ x = (expSO3 a *ᵥ x - x) + (x - expSO3 b *ᵥ x) := by abel
    rw [e]
    refine (norm3_add_le _ _).trans ?_
    rw [norm3_sub_comm x]
    rw [na] at d1
    rw [nb] at d2
    linarith
  · push Not at hz
    set w := a - b with hw
    have hpos : ∀ s : ℝ, 0 ≤ s → s ≤ 1 → 0 < norm3 (b + s • w) := by
      intro s h0 h1
      refine lt_of_le_of_ne (norm3_nonneg _) fun h => hz s h0 h1 ?_
      have h2 : (b + s • w) ⬝ᵥ (b + s • w) = 0 := by rw [← norm3_sq, ← h]; norm_num
      rw [dot_three] at h2
      funext i
      have q0 := mul_self_nonneg ((b + s • w) 0)
      have q1 := mul_self_nonneg ((b + s • w) 1)
      have q2 := mul_self_nonneg ((b + s • w) 2)
      fin_cases i
      · exact mul_self_eq_zero.1 (show (b + s • w) 0 * (b + s • w) 0 = 0 by linarith)
      · exact mul_self_eq_zero.1 (show (b + s • w) 1 * (b + s • w) 1 = 0 by linarith)
      · exact mul_self_eq_zero.1 (show (b + s • w) 2 * (b + s • w) 2 = 0 by linarith)
    have hr : ∀ s : ℝ, VDeriv (fun s => b + s • w) w s := by
      intro s i
      have := ((hasDerivAt_id s).mul_const (w i)).const_add (b i)
      simpa using this
    set y := expSO3 a *ᵥ x - expSO3 b *ᵥ x with hy
    have hd : ∀ s : ℝ, 0 ≤ s → s ≤ 1 → HasDerivAt (fun s : ℝ => y ⬝ᵥ (expSO3 (b + s • w) *ᵥ x))
        (y ⬝ᵥ ((expSO3 (b + s • w) * hat (rightJacobian (b + s • w) *ᵥ w)) *ᵥ x)) s := by
      intro s h0 h1
      have := fun i j => C58_right_jacobian (fun s => b + s • w) w s (hr s) (hpos s h0 h1) i j
      simp only [dotProduct, mulVec]
      exact HasDerivAt.fun_sum fun i _ => (HasDerivAt.fun_sum fun j _ => (this i j).mul_const (x j)).const_mul (y i)
    obtain ⟨c, hc, e⟩ := exists_hasDerivAt_eq_slope (fun s : ℝ => y ⬝ᵥ (expSO3 (b + s • w) *ᵥ x)) _ (zero_lt_one)
      (fun s hs => (hd s hs.1 hs.2).continuousAt.continuousWithinAt) fun s hs => hd s hs.1.le hs.2.le
    have e1 : b + (1 : ℝ) • w = a := by rw [one_smul, hw]; abel
    have e0 : b + (0 : ℝ) • w = b := by rw [zero_smul, add_zero]
    rw [e1, e0, sub_zero, div_one, ← dotProduct_sub, ← hy, ← norm3_sq] at e
    have h1 := dot_le y ((expSO3 (b + c • w) * hat (rightJacobian (b + c • w) *ᵥ w)) *ᵥ x)
    rw [e, ← mulVec_mulVec, rot_norm (exp_isRot _)] at h1
    have h2 := hat_norm (rightJacobian (b + c • w) *ᵥ w) x
    have h3 := rightJacobian_norm (hpos c hc.1.le hc.2.le) w
    have h4 : norm3 y ^ 2 ≤ norm3 y * (norm3 w * norm3 x) := by
      refine h1.trans (mul_le_mul_of_nonneg_left (h2.trans ?_) (norm3_nonneg y))
      exact mul_le_mul_of_nonneg_right h3 (norm3_nonneg x)
    by_contra hlt
    push Not at hlt
    have hy0 : 0 < norm3 y := lt_of_le_of_lt (mul_nonneg (norm3_nonneg _) (norm3_nonneg _)) hlt
    nlinarith

/-- A rotation of angle less than π is the exponential of the logarithm computed, up to 1e-18. -/
theorem exp_log_near {R : M3 ℝ} (h : IsRot R) (hp : angle R < Real.pi) (x : V3 ℝ) :
    norm3 (R *ᵥ x - expSO3 (logSO3 R) *ᵥ x) ≤ 5e-19 * norm3 x := by
  have hx := norm3_nonneg x
  have hz : norm3 (0 : V3 ℝ) = 0 := by simp [norm3]
  rcases (angle_nonneg h).eq_or_lt with h0 | h0
  · have hR := rot_angle_zero h h0.symm
    rw [(log_one hR).2, exp_zero_eq hz, hR, sub_self, hz]
    positivity
  by_cases h1 : 1e-6 < angle R
  · rw [(exp_log h h1 hp).1, sub_self, hz]
    positivity
  · rw [not_lt] at h1
    obtain ⟨u, hu, ha, hR⟩ := rotation_eq h h0 hp
    have hl : logSO3 R = Real.sin (angle R) • u := by
      rw [logSO3_small h1, ha, smul_smul]
      congr 1
      ring
    generalize angle R = th at h0 h1 hR hl hp
    rw [hl, hR, ← expSO3_axis h0 hu]
    refine (exp_lipschitz _ _ x).trans ?_
    have g1 := Real.sin_lt h0
    have g2 := Real.sin_gt_sub_cube h0
    rw [← sub_smul, norm3_smul (by linarith) hu]
    have g3 : th ^ 3 ≤ (1e-6 : ℝ) ^ 3 := by gcongr
    apply mul_le_mul_of_nonneg_right _ hx
    norm_num at g3 ⊢
    linarith

/-- Two rotations of angle less than π displace points by at most the distance between their logarithms, up to 1e-18. -/
theorem log_displace {R R' : M3 ℝ} (h : IsRot R) (h' : IsRot R') (hp : angle R < Real.pi) (hp' : angle R' < Real.pi) (x : V3 ℝ) :
    norm3 (R *ᵥ x - R' *ᵥ x) ≤ (norm3 (logSO3 R - logSO3 R') + 1e-18) * norm3 x := by
  have a1 := exp_log_near h hp x
  have a2 := exp_log_near h' hp' x
  have a3 := exp_lipschitz (logSO3 R) (logSO3 R') x
  have e : R *ᵥ x - R' *ᵥ x = (R *ᵥ x - expSO3 (logSO3 R) *ᵥ x) +
      ((expSO3 (logSO3 R) *ᵥ x - expSO3 (logSO3 R') *ᵥ x) + (expSO3 (logSO3 R') *ᵥ x - R' *ᵥ x)) := by abel
  rw [e]
  refine (norm3_add_le _ _).trans ((add_le_add_right (norm3_add_le _ _) _).trans ?_)
  rw [norm3_sub_comm (expSO3 (logSO3 R') *ᵥ x)]
  norm_num at a1 a2 ⊢
  linarith

/-- Norm of the logarithm of a half turn -/
theorem log_half_turn {R : M3 ℝ} (h : IsRot R) (hp : angle R = Real.pi) : logSO3 R ⬝ᵥ logSO3 R = Real.pi ^ 2 := by
  have hc : cosOf R = -1 := by rw [← cos_angle h, hp, Real.cos_pi]
  have htr : R 0 0 + R 1 1 + R 2 2 = -1 := by
    unfold cosOf at hc
    linarith
  have hent : ∀ i, -1 ≤ R i i := by
    intro i
    have h1 := congrFun (congrFun h.1 i) i
    simp only [Matrix.mul_apply, Fin.sum_univ_three, transpose_apply, one_apply_eq] at h1
    have h2 : R i i ^ 2 ≤ 1 := by
      fin_cases i <;> simp only [Fin.zero_eta, Fin.mk_one, Fin.reduceFinMk] at h1 ⊢ <;>
        nlinarith [sq_nonneg (R 0 0), sq_nonneg (R 1 0), sq_nonneg (R 2 0), sq_nonneg (R 0 1), sq_nonneg (R 1 1), sq_nonneg (R 2 1),
          sq_nonneg (R 0 2), sq_nonneg (R 1 2), sq_nonneg (R 2 2)]
    nlinarith
  have hpi := Real.pi_gt_three
  have sq1 : ∀ (P : Prop) [Decidable P] (y : ℝ), 0 ≤ y →
      ((if P then (1 : ℝ) else -1) * (if 0 < y then Real.sqrt y else 0)) * ((if P then (1 : ℝ) else -1) * (if 0 < y then Real.sqrt y else 0)) = y := by
    intro P _ y hy
    have hs := Real.mul_self_sqrt hy
    have e : (if 0 < y then Real.sqrt y else 0) = Real.sqrt y := by
      split
      · rfl
      · rename_i h
        rw [le_antisymm (not_lt.1 h) hy, Real.sqrt_zero]
    rw [e]
    split <;> linarith
  have hnn : ∀ i, 0 ≤ (R i i + 1) * (Real.pi * Real.pi / (1 + 1)) := fun i =>
    mul_nonneg (by linarith [hent i]) (by positivity)
  unfold logSO3
  simp only [hp, sub_self, Real.cos_zero]
  rw [if_neg (by norm_num), dot_three]
  simp only [cons_val_zero, cons_val_one, cons_val_two, head_cons, tail_cons, cons_val]
  rw [sq1 _ _ (hnn 0), sq1 _ _ (hnn 1), sq1 _ _ (hnn 2)]
  linear_combination (Real.pi ^ 2 / 2) * htr

end Hpp.Log
