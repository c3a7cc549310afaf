import Verif.Log.RightJac
import Mathlib.Analysis.SpecialFunctions.Trigonometric.Bounds
import Mathlib.Analysis.Real.Pi.Bounds

namespace Hpp.Log

open Matrix Hpp.Sym Hpp.Pose Filter Topology

/-! ### Motions through the identity rotation -/

section
variable {M : ℝ → M3 ℝ} {w : V3 ℝ} {t : ℝ}

theorem cosOf_atId (h1 : M t = 1) (hd : ∀ a b, HasDerivAt (fun t => M t a b) ((M t * hat w) a b) t) :
    HasDerivAt (fun t => cosOf (M t)) 0 t ∧ cosOf (M t) = 1 := by
  refine ⟨?_, by simp [cosOf, h1]⟩
  have h3 := ((((hd 0 0).add (hd 1 1)).add (hd 2 2)).sub_const 1).div_const 2
  refine HasDerivAt.congr_deriv (f := fun t => Hpp.Log.cosOf (M t)) h3 ?_
  rw [h1]
  simp [hat]

/-- The square of the computed angle is at most proportional to the distance of the trace to 3. -/
theorem angle_sq_le (R : M3 ℝ) (hc : -1 < cosOf R) : angle R ^ 2 ≤ Real.pi ^ 2 / 2 * |cosOf R - 1| ∧ 0 ≤ angle R := by
  have hpi := Real.pi_pos
  unfold angle
  simp only
  have e : cosOf R = (R 0 0 + R 1 1 + R 2 2 - 1) / 2 := rfl
  split
  · constructor
    · have := abs_nonneg (cosOf R - 1); rw [zero_pow two_ne_zero]; positivity
    · exact le_refl _
  · rename_i h3
    rw [if_neg (by rw [e] at hc; linarith)]
    rw [← e]
    have hc1 : cosOf R ≤ 1 := by rw [e]; linarith
    refine ⟨?_, Real.arccos_nonneg _⟩
    have hx : |Real.arccos (cosOf R)| ≤ Real.pi := by
      rw [abs_of_nonneg (Real.arccos_nonneg _)]; exact Real.arccos_le_pi _
    have hb := Real.cos_le_one_sub_mul_cos_sq hx
    rw [Real.cos_arccos hc.le hc1] at hb
    rw [abs_of_nonpos (by linarith)]
    have : 2 / Real.pi ^ 2 * Real.arccos (cosOf R) ^ 2 ≤ 1 - cosOf R := by linarith
    calc Real.arccos (cosOf R) ^ 2 = Real.pi ^ 2 / 2 * (2 / Real.pi ^ 2 * Real.arccos (cosOf R) ^ 2) := by field_simp
      _ ≤ Real.pi ^ 2 / 2 * (1 - cosOf R) := by gcongr
      _ = _ := by ring

theorem angle_sq_atId (h1 : M t = 1) (hd : ∀ a b, HasDerivAt (fun t => M t a b) ((M t * hat w) a b) t) :
    HasDerivAt (fun t => angle (M t) ^ 2) 0 t ∧ angle (M t) = 0 ∧ ∀ᶠ t' in 𝓝 t, angle (M t') < 1e-6 := by
  obtain ⟨hc, hc1⟩ := cosOf_atId h1 hd
  have hev : ∀ᶠ t' in 𝓝 t, -1 < cosOf (M t') := hc.continuousAt.eventually_const_lt (by
    show -1 < cosOf (M t)
    rw [hc1]; norm_num)
  have h0 : angle (M t) = 0 := by
    have := angle_sq_le (M t) (by rw [hc1]; norm_num)
    rw [hc1] at this
    simp at this
    nlinarith
  have hsq : HasDerivAt (fun t => angle (M t) ^ 2) 0 t := by
    rw [hasDerivAt_iff_isLittleO] at hc ⊢
    simp only [smul_zero, sub_zero] at hc ⊢
    refine Asymptotics.IsBigO.trans_isLittleO ?_ hc
    refine Asymptotics.IsBigO.of_bound (Real.pi ^ 2 / 2) ?_
    filter_upwards [hev] with t' ht'
    have := angle_sq_le (M t') ht'
    rw [h0, hc1]
    simp only [Real.norm_eq_abs]
    rw [abs_of_nonneg (by nlinarith)]
    simpa using this.1
  refine ⟨hsq, h0, ?_⟩
  have : ∀ᶠ t' in 𝓝 t, angle (M t') ^ 2 < 1e-12 := hsq.continuousAt.eventually_lt_const (by
    show angle (M t) ^ 2 < _
    rw [h0]; norm_num)
  filter_upwards [this, hev] with t' ha hb
  have := (angle_sq_le (M t') hb).2
  by_contra hn
  rw [not_lt] at hn
  nlinarith

theorem logSO3_small {R : M3 ℝ} (h : angle R ≤ 1e-6) : logSO3 R = (2 : ℝ)⁻¹ • axial R := by
  have hpi := Real.pi_gt_three
  unfold logSO3
  simp only
  rw [if_pos (by norm_num at h ⊢; linarith), if_neg (not_lt.2 h)]
  funext i
  fin_cases i <;> simp [axial]

theorem log_atId (h1 : M t = 1) (hd : ∀ a b, HasDerivAt (fun t => M t a b) ((M t * hat w) a b) t) :
    VDeriv (fun t => logSO3 (M t)) (JlogSO3 (angle (M t)) (logSO3 (M t)) *ᵥ w) t := by
  obtain ⟨-, h0, hev⟩ := angle_sq_atId h1 hd
  have hJ : JlogSO3 (angle (M t)) (logSO3 (M t)) = 1 := by
    unfold JlogSO3
    rw [if_pos (by rw [h0]; norm_num)]
  rw [hJ, one_mulVec]
  intro i
  have he : (fun t => logSO3 (M t) i) =ᶠ[𝓝 t] fun t => (2 : ℝ)⁻¹ * axial (M t) i := by
    filter_upwards [hev] with t' ht'
    rw [logSO3_small ht'.le]; rfl
  refine HasDerivAt.congr_of_eventuallyEq ?_ he
  rw [h1] at hd
  simp only [Matrix.one_mul] at hd
  fin_cases i
  · refine (((hd 2 1).sub (hd 1 2)).const_mul _).congr_deriv ?_
    simp [hat]; ring
  · refine (((hd 0 2).sub (hd 2 0)).const_mul _).congr_deriv ?_
    simp [hat]; ring
  · refine (((hd 1 0).sub (hd 0 1)).const_mul _).congr_deriv ?_
    simp [hat]; ring

end

theorem log_one {R : M3 ℝ} (h : R = 1) : angle R = 0 ∧ logSO3 R = 0 := by
  have ha : angle R = 0 := by
    subst h
    simp [angle]; norm_num
  refine ⟨ha, ?_⟩
  rw [logSO3_small (by rw [ha]; norm_num), h]
  funext i
  fin_cases i <;> simp [axial]

theorem logSE3_atId {M : ℝ → SE3 ℝ} {v w : V3 ℝ} {t : ℝ} (hM : SE3.Moves M v w t) (h1 : (M t).R = 1) :
    ∀ i, HasDerivAt (fun t => Sum.elim (logSE3 (M t)).1 (logSE3 (M t)).2 i) ((JlogSE3 (M t) *ᵥ Sum.elim v w) i) t := by
  have hl := log_atId (M := fun t => (M t).R) h1 hM.R
  obtain ⟨hsq, h0, hev⟩ := angle_sq_atId (M := fun t => (M t).R) h1 hM.R
  have hr := (log_one h1).2
  have hJ : JlogSO3 (angle (M t).R) (logSO3 (M t).R) = 1 := by
    unfold JlogSO3
    rw [if_pos (by rw [h0]; norm_num)]
  rw [hJ, one_mulVec] at hl
  have habs : ∀ᶠ t' in 𝓝 t, |angle (M t').R| < 1e-2 := by
    have hc : ∀ᶠ t' in 𝓝 t, angle (M t').R ^ 2 < 1e-4 := hsq.continuousAt.eventually_lt_const (by
      show angle (M t).R ^ 2 < _
      rw [h0]; norm_num)
    filter_upwards [hc] with t' ht'
    refine abs_lt_of_sq_lt_sq ?_ (by norm_num)
    rw [show ((1e-2 : ℝ)) ^ 2 = 1e-4 by norm_num]
    exact ht'
  have hB : HasDerivAt (fun t => betaSE3 (angle (M t).R)) 0 t := by
    have he : (fun t => betaSE3 (angle (M t).R)) =ᶠ[𝓝 t] fun t => 1 / 12 + angle (M t).R ^ 2 / 720 := by
      filter_upwards [habs] with t' ht'
      unfold betaSE3
      rw [if_pos ht']; ring
    refine HasDerivAt.congr_of_eventuallyEq ?_ he
    simpa using (hsq.div_const 720).const_add (1 / 12)
  have hA : HasDerivAt (fun t => alphaSE3 (angle (M t).R)) 0 t := by
    have he : (fun t => alphaSE3 (angle (M t).R))
        =ᶠ[𝓝 t] fun t => 1 - angle (M t).R ^ 2 / 12 - angle (M t).R ^ 2 * angle (M t).R ^ 2 / 720 := by
      filter_upwards [habs] with t' ht'
      unfold alphaSE3
      rw [if_pos ht']; ring
    refine HasDerivAt.congr_of_eventuallyEq ?_ he
    have := ((hsq.div_const 12).const_sub 1).sub ((hsq.mul hsq).div_const 720)
    refine this.congr_deriv ?_
    simp [h0]
  intro i
  cases i with
  | inr i =>
    refine (hl i).congr_deriv ?_
    simp [JlogSE3, fromBlocks_mulVec, hJ]
  | inl i =>
    have e : ∀ t, Sum.elim (logSE3 (M t)).1 (logSE3 (M t)).2 (Sum.inl i)
        = (alphaSE3 (angle (M t).R) • (M t).p - (2 : ℝ)⁻¹ • crossProduct (logSO3 (M t).R) (M t).p
          + (betaSE3 (angle (M t).R) * (logSO3 (M t).R ⬝ᵥ (M t).p)) • logSO3 (M t).R) i := by
      intro t
      simp only [logSE3, Sum.elim_inl, hat_mulVec]
    simp only [e]
    have hd := ((VDeriv.smul' hA hM.p).sub ((hl.cross hM.p).smul (2 : ℝ)⁻¹)).add
      (VDeriv.smul' (hB.mul (VDeriv.dot hl hM.p)) hl) i
    refine hd.congr_deriv ?_
    have ea : alphaSE3 (angle (M t).R) = 1 := by
      rw [(log_one h1).1]; norm_num [alphaSE3]
    have e1 : (JlogSE3 (M t) *ᵥ Sum.elim v w) (Sum.inl i) = (v + (2 : ℝ)⁻¹ • crossProduct (M t).p w) i := by
      simp only [JlogSE3, fromBlocks_mulVec, Sum.elim_inl, Sum.elim_comp_inl, Sum.elim_comp_inr, hJ, ea]
      simp only [hr]
      simp only [h1]
      simp [hat_zero, smul_mulVec, hat_mulVec]
    rw [e1, hr, ea, h1]
    simp only [Pi.mul_apply, hr]
    have ec : crossProduct w (M t).p i = -crossProduct (M t).p w i := by
      rw [← cross_anticomm]; rfl
    simp [ec]

end Hpp.Log
