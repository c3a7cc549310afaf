import Verif.Log.Exp

namespace Hpp.Log

open Matrix Hpp.Sym Hpp.Pose Filter Topology

/-- `JlogSO3` in the algebra generated by the axis. -/
theorem JlogSO3_lin3 {th : ℝ} (hth : 1e-6 ≤ th) (hs : 0 < Real.sin th) (u : V3 ℝ) :
    JlogSO3 th (th • u) = lin3 (th * ((1 + Real.cos th) / Real.sin th) / 2) (th / 2)
      (1 - th * ((1 + Real.cos th) / Real.sin th) / 2) u := by
  refine ext_mulVec fun w => ?_
  rw [JlogSO3_mulVec hth hs]
  simp only [lin3, add_mulVec, smul_mulVec, one_mulVec, hat_mulVec]
  congr 1
  funext i
  simp [mulVec, dotProduct, Fin.sum_univ_three, vecMulVec_apply]
  ring

/-- Component of the angular velocity along the axis -/
theorem dot_Jlog {th : ℝ} (hth : 1e-6 ≤ th) (hs : 0 < Real.sin th) {u : V3 ℝ} (hu : u ⬝ᵥ u = 1) (w : V3 ℝ) :
    u ⬝ᵥ (JlogSO3 th (th • u) *ᵥ w) = u ⬝ᵥ w := by
  rw [JlogSO3_mulVec hth hs]
  simp only [dotProduct_add, dotProduct_smul, smul_eq_mul, hu, dot_self_cross]
  ring

/-- Derivatives of the coefficients of `logSE3` -/
theorem beta_deriv {th : ℝ} (h : 1e-2 < th) (h' : th < Real.pi) : HasDerivAt betaSE3 (th * betaDot th) th := by
  have h0 : 0 < th := lt_trans (by norm_num) h
  have hs : 0 < Real.sin th := Real.sin_pos_of_pos_of_lt_pi h0 h'
  have hc := (half_angle hs).2
  have hsc := Real.sin_sq_add_cos_sq th
  have hne : ¬ |th| < 1e-2 := by rw [abs_of_pos h0]; exact not_lt.2 h.le
  have he : betaSE3 =ᶠ[𝓝 th] fun th => 1 / (th * th) - Real.sin th / (2 * th * (1 - Real.cos th)) := by
    filter_upwards [eventually_gt_nhds h] with x hx
    unfold betaSE3
    rw [if_neg]
    rw [abs_of_pos (lt_trans (by norm_num) hx)]
    exact not_lt.2 hx.le
  refine HasDerivAt.congr_of_eventuallyEq ?_ he
  have h1 : HasDerivAt (fun x : ℝ => x * x) (1 * th + th * 1) th := (hasDerivAt_id th).mul (hasDerivAt_id th)
  have h2 := (hasDerivAt_const th (1 : ℝ)).div h1 (by positivity)
  have h3 : HasDerivAt (fun x : ℝ => 2 * x * (1 - Real.cos x)) _ th :=
    ((hasDerivAt_id th).const_mul 2).mul ((Real.hasDerivAt_cos th).const_sub 1)
  have h4 := (Real.hasDerivAt_sin th).div h3 (by positivity)
  refine (h2.sub h4).congr_deriv ?_
  unfold betaDot
  rw [if_neg hne]
  simp only [id]
  field_simp
  have : Real.sin th ^ 2 = 1 - Real.cos th ^ 2 := by linarith
  ring_nf
  rw [this]
  ring

/-- The same below the threshold: the truncated series are derivatives of each other. -/
theorem beta_deriv_small {th : ℝ} (h0 : 0 < th) (h : th < 1e-2) : HasDerivAt betaSE3 (th * betaDot th) th := by
  have hne : |th| < 1e-2 := by rwa [abs_of_pos h0]
  have he : betaSE3 =ᶠ[𝓝 th] fun th => 1 / 12 + th * th / 720 := by
    filter_upwards [eventually_lt_nhds h, eventually_gt_nhds h0] with x hx hx0
    unfold betaSE3
    rw [if_pos (by rwa [abs_of_pos hx0])]
  refine HasDerivAt.congr_of_eventuallyEq ?_ he
  have h1 : HasDerivAt (fun x : ℝ => x * x) (1 * th + th * 1) th := (hasDerivAt_id th).mul (hasDerivAt_id th)
  refine ((h1.div_const 720).const_add _).congr_deriv ?_
  unfold betaDot
  rw [if_pos hne]
  ring

theorem beta_deriv_ne {th : ℝ} (h0 : 0 < th) (h : th ≠ 1e-2) (h' : th < Real.pi) :
    HasDerivAt betaSE3 (th * betaDot th) th := by
  rcases lt_or_gt_of_ne h with h | h
  · exact beta_deriv_small h0 h
  · exact beta_deriv h h'

theorem alpha_beta {th : ℝ} (h0 : 0 < th) : alphaSE3 th = 1 - th * th * betaSE3 th := by
  unfold alphaSE3 betaSE3
  by_cases h : |th| < 1e-2
  · rw [if_pos h, if_pos h]
    ring
  rw [if_neg h, if_neg h]
  by_cases hc : 1 - Real.cos th = 0
  · rw [hc]; simp; field_simp; ring
  · field_simp
    ring

theorem alpha_deriv {th : ℝ} (h0 : 0 < th) (h : th ≠ 1e-2) (h' : th < Real.pi) :
    HasDerivAt alphaSE3 (-(th * (th * th * betaDot th + 2 * betaSE3 th))) th := by
  have he : alphaSE3 =ᶠ[𝓝 th] fun th => 1 - th * th * betaSE3 th := by
    filter_upwards [eventually_gt_nhds h0] with x hx
    exact alpha_beta hx
  refine HasDerivAt.congr_of_eventuallyEq ?_ he
  have h1 : HasDerivAt (fun x : ℝ => x * x) (1 * th + th * 1) th := (hasDerivAt_id th).mul (hasDerivAt_id th)
  refine ((h1.mul (beta_deriv_ne h0 h h')).const_sub 1).congr_deriv ?_
  ring

theorem VDeriv.smul' {f : ℝ → V3 ℝ} {d : V3 ℝ} {g : ℝ → ℝ} {g' t : ℝ} (hg : HasDerivAt g g' t) (hf : VDeriv f d t) :
    VDeriv (fun t => g t • f t) (g' • f t + g t • d) t := fun i => hg.mul (hf i)

theorem VDeriv.dot {f g : ℝ → V3 ℝ} {d e : V3 ℝ} {t : ℝ} (hf : VDeriv f d t) (hg : VDeriv g e t) :
    HasDerivAt (fun t => f t ⬝ᵥ g t) (d ⬝ᵥ g t + f t ⬝ᵥ e) t := by
  simp only [dot_three]
  exact ((((hf 0).mul (hg 0)).add ((hf 1).mul (hg 1))).add ((hf 2).mul (hg 2))).congr_deriv (by ring)

/-- Derivative of the logarithm in SE(3), given that of the logarithm of its rotation. -/
theorem logSE3_deriv {M : ℝ → SE3 ℝ} {v w : V3 ℝ} {t : ℝ} (hM : SE3.Moves M v w t)
    (h6 : 1e-6 < angle (M t).R) (hp : angle (M t).R ≠ 1e-2) (hp' : angle (M t).R < Real.pi)
    (hl : VDeriv (fun t => logSO3 (M t).R) (JlogSO3 (angle (M t).R) (logSO3 (M t).R) *ᵥ w) t) :
    ∀ i, HasDerivAt (fun t => Sum.elim (logSE3 (M t)).1 (logSE3 (M t)).2 i) ((JlogSE3 (M t) *ᵥ Sum.elim v w) i) t := by
  have h0 : 0 < angle (M t).R := lt_trans (by norm_num) h6
  have hs : 0 < Real.sin (angle (M t).R) := Real.sin_pos_of_pos_of_lt_pi h0 hp'
  obtain ⟨u, hT⟩ := turns hM.rot h0 hp' hM.R
  obtain ⟨u', hu', ha', hlog, -⟩ := logSO3_axis hM.rot h6 hp'
  have huu : u' = u := by
    have := ha'.symm.trans hT.ax
    have h2 : (2 * Real.sin (angle (M t).R)) ≠ 0 := by positivity
    exact smul_right_injective _ h2 this
  subst huu
  set th := angle (M t).R with hth
  set r := logSO3 (M t).R with hr
  set rho := JlogSO3 th r *ᵥ w with hrho
  have hdot : th * (u' ⬝ᵥ w) = r ⬝ᵥ rho := by
    rw [hrho, hlog, smul_dotProduct, dot_Jlog h6.le hs hu', smul_eq_mul]
  have hth' := hT.angle
  have hA : HasDerivAt (fun t => alphaSE3 (angle (M t).R)) (-((th * th * betaDot th + 2 * betaSE3 th) * (r ⬝ᵥ rho))) t := by
    refine ((alpha_deriv h0 hp hp').comp t hth').congr_deriv ?_
    rw [← hdot]; ring
  have hB : HasDerivAt (fun t => betaSE3 (angle (M t).R)) (betaDot th * (r ⬝ᵥ rho)) t := by
    refine ((beta_deriv_ne h0 hp hp').comp t hth').congr_deriv ?_
    rw [← hdot]; ring
  intro i
  cases i with
  | inr i =>
    refine (hl i).congr_deriv ?_
    simp [JlogSE3, fromBlocks_mulVec, hrho, ← hth, ← hr]
  | inl i =>
    have e : ∀ t, Sum.elim (logSE3 (M t)).1 (logSE3 (M t)).2 (Sum.inl i)
        = (alphaSE3 (angle (M t).R) • (M t).p - (2 : ℝ)⁻¹ • crossProduct (logSO3 (M t).R) (M t).p
          + (betaSE3 (angle (M t).R) * (logSO3 (M t).R ⬝ᵥ (M t).p)) • logSO3 (M t).R) i := by
      intro t
      simp only [logSE3, Sum.elim_inl, hat_mulVec]
    simp only [e]
    have hd := ((VDeriv.smul' hA hM.p).sub ((hl.cross hM.p).smul (2 : ℝ)⁻¹)).add
      (VDeriv.smul' (hB.mul (VDeriv.dot hl hM.p)) hl) i
    refine hd.congr_deriv ?_
    have e1 : (JlogSE3 (M t) *ᵥ Sum.elim v w) (Sum.inl i)
        = ((alphaSE3 th • (1 : M3 ℝ) - (2 : ℝ)⁻¹ • hat r + betaSE3 th • vecMulVec r r) *ᵥ ((M t).R *ᵥ v)
          + ((2 : ℝ)⁻¹ • hat (M t).p + (betaDot th * (r ⬝ᵥ (M t).p)) • vecMulVec r r
            - (th * th * betaDot th + 2 * betaSE3 th) • vecMulVec (M t).p r
            + ((r ⬝ᵥ (M t).p) * betaSE3 th) • (1 : M3 ℝ) + betaSE3 th • vecMulVec r (M t).p) *ᵥ rho) i := by
      simp only [JlogSE3, fromBlocks_mulVec, Sum.elim_inl, Sum.elim_comp_inl, Sum.elim_comp_inr, ← hth, ← hr, hrho, mulVec_mulVec]
    rw [e1]
    simp only [add_mulVec, sub_mulVec, smul_mulVec, one_mulVec, hat_mulVec, vecMulVec_mulVec]
    rw [← cross_anticomm (M t).p]
    simp only [Pi.add_apply, Pi.sub_apply, Pi.smul_apply, smul_eq_mul, Pi.neg_apply,
      op_smul_eq_smul]
    simp only [dotProduct_comm rho, Pi.mul_apply, ← hth, ← hr]
    ring

end Hpp.Log
