import Verif.Log.Lemmas

namespace Hpp.Log

open Matrix Hpp.Sym Hpp.Pose Filter Topology

theorem rodrigues_apply (c s : ℝ) (u : V3 ℝ) : rodrigues c s u =
    !![c + (1 - c) * (u 0 * u 0), -s * u 2 + (1 - c) * (u 0 * u 1), s * u 1 + (1 - c) * (u 0 * u 2);
       s * u 2 + (1 - c) * (u 1 * u 0), c + (1 - c) * (u 1 * u 1), -s * u 0 + (1 - c) * (u 1 * u 2);
       -s * u 1 + (1 - c) * (u 2 * u 0), s * u 0 + (1 - c) * (u 2 * u 1), c + (1 - c) * (u 2 * u 2)] := by
  ext i j
  fin_cases i <;> fin_cases j <;> simp [rodrigues, hat, vecMulVec_apply]

/-- A rotation that moves. -/
structure Turns (M : ℝ → M3 ℝ) (w u : V3 ℝ) (t : ℝ) : Prop where
  rot : IsRot (M t)
  pos : 0 < angle (M t)
  lt : angle (M t) < Real.pi
  d : ∀ a b, HasDerivAt (fun t => M t a b) ((M t * hat w) a b) t
  unit : u ⬝ᵥ u = 1
  ax : axial (M t) = (2 * Real.sin (angle (M t))) • u
  eq : M t = rodrigues (Real.cos (angle (M t))) (Real.sin (angle (M t))) u

variable {M : ℝ → M3 ℝ} {w u : V3 ℝ} {t : ℝ}

theorem Turns.sin_pos (h : Turns M w u t) : 0 < Real.sin (angle (M t)) := Real.sin_pos_of_pos_of_lt_pi h.pos h.lt

theorem Turns.unit' (h : Turns M w u t) : u 0 * u 0 + u 1 * u 1 + u 2 * u 2 = 1 := by
  have := h.unit
  simpa [dotProduct, Fin.sum_univ_three] using this

theorem Turns.d' (h : Turns M w u t) (a b : Fin 3) : HasDerivAt (fun t => M t a b)
    ((rodrigues (Real.cos (angle (M t))) (Real.sin (angle (M t))) u * hat w) a b) t := by
  have := h.d a b
  rwa [h.eq] at this

theorem Turns.cosOf (h : Turns M w u t) :
    HasDerivAt (fun t => cosOf (M t)) (-(Real.sin (angle (M t)) * (u ⬝ᵥ w))) t := by
  have h3 := ((((h.d' 0 0).add (h.d' 1 1)).add (h.d' 2 2)).sub_const 1).div_const 2
  refine HasDerivAt.congr_deriv (f := fun t => Hpp.Log.cosOf (M t)) h3 ?_
  simp [rodrigues_apply, Matrix.mul_apply, Fin.sum_univ_three, hat, dotProduct]
  ring

theorem Turns.abs_cos (h : Turns M w u t) : Hpp.Log.cosOf (M t) ≠ -1 ∧ Hpp.Log.cosOf (M t) ≠ 1 := by
  have hs := h.sin_pos
  have := Real.sin_sq_add_cos_sq (angle (M t))
  rw [cos_angle h.rot] at this
  constructor <;> intro e <;> rw [e] at this <;> nlinarith

/-- Near `t`, the angle is the arc cosine. -/
theorem Turns.angle_near (h : Turns M w u t) : (fun t => angle (M t)) =ᶠ[𝓝 t] fun t => Real.arccos (Hpp.Log.cosOf (M t)) := by
  have hc := h.cosOf.continuousAt
  have hb := cosOf_bounds h.rot
  have hne := h.abs_cos
  have h1 : ∀ᶠ t' in 𝓝 t, -1 < Hpp.Log.cosOf (M t') := hc.eventually_const_lt (lt_of_le_of_ne hb.1 (Ne.symm hne.1))
  have h2 : ∀ᶠ t' in 𝓝 t, Hpp.Log.cosOf (M t') < 1 := hc.eventually_lt_const (lt_of_le_of_ne hb.2 hne.2)
  filter_upwards [h1, h2] with t' a b
  unfold Hpp.Log.cosOf at a b
  unfold angle Hpp.Log.cosOf
  simp only
  rw [if_neg (by linarith), if_neg (by linarith)]

theorem Turns.angle (h : Turns M w u t) : HasDerivAt (fun t => angle (M t)) (u ⬝ᵥ w) t := by
  refine HasDerivAt.congr_of_eventuallyEq ?_ h.angle_near
  have h1 := (Real.hasDerivAt_arccos h.abs_cos.1 h.abs_cos.2).comp t h.cosOf
  refine h1.congr_deriv ?_
  have hs : Real.sqrt (1 - Hpp.Log.cosOf (M t) ^ 2) = Real.sin (Hpp.Log.angle (M t)) := by
    rw [← cos_angle h.rot, ← Real.sin_sq, Real.sqrt_sq h.sin_pos.le]
  rw [hs]
  have := h.sin_pos
  field_simp

theorem Turns.axial (h : Turns M w u t) : VDeriv (fun t => axial (M t))
    ((1 + Real.cos (Hpp.Log.angle (M t))) • w + Real.sin (Hpp.Log.angle (M t)) • crossProduct u w
      - ((1 - Real.cos (Hpp.Log.angle (M t))) * (u ⬝ᵥ w)) • u) t := by
  have hu := h.unit'
  set c := Real.cos (Hpp.Log.angle (M t))
  set s := Real.sin (Hpp.Log.angle (M t))
  intro i
  fin_cases i
  · refine HasDerivAt.congr_deriv (f := fun t => M t 2 1 - M t 1 2) ((h.d' 2 1).sub (h.d' 1 2)) ?_
    simp [rodrigues_apply, Matrix.mul_apply, Fin.sum_univ_three, hat, dotProduct, cross_apply, vecHead, vecTail]
    linear_combination (1 - c) * w 0 * hu
  · refine HasDerivAt.congr_deriv (f := fun t => M t 0 2 - M t 2 0) ((h.d' 0 2).sub (h.d' 2 0)) ?_
    simp [rodrigues_apply, Matrix.mul_apply, Fin.sum_univ_three, hat, dotProduct, cross_apply, vecHead, vecTail]
    linear_combination (1 - c) * w 1 * hu
  · refine HasDerivAt.congr_deriv (f := fun t => M t 1 0 - M t 0 1) ((h.d' 1 0).sub (h.d' 0 1)) ?_
    simp [rodrigues_apply, Matrix.mul_apply, Fin.sum_univ_three, hat, dotProduct, cross_apply, vecHead, vecTail]
    linear_combination (1 - c) * w 2 * hu

/-- Trigonometry -/
theorem half_angle {th : ℝ} (h : 0 < Real.sin th) :
    Real.sin th / (1 - Real.cos th) = (1 + Real.cos th) / Real.sin th ∧ 0 < 1 - Real.cos th := by
  have hsc := Real.sin_sq_add_cos_sq th
  have h1 : 0 < 1 - Real.cos th := by nlinarith [Real.neg_one_le_cos th, Real.cos_le_one th]
  refine ⟨?_, h1⟩
  rw [div_eq_div_iff h1.ne' h.ne']
  linear_combination hsc

/-- Product of `JlogSO3` by a vector. -/
theorem JlogSO3_mulVec {th : ℝ} (hth : 1e-6 ≤ th) (hs : 0 < Real.sin th) (u w : V3 ℝ) :
    JlogSO3 th (th • u) *ᵥ w = (th * ((1 + Real.cos th) / Real.sin th) / 2) • w + (th / 2) • crossProduct u w
      + ((1 - th * ((1 + Real.cos th) / Real.sin th) / 2) * (u ⬝ᵥ w)) • u := by
  have hth0 : 0 < th := lt_of_lt_of_le (by norm_num) hth
  unfold JlogSO3
  simp only
  rw [if_neg (not_lt.2 hth), (half_angle hs).1]
  generalize (1 + Real.cos th) / Real.sin th = k
  have ha : (1 / (th * th) - k / (2 * th)) * (th * th) = 1 - th * k / 2 := by field_simp
  funext i
  fin_cases i
  · simp [mulVec, dotProduct, Fin.sum_univ_three, cross_apply, vecMulVec_apply, vecHead, vecTail]
    linear_combination (u 0 * u 0 * w 0 + u 0 * u 1 * w 1 + u 0 * u 2 * w 2) * ha
  · simp [mulVec, dotProduct, Fin.sum_univ_three, cross_apply, vecMulVec_apply, vecHead, vecTail]
    linear_combination (u 1 * u 0 * w 0 + u 1 * u 1 * w 1 + u 1 * u 2 * w 2) * ha
  · simp [mulVec, dotProduct, Fin.sum_univ_three, cross_apply, vecMulVec_apply, vecHead, vecTail]
    linear_combination (u 2 * u 0 * w 0 + u 2 * u 1 * w 1 + u 2 * u 2 * w 2) * ha

/-- Derivative of the formula of the logarithm. -/
theorem Turns.formula (h : Turns M w u t) (hth : 1e-6 < Hpp.Log.angle (M t)) :
    VDeriv (fun t => (Hpp.Log.angle (M t) / (2 * Real.sin (Hpp.Log.angle (M t)))) • Hpp.Log.axial (M t))
      (JlogSO3 (Hpp.Log.angle (M t)) (Hpp.Log.angle (M t) • u) *ᵥ w) t := by
  have hs := h.sin_pos
  intro i
  have hg : HasDerivAt (fun t => Hpp.Log.angle (M t) / (2 * Real.sin (Hpp.Log.angle (M t)))) _ t :=
    h.angle.div (h.angle.sin.const_mul 2) (by positivity)
  refine ((hg.mul (h.axial i)).congr_deriv ?_)
  dsimp only
  rw [JlogSO3_mulVec hth.le hs, h.ax]
  have hsc := Real.sin_sq_add_cos_sq (Hpp.Log.angle (M t))
  set th := Hpp.Log.angle (M t)
  simp only [Pi.add_apply, Pi.sub_apply, Pi.smul_apply, smul_eq_mul]
  field_simp
  ring

/-- Derivative of the logarithm, nominal branch. -/
theorem Turns.log_nominal (h : Turns M w u t) (hth : 1e-6 < Hpp.Log.angle (M t))
    (hth' : Hpp.Log.angle (M t) < Real.pi - 1e-2) :
    VDeriv (fun t => logSO3 (M t)) (JlogSO3 (Hpp.Log.angle (M t)) (logSO3 (M t)) *ᵥ w) t := by
  obtain ⟨v, -, hv, hl, -⟩ := logSO3_axis h.rot hth h.lt
  have huv : v = u := by
    have := hv.symm.trans h.ax
    have h2 : (2 * Real.sin (Hpp.Log.angle (M t))) ≠ 0 := by have := h.sin_pos; positivity
    exact smul_right_injective _ h2 this
  rw [hl, huv]
  intro i
  refine HasDerivAt.congr_of_eventuallyEq (h.formula hth i) ?_
  have hc := h.angle.continuousAt
  filter_upwards [hc.eventually_const_lt hth, hc.eventually_lt_const hth'] with t' a b
  unfold logSO3
  simp only
  rw [if_pos b, if_pos a]
  have : Hpp.Log.angle (M t') / Real.sin (Hpp.Log.angle (M t')) / 2
      = Hpp.Log.angle (M t') / (2 * Real.sin (Hpp.Log.angle (M t'))) := by rw [div_div, mul_comm]
  rw [this]
  fin_cases i <;> simp [Hpp.Log.axial]

/-- Derivative of the logarithm, both branches. -/
theorem Turns.log (h : Turns M w u t) (hr : ∀ᶠ t' in 𝓝 t, IsRot (M t')) (hth : 1e-6 < Hpp.Log.angle (M t)) :
    VDeriv (fun t => logSO3 (M t)) (JlogSO3 (Hpp.Log.angle (M t)) (logSO3 (M t)) *ᵥ w) t := by
  obtain ⟨v, -, hv, hl, -⟩ := logSO3_axis h.rot hth h.lt
  have huv : v = u := by
    have := hv.symm.trans h.ax
    have h2 : (2 * Real.sin (Hpp.Log.angle (M t))) ≠ 0 := by have := h.sin_pos; positivity
    exact smul_right_injective _ h2 this
  rw [hl, huv]
  intro i
  refine HasDerivAt.congr_of_eventuallyEq (h.formula hth i) ?_
  have hc := h.angle.continuousAt
  filter_upwards [hr, hc.eventually_const_lt hth, hc.eventually_lt_const h.lt] with t' a b c
  rw [logSO3_eq a b c]

/-- A motion of a rotation whose angle is neither 0 nor `π` -/
theorem turns (hr : IsRot (M t)) (hp : 0 < Hpp.Log.angle (M t)) (hp' : Hpp.Log.angle (M t) < Real.pi)
    (hd : ∀ a b, HasDerivAt (fun t => M t a b) ((M t * hat w) a b) t) : ∃ u, Turns M w u t := by
  obtain ⟨u, hu, ha, hR⟩ := rotation_eq hr hp hp'
  exact ⟨u, hr, hp, hp', hd, hu, ha, hR⟩

end Hpp.Log
