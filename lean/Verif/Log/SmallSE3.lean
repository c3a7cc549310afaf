import Verif.Log.Small
import Verif.Log.ScrewSmall

/-!
# Jacobian of the logarithm on SE(3) below 1e-6 (C77)
-/

namespace Hpp.Log

open Matrix Hpp.Sym Hpp.Pose Filter Topology

/-- Upper right block of the exact derivative of `logSE3` for rotations of small angle -/
noncomputable def smallX (M : SE3 ℝ) (u : V3 ℝ) : M3 ℝ :=
  let th := angle M.R
  let r := logSO3 M.R
  ((2 : ℝ)⁻¹ • hat M.p + ((r ⬝ᵥ M.p) * betaSE3 th) • (1 : M3 ℝ) + betaSE3 th • vecMulVec r M.p) * axialJ M.R
    + (betaDot th * (r ⬝ᵥ M.p)) • vecMulVec r (th • u) - (th * th * betaDot th + 2 * betaSE3 th) • vecMulVec M.p (th • u)

/-- The exact derivative of `logSE3` for rotations of small angle -/
noncomputable def smallD (M : SE3 ℝ) (u : V3 ℝ) : Matrix (Fin 3 ⊕ Fin 3) (Fin 3 ⊕ Fin 3) ℝ :=
  Matrix.fromBlocks ((alphaSE3 (angle M.R) • 1 - (2 : ℝ)⁻¹ • hat (logSO3 M.R)
    + betaSE3 (angle M.R) • vecMulVec (logSO3 M.R) (logSO3 M.R)) * M.R) (smallX M u) 0 (axialJ M.R)

theorem logSE3_deriv_small {M : ℝ → SE3 ℝ} {v w u : V3 ℝ} {t : ℝ} (hM : SE3.Moves M v w t)
    (hrot : ∀ᶠ t' in 𝓝 t, IsRot (M t').R) (h0 : 0 < angle (M t).R) (h : angle (M t).R < 1e-6)
    (hu : u ⬝ᵥ u = 1) (hax : axial (M t).R = (2 * Real.sin (angle (M t).R)) • u) (i : Fin 3 ⊕ Fin 3) :
    HasDerivAt (fun t => Sum.elim (logSE3 (M t)).1 (logSE3 (M t)).2 i) ((smallD (M t) u *ᵥ Sum.elim v w) i) t := by
  have hpi := Real.pi_gt_three
  have hp' : angle (M t).R < Real.pi := by norm_num at h; linarith
  have hp : angle (M t).R ≠ 1e-2 := by intro e; rw [e] at h; norm_num at h
  have hs : 0 < Real.sin (angle (M t).R) := Real.sin_pos_of_pos_of_lt_pi h0 hp'
  obtain ⟨u', hT⟩ := turns hM.rot h0 hp' hM.R
  have huu : u' = u := smul_right_injective _ (by positivity : (2 * Real.sin (angle (M t).R)) ≠ 0) (hT.ax.symm.trans hax)
  subst huu
  have hl := log_small hrot hM.R h
  set th := angle (M t).R with hth
  set r := logSO3 (M t).R with hr
  set rho := axialJ (M t).R *ᵥ w with hrho
  have hth' := hT.angle
  have hA : HasDerivAt (fun t => alphaSE3 (angle (M t).R)) (-((th * th * betaDot th + 2 * betaSE3 th) * (th * (u' ⬝ᵥ w)))) t := by
    refine ((alpha_deriv h0 hp hp').comp t hth').congr_deriv ?_
    ring
  have hB : HasDerivAt (fun t => betaSE3 (angle (M t).R)) (betaDot th * (th * (u' ⬝ᵥ w))) t := by
    refine ((beta_deriv_ne h0 hp hp').comp t hth').congr_deriv ?_
    ring
  cases i with
  | inr i =>
    refine (hl i).congr_deriv ?_
    simp [smallD, fromBlocks_mulVec, hrho]
  | inl i =>
    have e : ∀ t, Sum.elim (logSE3 (M t)).1 (logSE3 (M t)).2 (Sum.inl i)
        = (alphaSE3 (angle (M t).R) • (M t).p - (2 : ℝ)⁻¹ • crossProduct (logSO3 (M t).R) (M t).p
          + (betaSE3 (angle (M t).R) * (logSO3 (M t).R ⬝ᵥ (M t).p)) • logSO3 (M t).R) i := by
      intro t
      simp only [logSE3, Sum.elim_inl, hat_mulVec]
    simp only [e]
    have hd := ((VDeriv.smul' hA hM.p).sub ((hl.cross hM.p).smul (2 : ℝ)⁻¹)).add
      (VDeriv.smul' (hB.mul (VDeriv.dot hl hM.p)) hl) i
    refine hd.congr_deriv ?_
    have e1 : (smallD (M t) u' *ᵥ Sum.elim v w) (Sum.inl i)
        = ((alphaSE3 th • (1 : M3 ℝ) - (2 : ℝ)⁻¹ • hat r + betaSE3 th • vecMulVec r r) *ᵥ ((M t).R *ᵥ v)
          + (((2 : ℝ)⁻¹ • hat (M t).p + ((r ⬝ᵥ (M t).p) * betaSE3 th) • (1 : M3 ℝ) + betaSE3 th • vecMulVec r (M t).p) *ᵥ rho
            + (betaDot th * (r ⬝ᵥ (M t).p)) • (vecMulVec r (th • u') *ᵥ w)
            - (th * th * betaDot th + 2 * betaSE3 th) • (vecMulVec (M t).p (th • u') *ᵥ w))) i := by
      simp only [smallD, smallX, fromBlocks_mulVec, Sum.elim_inl, Sum.elim_comp_inl, Sum.elim_comp_inr, ← hth, ← hr, hrho,
        mulVec_mulVec, add_mulVec, sub_mulVec, smul_mulVec]
    rw [e1]
    simp only [add_mulVec, sub_mulVec, smul_mulVec, one_mulVec, hat_mulVec, vecMulVec_mulVec]
    rw [← cross_anticomm (M t).p]
    simp only [Pi.add_apply, Pi.sub_apply, Pi.smul_apply, smul_eq_mul, Pi.neg_apply,
      op_smul_eq_smul, smul_dotProduct]
    simp only [dotProduct_comm rho, Pi.mul_apply, ← hth, ← hr]
    ring

/-- C77. Below 1e-6: the logarithm has a derivative along every motion, and each coefficient of `JlogSE3` is within
`1e-6 (1 + 2 P)` of the coefficient of this derivative, where `P` bounds the coordinates of the origin. -/
theorem C77_derivative_small (M : ℝ → SE3 ℝ) (t : ℝ) (hrot : ∀ᶠ t' in 𝓝 t, IsRot (M t').R) (h : angle (M t).R < 1e-6) (P : ℝ)
    (hP : ∀ i, |(M t).p i| ≤ P) :
    ∃ D : Matrix (Fin 3 ⊕ Fin 3) (Fin 3 ⊕ Fin 3) ℝ, (∀ v w : V3 ℝ, SE3.Moves M v w t → ∀ i,
        HasDerivAt (fun t => Sum.elim (logSE3 (M t)).1 (logSE3 (M t)).2 i) ((D *ᵥ Sum.elim v w) i) t) ∧
      ∀ i j, |JlogSE3 (M t) i j - D i j| ≤ 1e-6 * (1 + 2 * P) := by
  have hpi := Real.pi_gt_three
  have hP0 : 0 ≤ P := (abs_nonneg _).trans (hP 0)
  have hR := hrot.self_of_nhds
  rcases (angle_nonneg hR).eq_or_lt with h0 | h0
  · exact ⟨JlogSE3 (M t), fun v w hM i => C77_derivative_identity M v w t hM (rot_angle_zero hR h0.symm) i,
      fun i j => by simp; positivity⟩
  have hp' : angle (M t).R < Real.pi := by norm_num at h; linarith
  obtain ⟨u, hu, hax, -⟩ := rotation_eq hR h0 hp'
  refine ⟨smallD (M t) u, fun v w hM i => logSE3_deriv_small hM hrot h0 h hu hax i, ?_⟩
  have hA := axialJ_near hR h.le
  have hJ : JlogSO3 (angle (M t).R) (logSO3 (M t).R) = 1 := by unfold JlogSO3; rw [if_pos h]
  have hl : logSO3 (M t).R = Real.sin (angle (M t).R) • u := by
    rw [logSO3_small h.le, hax, smul_smul]
    congr 1
    ring
  have hc := fun i => (unit_comp hu i).1
  have hsx := Real.sin_lt h0
  have hs3 := Real.sin_gt_sub_cube h0
  have hs0 : 0 < Real.sin (angle (M t).R) := Real.sin_pos_of_pos_of_lt_pi h0 hp'
  set x := angle (M t).R with hx
  have hβ : betaSE3 x = 1 / 12 + x * x / 720 := by
    unfold betaSE3; rw [if_pos (by rw [abs_of_pos h0]; norm_num at h ⊢; linarith)]
  have hbd : betaDot x = 1 / 360 := by
    unfold betaDot; rw [if_pos (by rw [abs_of_pos h0]; norm_num at h ⊢; linarith)]
  have hx6 : x ≤ 1 / 1000000 := by norm_num at h; linarith
  have hxx : x * x ≤ 1 / 1000000 := by nlinarith
  have hβ1 : 0 ≤ betaSE3 x ∧ betaSE3 x ≤ 1 / 10 := by
    rw [hβ]; constructor
    · positivity
    · linarith
  intro i j
  rcases i with i | i <;> rcases j with j | j
  · simp [JlogSE3, smallD]; positivity
  · set r := logSO3 (M t).R with hr
    have hrb : ∀ i, |r i| ≤ 1 / 1000000 := by
      intro i
      rw [hl, Pi.smul_apply, smul_eq_mul, abs_mul, abs_of_pos hs0]
      calc _ ≤ Real.sin x * 1 := by gcongr; exact hc i
        _ ≤ _ := by linarith
    have hrp : |r ⬝ᵥ (M t).p| ≤ 3 / 1000000 * P := by
      rw [dot_three]
      refine (abs_add_three _ _ _).trans ?_
      rw [abs_mul, abs_mul, abs_mul]
      calc _ ≤ 1 / 1000000 * P + 1 / 1000000 * P + 1 / 1000000 * P := by
            gcongr <;> first | exact hrb _ | exact hP _
        _ = _ := by ring
    have e : JlogSE3 (M t) (.inl i) (.inr j) - smallD (M t) u (.inl i) (.inr j)
        = -(((2 : ℝ)⁻¹ • hat (M t).p + ((r ⬝ᵥ (M t).p) * betaSE3 x) • (1 : M3 ℝ) + betaSE3 x • vecMulVec r (M t).p)
            * (axialJ (M t).R - 1)) i j
          + ((betaDot x * (r ⬝ᵥ (M t).p)) * r i - (x * x * betaDot x + 2 * betaSE3 x) * (M t).p i) * ((r - x • u) j) := by
      simp only [JlogSE3, smallD, smallX, fromBlocks_apply₁₂, ← hx, ← hr, hJ, Matrix.mul_one, Matrix.mul_sub,
        Matrix.add_apply, Matrix.sub_apply, Matrix.smul_apply, smul_eq_mul, vecMulVec_apply, Pi.sub_apply, Pi.smul_apply]
      ring
    rw [e]
    have hG : ∀ a b, |((2 : ℝ)⁻¹ • hat (M t).p + ((r ⬝ᵥ (M t).p) * betaSE3 x) • (1 : M3 ℝ)
        + betaSE3 x • vecMulVec r (M t).p) a b| ≤ (6 / 10) * P := by
      intro a b
      simp only [Matrix.add_apply, Matrix.smul_apply, smul_eq_mul, vecMulVec_apply]
      refine (abs_add_three _ _ _).trans ?_
      rw [abs_mul, abs_mul, abs_mul, abs_mul, abs_mul, abs_of_nonneg hβ1.1]
      have k1 : |hat (M t).p a b| ≤ P := by
        have a0 := hP 0
        have a1 := hP 1
        have a2 := hP 2
        fin_cases a <;> fin_cases b <;> simp [hat] <;> assumption
      have k2 : |(1 : M3 ℝ) a b| ≤ 1 := by rw [Matrix.one_apply]; split <;> simp
      calc _ ≤ |(2 : ℝ)⁻¹| * P + 3 / 1000000 * P * (1 / 10) * 1 + 1 / 10 * (1 / 1000000 * P) := by
            gcongr <;> first | exact hβ1.1 | exact hβ1.2 | exact hrb _ | exact hP _
        _ ≤ _ := by
            rw [abs_of_pos (by norm_num)]
            linarith
    generalize ((2 : ℝ)⁻¹ • hat (M t).p + ((r ⬝ᵥ (M t).p) * betaSE3 x) • (1 : M3 ℝ)
        + betaSE3 x • vecMulVec r (M t).p) = G at hG
    have hfirst : |(G * (axialJ (M t).R - 1)) i j| ≤ 18 / 10000000 * P := by
      rw [Matrix.mul_apply, Fin.sum_univ_three]
      refine (abs_add_three _ _ _).trans ?_
      rw [abs_mul, abs_mul, abs_mul]
      have hA' : ∀ a b, |(axialJ (M t).R - 1) a b| ≤ 1e-6 := fun a b => hA a b
      calc _ ≤ 6 / 10 * P * 1e-6 + 6 / 10 * P * 1e-6 + 6 / 10 * P * 1e-6 := by
            gcongr <;> first | exact hG _ _ | exact hA' _ _
        _ = _ := by ring
    have hlast : |(r - x • u) j| ≤ 1 / 10000000000000000 := by
      rw [hl]
      simp only [Pi.sub_apply, Pi.smul_apply, smul_eq_mul]
      rw [← sub_mul, abs_mul, abs_of_neg (by linarith)]
      have hx3 : x ^ 3 ≤ (1 / 1000000) ^ 3 := by gcongr
      calc _ ≤ -(Real.sin x - x) * 1 := by
            gcongr
            · linarith
            · exact hc j
        _ ≤ _ := by norm_num at hx3 ⊢; linarith
    have hmid : |betaDot x * (r ⬝ᵥ (M t).p) * r i - (x * x * betaDot x + 2 * betaSE3 x) * (M t).p i| ≤ P := by
      refine (abs_sub _ _).trans ?_
      rw [abs_mul, abs_mul, abs_mul, hbd, abs_of_pos (by norm_num : (0 : ℝ) < 1 / 360),
        abs_of_nonneg (by have := hβ1.1; positivity : (0 : ℝ) ≤ x * x * (1 / 360) + 2 * betaSE3 x)]
      calc _ ≤ 1 / 360 * (3 / 1000000 * P) * (1 / 1000000) + (1 / 1000000 * (1 / 360) + 2 * (1 / 10)) * P := by
            gcongr <;> first | exact hβ1.1 | exact hβ1.2 | exact hrb _ | exact hP _
        _ ≤ P := by linarith
    refine (abs_add_le _ _).trans ?_
    rw [abs_neg, abs_mul _ ((r - x • u) j)]
    have hprod : |betaDot x * (r ⬝ᵥ (M t).p) * r i - (x * x * betaDot x + 2 * betaSE3 x) * (M t).p i| * |(r - x • u) j|
        ≤ P * (1 / 10000000000000000) := by gcongr
    norm_num at hprod ⊢
    linarith
  · simp [JlogSE3, smallD]; positivity
  · have := hA i j
    rw [abs_sub_comm] at this
    simp only [JlogSE3, smallD, fromBlocks_apply₂₂, hJ, ← hx]
    refine this.trans ?_
    linarith

/-- The hypotheses are met by a motion at a rotation of angle 5e-7 with an origin away from zero. -/
example : ∃ (M : ℝ → SE3 ℝ) (v w : V3 ℝ), SE3.Moves M v w 5e-7 ∧ (∀ᶠ t' in 𝓝 (5e-7 : ℝ), IsRot (M t').R) ∧
    0 < angle (M 5e-7).R ∧ angle (M 5e-7).R < 1e-6 ∧ (∀ i, |(M 5e-7).p i| ≤ 1) ∧ (M 5e-7).p ≠ 0 ∧ w ≠ 0 := by
  have ha : angle (exTurn 5e-7) = 5e-7 := exTurn_angle (by norm_num) (by norm_num)
  refine ⟨fun t => ⟨exTurn t, fun _ => 1⟩, 0, exAxis, ⟨exTurn_rot _, exTurn_moves _, fun i => by
    simpa using hasDerivAt_const _ _⟩, Eventually.of_forall exTurn_rot, ?_, ?_, fun i => by simp,
    fun h => by simpa using congrFun h 0, fun h => by simpa [exAxis] using congrFun h 2⟩ <;> simp only [ha] <;> norm_num

end Hpp.Log
