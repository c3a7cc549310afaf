import Verif.Pose.Props
import Verif.Log.Small

/-!
# Generic transformations whose relative rotation has an angle less than 1e-6 (C52)
-/

namespace Hpp.Pose

open Matrix Hpp.Sym Hpp.Log Filter Topology

variable {n e : Nat}

theorem mul_hat_transpose {R : M3 ℝ} (h : IsRot R) (w : V3 ℝ) : R * hat (Rᵀ *ᵥ w) = hat w * R := by
  refine ext_mulVec fun v => ?_
  rw [← mulVec_mulVec, ← mulVec_mulVec, hat_mulVec, hat_mulVec, ← h.cross, mulVec_mulVec, h.mul_transpose, one_mulVec]

theorem hat_mul_inj {R : M3 ℝ} (h : IsRot R) {w w' : V3 ℝ} (e : ∀ a b, (hat w * R) a b = (hat w' * R) a b) : w = w' := by
  have e1 : hat w * R = hat w' * R := by ext a b; exact e a b
  have e2 := congrArg (· * Rᵀ) e1
  simp only [Matrix.mul_assoc, h.mul_transpose, Matrix.mul_one] at e2
  funext i
  fin_cases i
  · simpa [hat] using congrFun (congrFun e2 2) 1
  · simpa [hat] using congrFun (congrFun e2 0) 2
  · simpa [hat] using congrFun (congrFun e2 1) 0

theorem log_small_left {M : ℝ → M3 ℝ} {w : V3 ℝ} {t : ℝ} (hrot : ∀ t, IsRot (M t))
    (hd : ∀ a b, HasDerivAt (fun t => M t a b) ((hat w * M t) a b) t) (h : angle (M t) < 1e-6) :
    VDeriv (fun t => logSO3 (M t)) (axialJ (M t)ᵀ *ᵥ w) t := by
  have hd' : ∀ a b, HasDerivAt (fun t => M t a b) ((M t * hat ((M t)ᵀ *ᵥ w)) a b) t := by
    intro a b
    rw [mul_hat_transpose (hrot t)]
    exact hd a b
  have he : ∀ i, (fun t => logSO3 (M t) i) =ᶠ[𝓝 t] fun t => (2 : ℝ)⁻¹ * axial (M t) i := by
    intro i
    filter_upwards [angle_eventually_lt (Eventually.of_forall hrot) hd' h] with t' ht'
    rw [logSO3_small ht'.le]
    rfl
  intro i
  refine HasDerivAt.congr_of_eventuallyEq ?_ (he i)
  fin_cases i
  · refine (((hd 2 1).sub (hd 1 2)).const_mul (2 : ℝ)⁻¹).congr_deriv ?_
    simp [hat, axialJ, Matrix.mul_apply, Fin.sum_univ_three, Matrix.mulVec, dotProduct, Matrix.trace]; ring
  · refine (((hd 0 2).sub (hd 2 0)).const_mul (2 : ℝ)⁻¹).congr_deriv ?_
    simp [hat, axialJ, Matrix.mul_apply, Fin.sum_univ_three, Matrix.mulVec, dotProduct, Matrix.trace]; ring
  · refine (((hd 1 0).sub (hd 0 1)).const_mul (2 : ℝ)⁻¹).congr_deriv ?_
    simp [hat, axialJ, Matrix.mul_apply, Fin.sum_univ_three, Matrix.mulVec, dotProduct, Matrix.trace]; ring

theorem axialJ_transpose_near {R : M3 ℝ} (h : IsRot R) (ha : angle R ≤ 1e-6) (w : V3 ℝ) (i : Fin 3) :
    |(axialJ Rᵀ *ᵥ w) i - w i| ≤ 1e-6 * (|w 0| + |w 1| + |w 2|) := by
  have hR : ∀ j, |axialJ Rᵀ i j - (1 : M3 ℝ) i j| ≤ 1e-6 := by
    intro j
    have := axialJ_near h ha j i
    have e : axialJ Rᵀ i j = axialJ R j i := by
      simp [axialJ, Matrix.one_apply, eq_comm]
    have e1 : (1 : M3 ℝ) i j = (1 : M3 ℝ) j i := by simp [Matrix.one_apply, eq_comm]
    rw [e, e1]
    exact this
  have e : (axialJ Rᵀ *ᵥ w) i - w i = (axialJ Rᵀ i 0 - (1 : M3 ℝ) i 0) * w 0 + (axialJ Rᵀ i 1 - (1 : M3 ℝ) i 1) * w 1
      + (axialJ Rᵀ i 2 - (1 : M3 ℝ) i 2) * w 2 := by
    have : w i = ((1 : M3 ℝ) *ᵥ w) i := by rw [one_mulVec]
    rw [this]
    simp only [mulVec, dotProduct, Fin.sum_univ_three]
    ring
  rw [e]
  have b : ∀ j, |(axialJ Rᵀ i j - (1 : M3 ℝ) i j) * w j| ≤ 1e-6 * |w j| := fun j => by
    rw [abs_mul]
    exact mul_le_mul_of_nonneg_right (hR j) (abs_nonneg _)
  have h1 := abs_add_le ((axialJ Rᵀ i 0 - (1 : M3 ℝ) i 0) * w 0 + (axialJ Rᵀ i 1 - (1 : M3 ℝ) i 1) * w 1)
    ((axialJ Rᵀ i 2 - (1 : M3 ℝ) i 2) * w 2)
  have h2 := abs_add_le ((axialJ Rᵀ i 0 - (1 : M3 ℝ) i 0) * w 0) ((axialJ Rᵀ i 1 - (1 : M3 ℝ) i 1) * w 1)
  linarith [b 0, b 1, b 2]

theorem GT.relative_rot {g : GT} (ok : g.Ok) {M : Nat → SE3 ℝ} (h : ∀ j, IsRot (M j).R) : IsRot (g.relative M).R := by
  rw [g.relative_eq h]
  exact IsRot.mul ok.rot1.transpose (IsRot.mul (optM_rot h _).transpose (IsRot.mul (optM_rot h _) ok.rot2))

/-- Below 1e-6 the orientation rows give the angular velocity in the first frame. -/
theorem GT.orientation_small {g : GT} (ok : g.Ok) (h3 : g.ose3 = false) {K : ℝ → Kin n} {qd : Fin n → ℝ} {t : ℝ} (h : KMoves K qd t)
    {Bo : Matrix (Fin 3) (Fin n) ℝ} (hB : g.jorientation (K t) = some Bo) (hlog : angle (g.relative (K t).M).R < 1e-6) {w : V3 ℝ}
    (hw : ∀ a b, HasDerivAt (fun t => (g.relative (K t).M).R a b) ((hat w * (g.relative (K t).M).R) a b) t) : Bo *ᵥ qd = w := by
  have hr := (g.relative_moves ok h).2
  have hrot := g.relative_rot ok (h.rot t)
  refine hat_mul_inj hrot fun a b => ?_
  rw [g.jorientation_eq (K t) qd hB, g.jlogFrom1_log h3 (h.rot t), ← mulVec_mulVec]
  have hJ1 : computeJlog (angle (g.relative (K t).M).R) (logSO3 (g.relative (K t).M).R) = 1 := by
    unfold computeJlog
    rw [if_pos hlog]
  rw [hJ1, one_mulVec, ← mul_hat_transpose hrot]
  exact (hr a b).unique (hw a b)

/-- C52. When the angle of the relative rotation is less than 1e-6: the position rows are the derivatives; the orientation rows
are the components of the angular velocity `w` of the second frame in the first, each within `1e-6 |w|₁` of the derivative of the
component of the value. -/
theorem C52_jacobian_small {g : GT} (ok : g.Ok) (h3 : g.ose3 = false) {quat : M3 ℝ → List ℝ} (hq : ∀ R, (quat R).length = 4)
    {K : ℝ → Kin n} {qd : Fin n → ℝ} {t : ℝ} (h : KMoves K qd t) {C : Rows n} {J J' : Rows2 n e}
    (hJ : g.jacobian (K t) C J = some J') (hlog : angle (g.relative (K t).M).R < 1e-6) {w : V3 ℝ}
    (hw : ∀ a b, HasDerivAt (fun t => (g.relative (K t).M).R a b) ((hat w * (g.relative (K t).M).R) a b) t)
    {k : Nat} (hk : k < g.mask.count true) :
    ∃ d, HasDerivAt (fun t => (g.value quat (K t).M).getD k 0) d t ∧
      |∑ c, J' k (.inl c) * qd c - d| ≤ 1e-6 * (|w 0| + |w 1| + |w 2|) ∧ ∀ c, J' k (.inr c) = 0 := by
  obtain ⟨Bp, Bo, hp, ho, hrows⟩ := g.jacobian_rows ok hJ
  rw [← g.rows_length ok] at hk
  have hi := List.getElem?_eq_getElem hk
  generalize g.rows[k] = i at hi
  obtain ⟨h1, h2⟩ := hrows k i hi
  have hmem : i < g.lPos + g.lOri := by
    have := List.mem_of_getElem? hi
    exact List.mem_range.1 (List.mem_filter.1 this).1
  have hpos0 : 0 ≤ 1e-6 * (|w 0| + |w 1| + |w 2|) := by positivity
  simp only [g.value_rows ok hq (h.rot _) hi, h1]
  by_cases hl : i < g.lPos
  · have hpos : g.pos = true := by
      by_contra hc
      simp [GT.lPos, hc] at hl
    have h3' : i < 3 := by simpa [GT.lPos, hpos] using hl
    have hd := g.deriv_pos ok h (hp hpos) ⟨i, h3'⟩
    simp only [if_pos hl]
    have e1 : ∑ c, blockRow Bp i c * qd c = (Bp *ᵥ qd) ⟨i, h3'⟩ := blockRow_sum Bp qd ⟨i, h3'⟩
    rw [e1]
    refine ⟨(Bp *ᵥ qd) ⟨i, h3'⟩, hd.congr_of_eventuallyEq (Filter.Eventually.of_forall fun t => ?_), by simpa using hpos0, h2⟩
    change (g.full quat (K t).M).getD i 0 = _
    unfold GT.full
    rw [if_pos hpos, getD_append_l (by simpa [list3] using h3')]
    exact list3_getD _ ⟨i, h3'⟩
  · have hori : g.ori = true := by
      by_contra hc
      simp [GT.lOri, hc] at hmem
      omega
    have h3' : i - g.lPos < 3 := by
      have : g.lOri = 3 := by simp [GT.lOri, hori]
      omega
    have hrot : ∀ t, IsRot (g.relative (K t).M).R := fun t => g.relative_rot ok (h.rot t)
    have hd := log_small_left hrot hw hlog ⟨i - g.lPos, h3'⟩
    have hB : Bo *ᵥ qd = w := g.orientation_small ok h3 h (ho hori) hlog hw
    simp only [if_neg hl]
    have e1 : ∑ c, blockRow Bo (i - g.lPos) c * qd c = (Bo *ᵥ qd) ⟨i - g.lPos, h3'⟩ :=
      blockRow_sum Bo qd ⟨i - g.lPos, h3'⟩
    rw [e1, hB]
    refine ⟨(axialJ (g.relative (K t).M).Rᵀ *ᵥ w) ⟨i - g.lPos, h3'⟩,
      hd.congr_of_eventuallyEq (Filter.Eventually.of_forall fun t => ?_), ?_, h2⟩
    · change (g.full quat (K t).M).getD i 0 = _
      have hlen : (if g.pos = true then list3 (g.relative (K t).M).p else []).length = g.lPos := by
        unfold GT.lPos
        split <;> rfl
      unfold GT.full
      rw [getD_append_r (by omega), hlen, if_pos hori, h3]
      exact list3_getD _ ⟨i - g.lPos, h3'⟩
    · rw [abs_sub_comm]
      exact axialJ_transpose_near (hrot t) hlog.le w ⟨i - g.lPos, h3'⟩

/-- Orientation of joint 1 -/
def turnGT : GT where
  rel := false
  pos := false
  ori := true
  ose3 := false
  joint1 := none
  joint2 := some 1
  F1 := ⟨1, 0⟩
  F2 := ⟨1, 0⟩
  mask := [true, true, true]

theorem turnGT_ok : turnGT.Ok := ⟨rfl, .inr rfl, by simp [turnGT], one_isRot, one_isRot⟩

/-- All the joints turn about the vertical axis -/
noncomputable def turnKin (t : ℝ) : Kin 1 := ⟨fun _ => ⟨exTurn t, 0⟩, fun _ => 0, fun _ => !![0; 0; 1]⟩

theorem turnKin_w (t : ℝ) (j : Nat) : (turnKin t).Jw j *ᵥ ![1] = exAxis := by
  funext i
  fin_cases i <;> simp [turnKin, exAxis, mulVec, dotProduct]

theorem turnKin_moves (t : ℝ) : KMoves turnKin ![1] t := by
  refine ⟨fun t _ => exTurn_rot t, fun j => ⟨exTurn_rot t, fun a b => ?_, fun i => ?_⟩⟩
  · rw [turnKin_w]
    exact exTurn_moves t a b
  · simpa [turnKin] using hasDerivAt_const t (0 : ℝ)

theorem turn_relative (t : ℝ) : (turnGT.relative (turnKin t).M).R = exTurn t := by
  simp [GT.relative, GT.frame1, GT.frame2, GT.j1, turnGT, turnKin, SE3.mul, SE3.inv]

/-- C52 is false when the angle of the relative rotation is less than 1e-6 and not zero: orientation of a joint that turns about the
vertical axis, at the angle 5e-7. -/
theorem C52_small_refuted :
    ¬ ∀ (g : GT) (K : ℝ → Kin 1) (qd : Fin 1 → ℝ) (t : ℝ) (C : Rows 1) (J J' : Rows2 1 0) (k : Nat), g.Ok → g.ose3 = false →
      KMoves K qd t → g.jacobian (K t) C J = some J' → angle (g.relative (K t).M).R < Real.pi → k < g.mask.count true →
      HasDerivAt (fun t => (g.value (fun _ => [0, 0, 0, 1]) (K t).M).getD k 0) (∑ c, J' k (.inl c) * qd c) t := by
  intro H
  have ha : angle (exTurn 5e-7) = 5e-7 := exTurn_angle (by norm_num) (by norm_num)
  obtain ⟨J', hJ⟩ := (C52_defined turnGT_ok (turnKin 5e-7) (fun _ _ => 0) (fun _ _ => (0 : ℝ) : Rows2 1 0)).2 (.inr (by simp [turnGT]))
  have h1 := H turnGT turnKin ![1] 5e-7 _ _ J' 2 turnGT_ok rfl (turnKin_moves _) hJ
    (by rw [turn_relative, ha]; linarith [Real.pi_gt_three]) (by decide)
  obtain ⟨Bp, Bo, hp, ho, hrows⟩ := turnGT.jacobian_rows turnGT_ok hJ
  have hi : turnGT.rows[2]? = some 2 := by decide
  obtain ⟨h4, -⟩ := hrows 2 2 hi
  have hw : ∀ a b, HasDerivAt (fun t => (turnGT.relative (turnKin t).M).R a b)
      ((hat exAxis * (turnGT.relative (turnKin 5e-7).M).R) a b) 5e-7 := by
    intro a b
    simp only [turn_relative]
    have e : exTurn 5e-7 * hat exAxis = hat exAxis * exTurn 5e-7 := by
      rw [(exTurn_rot _).mul_hat]
      congr 2
      funext i
      fin_cases i <;> simp [exTurn, rodrigues_apply, exAxis, mulVec, dotProduct, Fin.sum_univ_three]
    rw [← e]
    exact exTurn_moves _ a b
  have hB := turnGT.orientation_small turnGT_ok rfl (turnKin_moves _) (ho rfl) (by rw [turn_relative, ha]; norm_num) hw
  have e1 : ∑ c, J' 2 (.inl c) * ![(1 : ℝ)] c = 1 := by
    have hlt : ¬ 2 < turnGT.lPos := by decide
    simp only [h4, if_neg hlt]
    have := blockRow_sum Bo ![1] 2
    rw [hB] at this
    refine Eq.trans ?_ (this.trans rfl)
    rfl
  rw [e1] at h1
  have h2 := log_small (Eventually.of_forall exTurn_rot) (exTurn_moves 5e-7) (by rw [ha]; norm_num) 2
  have h5 : (fun t => (turnGT.value (fun _ => [0, 0, 0, 1]) (turnKin t).M).getD 2 0) = fun t => logSO3 (exTurn t) 2 := by
    funext t
    rw [turnGT.value_rows turnGT_ok (quat := fun _ => [0, 0, 0, 1]) (fun _ => rfl) ((turnKin_moves t).rot t) hi]
    unfold GT.full
    rw [if_neg (by simp [turnGT]), if_pos (show turnGT.ori = true from rfl), if_neg (by simp [turnGT]), turn_relative]
    exact list3_getD _ 2
  rw [h5] at h1
  have h3 := h1.unique h2
  rw [exTurn_axialJ] at h3
  have h6 : Real.cos 5e-7 < 1 := by
    rw [← Real.cos_zero]
    exact Real.cos_lt_cos_of_nonneg_of_le_pi (le_refl _) (by linarith [Real.pi_gt_three]) (by norm_num)
  linarith

/-- Non-vacuity of `C52_jacobian_small`: the same function and motion -/
example : turnGT.Ok ∧ KMoves turnKin ![1] 5e-7 ∧ angle (turnGT.relative (turnKin 5e-7).M).R < 1e-6 ∧ 2 < turnGT.mask.count true := by
  refine ⟨turnGT_ok, turnKin_moves _, ?_, by decide⟩
  rw [turn_relative, exTurn_angle (by norm_num) (by norm_num)]
  norm_num

end Hpp.Pose
