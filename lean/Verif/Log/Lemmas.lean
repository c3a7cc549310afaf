import Verif.Log.Model

namespace Hpp.Log

open Matrix Hpp.Sym Hpp.Pose

/-- Antisymmetric part of a matrix as a vector. -/
def axial (R : M3 ℝ) : V3 ℝ := ![R 2 1 - R 1 2, R 0 2 - R 2 0, R 1 0 - R 0 1]

/-- Cosine of the angle. -/
noncomputable def cosOf (R : M3 ℝ) : ℝ := (R 0 0 + R 1 1 + R 2 2 - 1) / 2

theorem adj {R : M3 ℝ} (h : IsRot R) : adjugate R = Rᵀ := by
  have h1 : R * adjugate R = 1 := by rw [mul_adjugate, h.2, one_smul]
  calc adjugate R = Rᵀ * R * adjugate R := by rw [h.1, Matrix.one_mul]
    _ = Rᵀ := by rw [Matrix.mul_assoc, h1, Matrix.mul_one]

/-- Polynomial identities satisfied by a rotation. -/
structure Eqs (R : M3 ℝ) : Prop where
  m00 : R 0 0 = R 1 1 * R 2 2 - R 1 2 * R 2 1
  m11 : R 1 1 = R 0 0 * R 2 2 - R 0 2 * R 2 0
  m22 : R 2 2 = R 0 0 * R 1 1 - R 0 1 * R 1 0
  m01 : R 0 1 = R 1 2 * R 2 0 - R 1 0 * R 2 2
  m02 : R 0 2 = R 1 0 * R 2 1 - R 1 1 * R 2 0
  m10 : R 1 0 = R 0 2 * R 2 1 - R 0 1 * R 2 2
  m12 : R 1 2 = R 0 1 * R 2 0 - R 0 0 * R 2 1
  m20 : R 2 0 = R 0 1 * R 1 2 - R 0 2 * R 1 1
  m21 : R 2 1 = R 0 2 * R 1 0 - R 0 0 * R 1 2
  c00 : R 0 0 ^ 2 + R 1 0 ^ 2 + R 2 0 ^ 2 = 1
  c11 : R 0 1 ^ 2 + R 1 1 ^ 2 + R 2 1 ^ 2 = 1
  c22 : R 0 2 ^ 2 + R 1 2 ^ 2 + R 2 2 ^ 2 = 1
  c01 : R 0 0 * R 0 1 + R 1 0 * R 1 1 + R 2 0 * R 2 1 = 0
  c02 : R 0 0 * R 0 2 + R 1 0 * R 1 2 + R 2 0 * R 2 2 = 0
  c12 : R 0 1 * R 0 2 + R 1 1 * R 1 2 + R 2 1 * R 2 2 = 0
  r00 : R 0 0 ^ 2 + R 0 1 ^ 2 + R 0 2 ^ 2 = 1
  r11 : R 1 0 ^ 2 + R 1 1 ^ 2 + R 1 2 ^ 2 = 1
  r22 : R 2 0 ^ 2 + R 2 1 ^ 2 + R 2 2 ^ 2 = 1
  r01 : R 0 0 * R 1 0 + R 0 1 * R 1 1 + R 0 2 * R 1 2 = 0
  r02 : R 0 0 * R 2 0 + R 0 1 * R 2 1 + R 0 2 * R 2 2 = 0
  r12 : R 1 0 * R 2 0 + R 1 1 * R 2 1 + R 1 2 * R 2 2 = 0

theorem eqs {R : M3 ℝ} (h : IsRot R) : Eqs R := by
  have ha := adj h
  rw [adjugate_fin_three] at ha
  have A : ∀ i j, _ := fun i j => congrFun (congrFun ha i) j
  have C : ∀ i j, _ := fun i j => congrFun (congrFun h.1 i) j
  have D : ∀ i j, _ := fun i j => congrFun (congrFun h.mul_transpose i) j
  simp only [Matrix.mul_apply, transpose_apply, Fin.sum_univ_three] at A C D
  constructor
  · simpa using (A 0 0).symm
  · simpa using (A 1 1).symm
  · simpa using (A 2 2).symm
  · have := A 1 0; simp at this; linarith
  · have := A 2 0; simp at this; linarith
  · have := A 0 1; simp at this; linarith
  · have := A 2 1; simp at this; linarith
  · have := A 0 2; simp at this; linarith
  · have := A 1 2; simp at this; linarith
  · have := C 0 0; simp at this; linarith
  · have := C 1 1; simp at this; linarith
  · have := C 2 2; simp at this; linarith
  · have := C 0 1; simp at this; linarith
  · have := C 0 2; simp at this; linarith
  · have := C 1 2; simp at this; linarith
  · have := D 0 0; simp at this; linarith
  · have := D 1 1; simp at this; linarith
  · have := D 2 2; simp at this; linarith
  · have := D 0 1; simp at this; linarith
  · have := D 0 2; simp at this; linarith
  · have := D 1 2; simp at this; linarith

/-- `(1 + tr R)(R + Rᵀ - (tr R - 1) I) = a aᵀ` -/
theorem axial_sq {R : M3 ℝ} (h : IsRot R) (i j : Fin 3) :
    (2 + 2 * cosOf R) * (R i j + R j i - (if i = j then 2 * cosOf R else 0)) = axial R i * axial R j := by
  have e := eqs h
  obtain ⟨m00, m11, m22, m01, m02, m10, m12, m20, m21, c00, c11, c22, c01, c02, c12, r00, r11, r22, r01, r02, r12⟩ := e
  fin_cases i <;> fin_cases j <;> simp [cosOf, axial]
  · linear_combination 2 * m00 + c00 - r11 - r22
  · linear_combination m01 + m10 + c01 + r01
  · linear_combination m02 + m20 + c02 + r02
  · linear_combination m01 + m10 + c01 + r01
  · linear_combination 2 * m11 + c11 - r00 - r22
  · linear_combination m12 + m21 + c12 + r12
  · linear_combination m02 + m20 + c02 + r02
  · linear_combination m12 + m21 + c12 + r12
  · linear_combination 2 * m22 + c22 - r00 - r11

theorem axial_norm {R : M3 ℝ} (h : IsRot R) :
    axial R 0 ^ 2 + axial R 1 ^ 2 + axial R 2 ^ 2 = 4 * (1 - cosOf R ^ 2) := by
  have h0 := axial_sq h 0 0
  have h1 := axial_sq h 1 1
  have h2 := axial_sq h 2 2
  simp only [if_true] at h0 h1 h2
  have hc : R 0 0 + R 1 1 + R 2 2 = 2 * cosOf R + 1 := by unfold cosOf; ring
  linear_combination -h0 - h1 - h2 + (2 + 2 * cosOf R) * 2 * hc

theorem cosOf_bounds {R : M3 ℝ} (h : IsRot R) : -1 ≤ cosOf R ∧ cosOf R ≤ 1 := by
  have := axial_norm h
  constructor <;> nlinarith [sq_nonneg (axial R 0), sq_nonneg (axial R 1), sq_nonneg (axial R 2)]

theorem angle_eq {R : M3 ℝ} (h : IsRot R) : angle R = Real.arccos (cosOf R) := by
  have := cosOf_bounds h
  simp only [cosOf] at this
  unfold angle cosOf
  simp only
  rw [if_neg (by linarith), if_neg (by linarith)]

theorem cos_angle {R : M3 ℝ} (h : IsRot R) : Real.cos (angle R) = cosOf R := by
  rw [angle_eq h, Real.cos_arccos (cosOf_bounds h).1 (cosOf_bounds h).2]

theorem angle_nonneg {R : M3 ℝ} (h : IsRot R) : 0 ≤ angle R := by
  rw [angle_eq h]; exact Real.arccos_nonneg _

theorem angle_le_pi {R : M3 ℝ} (h : IsRot R) : angle R ≤ Real.pi := by
  rw [angle_eq h]; exact Real.arccos_le_pi _

/-- The matrix is given by its angle and antisymmetric part. -/
theorem entries {R : M3 ℝ} (h : IsRot R) (hc : cosOf R ≠ -1) (i j : Fin 3) :
    R i j = (if i = j then cosOf R else 0) + hat (axial R) i j / 2 + axial R i * axial R j / (4 * (1 + cosOf R)) := by
  have hc' : 1 + cosOf R ≠ 0 := fun e => hc (by linarith)
  have e := axial_sq h i j
  rw [← e]
  have hs : hat (axial R) i j = R i j - R j i := by
    fin_cases i <;> fin_cases j <;> simp [hat, axial]
  rw [hs]
  have h2 : (2 + 2 * cosOf R) / (4 * (1 + cosOf R)) = 1 / 2 := by field_simp; ring
  rw [show (2 + 2 * cosOf R) * (R i j + R j i - (if i = j then 2 * cosOf R else 0)) / (4 * (1 + cosOf R))
    = (R i j + R j i - (if i = j then 2 * cosOf R else 0)) * ((2 + 2 * cosOf R) / (4 * (1 + cosOf R))) by ring, h2]
  split <;> ring

/-- Rodrigues' formula -/
noncomputable def rodrigues (c s : ℝ) (u : V3 ℝ) : M3 ℝ := c • 1 + s • hat u + (1 - c) • vecMulVec u u

theorem rotation_eq {R : M3 ℝ} (h : IsRot R) (hp : 0 < angle R) (hp' : angle R < Real.pi) :
    ∃ u : V3 ℝ, u ⬝ᵥ u = 1 ∧ axial R = (2 * Real.sin (angle R)) • u ∧
      R = rodrigues (Real.cos (angle R)) (Real.sin (angle R)) u := by
  have hs : 0 < Real.sin (angle R) := Real.sin_pos_of_pos_of_lt_pi hp hp'
  have hc := cos_angle h
  have hsc := Real.sin_sq_add_cos_sq (angle R)
  have hcne : cosOf R ≠ -1 := by
    intro e
    rw [hc, e] at hsc
    nlinarith
  have hc1 : 1 + cosOf R ≠ 0 := fun e => hcne (by linarith)
  set s := Real.sin (angle R) with hsd
  refine ⟨(2 * s)⁻¹ • axial R, ?_, ?_, ?_⟩
  · have hn := axial_norm h
    simp only [dotProduct, Fin.sum_univ_three, Pi.smul_apply, smul_eq_mul]
    field_simp
    rw [hc] at hsc
    linear_combination hn - 4 * hsc
  · rw [smul_smul, mul_inv_cancel₀ (by positivity), one_smul]
  · ext i j
    rw [entries h hcne i j, hc]
    have hh : hat ((2 * s)⁻¹ • axial R) i j = (2 * s)⁻¹ * hat (axial R) i j := by
      fin_cases i <;> fin_cases j <;> simp [hat]
    simp only [rodrigues, Matrix.add_apply, Matrix.smul_apply, smul_eq_mul, hh, vecMulVec_apply, Pi.smul_apply, Matrix.one_apply]
    rw [hc] at hsc
    have e1 : s * ((2 * s)⁻¹ * hat (axial R) i j) = hat (axial R) i j / 2 := by field_simp
    have e2 : (1 - cosOf R) * ((2 * s)⁻¹ * axial R i * ((2 * s)⁻¹ * axial R j))
        = axial R i * axial R j / (4 * (1 + cosOf R)) := by
      have : (1 - cosOf R) * (1 + cosOf R) = s ^ 2 := by linear_combination -hsc
      field_simp
      linear_combination 4 * axial R i * axial R j * this
    rw [e1, e2]
    split <;> simp

/-- Both branches of the logarithm compute the same thing. -/
theorem logSO3_eq {R : M3 ℝ} (h : IsRot R) (hp : 1e-6 < angle R) (hp' : angle R < Real.pi) :
    logSO3 R = (angle R / (2 * Real.sin (angle R))) • axial R := by
  have hp0 : 0 < angle R := lt_trans (by norm_num) hp
  have hs : 0 < Real.sin (angle R) := Real.sin_pos_of_pos_of_lt_pi hp0 hp'
  unfold logSO3
  simp only
  split
  · have : angle R / Real.sin (angle R) / 2 = angle R / (2 * Real.sin (angle R)) := by field_simp
    rw [this]
    funext i
    fin_cases i <;> simp [axial]
  · obtain ⟨u, hu, ha, hR⟩ := rotation_eq h hp0 hp'
    set th := angle R with hth
    have hphi : Real.cos (th - Real.pi) = -Real.cos th := Real.cos_sub_pi th
    have hsc := Real.sin_sq_add_cos_sq th
    have hc1 : 0 < 1 - Real.cos th := by nlinarith [Real.neg_one_le_cos th, Real.cos_le_one th]
    rw [hphi]
    have key : ∀ (x : ℝ) (Rii : ℝ), Rii = Real.cos th + (1 - Real.cos th) * (x * x) →
        (if 0 < (Rii + -Real.cos th) * (th * th / (1 + -Real.cos th)) then
          Real.sqrt ((Rii + -Real.cos th) * (th * th / (1 + -Real.cos th))) else 0) = th * |x| := by
      intro x Rii e
      have e' : (Rii + -Real.cos th) * (th * th / (1 + -Real.cos th)) = (th * x) ^ 2 := by
        rw [e, ← sub_eq_add_neg, ← sub_eq_add_neg]
        field_simp
        ring
      rw [e', Real.sqrt_sq_eq_abs, abs_mul, abs_of_pos hp0]
      split
      · rfl
      · rename_i hn
        have : (th * x) ^ 2 = 0 := le_antisymm (not_lt.1 hn) (sq_nonneg _)
        have hx : x = 0 := by
          have := pow_eq_zero_iff (two_ne_zero) |>.1 this
          rcases mul_eq_zero.1 this with h0 | h0
          · exact absurd h0 hp0.ne'
          · exact h0
        simp [hx]
    have sgn : ∀ (x a b : ℝ), a - b = 2 * Real.sin th * x → (if b < a then (1 : ℝ) else -1) * (th * |x|) = th * x := by
      intro x a b e
      split
      · rename_i hl
        have : 0 < x := by
          by_contra hx
          nlinarith [not_lt.1 hx]
        rw [abs_of_pos this]; ring
      · rename_i hl
        have : x ≤ 0 := by
          by_contra hx
          have := not_le.1 hx
          have : 0 < 2 * Real.sin th * x := by positivity
          linarith [not_lt.1 hl]
        rw [abs_of_nonpos this]; ring
    have a0 := congrFun ha 0
    have a1 := congrFun ha 1
    have a2 := congrFun ha 2
    simp [axial] at a0 a1 a2
    have d : ∀ i, R i i = Real.cos th + (1 - Real.cos th) * (u i * u i) := by
      intro i
      conv_lhs => rw [hR]
      simp only [rodrigues, Matrix.add_apply, Matrix.smul_apply, smul_eq_mul, vecMulVec_apply, Matrix.one_apply_eq]
      have : hat u i i = 0 := by fin_cases i <;> simp [hat]
      rw [this]; ring
    rw [key (u 0) _ (d 0), key (u 1) _ (d 1), key (u 2) _ (d 2), sgn _ _ _ a0, sgn _ _ _ a1, sgn _ _ _ a2, ha, smul_smul]
    have : th / (2 * Real.sin th) * (2 * Real.sin th) = th := by field_simp
    rw [this]
    funext i
    fin_cases i <;> simp

/-- Logarithm: angle times axis. -/
theorem logSO3_axis {R : M3 ℝ} (h : IsRot R) (hp : 1e-6 < angle R) (hp' : angle R < Real.pi) :
    ∃ u : V3 ℝ, u ⬝ᵥ u = 1 ∧ axial R = (2 * Real.sin (angle R)) • u ∧ logSO3 R = angle R • u ∧
      R = rodrigues (Real.cos (angle R)) (Real.sin (angle R)) u := by
  have hp0 : 0 < angle R := lt_trans (by norm_num) hp
  have hs : 0 < Real.sin (angle R) := Real.sin_pos_of_pos_of_lt_pi hp0 hp'
  obtain ⟨u, hu, ha, hR⟩ := rotation_eq h hp0 hp'
  refine ⟨u, hu, ha, ?_, hR⟩
  rw [logSO3_eq h hp hp', ha, smul_smul]
  congr 1
  field_simp

end Hpp.Log
