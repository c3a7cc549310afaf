import Verif.Log.AtId

namespace Hpp.Log

open Matrix Hpp.Sym Hpp.Pose Filter Topology

/-! ### Behaviour near zero, inverse of the right Jacobian -/

theorem unit_comp {u : V3 ℝ} (hu : u ⬝ᵥ u = 1) (i : Fin 3) : |u i| ≤ 1 ∧ u i * u i ≤ 1 := by
  rw [dot_three] at hu
  have h : u i * u i ≤ 1 := by
    have q0 := mul_self_nonneg (u 0)
    have q1 := mul_self_nonneg (u 1)
    have q2 := mul_self_nonneg (u 2)
    fin_cases i <;> simp <;> linarith
  exact ⟨abs_le_one_iff_mul_self_le_one.2 h, h⟩

/-- A matrix of the algebra is close to the identity when its coefficients are. -/
theorem lin3_near {u : V3 ℝ} (hu : u ⬝ᵥ u = 1) {a b e : ℝ} (ha : |1 - a| ≤ e) (hb : |b| ≤ e / 2) (i j : Fin 3) :
    |lin3 a b (1 - a) u i j - (1 : M3 ℝ) i j| ≤ e := by
  have he : 0 ≤ e := le_trans (abs_nonneg _) ha
  have hoff : ∀ (x y z : Fin 3) (b' : ℝ), |b'| ≤ e / 2 → x ≠ y → |b' * u z + (1 - a) * (u x * u y)| ≤ e := by
    intro x y z b' hb' hxy
    have h1 := (unit_comp hu z).1
    have h2 : |u x * u y| ≤ 1 / 2 := by
      rw [dot_three] at hu
      rw [abs_le]
      have q0 := mul_self_nonneg (u 0)
      have q1 := mul_self_nonneg (u 1)
      have q2 := mul_self_nonneg (u 2)
      have p1 := mul_self_nonneg (u x + u y)
      have p2 := mul_self_nonneg (u x - u y)
      have p3 : u x * u x + u y * u y ≤ 1 := by
        fin_cases x <;> fin_cases y <;> simp at hxy ⊢ <;> linarith
      constructor <;> nlinarith
    calc |b' * u z + (1 - a) * (u x * u y)| ≤ |b' * u z| + |(1 - a) * (u x * u y)| := abs_add_le _ _
      _ = |b'| * |u z| + |1 - a| * |u x * u y| := by rw [abs_mul, abs_mul]
      _ ≤ e / 2 * 1 + e * (1 / 2) := by gcongr
      _ = e := by ring
  have hdiag : ∀ x : Fin 3, |a + (1 - a) * (u x * u x) - 1| ≤ e := by
    intro x
    have h2 := (unit_comp hu x).2
    have h3 := mul_self_nonneg (u x)
    have : a + (1 - a) * (u x * u x) - 1 = -((1 - a) * (1 - u x * u x)) := by ring
    rw [this, abs_neg, abs_mul, abs_of_nonneg (a := 1 - u x * u x) (by linarith)]
    calc |1 - a| * (1 - u x * u x) ≤ e * 1 := by gcongr; linarith
      _ = e := by ring
  rw [lin3_apply]
  have hb2 : |-b| ≤ e / 2 := by rwa [abs_neg]
  fin_cases i <;> fin_cases j <;> simp only [Fin.zero_eta, Fin.mk_one, Fin.reduceFinMk, of_apply, cons_val', cons_val_zero,
      cons_val_one, cons_val, cons_val_fin_one, Matrix.one_apply_eq, Fin.isValue]
  · exact hdiag 0
  · rw [Matrix.one_apply_ne (by decide), sub_zero]; exact hoff 0 1 2 _ hb2 (by decide)
  · rw [Matrix.one_apply_ne (by decide), sub_zero]; exact hoff 0 2 1 _ hb (by decide)
  · rw [Matrix.one_apply_ne (by decide), sub_zero]; exact hoff 1 0 2 _ hb (by decide)
  · exact hdiag 1
  · rw [Matrix.one_apply_ne (by decide), sub_zero]; exact hoff 1 2 0 _ hb2 (by decide)
  · rw [Matrix.one_apply_ne (by decide), sub_zero]; exact hoff 2 0 1 _ hb2 (by decide)
  · rw [Matrix.one_apply_ne (by decide), sub_zero]; exact hoff 2 1 0 _ hb (by decide)
  · exact hdiag 2

/-- Coefficient of the identity in `JlogSO3` -/
theorem coeff_near {th : ℝ} (h : 0 < th) (h' : th ≤ 1) :
    |1 - th * ((1 + Real.cos th) / Real.sin th) / 2| ≤ th := by
  have hs : 0 < Real.sin th := Real.sin_pos_of_pos_of_le_one h h'
  have h1 := Real.sin_lt h
  have h2 := Real.sin_gt_sub_cube h
  have h3 := Real.one_sub_sq_div_two_le_cos (x := th)
  have h4 := Real.cos_le_one th
  have e : th * ((1 + Real.cos th) / Real.sin th) / 2 = th * (1 + Real.cos th) / (2 * Real.sin th) := by
    field_simp
  rw [e, abs_le]
  constructor
  · have : th * (1 + Real.cos th) / (2 * Real.sin th) ≤ 1 + th := by
      rw [div_le_iff₀ (by positivity)]
      nlinarith [mul_pos h h, mul_pos (mul_pos h h) h]
    linarith
  · have : 1 - th ≤ th * (1 + Real.cos th) / (2 * Real.sin th) := by
      rw [le_div_iff₀ (by positivity)]
      nlinarith [mul_pos h h, mul_pos (mul_pos h h) h]
    linarith

theorem polar {r : V3 ℝ} (h : 0 < norm3 r) : ∃ u : V3 ℝ, u ⬝ᵥ u = 1 ∧ r = norm3 r • u :=
  ⟨(norm3 r)⁻¹ • r, unit_of_norm h, by rw [smul_smul, mul_inv_cancel₀ h.ne', one_smul]⟩

/-- The inverse of the right Jacobian, in closed form -/
theorem inverse_lin3 {th : ℝ} (h : 0 < th) (h' : th < Real.pi) {u : V3 ℝ} (hu : u ⬝ᵥ u = 1) :
    lin3 (th * ((1 + Real.cos th) / Real.sin th) / 2) (th / 2) (1 - th * ((1 + Real.cos th) / Real.sin th) / 2) u
      * rightJacobian (th • u) = 1
    ∧ rightJacobian (th • u) * lin3 (th * ((1 + Real.cos th) / Real.sin th) / 2) (th / 2)
      (1 - th * ((1 + Real.cos th) / Real.sin th) / 2) u = 1 := by
  have hs : 0 < Real.sin th := Real.sin_pos_of_pos_of_lt_pi h h'
  have hsc := Real.sin_sq_add_cos_sq th
  rw [rightJacobian_lin3 h hu, lin3_mul hu, lin3_mul hu, ← lin3_one u]
  have e1 : th * ((1 + Real.cos th) / Real.sin th) / 2 * (Real.sin th / th) = (1 + Real.cos th) / 2 := by field_simp
  have e2 : th * ((1 + Real.cos th) / Real.sin th) / 2 * ((1 - Real.cos th) / th) = Real.sin th / 2 := by
    field_simp; linear_combination -hsc
  have e3 : th / 2 * ((1 - Real.cos th) / th) = (1 - Real.cos th) / 2 := by field_simp
  have e4 : th / 2 * (Real.sin th / th) = Real.sin th / 2 := by field_simp
  constructor
  · congr 1
    · linear_combination e1 + e3
    · linear_combination -e2 + e4
    · linear_combination -e1 - e3
  · congr 1
    · linear_combination e1 + e3
    · linear_combination -e2 + e4
    · linear_combination -e1 - e3

theorem sin_div_bounds {th : ℝ} (h : 0 < th) (h' : th ≤ 1) :
    |1 - Real.sin th / th| ≤ th ∧ |-((1 - Real.cos th) / th)| ≤ th / 2 := by
  have h1 := Real.sin_lt h
  have h2 := Real.sin_gt_sub_cube h
  have h3 := Real.one_sub_sq_div_two_le_cos (x := th)
  have h4 := Real.cos_le_one th
  constructor
  · have : Real.sin th / th ≤ 1 := by rw [div_le_one h]; exact h1.le
    rw [abs_of_nonneg (by linarith)]
    have : 1 - th ≤ Real.sin th / th := by
      rw [le_div_iff₀ h]
      nlinarith [mul_pos h h, mul_pos (mul_pos h h) h]
    linarith
  · rw [abs_neg, abs_of_nonneg (div_nonneg (by linarith) h.le), div_le_iff₀ h]
    nlinarith

end Hpp.Log
