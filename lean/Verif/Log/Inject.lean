import Verif.Log.Props
import Verif.Log.AtId

/-!
# The logarithm of rotations is injective below a half turn (C76)
-/

namespace Hpp.Log

open Matrix Hpp.Sym Hpp.Pose

theorem dot_axial {R : M3 ℝ} (h : IsRot R) : axial R ⬝ᵥ axial R = 4 * (1 - Real.cos (angle R) ^ 2) := by
  rw [dot_three, cos_angle h, ← axial_norm h]
  ring

/-- Squared norm of the logarithm -/
theorem logSO3_norm {R : M3 ℝ} (h : IsRot R) (hp : angle R < Real.pi) :
    logSO3 R ⬝ᵥ logSO3 R = if 1e-6 < angle R then angle R ^ 2 else Real.sin (angle R) ^ 2 := by
  split
  · rename_i h1
    obtain ⟨u, hu, -, hl, -⟩ := logSO3_axis h h1 hp
    rw [hl, smul_dotProduct, dotProduct_smul, hu, smul_eq_mul, smul_eq_mul]
    ring
  · rename_i h1
    rw [logSO3_small (not_lt.1 h1), smul_dotProduct, dotProduct_smul, dot_axial h, Real.sin_sq, smul_eq_mul, smul_eq_mul]
    ring

/-- C76. Two rotations of angle less than π that have the same logarithm are equal, whatever the approximation used for
small angles. -/
theorem C76_injective {R R' : M3 ℝ} (h : IsRot R) (h' : IsRot R') (hp : angle R < Real.pi) (hp' : angle R' < Real.pi)
    (he : logSO3 R = logSO3 R') : R = R' := by
  have hn := logSO3_norm h hp
  have hn' := logSO3_norm h' hp'
  rw [he, hn'] at hn
  have a0 := angle_nonneg h
  have a0' := angle_nonneg h'
  have key : ∀ a b : ℝ, 1e-6 < a → 0 ≤ b → b ≤ 1e-6 → a ^ 2 ≠ Real.sin b ^ 2 := by
    intro a b h1 h2 h3 h4
    have h5 := Real.sin_le h2
    have h6 := Real.sin_nonneg_of_nonneg_of_le_pi h2 (by have := Real.pi_gt_three; norm_num at h3; linarith)
    nlinarith
  by_cases h1 : 1e-6 < angle R <;> by_cases h2 : 1e-6 < angle R'
  · rw [if_pos h1, if_pos h2] at hn
    have e : angle R' = angle R := by
      have := (sq_eq_sq₀ a0' a0).1 hn
      exact this
    obtain ⟨u, -, -, hl, hr⟩ := logSO3_axis h h1 hp
    obtain ⟨u', -, -, hl', hr'⟩ := logSO3_axis h' h2 hp'
    have hu : u = u' := by
      rw [hl, hl', e] at he
      have hne : angle R ≠ 0 := by
        have : (0 : ℝ) < 1e-6 := by norm_num
        linarith
      exact smul_right_injective _ hne he
    rw [hr, hr', e, hu]
  · rw [if_pos h1, if_neg h2] at hn
    exact absurd hn.symm (key _ _ h1 a0' (not_lt.1 h2))
  · rw [if_neg h1, if_pos h2] at hn
    exact absurd hn (key _ _ h2 a0 (not_lt.1 h1))
  · rw [if_neg h1, if_neg h2] at hn
    rw [logSO3_small (not_lt.1 h1), logSO3_small (not_lt.1 h2)] at he
    have hax : axial R = axial R' := smul_right_injective _ (by norm_num) he
    have hpos : ∀ {A : M3 ℝ}, IsRot A → 0 ≤ angle A → ¬ 1e-6 < angle A → 0 < cosOf A := by
      intro A hA h0 h3
      rw [← cos_angle hA]
      refine Real.cos_pos_of_mem_Ioo ⟨?_, ?_⟩
      · have := Real.pi_gt_three; linarith
      · have := Real.pi_gt_three; norm_num at h3; linarith
    have c1 := hpos h a0 h1
    have c2 := hpos h' a0' h2
    have hc : cosOf R = cosOf R' := by
      have e1 := dot_axial h
      have e2 := dot_axial h'
      rw [hax, e2, cos_angle h, cos_angle h'] at e1
      have : cosOf R ^ 2 = cosOf R' ^ 2 := by linarith
      exact (sq_eq_sq₀ c1.le c2.le).1 this
    ext i j
    rw [entries h (by linarith) i j, entries h' (by linarith) i j, hax, hc]

end Hpp.Log
