import Verif.Stab.Pinv
import Mathlib.LinearAlgebra.Matrix.Rank
import Mathlib.LinearAlgebra.Matrix.DotProduct

/-!
# Pseudo-inverses of matrices of constant rank

If the rank of a moving matrix is constant, its pseudo-inverse stays bounded.
-/

namespace Hpp.Stab

open Matrix Filter Topology Asymptotics

variable {m k : Nat}

theorem IsPinv.rank_eq {A : Matrix (Fin m) (Fin k) ℝ} {P : Matrix (Fin k) (Fin m) ℝ} (h : IsPinv A P) : P.rank = A.rank := by
  apply le_antisymm
  · rw [← h.pap]
    exact (rank_mul_le_left _ _).trans (rank_mul_le_right _ _)
  · conv_lhs => rw [← h.apa]
    exact (rank_mul_le_left _ _).trans (rank_mul_le_right _ _)

theorem IsPinv.symm {A : Matrix (Fin m) (Fin k) ℝ} {P : Matrix (Fin k) (Fin m) ℝ} (h : IsPinv A P) : IsPinv P A :=
  ⟨h.pap, h.apa, h.symR, h.symL⟩

/-- The projector on the image does not increase the norm. -/
theorem IsPinv.proj_le {A : Matrix (Fin m) (Fin k) ℝ} {P : Matrix (Fin k) (Fin m) ℝ} (h : IsPinv A P) (x : Fin m → ℝ) :
    ((A * P) *ᵥ x) ⬝ᵥ ((A * P) *ᵥ x) ≤ x ⬝ᵥ x := by
  have e : (A * P) * (A * P) = A * P := by rw [← Matrix.mul_assoc, h.apa]
  have h1 : ((A * P) *ᵥ x) ⬝ᵥ (x - (A * P) *ᵥ x) = 0 := by
    rw [dotProduct_comm, dotProduct_mulVec, ← mulVec_transpose, h.symL, mulVec_sub, mulVec_mulVec, e, sub_self, zero_dotProduct]
  have h2 : x ⬝ᵥ x = ((A * P) *ᵥ x) ⬝ᵥ ((A * P) *ᵥ x) + (x - (A * P) *ᵥ x) ⬝ᵥ (x - (A * P) *ᵥ x) := by
    have h3 : x = (A * P) *ᵥ x + (x - (A * P) *ᵥ x) := by abel
    generalize hy : (A * P) *ᵥ x = y at *
    generalize hz : x - y = z at *
    rw [h3, add_dotProduct, dotProduct_add, dotProduct_add, h1, dotProduct_comm z y, h1]
    ring
  have h4 : 0 ≤ (x - (A * P) *ᵥ x) ⬝ᵥ (x - (A * P) *ᵥ x) := Finset.sum_nonneg fun _ _ => mul_self_nonneg _
  linarith

/-- If `B` is so close to `A` that `P (B - A)` is a contraction by one half and has the same rank, all the images of `B` are
images of vectors `z` whose size is at most twice that of `P` times the image. -/
theorem preimage {A B : Matrix (Fin m) (Fin k) ℝ} {P : Matrix (Fin k) (Fin m) ℝ} (hP : IsPinv A P) (hr : B.rank = A.rank)
    (hc : ∀ z : Fin k → ℝ, ‖(P * (B - A)) *ᵥ z‖ ≤ 1 / 2 * ‖z‖) (x : Fin k → ℝ) :
    ∃ z, B *ᵥ z = B *ᵥ x ∧ ‖z‖ ≤ 2 * ‖P *ᵥ (B *ᵥ x)‖ := by
  have hz : ∀ y : Fin m → ℝ, P *ᵥ y + (P * (B - A)) *ᵥ (P *ᵥ y) = P *ᵥ (B *ᵥ (P *ᵥ y)) := by
    intro y
    simp only [mulVec_mulVec]
    rw [← add_mulVec]
    congr 1
    rw [Matrix.mul_sub, Matrix.sub_mul, hP.pap, Matrix.mul_assoc P B P]
    abel
  have hb : ∀ y : Fin m → ℝ, ‖P *ᵥ y‖ ≤ 2 * ‖P *ᵥ (B *ᵥ (P *ᵥ y))‖ := by
    intro y
    have h1 : P *ᵥ y = P *ᵥ (B *ᵥ (P *ᵥ y)) - (P * (B - A)) *ᵥ (P *ᵥ y) := eq_sub_of_add_eq (hz y)
    have h2 : ‖P *ᵥ y‖ ≤ ‖P *ᵥ (B *ᵥ (P *ᵥ y))‖ + ‖(P * (B - A)) *ᵥ (P *ᵥ y)‖ := by
      conv_lhs => rw [h1]
      exact norm_sub_le _ _
    have := hc (P *ᵥ y)
    linarith
  have hker : LinearMap.ker (B * P).mulVecLin = LinearMap.ker P.mulVecLin := by
    ext y
    simp only [LinearMap.mem_ker, mulVecLin_apply, ← mulVec_mulVec]
    constructor
    · intro h
      have := hb y
      rw [h, mulVec_zero, norm_zero, mul_zero] at this
      exact norm_le_zero_iff.1 this
    · intro h
      rw [h, mulVec_zero]
  have hrank : (B * P).rank = B.rank := by
    have h1 := LinearMap.finrank_range_add_finrank_ker (B * P).mulVecLin
    have h2 := LinearMap.finrank_range_add_finrank_ker P.mulVecLin
    have h3 : P.rank = A.rank := hP.rank_eq
    unfold Matrix.rank at *
    rw [hker] at h1
    omega
  have hle : LinearMap.range (B * P).mulVecLin ≤ LinearMap.range B.mulVecLin := by
    rintro _ ⟨y, rfl⟩
    exact ⟨P *ᵥ y, by simp only [mulVecLin_apply, mulVec_mulVec]⟩
  have heq := Submodule.eq_of_le_of_finrank_eq hle hrank
  have hx : B *ᵥ x ∈ LinearMap.range (B * P).mulVecLin := by
    rw [heq]
    exact ⟨x, rfl⟩
  obtain ⟨y, hy⟩ := hx
  have hy' : B *ᵥ (P *ᵥ y) = B *ᵥ x := by
    rw [mulVec_mulVec]
    exact hy
  exact ⟨P *ᵥ y, hy', by rw [← hy']; exact hb y⟩

theorem entry_le {A B : Matrix (Fin m) (Fin k) ℝ} {P Q : Matrix (Fin k) (Fin m) ℝ} (hP : IsPinv A P) (hQ : IsPinv B Q)
    (hr : B.rank = A.rank) (hc : ∀ z : Fin k → ℝ, ‖(P * (B - A)) *ᵥ z‖ ≤ 1 / 2 * ‖z‖) {C : ℝ}
    (hC : ∀ y : Fin m → ℝ, y ⬝ᵥ y ≤ 1 → ‖P *ᵥ y‖ ≤ C) (i : Fin k) (j : Fin m) : (Q i j) ^ 2 ≤ k * (2 * C) ^ 2 := by
  obtain ⟨z, hz, hn⟩ := preimage hP hr hc (Q *ᵥ Pi.single j 1)
  have hy : (B *ᵥ (Q *ᵥ Pi.single j 1)) ⬝ᵥ (B *ᵥ (Q *ᵥ Pi.single j 1)) ≤ 1 := by
    rw [mulVec_mulVec]
    refine (hQ.proj_le _).trans ?_
    simp
  have hn2 : ‖z‖ ≤ 2 * C := by
    have := hC _ hy
    linarith
  have hproj : (Q * B) *ᵥ z = Q *ᵥ Pi.single j 1 := by
    rw [← mulVec_mulVec, hz]
    simp only [mulVec_mulVec]
    rw [← Matrix.mul_assoc, hQ.pap]
  have h1 : (Q *ᵥ Pi.single j 1) ⬝ᵥ (Q *ᵥ Pi.single j 1) ≤ z ⬝ᵥ z := by
    rw [← hproj]
    exact hQ.symm.proj_le z
  have h2 : (Q i j) ^ 2 ≤ (Q *ᵥ Pi.single j 1) ⬝ᵥ (Q *ᵥ Pi.single j 1) := by
    have : Q i j = (Q *ᵥ Pi.single j 1) i := by simp
    rw [this, sq]
    exact Finset.single_le_sum (f := fun x => (Q *ᵥ Pi.single j 1) x * (Q *ᵥ Pi.single j 1) x)
      (fun x _ => mul_self_nonneg _) (Finset.mem_univ i)
  have h3 : z ⬝ᵥ z ≤ k * (2 * C) ^ 2 := by
    have : ∀ x ∈ Finset.univ, z x * z x ≤ (2 * C) ^ 2 := by
      intro x _
      have h := norm_le_pi_norm z x
      rw [Real.norm_eq_abs] at h
      rw [← sq, ← sq_abs]
      exact pow_le_pow_left₀ (abs_nonneg _) (h.trans hn2) 2
    refine (Finset.sum_le_sum this).trans ?_
    rw [Finset.sum_const, Finset.card_univ, Fintype.card_fin, nsmul_eq_mul]
  linarith

theorem mulVec_norm_le {a b : Nat} (M : Matrix (Fin a) (Fin b) ℝ) {e : ℝ} (he : 0 ≤ e) (h : ∀ i j, |M i j| ≤ e)
    (z : Fin b → ℝ) : ‖M *ᵥ z‖ ≤ b * e * ‖z‖ := by
  rw [pi_norm_le_iff_of_nonneg (by positivity)]
  intro i
  rw [Real.norm_eq_abs]
  simp only [mulVec, dotProduct]
  refine (Finset.abs_sum_le_sum_abs _ _).trans ?_
  have : ∀ x ∈ Finset.univ, |M i x * z x| ≤ e * ‖z‖ := by
    intro x _
    rw [abs_mul]
    have h2 := norm_le_pi_norm z x
    rw [Real.norm_eq_abs] at h2
    exact mul_le_mul (h i x) h2 (abs_nonneg _) he
  refine (Finset.sum_le_sum this).trans ?_
  rw [Finset.sum_const, Finset.card_univ, Fintype.card_fin, nsmul_eq_mul, mul_assoc]

/-- The pseudo-inverse of a continuous matrix of constant rank is bounded. -/
theorem pinv_bounded {A : ℝ → Matrix (Fin m) (Fin k) ℝ} {P : ℝ → Matrix (Fin k) (Fin m) ℝ} {t : ℝ}
    (hP : ∀ s, IsPinv (A s) (P s)) (hA : ∀ i j, ContinuousAt (fun s => A s i j) t)
    (hr : ∀ᶠ s in 𝓝 t, (A s).rank = (A t).rank) : BM t P := by
  -- bound for the pseudo-inverse at `t`
  obtain ⟨c, hc0, hc⟩ : ∃ c : ℝ, 0 ≤ c ∧ ∀ i j, |P t i j| ≤ c := by
    refine ⟨∑ i, ∑ j, |P t i j|, Finset.sum_nonneg fun _ _ => Finset.sum_nonneg fun _ _ => abs_nonneg _, fun i j => ?_⟩
    refine (Finset.single_le_sum (f := fun j => |P t i j|) (fun _ _ => abs_nonneg _) (Finset.mem_univ j)).trans ?_
    exact Finset.single_le_sum (f := fun i => ∑ j, |P t i j|) (fun _ _ => Finset.sum_nonneg fun _ _ => abs_nonneg _)
      (Finset.mem_univ i)
  have hC : ∀ y : Fin m → ℝ, y ⬝ᵥ y ≤ 1 → ‖P t *ᵥ y‖ ≤ m * c := by
    intro y hy
    have h1 : ‖y‖ ≤ 1 := by
      rw [pi_norm_le_iff_of_nonneg zero_le_one]
      intro i
      rw [Real.norm_eq_abs]
      apply abs_le_one_iff_mul_self_le_one.2
      exact (Finset.single_le_sum (f := fun x => y x * y x) (fun x _ => mul_self_nonneg _) (Finset.mem_univ i)).trans hy
    refine (mulVec_norm_le (P t) hc0 hc y).trans ?_
    have : (0 : ℝ) ≤ m * c := by positivity
    exact mul_le_of_le_one_right this h1
  -- contraction
  have hE : ∀ᶠ s in 𝓝 t, ∀ i j, |(P t * (A s - A t) : Matrix (Fin k) (Fin k) ℝ) i j| ≤ 1 / (2 * (k + 1)) := by
    refine eventually_all.2 fun i => eventually_all.2 fun j => ?_
    have h1 : ContinuousAt (fun s => (P t * (A s - A t) : Matrix (Fin k) (Fin k) ℝ) i j) t := by
      simp only [mul_apply, Matrix.sub_apply]
      exact tendsto_finsetSum _ fun x _ => ((hA x j).sub continuousAt_const).const_mul _
    have h2 : (P t * (A t - A t) : Matrix (Fin k) (Fin k) ℝ) i j = 0 := by rw [sub_self, Matrix.mul_zero, Matrix.zero_apply]
    have h3 := h1.abs.tendsto
    rw [h2, abs_zero] at h3
    have h4 : (0 : ℝ) < 1 / (2 * (k + 1)) := by positivity
    exact (h3.eventually_lt_const h4).mono fun s hs => hs.le
  intro i j
  refine IsBigO.of_bound (Real.sqrt (k * (2 * (m * c)) ^ 2)) ?_
  filter_upwards [hr, hE] with s h1 h2
  rw [norm_one, mul_one, Real.norm_eq_abs]
  apply Real.abs_le_sqrt
  refine entry_le (hP t) (hP s) h1 (fun z => ?_) hC i j
  refine (mulVec_norm_le _ (by positivity) h2 z).trans ?_
  have hk : (k : ℝ) * (1 / (2 * (k + 1))) ≤ 1 / 2 := by
    rw [mul_one_div, div_le_div_iff₀ (by positivity) (by norm_num)]
    linarith
  exact mul_le_mul_of_nonneg_right hk (norm_nonneg _)

end Hpp.Stab
