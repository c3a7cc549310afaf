import Verif.Stab.Qp
import Verif.Stab.MoeProps

/-!
# The quadratic programs have solutions

The contract of the solver can be met, whatever the number of contacts is.
-/

namespace Hpp.Stab

open Matrix

variable {m k : Nat}

/-- Squared norm of the residual -/
def res2 (A : Matrix (Fin m) (Fin k) ℝ) (b : Fin m → ℝ) (F : Fin k → ℝ) : ℝ := (b + A *ᵥ F) ⬝ᵥ (b + A *ᵥ F)

/-- Least squares -/
theorem ls_minimal {A : Matrix (Fin m) (Fin k) ℝ} {P : Matrix (Fin k) (Fin m) ℝ} (hP : IsPinv A P) (b : Fin m → ℝ)
    (F : Fin k → ℝ) : res2 A b (P *ᵥ -b) ≤ res2 A b F := by
  unfold res2
  have h0 : Aᵀ *ᵥ (b + A *ᵥ (P *ᵥ -b)) = 0 := by
    have h : Aᵀ * (A * P) = Aᵀ := by rw [← hP.symL, ← transpose_mul, hP.apa]
    rw [mulVec_add, mulVec_mulVec, mulVec_mulVec, Matrix.mul_assoc, h, mulVec_neg, add_neg_cancel]
  have hd : b + A *ᵥ F = b + A *ᵥ (P *ᵥ -b) + A *ᵥ (F - P *ᵥ -b) := by
    rw [mulVec_sub]
    abel
  rw [hd]
  generalize F - P *ᵥ -b = d
  generalize b + A *ᵥ (P *ᵥ -b) = y at *
  have hc : y ⬝ᵥ (A *ᵥ d) = 0 := by rw [dotProduct_mulVec, ← mulVec_transpose, h0, zero_dotProduct]
  rw [add_dotProduct y (A *ᵥ d), dotProduct_add, dotProduct_add, hc, dotProduct_comm (A *ᵥ d) y, hc]
  have : 0 ≤ (A *ᵥ d) ⬝ᵥ (A *ᵥ d) := Finset.sum_nonneg fun i _ => mul_self_nonneg _
  linarith

theorem res2_convex (A : Matrix (Fin m) (Fin k) ℝ) (b : Fin m → ℝ) (F F' : Fin k → ℝ) {θ : ℝ} (h0 : 0 ≤ θ) (h1 : θ ≤ 1)
    (h : res2 A b F' ≤ res2 A b F) : res2 A b (F + θ • (F' - F)) ≤ res2 A b F := by
  have key : res2 A b (F + θ • (F' - F)) = (1 - θ) * res2 A b F + θ * res2 A b F' -
      θ * (1 - θ) * ((A *ᵥ (F' - F)) ⬝ᵥ (A *ᵥ (F' - F))) := by
    unfold res2
    have e1 : b + A *ᵥ (F + θ • (F' - F)) = (b + A *ᵥ F) + θ • (A *ᵥ (F' - F)) := by
      rw [mulVec_add, mulVec_smul]
      abel
    have e2 : b + A *ᵥ F' = (b + A *ᵥ F) + A *ᵥ (F' - F) := by
      rw [mulVec_sub]
      abel
    rw [e1, e2]
    generalize b + A *ᵥ F = y
    generalize A *ᵥ (F' - F) = d
    simp only [add_dotProduct, dotProduct_add, smul_dotProduct, dotProduct_smul, smul_eq_mul, dotProduct_comm d y]
    ring
  have hd : 0 ≤ (A *ᵥ (F' - F)) ⬝ᵥ (A *ᵥ (F' - F)) := Finset.sum_nonneg fun i _ => mul_self_nonneg _
  have h2 : 0 ≤ θ * (1 - θ) * ((A *ᵥ (F' - F)) ⬝ᵥ (A *ᵥ (F' - F))) :=
    mul_nonneg (mul_nonneg h0 (by linarith)) hd
  have h3 := mul_le_mul_of_nonneg_left h h0
  rw [key]
  linarith

/-- A point of the segment between a non-negative vector and another one is non-negative with an additional zero. -/
theorem exit_point (S : Finset (Fin k)) (F F' : Fin k → ℝ) (hF : ∀ i, 0 ≤ F i) (hS : ∀ i, i ∉ S → F i = 0)
    (hS' : ∀ i, i ∉ S → F' i = 0) (hneg : ∃ i, F' i < 0) :
    ∃ θ : ℝ, 0 ≤ θ ∧ θ ≤ 1 ∧ (∀ i, 0 ≤ (F + θ • (F' - F)) i) ∧ (∀ i, i ∉ S → (F + θ • (F' - F)) i = 0) ∧
      ∃ i ∈ S, (F + θ • (F' - F)) i = 0 := by
  classical
  have hne : (Finset.univ.filter fun i : Fin k => F' i < 0).Nonempty := by
    obtain ⟨i, hi⟩ := hneg
    exact ⟨i, by simpa using hi⟩
  obtain ⟨i, hi, hmin⟩ := Finset.exists_min_image _ (fun i => F i / (F i - F' i)) hne
  have hi' : F' i < 0 := (Finset.mem_filter.1 hi).2
  have hpos : 0 < F i - F' i := by linarith [hF i]
  have hθ0 : 0 ≤ F i / (F i - F' i) := div_nonneg (hF i) hpos.le
  have hθ1 : F i / (F i - F' i) ≤ 1 := by
    rw [div_le_one hpos]
    linarith
  refine ⟨F i / (F i - F' i), hθ0, hθ1, fun j => ?_, fun j hj => ?_, i, ?_, ?_⟩
  · simp only [Pi.add_apply, Pi.smul_apply, Pi.sub_apply, smul_eq_mul]
    by_cases hj : F' j < 0
    · have h1 := hmin j (by simpa using hj)
      have hposj : 0 < F j - F' j := by linarith [hF j]
      have h2 : F i / (F i - F' i) * (F j - F' j) ≤ F j := (le_div_iff₀ hposj).1 h1
      nlinarith
    · push Not at hj
      have h1 := mul_nonneg hθ0 hj
      have h2 := mul_le_mul_of_nonneg_right hθ1 (hF j)
      nlinarith
  · simp only [Pi.add_apply, Pi.smul_apply, Pi.sub_apply, smul_eq_mul, hS j hj, hS' j hj]
    ring
  · by_contra hc
    rw [hS' i hc] at hi'
    exact lt_irrefl _ hi'
  · simp only [Pi.add_apply, Pi.smul_apply, Pi.sub_apply, smul_eq_mul]
    field_simp
    ring

/-- Non-negative least squares, for vectors with a given support -/
theorem nnls_support (A : Matrix (Fin m) (Fin k) ℝ) (b : Fin m → ℝ) : ∀ (N : Nat) (S : Finset (Fin k)), S.card = N →
    ∃ F : Fin k → ℝ, (∀ i, 0 ≤ F i) ∧ (∀ i, i ∉ S → F i = 0) ∧
      ∀ F' : Fin k → ℝ, (∀ i, 0 ≤ F' i) → (∀ i, i ∉ S → F' i = 0) → res2 A b F ≤ res2 A b F' := by
  classical
  intro N
  induction N with
  | zero =>
    intro S hS
    rw [Finset.card_eq_zero] at hS
    subst hS
    refine ⟨0, fun _ => le_rfl, fun _ _ => rfl, fun F' _ h => ?_⟩
    rw [show F' = 0 from funext fun i => h i (by simp)]
  | succ N ih =>
    intro S hS
    -- unconstrained minimiser with support in `S`
    obtain ⟨s, hs, _, _⟩ := exists_svd (A * diagonal fun i => if i ∈ S then (1 : ℝ) else 0)
    have hP : IsPinv (A * diagonal fun i => if i ∈ S then (1 : ℝ) else 0) s.pinv := by
      obtain ⟨a, b, d, e⟩ := C42_pseudo_inverse _ _ hs
      exact ⟨a, b, d, e⟩
    obtain ⟨U, hU1, hU2⟩ : ∃ U : Fin k → ℝ, (∀ i, i ∉ S → U i = 0) ∧
        ∀ F' : Fin k → ℝ, (∀ i, i ∉ S → F' i = 0) → res2 A b U ≤ res2 A b F' := by
      refine ⟨(diagonal fun i => if i ∈ S then (1 : ℝ) else 0) *ᵥ (s.pinv *ᵥ -b), fun i hi => ?_, fun F' hF' => ?_⟩
      · rw [mulVec_diagonal, if_neg hi, zero_mul]
      · have h1 := ls_minimal hP b F'
        unfold res2 at h1 ⊢
        have h2 : (diagonal fun i => if i ∈ S then (1 : ℝ) else 0) *ᵥ F' = F' := by
          funext i
          rw [mulVec_diagonal]
          split
          · rw [one_mul]
          · next h => rw [hF' i h, mul_zero]
        rw [← mulVec_mulVec, ← mulVec_mulVec, h2] at h1
        exact h1
    by_cases hneg : ∃ i, U i < 0
    · -- best among the smaller supports
      have hne : S.Nonempty := by
        rw [← Finset.card_pos]
        omega
      have hih : ∀ i : Fin k, ∃ F : Fin k → ℝ, i ∈ S → (∀ j, 0 ≤ F j) ∧ (∀ j, j ∉ S.erase i → F j = 0) ∧
          ∀ F' : Fin k → ℝ, (∀ j, 0 ≤ F' j) → (∀ j, j ∉ S.erase i → F' j = 0) → res2 A b F ≤ res2 A b F' := by
        intro i
        by_cases hi : i ∈ S
        · obtain ⟨F, h⟩ := ih (S.erase i) (by rw [Finset.card_erase_of_mem hi]; omega)
          exact ⟨F, fun _ => h⟩
        · exact ⟨0, fun h => absurd h hi⟩
      choose f hf using hih
      obtain ⟨i, hi, hmin⟩ := Finset.exists_min_image S (fun i => res2 A b (f i)) hne
      refine ⟨f i, (hf i hi).1, fun j hj => (hf i hi).2.1 j (fun h => hj (Finset.mem_of_mem_erase h)), fun F' hF0 hFS => ?_⟩
      obtain ⟨θ, t0, t1, e1, e2, j, hj, e3⟩ := exit_point S F' U hF0 hFS hU1 hneg
      have h1 := res2_convex A b F' U t0 t1 (hU2 F' hFS)
      have h2 := (hf j hj).2.2 _ e1 (fun x hx => by
        by_cases hxj : x = j
        · rw [hxj]
          exact e3
        · exact e2 x fun h => hx (Finset.mem_erase.2 ⟨hxj, h⟩))
      exact (hmin j hj).trans (h2.trans h1)
    · push Not at hneg
      exact ⟨U, hneg, hU1, fun F' _ h => hU2 F' h⟩

/-- Objective of the quadratic program -/
theorem res2_obj {nb : Nat} (A : Matrix (Fin (2 * 3)) (Fin nb) ℝ) (F : Fin nb → ℝ) :
    res2 A gravity F = 2 * qpObj (Aᵀ * A) (Aᵀ *ᵥ gravity) F + minusGravity ⬝ᵥ minusGravity := by
  have hg : minusGravity ⬝ᵥ minusGravity = gravity ⬝ᵥ gravity := by
    have : minusGravity = -gravity := by
      funext r
      unfold minusGravity gravity
      rw [Pi.neg_apply]
      split <;> simp
    rw [this, neg_dotProduct_neg]
  unfold res2 qpObj
  rw [hg, ← mulVec_mulVec, dotProduct_mulVec F, ← mulVec_transpose, transpose_transpose, mulVec_transpose, ← dotProduct_mulVec]
  simp only [add_dotProduct, dotProduct_add, dotProduct_comm (A *ᵥ F) gravity]
  ring

theorem exists_qpSolver (nb : Nat) : ∃ solver : QpSolver nb, QpContract solver := by
  classical
  have h : ∀ (H : Matrix (Fin nb) (Fin nb) ℝ) (G : Fin nb → ℝ), ∃ F : Fin nb → ℝ,
      (∃ A : Matrix (Fin (2 * 3)) (Fin nb) ℝ, H = Aᵀ * A ∧ G = Aᵀ *ᵥ gravity) →
        (∀ i, 0 ≤ F i) ∧ ∀ F' : Fin nb → ℝ, (∀ i, 0 ≤ F' i) → qpObj H G F ≤ qpObj H G F' := by
    intro H G
    by_cases h : ∃ A : Matrix (Fin (2 * 3)) (Fin nb) ℝ, H = Aᵀ * A ∧ G = Aᵀ *ᵥ gravity
    · obtain ⟨A, rfl, rfl⟩ := h
      obtain ⟨F, h1, _, h3⟩ := nnls_support A gravity _ Finset.univ rfl
      refine ⟨F, fun _ => ⟨h1, fun F' hF' => ?_⟩⟩
      have := h3 F' hF' (fun i hi => absurd (Finset.mem_univ i) hi)
      rw [res2_obj, res2_obj] at this
      linarith
    · exact ⟨0, fun h' => absurd h' h⟩
  choose f hf using h
  exact ⟨f, fun A => (hf _ _ ⟨A, rfl, rfl⟩).1, fun A => (hf _ _ ⟨A, rfl, rfl⟩).2⟩

theorem exists_svdOf (p c : Nat) : ∃ svdOf : Matrix (Fin (p * 3)) (Fin c) ℝ → Svd ℝ (p * 3) c, SvdContract svdOf := by
  choose f hf using fun A : Matrix (Fin (p * 3)) (Fin c) ℝ => exists_svd A
  exact ⟨f, fun A => (hf A).1, fun A => (hf A).2.1, fun A => (hf A).2.2⟩

end Hpp.Stab
