import Verif.Svd.Props
import Mathlib.Analysis.Matrix.Spectrum
import Mathlib.LinearAlgebra.Matrix.DotProduct

/-!
# Existence of singular value decompositions

Every real matrix has a decomposition that meets the contract stated in the model: the hypotheses of the theorems about
decompositions can be met for all matrices.
-/

namespace Hpp

open Matrix WithLp

variable {m k : Nat}

theorem inner_eq_dot {a : Nat} (x y : EuclideanSpace ℝ (Fin a)) : inner ℝ x y = ofLp y ⬝ᵥ ofLp x := by
  rw [EuclideanSpace.inner_eq_star_dotProduct]
  simp

/-- Matrix whose columns are the vectors of an orthonormal basis -/
noncomputable def basisMat {a : Nat} (b : OrthonormalBasis (Fin a) ℝ (EuclideanSpace ℝ (Fin a))) : Matrix (Fin a) (Fin a) ℝ :=
  fun i j => ofLp (b j) i

theorem basisMat_orth {a : Nat} (b : OrthonormalBasis (Fin a) ℝ (EuclideanSpace ℝ (Fin a))) :
    (basisMat b)ᵀ * basisMat b = 1 ∧ basisMat b * (basisMat b)ᵀ = 1 := by
  have h : (basisMat b)ᵀ * basisMat b = 1 := by
    ext i j
    have := orthonormal_iff_ite.1 b.orthonormal j i
    rw [inner_eq_dot] at this
    rw [mul_apply, one_apply]
    have h' : (∑ x, (basisMat b)ᵀ i x * basisMat b x j) = if j = i then 1 else 0 := this
    rw [h']
    simp only [eq_comm]
  exact ⟨h, mul_eq_one_comm.1 h⟩

theorem sum_castLE {r k : Nat} (h : r ≤ k) (f : Fin k → ℝ) (h0 : ∀ i : Fin k, r ≤ i.val → f i = 0) :
    ∑ i, f i = ∑ j : Fin r, f (Fin.castLE h j) := by
  obtain ⟨d, rfl⟩ := Nat.exists_eq_add_of_le h
  rw [Fin.sum_univ_add, Finset.sum_eq_zero (fun i _ => h0 (Fin.natAdd r i) (Nat.le_add_right _ _)), add_zero]
  rfl

/-- Specification of the vector of singular values: non-negative, in decreasing order, zero beyond the rank. -/
structure Svd.Sorted (s : Svd ℝ m k) : Prop where
  nonneg : ∀ i, 0 ≤ s.σ i
  anti : Antitone s.σ
  zero : ∀ i, s.rank ≤ i → s.σ i = 0

theorem exists_svd_sorted (A : Matrix (Fin m) (Fin k) ℝ) :
    ∃ s : Svd ℝ m k, s.Exact A ∧ s.U * s.Uᵀ = 1 ∧ s.V * s.Vᵀ = 1 ∧ s.Sorted := by
  have hH : (Aᵀ * A).IsHermitian := by
    rw [IsHermitian, conjTranspose_eq_transpose_of_trivial, transpose_mul, transpose_transpose]
  have hT := isSymmetric_toEuclideanLin_iff.2 hH
  have hn : Module.finrank ℝ (EuclideanSpace ℝ (Fin k)) = k := finrank_euclideanSpace_fin
  set b := hT.eigenvectorBasis hn with hb
  set lam := hT.eigenvalues hn with hlam
  have hanti : Antitone lam := hT.eigenvalues_antitone hn
  have heig : ∀ i, (Aᵀ * A) *ᵥ ofLp (b i) = lam i • ofLp (b i) := by
    intro i
    have := hT.apply_eigenvectorBasis hn i
    exact congrArg ofLp this
  have horth : ∀ i j, ofLp (b i) ⬝ᵥ ofLp (b j) = if i = j then 1 else 0 := by
    intro i j
    have := orthonormal_iff_ite.1 b.orthonormal j i
    rw [inner_eq_dot] at this
    rw [this]
    simp only [eq_comm]
  have hdot : ∀ i j, (A *ᵥ ofLp (b i)) ⬝ᵥ (A *ᵥ ofLp (b j)) = if i = j then lam j else 0 := by
    intro i j
    rw [dotProduct_mulVec, ← mulVec_transpose, mulVec_mulVec, heig, smul_dotProduct, horth]
    by_cases h : i = j
    · simp [h]
    · simp [h]
  have hnn : ∀ i, 0 ≤ lam i := by
    intro i
    have := hdot i i
    rw [if_pos rfl] at this
    rw [← this]
    exact Finset.sum_nonneg fun _ _ => mul_self_nonneg _
  -- rank
  obtain ⟨r, hrk, hr⟩ : ∃ r, r ≤ k ∧ ∀ i : Fin k, 0 < lam i ↔ i.val < r := by
    by_cases h : ∃ i : Fin k, ¬0 < lam i
    · classical
      obtain ⟨i, hi, hmin⟩ : ∃ i : Fin k, ¬0 < lam i ∧ ∀ j, ¬0 < lam j → i ≤ j := by
        have hne : (Finset.univ.filter fun i : Fin k => ¬0 < lam i).Nonempty := by
          obtain ⟨i, hi⟩ := h
          exact ⟨i, by simpa using hi⟩
        refine ⟨(Finset.univ.filter fun i : Fin k => ¬0 < lam i).min' hne, ?_, fun j hj => ?_⟩
        · have := Finset.min'_mem _ hne
          exact (Finset.mem_filter.1 this).2
        · exact Finset.min'_le _ _ (by simpa using hj)
      refine ⟨i, i.2.le, fun j => ⟨fun hj => ?_, fun hj => ?_⟩⟩
      · by_contra hc
        have : lam j ≤ lam i := hanti (not_lt.1 hc)
        exact hi (lt_of_lt_of_le hj this)
      · by_contra hc
        exact absurd (hmin j hc) (not_le.2 hj)
    · push Not at h
      exact ⟨k, le_rfl, fun i => ⟨fun _ => i.2, fun _ => h i⟩⟩
  have hu : Orthonormal ℝ fun i : Fin r =>
      (toLp 2 ((Real.sqrt (lam (Fin.castLE hrk i)))⁻¹ • (A *ᵥ ofLp (b (Fin.castLE hrk i)))) : EuclideanSpace ℝ (Fin m)) := by
    rw [orthonormal_iff_ite]
    intro i j
    rw [inner_eq_dot]
    simp only [smul_dotProduct, dotProduct_smul, hdot, smul_eq_mul]
    by_cases h : i = j
    · subst h
      have hp := (hr (Fin.castLE hrk i)).2 i.2
      rw [if_pos rfl, if_pos rfl]
      have := Real.mul_self_sqrt hp.le
      have h0 := Real.sqrt_pos.2 hp
      field_simp
      rw [sq, this]
    · rw [if_neg h, if_neg (fun h' => h (Fin.castLE_injective hrk h'.symm)), mul_zero, mul_zero]
  have hrm : r ≤ m := by
    have := hu.linearIndependent.fintype_card_le_finrank
    rwa [Fintype.card_fin, finrank_euclideanSpace_fin] at this
  obtain ⟨c, hc⟩ := Orthonormal.exists_orthonormalBasis_extension_of_card_eq (𝕜 := ℝ) (E := EuclideanSpace ℝ (Fin m))
    (ι := Fin m) (by rw [finrank_euclideanSpace_fin, Fintype.card_fin])
    (v := fun i => if h : i.val < r then
      toLp 2 ((Real.sqrt (lam (Fin.castLE hrk ⟨i, h⟩)))⁻¹ • (A *ᵥ ofLp (b (Fin.castLE hrk ⟨i, h⟩)))) else 0)
    (s := {i | i.val < r}) (by
      have := hu.comp (fun x : {i : Fin m | i.val < r} => (⟨x.1.val, x.2⟩ : Fin r)) (fun x y h => by
        apply Subtype.ext
        apply Fin.ext
        simpa using h)
      have e : Set.domRestrict {i : Fin m | i.val < r} (fun i => if h : i.val < r then
          (toLp 2 ((Real.sqrt (lam (Fin.castLE hrk ⟨i, h⟩)))⁻¹ • (A *ᵥ ofLp (b (Fin.castLE hrk ⟨i, h⟩)))) :
            EuclideanSpace ℝ (Fin m)) else 0) =
          (fun i : Fin r => (toLp 2 ((Real.sqrt (lam (Fin.castLE hrk i)))⁻¹ • (A *ᵥ ofLp (b (Fin.castLE hrk i)))) :
            EuclideanSpace ℝ (Fin m))) ∘ fun x : {i : Fin m | i.val < r} => (⟨x.1.val, x.2⟩ : Fin r) :=
        funext fun x => dif_pos x.2
      rw [e]
      exact this)
  refine ⟨⟨m, k, basisMat c, basisMat b, fun i => if h : i < k then Real.sqrt (lam ⟨i, h⟩) else 0, r, hrm, hrk⟩,
    ⟨(basisMat_orth c).1, (basisMat_orth b).1, fun i hi => ?_, ?_⟩, (basisMat_orth c).2, (basisMat_orth b).2, fun i => ?_,
    fun i j hij => ?_, fun i hi => ?_⟩
  · have hi' : i < r := hi
    have hik : i < k := lt_of_lt_of_le hi' hrk
    change (if h : i < k then Real.sqrt (lam ⟨i, h⟩) else 0) ≠ 0
    rw [dif_pos hik]
    exact (Real.sqrt_pos.2 ((hr ⟨i, hik⟩).2 hi')).ne'
  · ext i j
    have h1 : A i j = ∑ x, (A *ᵥ ofLp (b x)) i * ofLp (b x) j := by
      have h2 : A = A * (basisMat b * (basisMat b)ᵀ) := by rw [(basisMat_orth b).2, Matrix.mul_one]
      have h3 := congrFun (congrFun h2 i) j
      rw [← Matrix.mul_assoc, mul_apply] at h3
      exact h3
    rw [h1, sum_castLE hrk, mul_apply]
    · refine Finset.sum_congr rfl fun x _ => ?_
      have hx : c (Fin.castLE hrm x) =
          toLp 2 ((Real.sqrt (lam (Fin.castLE hrk x)))⁻¹ • (A *ᵥ ofLp (b (Fin.castLE hrk x)))) := by
        rw [hc (Fin.castLE hrm x) x.2]
        exact dif_pos x.2
      have hp := Real.sqrt_pos.2 ((hr (Fin.castLE hrk x)).2 x.2)
      rw [mul_diagonal]
      change _ = ofLp (c (Fin.castLE hrm x)) i * (if h : x.val < k then Real.sqrt (lam ⟨x.val, h⟩) else 0) *
        ofLp (b (Fin.castLE hrk x)) j
      rw [hx, dif_pos (lt_of_lt_of_le x.2 hrk)]
      change _ = (Real.sqrt (lam (Fin.castLE hrk x)))⁻¹ * (A *ᵥ ofLp (b (Fin.castLE hrk x))) i *
        Real.sqrt (lam (Fin.castLE hrk x)) * _
      field_simp
    · intro x hx
      have h0 : lam x = 0 := le_antisymm (not_lt.1 fun h => absurd ((hr x).1 h) (not_lt.2 hx)) (hnn x)
      have h2 := hdot x x
      rw [if_pos rfl, h0] at h2
      rw [dotProduct_self_eq_zero.1 h2]
      exact zero_mul _
  · change 0 ≤ (if h : i < k then Real.sqrt (lam ⟨i, h⟩) else 0)
    split
    · exact Real.sqrt_nonneg _
    · exact le_rfl
  · change (if h : j < k then Real.sqrt (lam ⟨j, h⟩) else 0) ≤ (if h : i < k then Real.sqrt (lam ⟨i, h⟩) else 0)
    by_cases hj : j < k
    · rw [dif_pos hj, dif_pos (lt_of_le_of_lt hij hj)]
      exact Real.sqrt_le_sqrt (hanti (show (⟨i, lt_of_le_of_lt hij hj⟩ : Fin k) ≤ ⟨j, hj⟩ from hij))
    · rw [dif_neg hj]
      split
      · exact Real.sqrt_nonneg _
      · exact le_rfl
  · change r ≤ i at hi
    change (if h : i < k then Real.sqrt (lam ⟨i, h⟩) else 0) = 0
    split
    · rename_i h
      have h0 : lam ⟨i, h⟩ = 0 := le_antisymm (not_lt.1 fun h' => absurd ((hr ⟨i, h⟩).1 h') (not_lt.2 hi)) (hnn _)
      rw [h0, Real.sqrt_zero]
    · rfl

theorem exists_svd (A : Matrix (Fin m) (Fin k) ℝ) :
    ∃ s : Svd ℝ m k, s.Exact A ∧ s.U * s.Uᵀ = 1 ∧ s.V * s.Vᵀ = 1 := by
  obtain ⟨s, h1, h2, h3, -⟩ := exists_svd_sorted A
  exact ⟨s, h1, h2, h3⟩

end Hpp
