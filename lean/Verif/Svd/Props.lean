import Verif.Svd.Model
import Mathlib.Tactic.Ring
import Mathlib.Tactic.Abel
import Mathlib.Tactic.FieldSimp
import Mathlib.Tactic.NormNum
import Mathlib.Data.Matrix.Reflection

/-!
# Pseudo-inverse and projectors: C42
-/

namespace Hpp

open Matrix

variable {α : Type} [Field α] {m n : Nat}

/-- The decomposition of `A` is exact: orthonormal columns, and `A` is the sum of the first terms (the values not
counted in the rank are zero, or `A` stands for the matrix where they are replaced by zero). -/
structure Svd.Exact (s : Svd α m n) (A : Matrix (Fin m) (Fin n) α) : Prop where
  orthU : s.Uᵀ * s.U = 1
  orthV : s.Vᵀ * s.V = 1
  pos : ∀ i, i < s.rank → s.σ i ≠ 0
  eq : A = s.U1 * diagonal (fun i : Fin s.rank => s.σ i) * s.V1ᵀ

theorem leftCols_orth {p c : Nat} (M : Matrix (Fin p) (Fin c) α) (h : Mᵀ * M = 1) (r : Nat) (hr : r ≤ c) :
    (leftCols M r hr)ᵀ * leftCols M r hr = 1 := by
  ext i j
  have := congrFun (congrFun h (Fin.castLE hr i)) (Fin.castLE hr j)
  rw [mul_apply] at this ⊢
  rw [show (∑ x, (leftCols M r hr)ᵀ i x * leftCols M r hr x j) =
    ∑ x, Mᵀ (Fin.castLE hr i) x * M x (Fin.castLE hr j) from rfl, this, one_apply, one_apply]
  simp

theorem split_cols {p c : Nat} (M : Matrix (Fin p) (Fin c) α) (r : Nat) (hr : r ≤ c) :
    leftCols M r hr * (leftCols M r hr)ᵀ + rightCols M r hr * (rightCols M r hr)ᵀ = M * Mᵀ := by
  obtain ⟨d, rfl⟩ := Nat.exists_eq_add_of_le hr
  ext i j
  rw [add_apply, mul_apply, mul_apply, mul_apply, Fin.sum_univ_add]
  congr 1
  have e : r + d - r = d := by omega
  exact Fintype.sum_equiv (finCongr e) _ _ fun x => rfl

namespace Svd.Exact

variable {s : Svd α m n} {A : Matrix (Fin m) (Fin n) α} (h : s.Exact A)
include h

theorem u1 : s.U1ᵀ * s.U1 = 1 := leftCols_orth s.U h.orthU _ _
theorem v1 : s.V1ᵀ * s.V1 = 1 := leftCols_orth s.V h.orthV _ _

theorem dd : diagonal (fun i : Fin s.rank => s.σ i) * diagonal (fun i : Fin s.rank => (s.σ i)⁻¹) = 1 := by
  rw [diagonal_mul_diagonal, ← diagonal_one]
  congr 1
  funext i
  exact mul_inv_cancel₀ (h.pos i i.isLt)

theorem dd' : diagonal (fun i : Fin s.rank => (s.σ i)⁻¹) * diagonal (fun i : Fin s.rank => s.σ i) = 1 := by
  rw [diagonal_mul_diagonal, ← diagonal_one]
  congr 1
  funext i
  exact inv_mul_cancel₀ (h.pos i i.isLt)

theorem a_pinv : A * s.pinv = s.U1 * s.U1ᵀ := by
  unfold Svd.pinv
  rw [h.eq]
  calc _ = s.U1 * (diagonal (fun i : Fin s.rank => s.σ i) * (s.V1ᵀ * s.V1) *
        diagonal (fun i : Fin s.rank => (s.σ i)⁻¹)) * s.U1ᵀ := by simp only [Matrix.mul_assoc]
    _ = _ := by rw [h.v1, Matrix.mul_one, h.dd, Matrix.mul_one]

theorem pinv_a : s.pinv * A = s.V1 * s.V1ᵀ := by
  unfold Svd.pinv
  rw [h.eq]
  calc _ = s.V1 * (diagonal (fun i : Fin s.rank => (s.σ i)⁻¹) * (s.U1ᵀ * s.U1) *
        diagonal (fun i : Fin s.rank => s.σ i)) * s.V1ᵀ := by simp only [Matrix.mul_assoc]
    _ = _ := by rw [h.u1, Matrix.mul_one, h.dd', Matrix.mul_one]

theorem a_span : A * (s.V1 * s.V1ᵀ) = A := by
  rw [h.eq]
  calc _ = s.U1 * diagonal (fun i : Fin s.rank => s.σ i) * (s.V1ᵀ * s.V1) * s.V1ᵀ := by
        simp only [Matrix.mul_assoc]
    _ = _ := by rw [h.v1, Matrix.mul_one]

theorem span_a : (s.U1 * s.U1ᵀ) * A = A := by
  rw [h.eq]
  calc _ = s.U1 * (s.U1ᵀ * s.U1) * diagonal (fun i : Fin s.rank => s.σ i) * s.V1ᵀ := by
        simp only [Matrix.mul_assoc]
    _ = _ := by rw [h.u1, Matrix.mul_one]

theorem vv : (s.V1 * s.V1ᵀ) * (s.V1 * s.V1ᵀ) = s.V1 * s.V1ᵀ := by
  calc _ = s.V1 * (s.V1ᵀ * s.V1) * s.V1ᵀ := by simp only [Matrix.mul_assoc]
    _ = _ := by rw [h.v1, Matrix.mul_one]

theorem uu : (s.U1 * s.U1ᵀ) * (s.U1 * s.U1ᵀ) = s.U1 * s.U1ᵀ := by
  calc _ = s.U1 * (s.U1ᵀ * s.U1) * s.U1ᵀ := by simp only [Matrix.mul_assoc]
    _ = _ := by rw [h.u1, Matrix.mul_one]

end Svd.Exact

/-- C42. `pseudoInverse` satisfies the four identities of Penrose, which determine the pseudo-inverse. -/
theorem C42_pseudo_inverse (s : Svd α m n) (A : Matrix (Fin m) (Fin n) α) (h : s.Exact A) :
    A * s.pinv * A = A ∧ s.pinv * A * s.pinv = s.pinv ∧ (A * s.pinv)ᵀ = A * s.pinv ∧
    (s.pinv * A)ᵀ = s.pinv * A := by
  refine ⟨?_, ?_, ?_, ?_⟩
  · rw [h.a_pinv, h.span_a]
  · rw [h.pinv_a]
    unfold Svd.pinv
    calc _ = s.V1 * (s.V1ᵀ * s.V1) * diagonal (fun i : Fin s.rank => (s.σ i)⁻¹) * s.U1ᵀ := by
          simp only [Matrix.mul_assoc]
      _ = _ := by rw [h.v1, Matrix.mul_one]
  · rw [h.a_pinv, transpose_mul, transpose_transpose]
  · rw [h.pinv_a, transpose_mul, transpose_transpose]

/-- C42. The Penrose identities have at most one solution: the result does not depend on the decomposition. -/
theorem C42_pseudo_inverse_unique (s s' : Svd α m n) (A : Matrix (Fin m) (Fin n) α) (h : s.Exact A)
    (h' : s'.Exact A) : s.pinv = s'.pinv := by
  obtain ⟨a1, a2, a3, a4⟩ := C42_pseudo_inverse s A h
  obtain ⟨b1, b2, b3, b4⟩ := C42_pseudo_inverse s' A h'
  generalize s.pinv = P at *
  generalize s'.pinv = Q at *
  have e1 : A * P = A * Q := by
    calc A * P = (A * P)ᵀ := a3.symm
      _ = (A * Q * A * P)ᵀ := by rw [b1]
      _ = (A * P)ᵀ * (A * Q)ᵀ := by rw [Matrix.mul_assoc (A * Q), transpose_mul]
      _ = A * P * A * Q := by rw [a3, b3]; simp only [Matrix.mul_assoc]
      _ = A * Q := by rw [a1]
  have e2 : P * A = Q * A := by
    calc P * A = (P * A)ᵀ := a4.symm
      _ = (P * (A * Q * A))ᵀ := by rw [b1]
      _ = (P * A * (Q * A))ᵀ := by simp only [Matrix.mul_assoc]
      _ = (Q * A)ᵀ * (P * A)ᵀ := by rw [transpose_mul]
      _ = Q * (A * P * A) := by rw [a4, b4]; simp only [Matrix.mul_assoc]
      _ = Q * A := by rw [a1]
  calc P = P * A * P := a2.symm
    _ = P * (A * P) := by rw [Matrix.mul_assoc]
    _ = P * (A * Q) := by rw [e1]
    _ = P * A * Q := by rw [Matrix.mul_assoc]
    _ = Q * A * Q := by rw [e2]
    _ = Q := b2

/-- C42. `projectorOnSpan` is the orthogonal projector on the span of the rows of `A`. -/
theorem C42_span (s : Svd α m n) (A : Matrix (Fin m) (Fin n) α) (h : s.Exact A) :
    s.onSpanᵀ = s.onSpan ∧ s.onSpan * s.onSpan = s.onSpan ∧
    ∀ x, s.onSpan *ᵥ x = x ↔ ∃ y, x = Aᵀ *ᵥ y := by
  refine ⟨by unfold Svd.onSpan; rw [transpose_mul, transpose_transpose], h.vv, fun x => ⟨fun hx => ?_, ?_⟩⟩
  · refine ⟨s.pinvᵀ *ᵥ x, ?_⟩
    rw [mulVec_mulVec, ← transpose_mul, h.pinv_a, transpose_mul, transpose_transpose]
    exact hx.symm
  · rintro ⟨y, rfl⟩
    have ht : (s.V1 * s.V1ᵀ) * Aᵀ = Aᵀ := by
      have := congrArg transpose h.a_span
      rwa [transpose_mul, transpose_mul, transpose_transpose] at this
    rw [mulVec_mulVec]
    unfold Svd.onSpan
    rw [ht]

/-- C42. `projectorOnSpanOfInv` is the orthogonal projector on the image of `A`. -/
theorem C42_span_of_inverse (s : Svd α m n) (A : Matrix (Fin m) (Fin n) α) (h : s.Exact A) :
    s.onSpanOfInvᵀ = s.onSpanOfInv ∧ s.onSpanOfInv * s.onSpanOfInv = s.onSpanOfInv ∧
    ∀ x, s.onSpanOfInv *ᵥ x = x ↔ ∃ y, x = A *ᵥ y := by
  refine ⟨by unfold Svd.onSpanOfInv; rw [transpose_mul, transpose_transpose], h.uu,
    fun x => ⟨fun hx => ?_, ?_⟩⟩
  · refine ⟨s.pinv *ᵥ x, ?_⟩
    rw [mulVec_mulVec, h.a_pinv]
    exact hx.symm
  · rintro ⟨y, rfl⟩
    rw [mulVec_mulVec]
    unfold Svd.onSpanOfInv
    rw [h.span_a]

theorem onKernel_thin (s : Svd α m n) : s.onKernel false = 1 - s.V1 * s.V1ᵀ := by
  unfold Svd.onKernel
  rw [if_neg (by simp), diagonal_one, Matrix.neg_mul]
  abel

theorem onKernelOfInv_thin (s : Svd α m n) : s.onKernelOfInv false = 1 - s.U1 * s.U1ᵀ := by
  unfold Svd.onKernelOfInv
  rw [if_neg (by simp), diagonal_one, Matrix.neg_mul]
  abel

/-- C42. `projectorOnKernel` is the orthogonal projector on the kernel of `A`: symmetric, idempotent, and the vectors
that it leaves unchanged are those of the kernel. -/
theorem C42_kernel (s : Svd α m n) (A : Matrix (Fin m) (Fin n) α) (h : s.Exact A) :
    (s.onKernel false)ᵀ = s.onKernel false ∧ s.onKernel false * s.onKernel false = s.onKernel false ∧
    A * s.onKernel false = 0 ∧ ∀ x, s.onKernel false *ᵥ x = x ↔ A *ᵥ x = 0 := by
  rw [onKernel_thin]
  have hA : A * (1 - s.V1 * s.V1ᵀ) = 0 := by rw [Matrix.mul_sub, Matrix.mul_one, h.a_span, sub_self]
  refine ⟨?_, ?_, hA, fun x => ⟨fun hx => ?_, fun hx => ?_⟩⟩
  · rw [transpose_sub, transpose_one, transpose_mul, transpose_transpose]
  · rw [Matrix.mul_sub, Matrix.mul_one, Matrix.sub_mul, Matrix.one_mul, h.vv, sub_self, sub_zero]
  · rw [← hx, mulVec_mulVec, hA, zero_mulVec]
  · rw [sub_mulVec, one_mulVec, ← h.pinv_a, ← mulVec_mulVec, hx, mulVec_zero, sub_zero]

/-- C42. `projectorOnKernelOfInv` is the orthogonal projector on the kernel of the transpose of `A`, which is
that of its pseudo-inverse. -/
theorem C42_kernel_of_inverse (s : Svd α m n) (A : Matrix (Fin m) (Fin n) α) (h : s.Exact A) :
    (s.onKernelOfInv false)ᵀ = s.onKernelOfInv false ∧
    s.onKernelOfInv false * s.onKernelOfInv false = s.onKernelOfInv false ∧
    s.pinv * s.onKernelOfInv false = 0 ∧ ∀ x, s.onKernelOfInv false *ᵥ x = x ↔ s.pinv *ᵥ x = 0 := by
  rw [onKernelOfInv_thin]
  have hA : s.pinv * (1 - s.U1 * s.U1ᵀ) = 0 := by
    rw [Matrix.mul_sub, Matrix.mul_one, ← h.a_pinv, ← Matrix.mul_assoc, (C42_pseudo_inverse s A h).2.1, sub_self]
  refine ⟨?_, ?_, hA, fun x => ⟨fun hx => ?_, fun hx => ?_⟩⟩
  · rw [transpose_sub, transpose_one, transpose_mul, transpose_transpose]
  · rw [Matrix.mul_sub, Matrix.mul_one, Matrix.sub_mul, Matrix.one_mul, h.uu, sub_self, sub_zero]
  · rw [← hx, mulVec_mulVec, hA, zero_mulVec]
  · rw [sub_mulVec, one_mulVec, ← h.a_pinv, ← mulVec_mulVec, hx, mulVec_zero, sub_zero]

/-- C42. With all the columns of `V` (resp. of `U`), both ways to compute the projector agree. -/
theorem C42_full (s : Svd α m n) :
    (s.V * s.Vᵀ = 1 → s.onKernel true = s.onKernel false) ∧
    (s.U * s.Uᵀ = 1 → s.onKernelOfInv true = s.onKernelOfInv false) := by
  constructor
  · intro hv
    rw [onKernel_thin]
    unfold Svd.onKernel
    rw [if_pos rfl, eq_sub_iff_add_eq, add_comm, ← hv]
    exact split_cols s.V s.rank s.hl
  · intro hu
    rw [onKernelOfInv_thin]
    unfold Svd.onKernelOfInv
    rw [if_pos rfl, eq_sub_iff_add_eq, add_comm, ← hu]
    exact split_cols s.U s.rank s.hk

/-- Decomposition of the row matrix `(2 0)` with the first column of `V` only. -/
def exThin : Svd ℚ 1 2 := ⟨1, 1, !![1], !![1; 0], fun _ => 2, 1, le_rfl, le_rfl⟩
/-- The same with all the columns. -/
def exFull : Svd ℚ 1 2 := ⟨1, 2, !![1], !![1, 0; 0, 1], fun _ => 2, 1, le_rfl, by decide⟩

theorem exThin_exact : exThin.Exact !![2, 0] where
  orthU := by decide +kernel
  orthV := by decide +kernel
  pos := by intro i _; show (2 : ℚ) ≠ 0; decide
  eq := by decide +kernel

theorem exFull_exact : exFull.Exact !![2, 0] where
  orthU := by decide +kernel
  orthV := by decide +kernel
  pos := by intro i _; show (2 : ℚ) ≠ 0; decide
  eq := by decide +kernel

example : exFull.V * exFull.Vᵀ = (1 : Matrix (Fin 2) (Fin 2) ℚ) ∧ exFull.onKernel true = !![0, 0; 0, 1] ∧
    exThin.onKernel false = !![0, 0; 0, 1] ∧ exThin.pinv = !![1/2; 0] := by decide +kernel

/-- C42: the flag `computeFullV` must not be given if the decomposition was computed with the first columns only; the
assertion of `projectorOnKernel` does not detect it. -/
theorem C42_thin_refuted : exThin.Exact !![2, 0] ∧ exThin.onKernel true ≠ exThin.onKernel false ∧
    exThin.onKernel true *ᵥ ![0, 1] = 0 ∧ (!![2, 0] : Matrix (Fin 1) (Fin 2) ℚ) *ᵥ ![0, 1] = 0 :=
  ⟨exThin_exact, by decide +kernel⟩

/-! ## Projection of a velocity -/

omit [Field α] in
theorem assign_spec {n : Nat} (free : Fin n → Nat) (hinj : Function.Injective free) (v : Fin n → α) :
    ∀ (l : List (Fin n)) (d : Nat → α), l.Nodup →
    (∀ j ∈ l, l.foldl (fun d j => Function.update d (free j) (v j)) d (free j) = v j) ∧
    (∀ i, (∀ j ∈ l, free j ≠ i) → l.foldl (fun d j => Function.update d (free j) (v j)) d i = d i) := by
  intro l
  induction l with
  | nil => intro d _; simp
  | cons a l ih =>
    intro d hn
    obtain ⟨ha, hl⟩ := List.nodup_cons.1 hn
    obtain ⟨h1, h2⟩ := ih (Function.update d (free a) (v a)) hl
    simp only [List.foldl_cons]
    refine ⟨fun j hj => ?_, fun i hi => ?_⟩
    · rcases List.mem_cons.1 hj with rfl | hj
      · rw [h2 (free j) fun k hk e => ha (hinj e ▸ hk), Function.update_self]
      · exact h1 j hj
    · rw [h2 i fun j hj => hi j (by simp [hj]), Function.update_of_ne (hi a (by simp)).symm]

/-- C42. Projection of a velocity, when there are rows: the result has no component on the other variables, is in the
kernel of the reduced Jacobian, differs from the velocity by a vector orthogonal to the kernel, and is
unchanged by a second projection; a velocity in the kernel with no component on the other variables is unchanged. -/
theorem C42_project (s : Svd α m n) (A : Matrix (Fin m) (Fin n) α) (h : s.Exact A) (free : Fin n → Nat)
    (hinj : Function.Injective free) (hm : 0 < m) (darg : Nat → α) :
    let res := projectOnKernel false s free darg
    (∀ i, (∀ j, free j ≠ i) → res i = 0) ∧
    A *ᵥ (fun j => res (free j)) = 0 ∧
    (∀ x, A *ᵥ x = 0 → (fun j => darg (free j) - res (free j)) ⬝ᵥ x = 0) ∧
    projectOnKernel false s free res = res ∧
    (A *ᵥ (fun j => darg (free j)) = 0 → (∀ i, (∀ j, free j ≠ i) → darg i = 0) → res = darg) := by
  have hm0 : (m == 0) = false := by simp; omega
  have key : ∀ d : Nat → α, (∀ j, projectOnKernel false s free d (free j) =
      (s.onKernel false *ᵥ fun j => d (free j)) j) ∧
      ∀ i, (∀ j, free j ≠ i) → projectOnKernel false s free d i = 0 := by
    intro d
    unfold projectOnKernel
    rw [hm0]
    simp only [Bool.or_self, Bool.false_eq_true, if_false]
    obtain ⟨h1, h2⟩ := assign_spec free hinj ((fun j => d (free j)) - s.V1 *ᵥ (s.V1ᵀ *ᵥ fun j => d (free j)))
      (List.finRange n) (fun _ => 0) (List.nodup_finRange n)
    refine ⟨fun j => ?_, fun i hi => h2 i fun j _ => hi j⟩
    rw [h1 j (List.mem_finRange j), onKernel_thin, sub_mulVec, one_mulVec, mulVec_mulVec]
  obtain ⟨g1, g2, g3, g4⟩ := C42_kernel s A h
  have hker : A *ᵥ (fun j => projectOnKernel false s free darg (free j)) = 0 := by
    rw [show (fun j => projectOnKernel false s free darg (free j)) = s.onKernel false *ᵥ fun j => darg (free j)
      from funext (key darg).1, mulVec_mulVec, g3, zero_mulVec]
  have hunch : ∀ d : Nat → α, A *ᵥ (fun j => d (free j)) = 0 → (∀ i, (∀ j, free j ≠ i) → d i = 0) →
      projectOnKernel false s free d = d := by
    intro d hd hz
    funext i
    by_cases hi : ∃ j, free j = i
    · obtain ⟨j, rfl⟩ := hi
      rw [(key d).1 j, (g4 _).2 hd]
    · have hi' : ∀ j, free j ≠ i := fun j e => hi ⟨j, e⟩
      rw [(key d).2 i hi', hz i hi']
  refine ⟨(key darg).2, hker, fun x hx => ?_, hunch _ hker (key darg).2, hunch darg⟩
  have : (fun j => darg (free j) - projectOnKernel false s free darg (free j)) =
      (s.V1 * s.V1ᵀ) *ᵥ fun j => darg (free j) := by
    funext j
    rw [(key darg).1 j, onKernel_thin, sub_mulVec, one_mulVec, Pi.sub_apply, sub_sub_cancel]
  rw [this, dotProduct_comm, dotProduct_mulVec, ← mulVec_transpose, transpose_mul, transpose_transpose,
    ← h.pinv_a, ← mulVec_mulVec, hx, mulVec_zero, zero_dotProduct]

/-- C42. Without constraint, or without row, nothing changes; in particular the components of the outputs of explicit
constraints are kept, whereas they are set to zero as soon as there is a row. -/
theorem C42_project_unconstrained (s : Svd α m n) (free : Fin n → Nat) (darg : Nat → α) (noCons : Bool)
    (h : noCons = true ∨ m = 0) : projectOnKernel noCons s free darg = darg := by
  unfold projectOnKernel
  rw [if_pos]
  rcases h with h | h <;> simp [h]

/-- Variables 0 and 2 are free. -/
example : Function.Injective (![0, 2] : Fin 2 → Nat) ∧
    (List.range 4).map (projectOnKernel false exThin ![0, 2] fun i => [5, 6, 7, 8].getD i 0) = [0, 0, 7, 0] := by
  refine ⟨?_, by decide +kernel⟩
  intro a b hab
  match a, b with
  | 0, 0 => rfl
  | 1, 1 => rfl
  | 0, 1 => simp at hab
  | 1, 0 => simp at hab

end Hpp
