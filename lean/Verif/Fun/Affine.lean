import Mathlib.LinearAlgebra.Matrix.Notation
import Mathlib.Analysis.Calculus.Deriv.Mul
import Mathlib.Analysis.Calculus.Deriv.Add
import Mathlib.Analysis.Calculus.Deriv.Pi

/-!
# Affine and constant functions, identity (C89)

Source: `/repo/include/hpp/constraints/affine-function.hh`.

Simplification: real numbers instead of double precision; output spaces that are vector spaces.  The destination of a Jacobian is the
argument `out` of the functions below: previous content.
-/

namespace Hpp.Affine

open Matrix

variable {m n : Nat}

/-- Members of `AffineFunction` (affine-function.hh:136-137) and of the base class that are set by `init` (affine-function.hh:130-134) -/
structure Fn (m n : Nat) where
  J : Matrix (Fin m) (Fin n) ℝ
  b : Fin m → ℝ
  active : Fin n → Bool

open Classical in
/-- Constructors (affine-function.hh:94-109) and `init` (affine-function.hh:130-134): `(J_.array() != 0).colwise().any()` -/
noncomputable def Fn.new (J : Matrix (Fin m) (Fin n) ℝ) (b : Fin m → ℝ) : Fn m n := ⟨J, b, fun j => (List.finRange m).any fun i => decide (J i j ≠ 0)⟩

/-- `create(J)` (affine-function.hh:83-86, 94-100) -/
noncomputable def Fn.linear (J : Matrix (Fin m) (Fin n) ℝ) : Fn m n := Fn.new J 0

/-- `impl_compute` (affine-function.hh:124-126) -/
def Fn.compute (f : Fn m n) (x : Fin n → ℝ) : Fin m → ℝ := f.J *ᵥ x + f.b

/-- `impl_jacobian` (affine-function.hh:128) -/
def Fn.jacobian (f : Fn m n) (_out : Matrix (Fin m) (Fin n) ℝ) (_x : Fin n → ℝ) : Matrix (Fin m) (Fin n) ℝ := f.J

/-- `Identity` (affine-function.hh:59-61) -/
def idCompute (x : Fin n → ℝ) : Fin n → ℝ := x

/-- `Identity::impl_jacobian` (affine-function.hh:63) -/
def idJacobian (_out : Matrix (Fin n) (Fin n) ℝ) (_x : Fin n → ℝ) : Matrix (Fin n) (Fin n) ℝ := 1

/-- `ConstantFunction::impl_compute` (affine-function.hh:177) -/
def constCompute (c : Fin m → ℝ) (_x : Fin n → ℝ) : Fin m → ℝ := c

/-- `ConstantFunction::impl_jacobian` (affine-function.hh:179) -/
def constJacobian (_out : Matrix (Fin m) (Fin n) ℝ) (_x : Fin n → ℝ) : Matrix (Fin m) (Fin n) ℝ := 0

/-- `activeParameters_` and `activeDerivativeParameters_` by default: those of `Identity` and `ConstantFunction`
(differentiable-function.cc:239-240, 249-250) -/
def defaultActive (n : Nat) : Fin n → Bool := fun _ => true

/-! ### Specification -/

/-- A Jacobian is right: along every motion of the argument, the value moves with the velocity given by the Jacobian. -/
def JacobianOk (f : (Fin n → ℝ) → Fin m → ℝ) (J : Matrix (Fin m) (Fin n) ℝ → (Fin n → ℝ) → Matrix (Fin m) (Fin n) ℝ) : Prop :=
  ∀ (x : ℝ → Fin n → ℝ) (v : Fin n → ℝ) (t : ℝ), (∀ j, HasDerivAt (fun s => x s j) (v j) t) → ∀ out,
    ∀ i, HasDerivAt (fun s => f (x s) i) ((J out (x t) *ᵥ v) i) t

/-- The value depends on parameter `j`. -/
def DependsOn (f : (Fin n → ℝ) → Fin m → ℝ) (j : Fin n) : Prop := ∃ x y : Fin n → ℝ, (∀ k, k ≠ j → x k = y k) ∧ f x ≠ f y

/-! ### C89 -/

/-- Jacobian of an affine function -/
theorem C89_affine (J : Matrix (Fin m) (Fin n) ℝ) (b : Fin m → ℝ) : JacobianOk (Fn.new J b).compute (Fn.new J b).jacobian := by
  intro x v t h out i
  change HasDerivAt (fun s => (∑ j, J i j * x s j) + b i) (∑ j, J i j * v j) t
  exact (HasDerivAt.fun_sum fun j _ => (h j).const_mul (J i j)).add_const _

/-- A parameter is declared active exactly if the value depends on it. -/
theorem C89_active (J : Matrix (Fin m) (Fin n) ℝ) (b : Fin m → ℝ) (j : Fin n) :
    (Fn.new J b).active j = true ↔ DependsOn (Fn.new J b).compute j := by
  have h1 : (Fn.new J b).active j = true ↔ ∃ i, J i j ≠ 0 := by
    simp [Fn.new]
  rw [h1]
  constructor
  · rintro ⟨i, hi⟩
    refine ⟨Pi.single j 1, 0, fun k hk => by simp [hk], fun h => ?_⟩
    have := congrFun h i
    simp [Fn.compute, Fn.new, hi] at this
  · rintro ⟨x, y, hxy, hne⟩
    by_contra h
    push Not at h
    refine hne ?_
    funext i
    change (∑ k, J i k * x k) + b i = (∑ k, J i k * y k) + b i
    congr 1
    refine Finset.sum_congr rfl fun k _ => ?_
    by_cases hk : k = j
    · rw [hk, h i, zero_mul, zero_mul]
    · rw [hxy k hk]

/-- Values: a linear function is zero at zero, the difference of two values of an affine function is the product of the matrix by the
difference of the arguments, and it has value `b` at zero. -/
theorem C89_value (J : Matrix (Fin m) (Fin n) ℝ) (b : Fin m → ℝ) (x y : Fin n → ℝ) :
    (Fn.new J b).compute 0 = b ∧ (Fn.new J b).compute x - (Fn.new J b).compute y = J *ᵥ (x - y) ∧ (Fn.linear J).compute 0 = 0 := by
  refine ⟨?_, ?_, ?_⟩
  · simp [Fn.compute, Fn.new]
  · simp [Fn.compute, Fn.new, mulVec_sub]
  · simp [Fn.compute, Fn.new, Fn.linear]

/-- Identity and constant functions -/
theorem C89_identity : JacobianOk (n := n) idCompute idJacobian := by
  intro x v t h out i
  rw [idJacobian, one_mulVec]
  exact h i

theorem C89_constant (c : Fin m → ℝ) : JacobianOk (n := n) (constCompute c) constJacobian := by
  intro x v t h out i
  rw [constJacobian, zero_mulVec]
  exact hasDerivAt_const t (c i)

/-- Identity: each parameter is declared active, and the value depends on each of them. -/
theorem C89_identity_active (j : Fin n) : defaultActive n j = true ↔ DependsOn idCompute j :=
  iff_of_true rfl ⟨Pi.single j 1, 0, fun k hk => by simp [hk], fun h => by have := congrFun h j; simp [idCompute] at this⟩

/-- Constant functions declare all their parameters active, although their value depends on none. -/
theorem C89_constant_refuted (c : Fin m → ℝ) (j : Fin n) : defaultActive n j = true ∧ ¬ DependsOn (constCompute c) j := by
  refine ⟨rfl, ?_⟩
  rintro ⟨x, y, -, h⟩
  exact h rfl

/-- A function of three parameters that depends on two of them -/
example : (Fn.new !![1, 0, 2; 0, 0, 3] ![1, 1]).active 0 = true ∧ (Fn.new !![1, 0, 2; 0, 0, 3] ![1, 1]).active 1 = false ∧
    (Fn.new !![1, 0, 2; 0, 0, 3] ![1, 1]).active 2 = true := by
  refine ⟨?_, ?_, ?_⟩ <;> simp [Fn.new, List.finRange_succ]

end Hpp.Affine
