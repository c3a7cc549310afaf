import Verif.Segments.Props
import Verif.Fun.FiniteDiff
import Mathlib.Analysis.SpecialFunctions.Log.Base
import Mathlib.Data.Matrix.Mul

/-!
# Manipulability

Source: `/repo/src/manipulability.cc`, `/repo/include/hpp/constraints/manipulability.hh`.

Simplifications: real numbers instead of double precision; the Jacobian of the analysed function is a parameter.
`Eigen::JacobiSVD` is a parameter, with contract `SingularValues`.
-/

namespace Hpp.Manip

open Matrix

variable {m n : Nat}

/-- `std::numeric_limits<double>::min()` (manipulability.cc:58) -/
noncomputable def dmin : ℝ := 2⁻¹ ^ 1022

/-- `cols_.rview(J_)`: active columns of the Jacobian (manipulability.cc:42, 54) -/
def activeCols (J : Fin m → Nat → ℝ) (act : List Bool) : Matrix (Fin m) (Fin (indices (fromLogical act)).length) ℝ :=
  fun i c => J i ((indices (fromLogical act)).get c)

/-- `impl_compute` (manipulability.cc:46-101), from the singular values of the active columns -/
noncomputable def value {p : Nat} (σ : Fin p → ℝ) : ℝ := max (-∑ i, Real.logb 10 (max (σ i) dmin)) 0

/-- Contract of `Eigen::JacobiSVD`: `σ` are the singular values of `A` -/
structure SingularValues {k : Nat} (A : Matrix (Fin m) (Fin k) ℝ) {p : Nat} (σ : Fin p → ℝ) : Prop where
  size : p = min m k
  nonneg : ∀ i, 0 ≤ σ i
  eq : ∃ (U : Matrix (Fin m) (Fin p) ℝ) (V : Matrix (Fin k) (Fin p) ℝ), Uᵀ * U = 1 ∧ Vᵀ * V = 1 ∧ A = U * diagonal σ * Vᵀ

/-- A singular value decomposition of the active columns: `svd.singularValues()` -/
def Svds (m : Nat) : Type := ∀ k, Matrix (Fin m) (Fin k) ℝ → Fin (min m k) → ℝ

/-- The function: `J x` is the Jacobian of the analysed function at `x` (manipulability.cc:46-101) -/
noncomputable def compute {X : Type} (svd : Svds m) (J : X → Fin m → Nat → ℝ) (act : List Bool) (x : X) : ℝ :=
  value (svd _ (activeCols (J x) act))

/-- `impl_jacobian` (manipulability.cc:103-105): central finite differences with the robot (differentiable-function.cc:204-212) -/
noncomputable def jacobian (svd : Svds m) (J : (Nat → ℝ) → Fin m → Nat → ℝ) (act : List Bool)
    (integrate : (Nat → ℝ) → (Nat → ℝ) → Nat → ℝ) (n : Nat) (x : Nat → ℝ) (M : Nat → Nat → ℝ) : Nat → Nat → ℝ :=
  open Classical in
  (FD.central (FD.robotOp (1e-8 : ℝ) integrate) (compute svd J act) (fun a b _ => a - b) (fun j => act.getD j false) n x M).1

/-! ### Specification -/

/-- The matrix `J J^T` where `J` is restricted to the active parameters -/
def gram (J : Fin m → Nat → ℝ) (act : List Bool) : Matrix (Fin m) (Fin m) ℝ :=
  fun a b => ∑ j ∈ Finset.range act.length, if act.getD j false then J a j * J b j else 0

/-- The smallest singular value is at least `r`: the image by the transpose of the Jacobian of a vector is at least `r` times as long. -/
def AtLeast (J : Fin m → Nat → ℝ) (act : List Bool) (r : ℝ) : Prop := ∀ x : Fin m → ℝ, r ^ 2 * (x ⬝ᵥ x) ≤ x ⬝ᵥ (gram J act *ᵥ x)

/-- The greatest singular value is at most `r`. -/
def AtMost (J : Fin m → Nat → ℝ) (act : List Bool) (r : ℝ) : Prop := ∀ x : Fin m → ℝ, x ⬝ᵥ (gram J act *ᵥ x) ≤ r ^ 2 * (x ⬝ᵥ x)

/-- All the decompositions returned meet the contract. -/
def Svds.Ok (svd : Svds m) : Prop := ∀ k (A : Matrix (Fin m) (Fin k) ℝ), SingularValues A (svd k A)

end Hpp.Manip
