import Mathlib.Data.Matrix.Mul
import Mathlib.Data.List.FinRange

/-!
# Model of the operations on singular value decompositions

Sources: `/repo/include/hpp/constraints/svd.hh`; `/repo/src/solver/by-substitution.cc`, lines 258-281
(`projectVectorOnKernel`).

Coefficients are in a field (no rounding).  The decomposition itself is computed by Eigen: here it is the data `Svd`;
what it means for it to be exact is stated with the properties.
-/

namespace Hpp

open Matrix

/-- Result of `svd.compute`: `U` and `V` have `k` and `l` columns (all of them, or only the first ones, depending on
the flags), `σ` are the singular values, `rank` is the number of those above the threshold. -/
structure Svd (α : Type) (m n : Nat) where
  k : Nat
  l : Nat
  U : Matrix (Fin m) (Fin k) α
  V : Matrix (Fin n) (Fin l) α
  σ : Nat → α
  rank : Nat
  hk : rank ≤ k
  hl : rank ≤ l

variable {α : Type} {m n : Nat}

/-- `leftCols(r)` -/
def leftCols {p c : Nat} (M : Matrix (Fin p) (Fin c) α) (r : Nat) (h : r ≤ c) : Matrix (Fin p) (Fin r) α :=
  fun i j => M i (Fin.castLE h j)

/-- `rightCols(cols() - r)` -/
def rightCols {p c : Nat} (M : Matrix (Fin p) (Fin c) α) (r : Nat) (h : r ≤ c) : Matrix (Fin p) (Fin (c - r)) α :=
  fun i j => M i ⟨r + j.val, by omega⟩

/-- `getU1` (svd.hh:38-42) -/
def Svd.U1 (s : Svd α m n) : Matrix (Fin m) (Fin s.rank) α := leftCols s.U s.rank s.hk
/-- `getU2` (svd.hh:44-48) -/
def Svd.U2 (s : Svd α m n) : Matrix (Fin m) (Fin (s.k - s.rank)) α := rightCols s.U s.rank s.hk
/-- `getV1` (svd.hh:50-54) -/
def Svd.V1 (s : Svd α m n) : Matrix (Fin n) (Fin s.rank) α := leftCols s.V s.rank s.hl
/-- `getV2` (svd.hh:56-60) -/
def Svd.V2 (s : Svd α m n) : Matrix (Fin n) (Fin (s.l - s.rank)) α := rightCols s.V s.rank s.hl

variable [Field α]

/-- `pseudoInverse` (svd.hh:62-76) -/
def Svd.pinv (s : Svd α m n) : Matrix (Fin n) (Fin m) α :=
  s.V1 * diagonal (fun i : Fin s.rank => (s.σ i)⁻¹) * s.U1ᵀ

/-- `projectorOnSpan` (svd.hh:78-88) -/
def Svd.onSpan (s : Svd α m n) : Matrix (Fin n) (Fin n) α := s.V1 * s.V1ᵀ

/-- `projectorOnSpanOfInv` (svd.hh:90-100) -/
def Svd.onSpanOfInv (s : Svd α m n) : Matrix (Fin m) (Fin m) α := s.U1 * s.U1ᵀ

/-- `projectorOnKernel` (svd.hh:102-119) -/
def Svd.onKernel (s : Svd α m n) (computeFullV : Bool) : Matrix (Fin n) (Fin n) α :=
  if computeFullV then s.V2 * s.V2ᵀ else -s.V1 * s.V1ᵀ + diagonal (fun _ => 1)

/-- `projectorOnKernelOfInv` (svd.hh:121-140) -/
def Svd.onKernelOfInv (s : Svd α m n) (computeFullU : Bool) : Matrix (Fin m) (Fin m) α :=
  if computeFullU then s.U2 * s.U2ᵀ else -s.U1 * s.U1ᵀ + diagonal (fun _ => 1)

/-- `projectVectorOnKernel` (by-substitution.cc:258-281).  `free`: ranks of the free variables; `s`: decomposition of
the reduced Jacobian; `noCons`: `constraints_.empty()`. -/
def projectOnKernel (noCons : Bool) (s : Svd α m n) (free : Fin n → Nat) (darg : Nat → α) : Nat → α :=
  if noCons || m == 0 then darg
  else
    let dqSmall := fun j => darg (free j)
    let tmp := s.V1ᵀ *ᵥ dqSmall
    let dqSmall := dqSmall - s.V1 *ᵥ tmp
    (List.finRange n).foldl (fun d j => Function.update d (free j) (dqSmall j)) fun _ => 0

end Hpp
