import Verif.Stab.Contacts

/-!
# Static stability by quadratic programming

Model of `QPStaticStability`. Source: `/repo/src/qp-static-stability.cc`.

qpOASES (`qp_.init`, `getPrimalSolution`, `getObjVal`, lines 219-225) is a function of the Hessian and of the gradient, and the
objective value is that of the solution that it returns. `H_`, `G_`, `primal_` and `dual_` are assigned before they are read. The
calls of `checkQPSol` and `checkStrictComplementarity` only write messages (lines 167-173, 187-198): see `QpChecks.lean`.
-/

namespace Hpp.Stab

open Matrix Hpp.Sym

variable {n : Nat}

/-- Type of the function that returns the primal solution -/
abbrev QpSolver (nb : Nat) := Matrix (Fin nb) (Fin nb) ℝ → (Fin nb → ℝ) → Fin nb → ℝ

/-- `getObjVal` of qpOASES -/
noncomputable def qpObj {nb : Nat} (H : Matrix (Fin nb) (Fin nb) ℝ) (G F : Fin nb → ℝ) : ℝ := 1 / 2 * (F ⬝ᵥ (H *ᵥ F)) + G ⬝ᵥ F

/-- `solveQP` (lines 208-227): `primal_`, and `result`. -/
noncomputable def solveQP {nb : Nat} (solver : QpSolver nb) (m : MMem n 2 nb) : (Fin nb → ℝ) × ℝ :=
  let H := m.valueᵀ * m.value
  let G := m.valueᵀ *ᵥ gravity
  let primal := solver H G
  (primal, 2 * qpObj H G primal + minusGravity ⬝ᵥ minusGravity)

/-- `impl_compute` (lines 158-174): members of the matrix, and result. -/
noncomputable def qpCompute (com : Nat) (l : List Col) (solver : QpSolver l.length) (w : World ℝ n) (m : MMem n 2 l.length) :
    MMem n 2 l.length × ℝ :=
  let m := (phi com l).invalidate m
  let m := (phi com l).computeValue w m
  (m, (solveQP solver m).2)

/-- `impl_jacobian` (lines 176-206): members of the matrix, and the row of the Jacobian. -/
noncomputable def qpJac (com : Nat) (l : List Col) (solver : QpSolver l.length) (w : World ℝ n) (m : MMem n 2 l.length) :
    MMem n 2 l.length × (Fin n → ℝ) :=
  let m := (phi com l).invalidate m
  let m := (phi com l).computeJac w m
  let primal := (solveQP solver m).1
  let x := (phi com l).jacobianTransposeTimes w m (m.value *ᵥ primal)
  let m := x.1
  let y := (phi com l).jacobianTimes w m primal
  let m := y.1
  (m, (1 / 2 : ℝ) • (primal ᵥ* x.2) + ((1 / 2 : ℝ) • (m.value *ᵥ primal) + gravity) ᵥ* y.2)

/-- Members after construction (lines 66-69): `value_` and `jacobian_` are zero, nothing is valid. -/
def freshMem (n nb : Nat) (st : St ℝ n) (svd : Svd ℝ (2 * 3) nb) : MMem n 2 nb :=
  ⟨st, 0, 0, svd, 0, false, false, false, false⟩

/-! ### Specification -/

/-- Contract of qpOASES for the problems that `solveQP` builds: the solution satisfies the bounds and minimises the objective. -/
structure QpContract {nb : Nat} (solver : QpSolver nb) : Prop where
  nonneg : ∀ (A : Matrix (Fin (2 * 3)) (Fin nb) ℝ) i, 0 ≤ solver (Aᵀ * A) (Aᵀ *ᵥ gravity) i
  min : ∀ (A : Matrix (Fin (2 * 3)) (Fin nb) ℝ) (F : Fin nb → ℝ), (∀ i, 0 ≤ F i) →
    qpObj (Aᵀ * A) (Aᵀ *ᵥ gravity) (solver (Aᵀ * A) (Aᵀ *ᵥ gravity)) ≤ qpObj (Aᵀ * A) (Aᵀ *ᵥ gravity) F

end Hpp.Stab
