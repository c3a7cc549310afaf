import Mathlib.Order.Defs.LinearOrder
import Mathlib.Data.Nat.Notation

/-!
# Model of the iterations of `solver::HierarchicalIterative::solve`

Source: `/repo/include/hpp/constraints/solver/impl/hierarchical-iterative.hh`, lines 128-181.

The loop is modelled for all behaviours of the numerical steps, which are parameters (`Ops`).  The
memory `M` holds everything that these steps leave in the solver and in the line search object and that
may be read again at the next iteration.
-/

namespace Hpp

/-- `HierarchicalIterative::Status` (hierarchical-iterative.hh:249). -/
inductive Status where
  | errorIncreased
  | maxIterationReached
  | infeasible
  | success
deriving DecidableEq

/-- Numerical steps of the solver. -/
structure Ops (A M α : Type) where
  /-- `computeValue<true>(arg); computeError();` then `squaredNorm_` -/
  norm : A → α
  /-- `computeSaturation(arg); computeDescentDirection();` then `dq_.squaredNorm()` -/
  dir : A → M → M × α
  /-- `lineSearch(*this, arg, dq_)` -/
  search : A → M → A × M

/-- Result of `solve`.  `status = none`: the variable `status`, not initialised at its declaration
(line 149), would be returned. -/
structure SolveOut (A M : Type) where
  arg : A
  mem : M
  iter : Nat
  status : Option Status

variable {A M α : Type}

/-- What follows the loop (lines 173-181). -/
def solveEnd [LT α] [DecidableLT α] (thr n : α) (left : Nat) (st : Option Status) : Option Status :=
  if thr < n then (if left = 0 then some .maxIterationReached else st) else some .success

/-- The loop (lines 150-171).  `left` is `maxIterations_ - iter`, `dec` is `errorDecreased`, `prev` is
`previousSquaredNorm` (`none`: infinity), `n` is `squaredNorm_`. -/
def solveLoop [LT α] [DecidableLT α] (o : Ops A M α) (thr dqMin : α) :
    (left : Nat) → (iter dec : Nat) → (prev : Option α) → A → M → (n : α) → Option Status →
    SolveOut A M
  | 0, iter, _, _, a, m, n, st => ⟨a, m, iter, solveEnd thr n 0 st⟩
  | left + 1, iter, dec, prev, a, m, n, st =>
    if thr < n ∧ dec ≠ 0 then
      let (m', d) := o.dir a m
      if d < dqMin then ⟨a, m', iter, solveEnd thr n (left + 1) (some .infeasible)⟩
      else
        let (a', m'') := o.search a m'
        let n' := o.norm a'
        let decreased : Bool := match prev with
          | none => true
          | some p => decide (n' < p)
        solveLoop o thr dqMin left (iter + 1) (if decreased then 3 else dec - 1) (some n') a' m'' n'
          (if decreased then st else some .errorIncreased)
    else ⟨a, m, iter, solveEnd thr n (left + 1) st⟩

/-- `solve` (lines 128-181). -/
def solve [LT α] [DecidableLT α] (o : Ops A M α) (thr dqMin : α) (maxIter reducedDim : Nat) (a : A)
    (m : M) : SolveOut A M :=
  let n := o.norm a
  if thr < n ∧ reducedDim = 0 then ⟨a, m, 0, some .infeasible⟩
  else solveLoop o thr dqMin maxIter 0 3 none a m n none

end Hpp
