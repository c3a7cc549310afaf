import Verif.Solve.Model
import Mathlib.Algebra.Order.Field.Basic

/-!
# Model of the iterations of `solver::BySubstitution::solve`

Source: `/repo/include/hpp/constraints/solver/impl/by-substitution.hh`, lines 38-167.

As in `Solve/Model.lean` the numerical steps are parameters.  The memory `M` holds everything that these
steps leave in the solver and in the line search object, in particular `dq_`.
-/

namespace Hpp

/-- Numerical steps of the solver by substitution.  Steps that may throw
`FunctionNotDefinedForThisValue` return in the `Bool` whether they completed. -/
structure BsOps (A M α : Type) where
  /-- `explicit_.solve(arg)` -/
  expl : A → A × Bool
  /-- `computeValue<true>(arg); computeError();` then `squaredNorm_` -/
  norm : A → α
  /-- `computeValue<true>(arg)` then `datas_.back().error.squaredNorm()` -/
  cost : A → α
  /-- `updateJacobian(arg); computeSaturation(arg); computeDescentDirection();` -/
  dir : A → M → M
  /-- `dq_ *= scaling` -/
  scale : α → M → M
  /-- `dq_ /= scaling` -/
  unscale : α → M → M
  /-- `dq_.squaredNorm()` -/
  dqNorm : M → α
  /-- `lineSearch(*this, arg, dq_)` -/
  search : A → M → A × M × Bool

/-- Local variables of `impl_solve`.  `n` is `squaredNorm_`, `dec` is `errorDecreased` (a signed integer,
negative after three iterations if `optimize`), `above` is `errorIsAboveThr`, `only` is
`onlyLineSearch`, `iter` counts the iterations performed (the variable `iter` of the code starts
at `max(maxIterations_, 2) - 2` instead of 0 in one case: see `bsBudget`). -/
structure BsSt (A M α : Type) where
  arg : A
  mem : M
  n : α
  iter : Nat
  dec : Int
  prev : α
  prevCost : α
  scaling : α
  only : Bool
  qopt : Option A
  above : Bool
  status : Status

/-- Result of `impl_solve`; `undef`: an explicit constraint was not defined (`return INFEASIBLE` in a
`catch`). -/
structure BsOut (A M : Type) where
  arg : A
  mem : M
  iter : Nat
  status : Status
  undef : Bool

variable {A M α : Type} [Field α] [LinearOrder α]

/-- One iteration once the step is computed and large enough (lines 96-148).  `none` and the argument: an
explicit constraint is not defined. -/
def bsStep (o : BsOps A M α) (thr : α) (optimize : Bool) (s : BsSt A M α) (prev : α) (m : M) :
    BsSt A M α ⊕ (A × M) :=
  match o.search s.arg m with
  | (a1, m1, false) => .inr (a1, m1)
  | (a1, m1, true) =>
    match o.expl a1 with
    | (a2, false) => .inr (a2, m1)
    | (a2, true) =>
      let n := o.norm a2
      let decreased := decide (n < prev)
      let above := decide (1 / 4 * thr < n)
      let s1 : BsSt A M α := { s with
        arg := a2
        mem := m1
        n := n
        iter := s.iter + 1
        prev := prev
        dec := if decreased then 3 else s.dec - 1
        status := if decreased then .success else .errorIncreased
        above := above }
      .inl (if optimize then
        if above then
          { s1 with
            mem := o.unscale s.scaling m1
            scaling := s.scaling * (1 / 2)
            arg := s.qopt.getD a2
            only := true }
        else
          let c := o.cost a2
          if c < s.prevCost then
            { s1 with
              qopt := some a2
              prevCost := c
              scaling := if s.scaling < 1 / 2 then s.scaling * 2 else s.scaling
              only := false }
          else { s1 with only := false }
      else s1)

/-- What follows the loop (lines 150-163).  `init`: `initArg` and `initSquaredNorm`, if
`errorWasBelowThr`.  The configuration space is assumed to have a positive dimension:
`qopt.size() > 0` tells whether `qopt` was assigned. -/
def bsEnd (optimize : Bool) (init : Option (A × α)) (s : BsSt A M α) : BsOut A M :=
  match optimize, init with
  | false, some (a0, n0) => ⟨if n0 < s.n then a0 else s.arg, s.mem, s.iter, .success, false⟩
  | true, _ => ⟨s.qopt.getD s.arg, s.mem, s.iter, s.status, false⟩
  | false, none => ⟨s.arg, s.mem, s.iter, s.status, false⟩

/-- The loop (lines 77-148).  `left` is `maxIterations_ - iter`. -/
def bsLoop (o : BsOps A M α) (thr dqMin : α) (optimize : Bool) (init : Option (A × α)) :
    Nat → BsSt A M α → BsOut A M
  | 0, s =>
    if optimize ∨ (s.above ∧ s.dec ≠ 0) then
      bsEnd optimize init { s with status := .maxIterationReached }
    else bsEnd optimize init s
  | left + 1, s =>
    if optimize ∨ (s.above ∧ s.dec ≠ 0) then
      let prev := if s.only then s.prev else s.n
      let m := if s.only then s.mem else o.dir s.arg s.mem
      let m := if optimize then o.scale s.scaling m else m
      if o.dqNorm m < dqMin then bsEnd optimize init { s with mem := m, status := .infeasible }
      else
        match bsStep o thr optimize s prev m with
        | .inr (a, m) => ⟨a, m, s.iter + 1, .infeasible, true⟩
        | .inl s' => bsLoop o thr dqMin optimize init left s'
    else bsEnd optimize init s

/-- Number of iterations allowed: `iter` starts at `max(maxIterations_, 2) - 2` if the error is below the
threshold and the solver does not optimize (line 69). -/
def bsBudget (optimize below : Bool) (maxIter : Nat) : Nat :=
  if below ∧ ¬ optimize then maxIter - (max maxIter 2 - 2) else maxIter

/-- Local variables before the first iteration (lines 56-76). -/
def bsInit (o : BsOps A M α) (thr : α) (optimize : Bool) (a0 : A) (m : M) : BsSt A M α where
  arg := a0
  mem := m
  n := o.norm a0
  iter := 0
  dec := 3
  prev := o.norm a0
  prevCost := if optimize then o.cost a0 else 0
  scaling := 1
  only := false
  qopt := if optimize = true ∧ ¬ 1 / 4 * thr < o.norm a0 then some a0 else none
  above := decide (1 / 4 * thr < o.norm a0)
  status := .success

/-- `impl_solve` (lines 38-167).  `previousSquaredNorm` is not initialised before the first iteration,
which sets it. -/
def bsSolve (o : BsOps A M α) (thr dqMin : α) (maxIter reducedDim : Nat) (wantOptimize lastIsOptional : Bool)
    (a : A) (m : M) : BsOut A M :=
  let optimize := wantOptimize && lastIsOptional
  match o.expl a with
  | (a0, false) => ⟨a0, m, 0, .infeasible, true⟩
  | (a0, true) =>
    let below := decide (o.norm a0 < thr)
    if 1 / 4 * thr < o.norm a0 ∧ reducedDim = 0 then ⟨a0, m, 0, .infeasible, false⟩
    else
      bsLoop o thr dqMin optimize (if below then some (a0, o.norm a0) else none)
        (bsBudget optimize below maxIter) (bsInit o thr optimize a0 m)

end Hpp
