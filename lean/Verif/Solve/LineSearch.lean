import Mathlib.Algebra.Order.Field.Basic
import Mathlib.Analysis.SpecialFunctions.Artanh

/-!
# Model of the line searches

Sources: `/repo/include/hpp/constraints/solver/impl/hierarchical-iterative.hh`, lines 39-126 and
`/repo/src/solver/hierarchical-iterative.cc`, lines 83-111 (constructors).

The numbers are those of a linearly ordered field (no rounding).  The solver is known through
`LsEnv`: integration of a step from a configuration (with saturation), product of a step by a number, and
`residualError()` after `computeValue<false>` and `computeError` at a configuration.
-/

namespace Hpp

structure LsEnv (A V α : Type) where
  /-- `solver.integrate(arg, darg, result)` (hierarchical-iterative.cc:712-719) -/
  integrate : A → V → A
  /-- `alpha * u` -/
  smul : α → V → V
  /-- `solver.residualError()` after `computeValue<false>(arg); computeError();` -/
  err : A → α

/-- Result of a line search: new argument, step (`darg` is modified in place), value returned, and, for
the specification, the number of evaluations of the error. -/
structure LsOut (A V : Type) where
  arg : A
  step : V
  ok : Bool
  evals : Nat

variable {A V α : Type}

/-- `lineSearch::Constant` (impl/hierarchical-iterative.hh:40-45). -/
def lsConstant (env : LsEnv A V α) (a : A) (u : V) : LsOut A V := ⟨env.integrate a u, u, true, 0⟩

/-- Parameters of `lineSearch::Backtracking` (hierarchical-iterative.hh:63). -/
structure BtParam (α : Type) where
  c : α
  tau : α
  smallAlpha : α

/-- `Backtracking::Backtracking` (hierarchical-iterative.cc:88). -/
def BtParam.default (α : Type) [DivisionRing α] : BtParam α :=
  ⟨1 / 1000, 7 / 10, 1 / 5⟩

/-- What is done if no step length is found (impl/hierarchical-iterative.hh:86-88). -/
def btFallback (env : LsEnv A V α) (p : BtParam α) (a : A) (u : V) (evals : Nat) : LsOut A V :=
  ⟨env.integrate a (env.smul p.smallAlpha u), env.smul p.smallAlpha u, false, evals⟩

/-- Loop of `Backtracking::operator()` (impl/hierarchical-iterative.hh:63-80).  The first argument bounds
the number of iterations; `none` if it is not sufficient. -/
def btLoop [Field α] [LinearOrder α] (env : LsEnv A V α) (p : BtParam α) (a : A) (u : V) (f0 t : α) :
    Nat → (alpha : α) → (evals : Nat) → Option (LsOut A V)
  | 0, alpha, evals => if alpha > p.smallAlpha then none else some (btFallback env p a u evals)
  | fuel + 1, alpha, evals =>
    if alpha > p.smallAlpha then
      let d := env.smul alpha u
      let a' := env.integrate a d
      if f0 - env.err a' ≥ -alpha * t then some ⟨a', d, true, evals + 1⟩
      else btLoop env p a u f0 t fuel (alpha * p.tau) (evals + 1)
    else some (btFallback env p a u evals)

/-- `Backtracking::operator()` (impl/hierarchical-iterative.hh:47-89).  `slope` is the result of
`computeLocalSlope`, `f0` is `residualError()` at the entry. -/
def backtracking [Field α] [LinearOrder α] (env : LsEnv A V α) (p : BtParam α) (fuel : Nat) (slope f0 : α)
    (a : A) (u : V) : Option (LsOut A V) :=
  let t := 2 * p.c * slope
  if t > 0 then some (btFallback env p a u 0) else btLoop env p a u f0 t fuel 1 0

/-- `lineSearch::FixedSequence` (hierarchical-iterative.hh:69-78). -/
structure FixedSeq (α : Type) where
  alpha : α
  alphaMax : α
  K : α

/-- `FixedSequence::FixedSequence` (hierarchical-iterative.cc:92). -/
def FixedSeq.init (α : Type) [DivisionRing α] : FixedSeq α := ⟨1 / 5, 95 / 100, 4 / 5⟩

/-- `FixedSequence::operator()` (impl/hierarchical-iterative.hh:106-113). -/
def FixedSeq.call [Field α] (env : LsEnv A V α) (f : FixedSeq α) (a : A) (u : V) :
    FixedSeq α × LsOut A V :=
  ({ f with alpha := f.alphaMax - f.K * (f.alphaMax - f.alpha) },
    ⟨env.integrate a (env.smul f.alpha u), env.smul f.alpha u, true, 0⟩)

/-- `lineSearch::ErrorNormBased` (hierarchical-iterative.hh:85-93). -/
structure ErrNormBased where
  C : ℝ
  K : ℝ
  a : ℝ
  b : ℝ

/-- `ErrorNormBased::ErrorNormBased(alphaMin, a, b)` (hierarchical-iterative.cc:96-98). -/
noncomputable def ErrNormBased.mk3 (alphaMin a b : ℝ) : ErrNormBased :=
  ⟨0.5 + alphaMin / 2, (1 - alphaMin) / 2, a, b⟩

/-- `ErrorNormBased::ErrorNormBased(alphaMin)` (hierarchical-iterative.cc:100-107).  `Real.artanh` and
`atanh` agree on ]-1, 1[ only. -/
noncomputable def ErrNormBased.mk1 (alphaMin : ℝ) : ErrNormBased :=
  let C := 0.5 + alphaMin / 2
  let K := (1 - alphaMin) / 2
  let a := Real.artanh ((0.02 - 1 + C) / K) / (1 - 1000000)
  ⟨C, K, a, -1000000 * a⟩

/-- `ErrorNormBased::operator()` (impl/hierarchical-iterative.hh:115-124).  `res` is
`residualError()`, `thr` is `squaredErrorThreshold()`. -/
noncomputable def ErrNormBased.call (env : LsEnv A V ℝ) (e : ErrNormBased) (res thr : ℝ) (a : A) (u : V) :
    LsOut A V :=
  let r := res / thr
  let alpha := e.C - e.K * Real.tanh (e.a * r + e.b)
  ⟨env.integrate a (env.smul alpha u), env.smul alpha u, true, 0⟩

end Hpp
