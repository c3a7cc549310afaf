import Verif.Solve.Model
import Verif.Solve.LineSearch
import Verif.Solve.Descent
import Mathlib.Algebra.BigOperators.Fin

/-!
# Model of the complete iterations of the hierarchical solver

Sources: `/repo/include/hpp/constraints/solver/impl/hierarchical-iterative.hh`, lines 39-181 and
`/repo/src/solver/hierarchical-iterative.cc`, lines 694-719 and 744-823.

The iterations of `solve` (`Solve/Model.lean`), the direction (`Solve/Descent.lean`) and the line searches
(`Solve/LineSearch.lean`) are put together.  A level gives the error and the Jacobian as functions of the
configuration.  Simplifications: all rows of a level are kept (`activeRowsOfJ`), and `saturate` returns
false.
-/

namespace Hpp

open Matrix

variable {A α S : Type}

/-- A level: `datas_[i]` and the sizes of the constraints of `stacks_[i]`.  `blk` gives the number of the
constraint of each row, `nc` the number of constraints. -/
structure NLevel (A α : Type) (n : Nat) where
  m : Nat
  /-- `d.reducedJ` after `computeValue<true>(arg)` -/
  J : A → Matrix (Fin m) (Fin n) α
  /-- `d.error` after `computeValue(arg); computeError();` -/
  err : A → Fin m → α
  nc : Nat
  blk : Fin m → Fin nc

/-- What `computeDescentDirection` reads. -/
def NLevel.at {n : Nat} (l : NLevel A α n) (q : A) : DLevel α n := ⟨l.m, l.J q, l.err q⟩

/-- `d.error.segment(iv, nv).squaredNorm()` for each constraint of a level (hierarchical-iterative.cc:703-708). -/
def NLevel.norms [Field α] {n : Nat} (l : NLevel A α n) (q : A) : List α :=
  (List.finRange l.nc).map fun k => ∑ i, if l.blk i = k then l.err q i * l.err q i else 0

/-- `computeError` (hierarchical-iterative.cc:694-710): `squaredNorm_`.  `opt` is `lastIsOptional_`; without
level and with `opt` the code reads outside of the stacks (`C33_empty_optional`), this gives 0. -/
def nSqNorm [Field α] [LinearOrder α] {n : Nat} (opt : Bool) (lv : List (NLevel A α n)) (q : A) : α :=
  (((if opt then lv.dropLast else lv).flatMap fun l => l.norms q).foldl max 0)

/-- `Backtracking::computeLocalSlope` (impl/hierarchical-iterative.hh:91-104). -/
def localSlope [Field α] {n : Nat} (ds : List (DLevel α n)) (dq : Fin n → α) : α :=
  ds.foldl (fun s d => s + (d.J *ᵥ dq) ⬝ᵥ d.e) 0

/-- The steps of `solve` (impl/hierarchical-iterative.hh:142-171).  The memory is `dqSmall_` and the state
of the line search. -/
def newtonOps [Field α] [LinearOrder α] {n : Nat} (o : SvdOps α) (byLevel opt : Bool) (thr : α)
    (lv : List (NLevel A α n))
    (ls : S → A → (Fin n → α) → S × LsOut A (Fin n → α)) : Ops A ((Fin n → α) × S) α where
  norm := nSqNorm opt lv
  dir q m :=
    let d := (descend o byLevel thr (lv.map fun l => l.at q) m.1).getD 0
    ((d, m.2), d ⬝ᵥ d)
  search q m :=
    let r := ls m.2 q m.1
    (r.2.arg, (m.1, r.1))

/-- The solver as it is seen by the line searches. -/
def newtonEnv [Field α] [LinearOrder α] {n : Nat} (opt : Bool) (lv : List (NLevel A α n))
    (integrate : A → (Fin n → α) → A) : LsEnv A (Fin n → α) α where
  integrate := integrate
  smul c v := c • v
  err := nSqNorm opt lv

/-- `lineSearch::Constant`. -/
def lsC [Field α] [LinearOrder α] {n : Nat} (opt : Bool) (lv : List (NLevel A α n))
    (integrate : A → (Fin n → α) → A) (_ : Unit) (q : A) (u : Fin n → α) : Unit × LsOut A (Fin n → α) :=
  ((), lsConstant (newtonEnv opt lv integrate) q u)

/-- `lineSearch::Backtracking` with the default parameters, for which five evaluations are sufficient
(`C32_backtracking`): the default value of `getD` is not used. -/
def lsB [Field α] [LinearOrder α] {n : Nat} (opt : Bool) (lv : List (NLevel A α n))
    (integrate : A → (Fin n → α) → A) (_ : Unit) (q : A) (u : Fin n → α) : Unit × LsOut A (Fin n → α) :=
  ((), (backtracking (newtonEnv opt lv integrate) (.default α) 5
    (localSlope (lv.map fun l => l.at q) u) (nSqNorm opt lv q) q u).getD ⟨q, u, false, 0⟩)

/-- `lineSearch::FixedSequence`. -/
def lsF [Field α] [LinearOrder α] {n : Nat} (opt : Bool) (lv : List (NLevel A α n))
    (integrate : A → (Fin n → α) → A) (s : FixedSeq α) (q : A) (u : Fin n → α) :
    FixedSeq α × LsOut A (Fin n → α) :=
  s.call (newtonEnv opt lv integrate) q u

/-- `lineSearch::ErrorNormBased`. -/
noncomputable def lsE {n : Nat} (opt : Bool) (lv : List (NLevel A ℝ n)) (integrate : A → (Fin n → ℝ) → A)
    (thr : ℝ) (s : ErrNormBased) (q : A) (u : Fin n → ℝ) : ErrNormBased × LsOut A (Fin n → ℝ) :=
  (s, s.call (newtonEnv opt lv integrate) (nSqNorm opt lv q) thr q u)

end Hpp
