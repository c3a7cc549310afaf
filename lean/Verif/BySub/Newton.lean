import Verif.BySub.Loop
import Verif.Solve.Newton

/-!
# Model of the complete iterations of the solver by substitution

Sources: `/repo/include/hpp/constraints/solver/impl/by-substitution.hh`, lines 38-167,
`/repo/include/hpp/constraints/solver/by-substitution.hh`, lines 281-286, and
`/repo/src/solver/hierarchical-iterative.cc`, lines 694-719 and 744-828.

The iterations (`BySub/Loop.lean`), the direction (`Solve/Descent.lean`) and a line search are put together.  As in
`Solve/Newton.lean`, all rows of a level are kept and `saturate` returns false.
-/

namespace Hpp

open Matrix

variable {A B α S : Type}

/-- `BySubstitution::integrate` (by-substitution.hh:281-286): integration followed by `explicit_.solve(result)`.
The Boolean is false if an explicit constraint has thrown `FunctionNotDefinedForThisValue`. -/
def bsIntegrate {V : Type} (integrate : A → V → A) (expl : A → A × Bool) (q : A) (v : V) : A × Bool :=
  expl (integrate q v)

/-- The steps of `BySubstitution::solve` (impl/by-substitution.hh:38-167).  The `J` of the levels is `reducedJ` after
`updateJacobian(arg)`.  The memory is `dqSmall_`, the entries of `dq_` that correspond to the free variables (the
other ones are zero), and the state of the line search.  The line search returns whether it completed.  Without
level `computeDescentDirection` leaves `dqSmall_` unchanged, here it is set to zero: it is not read
then. -/
def bsNewtonOps [Field α] [LinearOrder α] {n : Nat} (o : SvdOps α) (byLevel opt : Bool) (thr : α)
    (lv : List (NLevel A α n)) (expl : A → A × Bool)
    (ls : S → A → (Fin n → α) → (S × LsOut A (Fin n → α)) × Bool) :
    BsOps A ((Fin n → α) × (Fin n → α) × S) α where
  expl := expl
  norm := nSqNorm opt lv
  cost q := match lv.getLast? with
    | some l => l.err q ⬝ᵥ l.err q
    | none => 0
  dir q m :=
    let d := (descend o byLevel thr (lv.map fun l => l.at q) m.1).getD 0
    (d, d, m.2.2)
  scale c m := (m.1, c • m.2.1, m.2.2)
  unscale c m := (m.1, c⁻¹ • m.2.1, m.2.2)
  dqNorm m := m.2.1 ⬝ᵥ m.2.1
  search q m :=
    let r := ls m.2.2 q m.2.1
    (r.1.2.arg, (m.1, r.1.2.step, r.1.1), r.2)

end Hpp
