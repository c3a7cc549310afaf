import Mathlib.Data.Matrix.Mul
import Mathlib.Data.List.FinRange

/-!
# Model of the descent direction of the hierarchical solver

Source: `/repo/src/solver/hierarchical-iterative.cc`, lines 653-672 (`computeSaturation`), 744-823
(`computeDescentDirection`), 825-828 (`expandDqSmall`) and 712-719 (`integrate`).

Matrices have coefficients in a field (no rounding).  The singular value decomposition is a parameter
(`SvdOps`): what is assumed of it is a hypothesis of the theorems that need it.  The computation of
`sigma_` is modelled in `Solve/Sigma.lean`.
-/

namespace Hpp

open Matrix

variable {α : Type}

/-- Data of a level: `reducedJ` and the rows of `error` that are kept. -/
structure DLevel (α : Type) (n : Nat) where
  m : Nat
  J : Matrix (Fin m) (Fin n) α
  e : Fin m → α

/-- `svd.compute(M)` then `svd.solve(b)`, and `getV2(svd, rank)` (svd.hh:54-58) for a decomposition with full
`V`: `matrixV().cols() - rank` columns. -/
structure SvdOps (α : Type) where
  solve : ∀ {m n : Nat}, Matrix (Fin m) (Fin n) α → (Fin m → α) → (Fin n → α)
  ker : ∀ {m n : Nat}, Matrix (Fin m) (Fin n) α → Σ r : Nat, Matrix (Fin n) (Fin r) α

/-- Projector: `NULL` or a matrix. -/
abbrev Proj (α : Type) (n : Nat) := Option (Σ k : Nat, Matrix (Fin n) (Fin k) α)

/-- Loop over the levels (lines 775-818).  `byLevel` is `solveLevelByLevel_`, `thr` the squared threshold,
`first` is `i == 0`. -/
def descendLoop [Field α] [LinearOrder α] (o : SvdOps α) (byLevel : Bool) (thr : α) {n : Nat} :
    (first : Bool) → List (DLevel α n) → Proj α n → (dqSmall : Fin n → α) → Fin n → α
  | _, [], _, dq => dq
  | first, d :: ds, proj, dq =>
    if d.m = 0 then descendLoop o byLevel thr false ds proj dq
    else
      let err := if first then -d.e else -d.e - d.J *ᵥ dq
      let dq' := if first then o.solve d.J err else
        match proj with
        | none => dq + o.solve d.J err
        | some ⟨_, P⟩ => dq + P *ᵥ o.solve (d.J * P) err
      if byLevel && decide (err ⬝ᵥ err > thr) then dq'
      else if ds.isEmpty then dq'
      else
        match proj with
        | none =>
          if (o.ker d.J).1 = 0 then dq'
          else descendLoop o byLevel thr false ds (some (o.ker d.J)) dq'
        | some ⟨_, P⟩ =>
          if (o.ker (d.J * P)).1 = 0 then dq'
          else descendLoop o byLevel thr false ds (some ⟨_, P * (o.ker (d.J * P)).2⟩) dq'

/-- `computeDescentDirection` (lines 744-823) up to `expandDqSmall`: new value of `dqSmall_` given the
previous one.  `none`: `dqSmall_` is not used, `dq_` is set to zero. -/
def descend [Field α] [LinearOrder α] (o : SvdOps α) (byLevel : Bool) (thr : α) {n : Nat}
    (levels : List (DLevel α n)) (dqSmall : Fin n → α) : Option (Fin n → α) :=
  match levels with
  | [] => none
  | [d] => some (o.solve d.J (-d.e))
  | levels => some (descendLoop o byLevel thr true levels none dqSmall)

/-- `expandDqSmall` (lines 825-828): assignment to the segments of the free variables, whose indices are
listed by `free`. -/
def expand {n : Nat} (free : Fin n → Nat) (small : Fin n → α) (dq : Nat → α) : Nat → α :=
  (List.finRange n).foldl (fun d j => Function.update d (free j) (small j)) dq

/-- `computeSaturation` (lines 653-672) for one level, when `saturate` has returned true: columns set to
zero.  `s` is `reducedSaturation_`. -/
def satLevel [Field α] [LinearOrder α] {n : Nat} (s : Fin n → α) (d : DLevel α n) : DLevel α n :=
  ⟨d.m, fun i j => if s j * (d.Jᵀ *ᵥ d.e) j < 0 then 0 else d.J i j, d.e⟩

end Hpp
