import Verif.Solve.ShortestProps

/-!
# Model of the smallest singular value reported by the solver

Source: `/repo/src/solver/hierarchical-iterative.cc`, lines 744-823 (`computeDescentDirection`), for `sigma_` and
`datas_[i].maxRank`; `/repo/include/hpp/constraints/solver/hierarchical-iterative.hh`, lines 366-370 (`sigma`).

`Solve/Descent.lean` models the direction only; here the same loop also maintains `maxRank` and `sigma_`.
-/

namespace Hpp

open Matrix

/-- Lines 758-761 and 804-808: `maxRank` of a level and `sigma_`.  `singularValues()` has as many coefficients as the smallest
dimension of the matrix decomposed: `none` is an access outside the vector (the subscript operator of Eigen stops the program in
debug mode, otherwise the behaviour is undefined).  `⊤` is `std::numeric_limits<value_type>::max()`. -/
noncomputable def sigmaStep {m n : Nat} (s : Svd ℝ m n) (maxRank : Nat) (sigma : WithTop ℝ) : Option (Nat × WithTop ℝ) :=
  let r := max maxRank s.rank
  if r = 0 then some (0, sigma)
  else if r ≤ min m n then some (r, min sigma (s.σ (r - 1) : ℝ)) else none

/-- Loop over the levels (lines 773-818).  Each level comes with its `maxRank`.  Result: `dqSmall_`, the `maxRank`s, `sigma_`. -/
noncomputable def sigmaLoop (D : ∀ {m n : Nat}, Matrix (Fin m) (Fin n) ℝ → Svd ℝ m n) (byLevel : Bool) (thr : ℝ) {n : Nat} :
    (first : Bool) → List (DLevel ℝ n × Nat) → Proj ℝ n → (dqSmall : Fin n → ℝ) → WithTop ℝ →
      Option ((Fin n → ℝ) × List Nat × WithTop ℝ)
  | _, [], _, dq, sigma => some (dq, [], sigma)
  | first, (d, mx) :: ds, proj, dq, sigma =>
    if d.m = 0 then
      (sigmaLoop D byLevel thr false ds proj dq sigma).map fun x => (x.1, mx :: x.2.1, x.2.2)
    else
      let err := if first then -d.e else -d.e - d.J *ᵥ dq
      let dq' := if first then (D d.J).pinv *ᵥ err else
        match proj with
        | none => dq + (D d.J).pinv *ᵥ err
        | some ⟨_, P⟩ => dq + P *ᵥ ((D (d.J * P)).pinv *ᵥ err)
      match (match proj with
        | none => sigmaStep (D d.J) mx sigma
        | some ⟨_, P⟩ => sigmaStep (D (d.J * P)) mx sigma) with
      | none => none
      | some (mx', sigma') =>
        if byLevel && decide (err ⬝ᵥ err > thr) then some (dq', mx' :: ds.map (·.2), sigma')
        else if ds.isEmpty then some (dq', [mx'], sigma')
        else
          match proj with
          | none =>
            if (D d.J).l - (D d.J).rank = 0 then some (dq', mx' :: ds.map (·.2), sigma')
            else (sigmaLoop D byLevel thr false ds (some ⟨_, (D d.J).V2⟩) dq' sigma').map
              fun x => (x.1, mx' :: x.2.1, x.2.2)
          | some ⟨_, P⟩ =>
            if (D (d.J * P)).l - (D (d.J * P)).rank = 0 then some (dq', mx' :: ds.map (·.2), sigma')
            else (sigmaLoop D byLevel thr false ds (some ⟨_, P * (D (d.J * P)).V2⟩) dq' sigma').map
              fun x => (x.1, mx' :: x.2.1, x.2.2)

/-- `computeDescentDirection` (lines 744-823).  `none` as a direction: `dq_` is set to zero. -/
noncomputable def sigmaDescend (D : ∀ {m n : Nat}, Matrix (Fin m) (Fin n) ℝ → Svd ℝ m n) (byLevel : Bool) (thr : ℝ) {n : Nat}
    (levels : List (DLevel ℝ n × Nat)) (dqSmall : Fin n → ℝ) : Option (Option (Fin n → ℝ) × List Nat × WithTop ℝ) :=
  match levels with
  | [] => some (none, [], ⊤)
  | [(d, mx)] => (sigmaStep (D d.J) mx ⊤).map fun x => (some ((D d.J).pinv *ᵥ (-d.e)), [x.1], x.2)
  | levels => (sigmaLoop D byLevel thr true levels none dqSmall ⊤).map fun x => (some x.1, x.2)

/-- Successive calls of `computeDescentDirection` on the same solver, at various configurations: `maxRank` is kept from one call
to the next (it is set to zero by `update`, line 399).  Result: the `maxRank`s and the last value of `sigma_`. -/
noncomputable def sigmaCalls (D : ∀ {m n : Nat}, Matrix (Fin m) (Fin n) ℝ → Svd ℝ m n) (byLevel : Bool) (thr : ℝ) {n : Nat} :
    (calls : List (List (DLevel ℝ n))) → (maxRanks : List Nat) → (dqSmall : Fin n → ℝ) → (sigma : WithTop ℝ) →
      Option (List Nat × WithTop ℝ)
  | [], mx, _, sigma => some (mx, sigma)
  | c :: cs, mx, dq, _ =>
    match sigmaDescend D byLevel thr (c.zip mx) dq with
    | none => none
    | some (dq', mx', sigma') => sigmaCalls D byLevel thr cs mx' (dq'.getD dq) sigma'

end Hpp
