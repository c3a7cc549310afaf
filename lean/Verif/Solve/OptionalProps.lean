import Verif.Solve.BoundsPriority
import Verif.HI.PriorityProps
import Verif.HI.BudgetEx

/-!
# C151: optional level and `solveLevelByLevel`

Sources: `/repo/src/solver/hierarchical-iterative.cc`, lines 689-711 (`computeError`), 744-823 (`computeDescentDirection`, line 809),
`/repo/include/hpp/constraints/solver/impl/hierarchical-iterative.hh`, lines 123-181 (`solve`).
-/

namespace Hpp

open Matrix

variable {A S : Type} {n : Nat}

/-- C151. With `solveLevelByLevel`, the levels of lower priority are not read while the squared error of the first one is larger than the squared
threshold. -/
theorem C151_direction (o : SvdOps ℝ) (thr : ℝ) (d : DLevel ℝ n) (ds : List (DLevel ℝ n)) (hm : d.m ≠ 0) (h : thr < d.e ⬝ᵥ d.e)
    (dq : Fin n → ℝ) : descend o true thr (d :: ds) dq = some (o.solve d.J (-d.e)) := by
  cases ds with
  | nil => rfl
  | cons d' ds =>
    show some (descendLoop o true thr true (d :: d' :: ds) none dq) = _
    unfold descendLoop
    have e : -d.e ⬝ᵥ -d.e = d.e ⬝ᵥ d.e := by rw [neg_dotProduct, dotProduct_neg, neg_neg]
    simp [hm, e, h]

theorem nSqNorm_le (l : NLevel A ℝ n) (q : A) : nSqNorm false [l] q ≤ l.err q ⬝ᵥ l.err q := by
  have h0 : 0 ≤ l.err q ⬝ᵥ l.err q := Finset.sum_nonneg fun _ _ => mul_self_nonneg _
  have hall : ∀ x ∈ l.norms q, x ≤ l.err q ⬝ᵥ l.err q := by
    intro x hx
    obtain ⟨k, -, rfl⟩ := List.mem_map.1 hx
    refine Finset.sum_le_sum fun i _ => ?_
    split
    · exact le_rfl
    · exact mul_self_nonneg _
  have key : ∀ (xs : List ℝ) (a : ℝ), a ≤ l.err q ⬝ᵥ l.err q → (∀ x ∈ xs, x ≤ l.err q ⬝ᵥ l.err q) →
      xs.foldl max a ≤ l.err q ⬝ᵥ l.err q := by
    intro xs
    induction xs with
    | nil => exact fun a ha _ => ha
    | cons x xs ih =>
      intro a ha hx
      exact ih _ (max_le ha (hx x List.mem_cons_self)) fun y hy => hx y (List.mem_cons_of_mem _ hy)
  unfold nSqNorm
  simp only [Bool.false_eq_true, if_false, List.flatMap_cons, List.flatMap_nil, List.append_nil]
  exact key _ 0 h0 hall

theorem solveLoop_guard {M : Type} {o o' : Ops A M ℝ} (thr dqMin : ℝ) (hn : o'.norm = o.norm)
    (hd : ∀ a m, thr < o.norm a → o'.dir a m = o.dir a m) (hs : ∀ a m, o'.search a m = o.search a m) :
    ∀ (left iter dec : Nat) (prev : Option ℝ) (a : A) (m : M) (st : Option Status),
    solveLoop o' thr dqMin left iter dec prev a m (o.norm a) st = solveLoop o thr dqMin left iter dec prev a m (o.norm a) st := by
  intro left
  induction left with
  | zero => intros; rfl
  | succ left ih =>
    intro iter dec prev a m st
    rw [solveLoop_succ, solveLoop_succ]
    by_cases h : thr < o.norm a ∧ dec ≠ 0
    · rw [if_pos h, if_pos h, hd a m h.1, hn, hs]
      split
      · rfl
      · exact ih _ _ _ _ _ _
    · rw [if_neg h, if_neg h]

theorem rows_of_error (thr : ℝ) (h0 : 0 ≤ thr) (l : NLevel A ℝ n) (q : A) (h : thr < nSqNorm false [l] q) :
    l.m ≠ 0 ∧ thr < l.err q ⬝ᵥ l.err q := by
  have h' : thr < l.err q ⬝ᵥ l.err q := lt_of_lt_of_le h (nSqNorm_le l q)
  refine ⟨fun hm => ?_, h'⟩
  have hz : l.err q ⬝ᵥ l.err q = 0 := Finset.sum_eq_zero fun i _ => absurd (lt_of_lt_of_eq i.2 hm) (Nat.not_lt_zero _)
  linarith

/-- C151. With one mandatory level, an optional level, `solveLevelByLevel`, and a line search that gives the same steps
with and without the optional level, the optional level is never read: `solve` returns exactly what it returns without it.  The dimensions
`rd`, `rd'` of the two problems may differ. -/
theorem C151_ignored (o : SvdOps ℝ) (thr dqMin : ℝ) (h0 : 0 ≤ thr) (l opt : NLevel A ℝ n)
    (ls ls' : S → A → (Fin n → ℝ) → S × LsOut A (Fin n → ℝ)) (hls : ∀ s q u, ls s q u = ls' s q u)
    (maxIter rd rd' : Nat) (hrd : l.m ≠ 0 → rd ≠ 0 ∧ rd' ≠ 0) (q : A) (m : (Fin n → ℝ) × S) :
    solve (newtonOps o true true thr [l, opt] ls) thr dqMin maxIter rd q m =
      solve (newtonOps o true false thr [l] ls') thr dqMin maxIter rd' q m := by
  have hn : (newtonOps o true true thr [l, opt] ls).norm = (newtonOps o true false thr [l] ls').norm := rfl
  unfold solve
  dsimp only
  rw [hn, if_neg fun h => (hrd (rows_of_error thr h0 l q h.1).1).1 h.2, if_neg fun h => (hrd (rows_of_error thr h0 l q h.1).1).2 h.2]
  refine solveLoop_guard thr dqMin hn (fun a m h => ?_) (fun a m => ?_) _ _ _ _ _ _ _
  · obtain ⟨hm, h'⟩ := rows_of_error thr h0 l a h
    have e := C151_direction o thr (l.at a) [opt.at a] hm h' m.1
    have e' := C151_direction o thr (l.at a) [] hm h' m.1
    unfold newtonOps
    dsimp only [List.map]
    rw [e, e']
  · show ((ls m.2 a m.1).2.arg, (m.1, (ls m.2 a m.1).1)) = ((ls' m.2 a m.1).2.arg, (m.1, (ls' m.2 a m.1).1))
    rw [hls]

section
variable {κ : Type} [DecidableEq κ] {El : Fn ℝ κ → List ℝ → Prop} {nv : Nat} {h : List (Impl ℝ κ × Nat)} {s : HI ℝ κ}
  {D : Space ℝ → List ℝ → List ℝ → Nat → Nat → ℝ}

/-- C151. The same for a solver into which constraints have been inserted with priorities 0 and 1. -/
theorem C151_solver (hb : HI.Built El nv h s)
    (hl : ∀ e ∈ h, e.1.fn.space.Lawful (El e.1.fn)) (hv : ∀ e ∈ h, ∀ q, El e.1.fn (e.1.fn.value q)) (hk : s.Kept h)
    {l opt : Level ℝ κ} (hlev : s.levels = [l, opt]) (hopt : s.lastIsOptional = true) (hby : s.byLevel = true) (h0 : 0 ≤ s.sqThr)
    (o : SvdOps ℝ) (J0 : A → Jac ℝ) (conf : A → Nat → ℝ)
    (ls ls' : S → A → (Fin (indices s.free.segs).length → ℝ) → S × LsOut A (Fin (indices s.free.segs).length → ℝ))
    (hls : ∀ st q u, ls st q u = ls' st q u) (dqMin : ℝ) (maxIter rd rd' : Nat)
    (hrd : indices l.rows.segs ≠ [] → rd ≠ 0 ∧ rd' ≠ 0) (q : A) (m : (Fin (indices s.free.segs).length → ℝ) × S) :
    solve (s.ops D o J0 conf ls) s.sqThr dqMin maxIter rd q m =
      solve (({ s with levels := [l], lastIsOptional := false } : HI ℝ κ).ops D o J0 conf ls') s.sqThr dqMin maxIter rd' q m := by
  have hne : s.lastIsOptional = true → s.levels ≠ [] := fun _ => by rw [hlev]; exact List.cons_ne_nil _ _
  have e1 : s.ops D o J0 conf ls = newtonOps o true true s.sqThr [s.nLevel D conf l, s.nLevel D conf opt] ls := by
    rw [C114_same_steps hb hl hv hk hne, hlev, hopt, hby]; rfl
  rw [e1]
  refine (C151_ignored o _ dqMin h0 (s.nLevel D conf l) (s.nLevel D conf opt) ls ls' hls maxIter rd rd'
    (fun hm => hrd fun hn => hm ?_) q m).trans ?_
  · show (indices l.rows.segs).length = 0
    rw [hn]; rfl
  · congr 1
    unfold HI.ops newtonOps
    congr 1
    · funext q
      have e := nSqNorm_levels (D := D) hb hl hv hk hne conf q
      rw [hlev, hopt] at e
      have e' : ({ s with levels := [l], lastIsOptional := false } : HI ℝ κ).sqNorm (conf q) = s.sqNorm (conf q) := by
        unfold HI.sqNorm at e ⊢
        rw [hlev] at e ⊢
        rw [hopt]
        cases h1 : l.error s.ineqThr (conf q) with
        | none => simp [h1] at e
        | some x =>
          cases h2 : opt.error s.ineqThr (conf q) with
          | none => simp [h1, h2] at e
          | some y => simp [h1, h2, mandatory]
      rw [e', e]
      rfl
    · funext q m
      have e : s.dLevel D (J0 q) (conf q) l = s.dLevel D (fun _ _ => 0) (conf q) l :=
        dLevel_any hb hl hv (i := 0) (by rw [hlev]; rfl) (J0 q) (conf q)
      have e' : ({ s with levels := [l], lastIsOptional := false } : HI ℝ κ).levels.map
          (({ s with levels := [l], lastIsOptional := false } : HI ℝ κ).dLevel D (J0 q) (conf q)) =
          [s.nLevel D conf l].map fun l => l.at q := by
        show [s.dLevel D (J0 q) (conf q) l] = _
        rw [e]
        rfl
      dsimp only at e' ⊢
      rw [e', hby]

end

/-- C151. The line searches Constant, FixedSequence and ErrorNormBased meet the hypothesis of `C151_ignored`. -/
theorem C151_line_searches (l opt : NLevel A ℝ n) (integrate : A → (Fin n → ℝ) → A) (thr : ℝ) :
    (∀ s q u, lsC true [l, opt] integrate s q u = lsC false [l] integrate s q u) ∧
    (∀ s q u, lsF true [l, opt] integrate s q u = lsF false [l] integrate s q u) ∧
    ∀ s q u, lsE true [l, opt] integrate thr s q u = lsE false [l] integrate thr s q u :=
  ⟨fun _ _ _ => rfl, fun _ _ _ => rfl, fun _ _ _ => rfl⟩

open OptionalEx in
/-- The example of `C150_optional_refuted` with `solveLevelByLevel`: the optional level is ignored and the solver succeeds. -/
example (o : SvdOps ℝ) (ho : o.Exact) (thr dqMin : ℝ) (h0 : 0 ≤ thr) (h1 : thr < 1) (h2 : dqMin ≤ 1) (maxIter : Nat) (hm : 1 ≤ maxIter)
    (dq : Fin 2 → ℝ) :
    (solve (newtonOps o true true thr [satG, satR] (lsC true [satG, satR] (plusSat box))) thr dqMin maxIter 2 ![1, 0] (dq, ())).status =
      some .success := by
  rw [C151_ignored o thr dqMin h0 satG satR _ _ (C151_line_searches satG satR (plusSat box) 0).1 maxIter 2 2 (fun _ => by norm_num)]
  exact (C150_optional_refuted o ho thr dqMin h0 h1 h2 maxIter hm dq).1.1

open ByLevelEx in
/-- The hypotheses of `C151_solver` hold for the solver with the mandatory constraint `q₀ = 1` and the optional constraint
`q₁ = 3 (1 - q₀)²`. -/
example : ∃ (s : HI ℝ Nat) (l opt : Level ℝ Nat), HI.Built HINewtonEx.El 2 hist s ∧
    (∀ e ∈ hist, e.1.fn.space.Lawful (HINewtonEx.El e.1.fn)) ∧ (∀ e ∈ hist, ∀ q, HINewtonEx.El e.1.fn (e.1.fn.value q)) ∧
    s.Kept hist ∧ s.levels = [l, opt] ∧ s.lastIsOptional = true ∧ s.byLevel = true ∧ 0 ≤ s.sqThr ∧
    indices l.rows.segs ≠ [] ∧ s.reducedDim ≠ 0 := by
  refine ⟨{ sol 1 with sqThr := 1, ineqThr := 0, maxIter := 10, lastIsOptional := true, byLevel := true }, _, _,
    .params 1 0 10 true true (sol_built 1), sol_lawful, sol_values, ?_, rfl, rfl, rfl, zero_le_one, ?_, ?_⟩
  · intro e he
    simp only [hist, List.mem_cons, List.not_mem_nil, or_false] at he
    refine ⟨fun r _ => ?_, fun r t _ _ _ => le_rfl⟩
    rcases he with rfl | rfl <;> rfl
  · show indices _ ≠ []
    exact List.cons_ne_nil (0 : Nat) []
  · show (2 : Nat) ≠ 0
    norm_num

end Hpp
