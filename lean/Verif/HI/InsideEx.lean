import Verif.HI.InsideProps
import Verif.HI.BudgetEx

/-!
# C142: bounds that are not reached, and bounds that are reached

Sources: `/repo/src/solver/hierarchical-iterative.cc`, lines 653-672, 712-719.
-/

namespace Hpp

open Matrix

namespace InsideEx
open ByLevelEx

/-- `q₀` between -1 and `ub`, `q₁` between -1 and 1 -/
noncomputable def box (ub : ℝ) : List (SatEntry ℝ) := [⟨0, 0, -1, ub⟩, ⟨1, 1, -1, 1⟩]

noncomputable abbrev free (o : SvdOps ℝ) (J0 : (Nat → ℝ) → Jac ℝ) :=
  (sol (1 / 2)).fullOps HINewtonEx.D o J0 id (fun _ _ => 0) (fun q v i => q i + v i) lineConstant

noncomputable abbrev bounded (ub : ℝ) (o : SvdOps ℝ) (J0 : (Nat → ℝ) → Jac ℝ) :=
  (sol (1 / 2)).fullOps HINewtonEx.D o J0 id (satFlags (box ub) fun _ => 0) (satMove (fun q v i => q i + v i) (box ub)) lineConstant

theorem solve_iter_le {A M : Type} (o : Ops A M ℝ) (thr dqMin : ℝ) (maxIter rd : Nat) (a : A) (m : M) :
    (solve o thr dqMin maxIter rd a m).iter ≤ maxIter := by
  by_cases h : thr < o.norm a ∧ rd = 0
  · unfold solve
    dsimp only
    rw [if_pos h]
    exact Nat.zero_le _
  · exact (solve_spec o thr dqMin maxIter rd a m h).iter

theorem box_start {ub : ℝ} (h : 0 < ub) : StrictlyInside (box ub) fun _ => 0 := by
  intro e he
  simp only [box, List.mem_cons, List.not_mem_nil, or_false] at he
  rcases he with rfl | rfl <;> constructor <;> norm_num
  exact h

theorem traj_one {o : SvdOps ℝ} (ho : o.Exact) (hor : o.Ortho) (J0 : (Nat → ℝ) → Jac ℝ) (dq : Fin 2 → ℝ) :
    (traj (free o J0) (fun _ => 0) (dq, ()) 1).2.1 = (![1, 0] : Fin 2 → ℝ) ∧
    (traj (free o J0) (fun _ => 0) (dq, ()) 1).1 =
      fun i => 0 + expand (hiFree (sol (1 / 2))) (![1, 0] : Fin 2 → ℝ) (fun _ => 0) i := by
  have h := (first ho hor (1 / 2) J0 dq).trans (if_pos (by norm_num))
  have e : traj (free o J0) (fun _ => 0) (dq, ()) 1 = (free o J0).search (fun _ => 0) ((free o J0).dir (fun _ => 0) (dq, ())).1 := rfl
  rw [e, h]
  exact ⟨rfl, rfl⟩

/-- The hypotheses of `C142_vector_space` hold: the solver goes from (0, 0) to (1, 0) in a box. -/
theorem same_result {o : SvdOps ℝ} (ho : o.Exact) (hor : o.Ortho) (J0 : (Nat → ℝ) → Jac ℝ) (dq : Fin 2 → ℝ) {ub : ℝ} (h : 1 < ub) (rd : Nat) :
    solve (bounded ub o J0) (sol (1 / 2)).sqThr (1 / 10 ^ 12) (sol (1 / 2)).maxIter rd (fun _ => 0) (dq, ()) =
      solve (free o J0) (sol (1 / 2)).sqThr (1 / 10 ^ 12) (sol (1 / 2)).maxIter rd (fun _ => 0) (dq, ()) := by
  have hit : (solve (free o J0) (sol (1 / 2)).sqThr (1 / 10 ^ 12) (sol (1 / 2)).maxIter rd (fun _ => 0) (dq, ())).iter ≤ 1 :=
    solve_iter_le _ _ _ _ _ _ _
  obtain ⟨t1, t2⟩ := traj_one ho hor J0 dq
  have e0 : expand (hiFree (sol (1 / 2))) (![1, 0] : Fin 2 → ℝ) (fun _ => 0) 0 = 1 := rfl
  have e1 : expand (hiFree (sol (1 / 2))) (![1, 0] : Fin 2 → ℝ) (fun _ => 0) 1 = 0 := rfl
  have hone : StrictlyInside (box ub) fun i => 0 + expand (hiFree (sol (1 / 2))) (![1, 0] : Fin 2 → ℝ) (fun _ => 0) i := by
    intro e he
    simp only [box, List.mem_cons, List.not_mem_nil, or_false] at he
    rcases he with rfl | rfl
    · dsimp only
      rw [e0]
      constructor <;> linarith
    · dsimp only
      rw [e1]
      constructor <;> norm_num
  refine C142_vector_space (C142_line_searches 0).1 _ _ _ _ _ _ trivial (fun j hj => ?_) (fun j hj => ?_)
  · have hj1 := hj.trans hit
    interval_cases j
    · exact box_start (lt_trans zero_lt_one h)
    · rw [t2]
      exact hone
  · have hj1 : j < 1 := lt_of_lt_of_le hj hit
    interval_cases j
    intro e he
    have := hone e he
    refine ⟨?_, ?_⟩
    · refine le_trans this.1.le (le_of_eq ?_)
      show _ = (0 : ℝ) + expand (hiFree (sol (1 / 2))) (traj (free o J0) (fun _ => 0) (dq, ()) 1).2.1 (fun _ => 0) e.iq
      rw [t1]
    · refine le_trans (le_of_eq ?_) this.2.le
      show (0 : ℝ) + expand (hiFree (sol (1 / 2))) (traj (free o J0) (fun _ => 0) (dq, ()) 1).2.1 (fun _ => 0) e.iq = _
      rw [t1]

end InsideEx

open InsideEx ByLevelEx in
/-- C142. Bounds that are not reached keep the success; a bound in the way of the step loses it: `q₀ = 1` and `q₁ = 3 (1 - q₀)²`, one
iteration from (0, 0), with an upper bound of `q₀` larger than 1, or equal to 1/2. -/
theorem C142_reached_refuted (o : SvdOps ℝ) (ho : o.Exact) (hor : o.Ortho) (J0 : (Nat → ℝ) → Jac ℝ) (dq : Fin 2 → ℝ) :
    let run := fun ub => solve (bounded ub o J0) (sol (1 / 2)).sqThr (1 / 10 ^ 12) (sol (1 / 2)).maxIter (sol (1 / 2)).reducedDim
      (fun _ => 0) (dq, ())
    (∀ ub, 1 < ub → (run ub).status = some .success) ∧ (run (1 / 2)).status = some .maxIterationReached := by
  intro run
  constructor
  · intro ub h
    show (solve (bounded ub o J0) (sol (1 / 2)).sqThr (1 / 10 ^ 12) (sol (1 / 2)).maxIter (sol (1 / 2)).reducedDim
      (fun _ => 0) (dq, ())).status = _
    rw [same_result ho hor J0 dq h]
    exact (C134_by_level_refuted o ho hor J0 dq).1
  · have hd : (bounded (1 / 2) o J0).dir (fun _ => 0) (dq, ()) = ((![1, 0], ()), 1) := by
      refine Eq.trans ?_ ((first ho hor (1 / 2) J0 dq).trans (if_pos (by norm_num)))
      show ((((descend o (sol (1 / 2)).byLevel (sol (1 / 2)).sqThr
        ((sol (1 / 2)).dLevels HINewtonEx.D J0 id (satFlags (box (1 / 2)) fun _ => 0) _) _).getD 0), _), _) = _
      rw [show (sol (1 / 2)).dLevels HINewtonEx.D J0 id (satFlags (box (1 / 2)) fun _ => 0) (fun _ => 0) = _ from
        dLevels_inside (conf := id) (box_start (by norm_num)) _]
      rfl
    have h0 : (bounded (1 / 2) o J0).norm (fun _ => 0) = 9 := by
      show ((sol (1 / 2)).sqNorm fun _ => 0).getD 0 = 9
      rw [norm_eq, Option.getD_some]
      norm_num
    have hq : ∀ i, i < 2 → ((bounded (1 / 2) o J0).search (fun _ => 0) (![1, 0], ())).1 i = if i = 0 then 1 / 2 else 0 := by
      have e0 : expand (hiFree (sol (1 / 2))) (![1, 0] : Fin 2 → ℝ) (fun _ => 0) 0 = 1 := rfl
      have e1 : expand (hiFree (sol (1 / 2))) (![1, 0] : Fin 2 → ℝ) (fun _ => 0) 1 = 0 := rfl
      intro i hi
      show (satLoopInPlace (box (1 / 2)) (fun i => 0 + expand (hiFree (sol (1 / 2))) (![1, 0] : Fin 2 → ℝ) (fun _ => 0) i) fun _ => 0).qSat i = _
      unfold satLoopInPlace box
      simp only [List.foldl_cons, List.foldl_nil, satStep, zero_add, e0, clamp]
      interval_cases i
      · norm_num [Function.update, e1]
      · norm_num [Function.update, e1]
    have h1 : (bounded (1 / 2) o J0).norm ((bounded (1 / 2) o J0).search (fun _ => 0) (![1, 0], ())).1 = 9 / 16 := by
      show ((sol (1 / 2)).sqNorm _).getD 0 = 9 / 16
      rw [norm_eq, Option.getD_some]
      show max (max 0 ((((bounded (1 / 2) o J0).search (fun _ => 0) (![1, 0], ())).1 0 - 1) *
        (((bounded (1 / 2) o J0).search (fun _ => 0) (![1, 0], ())).1 0 - 1)))
        ((((bounded (1 / 2) o J0).search (fun _ => 0) (![1, 0], ())).1 1 -
          3 * (1 - ((bounded (1 / 2) o J0).search (fun _ => 0) (![1, 0], ())).1 0) ^ 2) *
        (((bounded (1 / 2) o J0).search (fun _ => 0) (![1, 0], ())).1 1 -
          3 * (1 - ((bounded (1 / 2) o J0).search (fun _ => 0) (![1, 0], ())).1 0) ^ 2)) = _
      rw [hq 0 (by norm_num), hq 1 (by norm_num)]
      norm_num
    show (solve (bounded (1 / 2) o J0) (1 / 2) _ 1 2 _ _).status = _
    unfold solve
    rw [h0]
    dsimp only
    rw [if_neg (by simp)]
    unfold solveLoop
    rw [if_pos ⟨by norm_num, by decide⟩, hd]
    show (if (1 : ℝ) < _ then _ else _ : SolveOut _ _).status = _
    rw [if_neg (by norm_num)]
    show solveEnd (1 / 2) ((bounded (1 / 2) o J0).norm ((bounded (1 / 2) o J0).search (fun _ => 0) (![1, 0], ())).1) 0 none = _
    rw [h1]
    unfold solveEnd
    norm_num

end Hpp
