import Verif.Solve.Model
import Mathlib.Order.Basic

/-!
# C134. Iteration budget and error threshold: the iterations of `HierarchicalIterative::solve`

Source: `/repo/include/hpp/constraints/solver/impl/hierarchical-iterative.hh`, lines 128-181.

The statements about solvers built by insertion of constraints are in `BySub/BudgetProps.lean`.
-/

namespace Hpp

variable {A M α : Type} [LinearOrder α]

theorem solveLoop_budget (o : Ops A M α) (thr dqMin : α) (k : Nat) : ∀ (left iter dec : Nat) (prev : Option α) (a : A) (m : M)
    (n : α) (st : Option Status), (solveLoop o thr dqMin left iter dec prev a m n st).status ≠ some .maxIterationReached →
    solveLoop o thr dqMin (left + k) iter dec prev a m n st = solveLoop o thr dqMin left iter dec prev a m n st := by
  intro left
  induction left with
  | zero =>
    intro iter dec prev a m n st h
    have hn : ¬ thr < n := by
      intro hn
      apply h
      simp [solveLoop, solveEnd, hn]
    cases k with
    | zero => rfl
    | succ k => simp [solveLoop, solveEnd, hn]
  | succ left ih =>
    intro iter dec prev a m n st h
    rw [Nat.add_right_comm]
    unfold solveLoop at h ⊢
    by_cases hc : thr < n ∧ dec ≠ 0
    · rw [if_pos hc] at h ⊢
      rw [if_pos hc]
      dsimp only at h ⊢
      split
      · simp [solveEnd]
      · rename_i hd
        rw [if_neg hd] at h
        exact ih _ _ _ _ _ _ _ h
    · rw [if_neg hc, if_neg hc]
      simp [solveEnd]

theorem solveLoop_iter (o : Ops A M α) (thr dqMin : α) : ∀ (left iter dec : Nat) (prev : Option α) (a : A) (m : M)
    (n : α) (st : Option Status), iter ≤ (solveLoop o thr dqMin left iter dec prev a m n st).iter := by
  intro left
  induction left with
  | zero => intros; exact Nat.le_refl _
  | succ left ih =>
    intro iter dec prev a m n st
    unfold solveLoop
    split
    · dsimp only
      split
      · exact Nat.le_refl _
      · exact Nat.le_trans (Nat.le_succ _) (ih _ _ _ _ _ _ _)
    · exact Nat.le_refl _

theorem solveLoop_threshold (o : Ops A M α) {thr thr' : α} (ht : thr ≤ thr') (dqMin : α) : ∀ (left iter dec : Nat) (prev : Option α)
    (a : A) (m : M) (n : α) (st : Option Status), (solveLoop o thr dqMin left iter dec prev a m n st).status = some .success →
    (solveLoop o thr' dqMin left iter dec prev a m n st).status = some .success ∧
    (solveLoop o thr' dqMin left iter dec prev a m n st).iter ≤ (solveLoop o thr dqMin left iter dec prev a m n st).iter := by
  intro left
  induction left with
  | zero =>
    intro iter dec prev a m n st h
    refine ⟨?_, Nat.le_refl _⟩
    simp only [solveLoop, solveEnd] at h ⊢
    by_cases hn : thr < n
    · simp [hn] at h
    · rw [if_neg fun h => hn (lt_of_le_of_lt ht h)]
  | succ left ih =>
    intro iter dec prev a m n st h
    have hit := solveLoop_iter o thr dqMin (left + 1) iter dec prev a m n st
    by_cases hn' : thr' < n
    · have hn : thr < n := lt_of_le_of_lt ht hn'
      unfold solveLoop at h ⊢
      by_cases hd : dec = 0
      · rw [if_neg fun h => h.2 hd] at h
        rw [if_neg fun h => h.2 hd, if_neg fun h => h.2 hd]
        refine ⟨?_, Nat.le_refl _⟩
        simpa [solveEnd, hn, hn'] using h
      · rw [if_pos ⟨hn, hd⟩] at h
        rw [if_pos ⟨hn', hd⟩, if_pos ⟨hn, hd⟩]
        dsimp only at h ⊢
        split
        · rename_i hs
          rw [if_pos hs] at h
          simp [solveEnd, hn] at h
        · rename_i hs
          rw [if_neg hs] at h
          exact ih _ _ _ _ _ _ _ h
    · have e : solveLoop o thr' dqMin (left + 1) iter dec prev a m n st = ⟨a, m, iter, some .success⟩ := by
        rw [solveLoop, if_neg fun h => hn' h.1]
        simp [solveEnd, hn']
      rw [e]
      exact ⟨rfl, hit⟩

/-- C134. Unless `MAX_ITERATION_REACHED` is returned, a larger number of iterations does not change anything: same configuration,
same status, same number of iterations, for all behaviours of the numerical steps. -/
theorem C134_iterations (o : Ops A M α) (thr dqMin : α) {maxIter maxIter' : Nat} (hn : maxIter ≤ maxIter') (rd : Nat) (a : A) (m : M)
    (h : (solve o thr dqMin maxIter rd a m).status ≠ some .maxIterationReached) :
    solve o thr dqMin maxIter' rd a m = solve o thr dqMin maxIter rd a m := by
  obtain ⟨k, rfl⟩ := Nat.exists_eq_add_of_le hn
  unfold solve at h ⊢
  dsimp only at h ⊢
  split
  · rfl
  · rename_i hc
    rw [if_neg hc] at h
    exact solveLoop_budget o thr dqMin k _ _ _ _ _ _ _ _ h

/-- C134. If the iterations succeed they succeed with a larger threshold, after the same number of iterations at most, provided that
the numerical steps do not depend on the threshold. -/
theorem C134_threshold (o : Ops A M α) {thr thr' : α} (ht : thr ≤ thr') (dqMin : α) (maxIter rd : Nat) (a : A) (m : M)
    (h : (solve o thr dqMin maxIter rd a m).status = some .success) :
    (solve o thr' dqMin maxIter rd a m).status = some .success ∧
    (solve o thr' dqMin maxIter rd a m).iter ≤ (solve o thr dqMin maxIter rd a m).iter := by
  unfold solve at h ⊢
  dsimp only at h ⊢
  by_cases hc : thr < o.norm a ∧ rd = 0
  · rw [if_pos hc] at h; cases h
  · rw [if_neg hc] at h ⊢
    rw [if_neg fun h => hc ⟨lt_of_le_of_lt ht h.1, h.2⟩]
    exact solveLoop_threshold o ht dqMin _ _ _ _ _ _ _ _ h

end Hpp
