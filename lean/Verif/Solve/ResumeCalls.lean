import Verif.Solve.Resume
import Verif.Solve.BudgetProps

/-!
# C155: the iterations of `solve` split between any number of calls
-/

namespace Hpp

variable {A M α : Type}

/-- Specification: `solve` is called with the numbers of iterations of the list, each time from the configuration returned by the previous call, as long as
`MAX_ITERATION_REACHED` is returned.  The iterations are added. -/
def callAgain [LT α] [DecidableLT α] (O : Ops A M α) (thr dqMin : α) (rd : Nat) : List Nat → A → M → SolveOut A M
  | [], a, m => solve O thr dqMin 0 rd a m
  | k :: ks, a, m =>
    if (solve O thr dqMin k rd a m).status = some .maxIterationReached then
      { callAgain O thr dqMin rd ks (solve O thr dqMin k rd a m).arg (solve O thr dqMin k rd a m).mem with
        iter := k + (callAgain O thr dqMin rd ks (solve O thr dqMin k rd a m).arg (solve O thr dqMin k rd a m).mem).iter }
    else solve O thr dqMin k rd a m

/-- C155. However the iterations are split between calls, the configuration, the status and the number of iterations are those of one call, unless it returns
`ERROR_INCREASED`. -/
theorem C155_calls [LinearOrder α] (O : Ops A M α) (thr dqMin : α) (rd : Nat) : ∀ (ks : List Nat) (a : A) (m : M),
    (solve O thr dqMin ks.sum rd a m).status ≠ some .errorIncreased →
    (callAgain O thr dqMin rd ks a m).arg = (solve O thr dqMin ks.sum rd a m).arg ∧
    (callAgain O thr dqMin rd ks a m).status = (solve O thr dqMin ks.sum rd a m).status ∧
    (callAgain O thr dqMin rd ks a m).iter = (solve O thr dqMin ks.sum rd a m).iter
  | [], a, m, _ => ⟨rfl, rfl, rfl⟩
  | k :: ks, a, m, h => by
    rw [List.sum_cons] at h ⊢
    unfold callAgain
    by_cases hr : (solve O thr dqMin k rd a m).status = some .maxIterationReached
    · rw [if_pos hr]
      obtain ⟨h1, h2, h3⟩ := (C155_resume O thr dqMin k ks.sum rd a m hr).1 h
      obtain ⟨g1, g2, g3⟩ := C155_calls O thr dqMin rd ks (solve O thr dqMin k rd a m).arg (solve O thr dqMin k rd a m).mem (by rw [h2]; exact h)
      refine ⟨g1.trans h1, g2.trans h2, ?_⟩
      rw [← h3, ← g3]
    · rw [if_neg hr, C134_iterations O thr dqMin (Nat.le_add_right k ks.sum) rd a m hr]
      exact ⟨rfl, rfl, rfl⟩

open ResumeEx in
/-- Five calls, the last of which is not needed. -/
example : (solve fixed (1 / 10 ^ 4) (1 / 10 ^ 12) ([2, 0, 3, 10, 7] : List Nat).sum 1 1 (0, 1 / 5)).status = some .success ∧
    (callAgain fixed (1 / 10 ^ 4) (1 / 10 ^ 12) 1 [2, 0, 3, 10, 7] 1 (0, 1 / 5)).status = some .success ∧
    5 < (callAgain fixed (1 / 10 ^ 4) (1 / 10 ^ 12) 1 [2, 0, 3, 10, 7] 1 (0, 1 / 5)).iter ∧
    (callAgain fixed (1 / 10 ^ 4) (1 / 10 ^ 12) 1 [2, 0, 3, 10, 7] 1 (0, 1 / 5)).iter ≤ 15 := by
  decide +kernel

end Hpp
