import Verif.Solve.Model

/-!
# Lemmas on the iterations of `solve`
-/

namespace Hpp

variable {A M α : Type}

/-- Specification: successive arguments and memories. -/
def traj (o : Ops A M α) (a : A) (m : M) : Nat → A × M
  | 0 => (a, m)
  | k + 1 => o.search (traj o a m k).1 (o.dir (traj o a m k).1 (traj o a m k).2).1

/-- Specification: error after `k` iterations. -/
def trajErr (o : Ops A M α) (a : A) (m : M) (k : Nat) : α := o.norm (traj o a m k).1

/-- Specification: squared norm of the step computed at iteration `k`. -/
def trajStep (o : Ops A M α) (a : A) (m : M) (k : Nat) : α :=
  (o.dir (traj o a m k).1 (traj o a m k).2).2

/-- Specification: number of successive iterations, up to the `k`-th one, that did not decrease the
error.  The first iteration always counts as decreasing (its error is compared with infinity). -/
def stalled [LT α] [DecidableLT α] (e : Nat → α) : Nat → Nat
  | 0 => 0
  | 1 => 0
  | k + 2 => if e (k + 2) < e (k + 1) then 0 else stalled e (k + 1) + 1

/-- Specification of the result of `solve` after the first test. -/
structure LoopSpec [LT α] [DecidableLT α] [LE α] (o : Ops A M α) (thr dqMin : α) (maxIter : Nat) (a : A)
    (m : M) (r : SolveOut A M) : Prop where
  iter : r.iter ≤ maxIter
  arg : r.arg = (traj o a m r.iter).1
  mem : r.mem = (traj o a m r.iter).2 ∨
    (r.iter < maxIter ∧ r.mem = (o.dir (traj o a m r.iter).1 (traj o a m r.iter).2).1)
  before : ∀ k, k < r.iter →
    thr < trajErr o a m k ∧ ¬ trajStep o a m k < dqMin ∧ stalled (trajErr o a m) k < 3
  success : r.status = some .success ↔ trajErr o a m r.iter ≤ thr
  maxIt : r.status = some .maxIterationReached ↔ thr < trajErr o a m r.iter ∧ r.iter = maxIter
  increased : r.status = some .errorIncreased ↔ thr < trajErr o a m r.iter ∧ r.iter < maxIter ∧
    stalled (trajErr o a m) r.iter = 3
  infeasible : r.status = some .infeasible ↔ thr < trajErr o a m r.iter ∧ r.iter < maxIter ∧
    stalled (trajErr o a m) r.iter < 3 ∧ trajStep o a m r.iter < dqMin
  defined : r.status ≠ none

theorem solveLoop_spec [LinearOrder α] (o : Ops A M α) (thr dqMin : α) (maxIter : Nat) (a : A) (m : M) :
    ∀ (left iter dec : Nat) (prev : Option α) (b : A) (m' : M) (n : α) (st : Option Status),
    iter + left = maxIter → traj o a m iter = (b, m') → n = trajErr o a m iter →
    dec + stalled (trajErr o a m) iter = 3 →
    prev = (if iter = 0 then none else some n) →
    (dec < 3 → st = some .errorIncreased) →
    (∀ k, k < iter → thr < trajErr o a m k ∧ ¬ trajStep o a m k < dqMin ∧
      stalled (trajErr o a m) k < 3) →
    LoopSpec o thr dqMin maxIter a m (solveLoop o thr dqMin left iter dec prev b m' n st) := by
  intro left
  induction left with
  | zero =>
    intro iter dec prev b m' n st h1 h2 h3 h4 h5 h6 h7
    have hb : b = (traj o a m iter).1 := by rw [h2]
    have hm : m' = (traj o a m iter).2 := by rw [h2]
    have hi : iter = maxIter := by omega
    subst hi
    unfold solveLoop solveEnd
    by_cases hn : thr < n
    · have hn' : thr < trajErr o a m iter := h3 ▸ hn
      refine ⟨Nat.le_refl _, hb, Or.inl hm, h7, ?_, ?_, ?_, ?_, ?_⟩ <;> simp [hn, hn', not_le.2 hn']
    · have hn' : trajErr o a m iter ≤ thr := h3 ▸ not_lt.1 hn
      refine ⟨Nat.le_refl _, hb, Or.inl hm, h7, ?_, ?_, ?_, ?_, ?_⟩ <;> simp [hn, hn', not_lt.2 hn']
  | succ left ih =>
    intro iter dec prev b m' n st h1 h2 h3 h4 h5 h6 h7
    have hb : b = (traj o a m iter).1 := by rw [h2]
    have hm : m' = (traj o a m iter).2 := by rw [h2]
    have hlt : iter < maxIter := by omega
    have hne : iter ≠ maxIter := by omega
    unfold solveLoop
    by_cases hc : thr < n ∧ dec ≠ 0
    · rw [if_pos hc]
      have hn' : thr < trajErr o a m iter := h3 ▸ hc.1
      have hst : stalled (trajErr o a m) iter < 3 := by omega
      have hstep : (o.dir b m').2 = trajStep o a m iter := by unfold trajStep; rw [← hb, ← hm]
      simp only
      by_cases hd : (o.dir b m').2 < dqMin
      · rw [if_pos hd]
        have hd' : trajStep o a m iter < dqMin := hstep ▸ hd
        unfold solveEnd
        refine ⟨by show iter ≤ _; omega, hb, Or.inr ⟨hlt, by show (o.dir b m').1 = _; rw [hb, hm]⟩, h7, ?_, ?_, ?_, ?_, ?_⟩
        all_goals simp [hc.1, hn', not_le.2 hn', hne, hlt, hst, hd']
        omega
      · rw [if_neg hd]
        have hd' : ¬ trajStep o a m iter < dqMin := hstep ▸ hd
        have htr : traj o a m (iter + 1) = o.search b (o.dir b m').1 := by
          show o.search _ _ = _
          rw [← hb, ← hm]
        have he : o.norm (o.search b (o.dir b m').1).1 = trajErr o a m (iter + 1) := by
          unfold trajErr; rw [htr]
        apply ih
        · omega
        · rw [htr]
        · exact he
        · cases iter with
          | zero =>
            simp only [if_true] at h5
            subst h5
            simp [stalled]
          | succ k =>
            simp only [Nat.succ_ne_zero, if_false] at h5
            subst h5
            simp only [decide_eq_true_eq]
            rw [he, h3]
            show _ + (if _ then _ else _) = 3
            by_cases hlt' : trajErr o a m (k + 1 + 1) < trajErr o a m (k + 1)
            · rw [if_pos hlt', if_pos hlt']
            · rw [if_neg hlt', if_neg hlt']
              have := hc.2
              omega
        · simp
        · cases iter with
          | zero =>
            simp only [if_true] at h5
            subst h5
            simp
          | succ k =>
            simp only [Nat.succ_ne_zero, if_false] at h5
            subst h5
            simp only [decide_eq_true_eq]
            intro hdec
            by_cases hlt' : o.norm (o.search b (o.dir b m').1).1 < n
            · rw [if_pos hlt'] at hdec; omega
            · rw [if_neg hlt']
        · intro k hk
          rcases Nat.lt_succ_iff_lt_or_eq.1 hk with hk | rfl
          · exact h7 k hk
          · exact ⟨hn', hd', hst⟩
    · rw [if_neg hc]
      unfold solveEnd
      by_cases hn : thr < n
      · have hn' : thr < trajErr o a m iter := h3 ▸ hn
        have hdec : dec = 0 := by
          by_contra h0; exact hc ⟨hn, h0⟩
        subst hdec
        have hst : stalled (trajErr o a m) iter = 3 := by omega
        rw [h6 (by omega)]
        refine ⟨by show iter ≤ _; omega, hb, Or.inl hm, h7, ?_, ?_, ?_, ?_, ?_⟩ <;>
          simp [hn, hn', not_le.2 hn', hne, hlt, hst]
      · have hn' : trajErr o a m iter ≤ thr := h3 ▸ not_lt.1 hn
        refine ⟨by show iter ≤ _; omega, hb, Or.inl hm, h7, ?_, ?_, ?_, ?_, ?_⟩ <;>
          simp [hn, hn', not_lt.2 hn']

theorem solve_spec [LinearOrder α] (o : Ops A M α) (thr dqMin : α) (maxIter reducedDim : Nat) (a : A)
    (m : M) (h : ¬ (thr < o.norm a ∧ reducedDim = 0)) :
    LoopSpec o thr dqMin maxIter a m (solve o thr dqMin maxIter reducedDim a m) := by
  unfold solve
  simp only [if_neg h]
  exact solveLoop_spec o thr dqMin maxIter a m maxIter 0 3 none a m _ none (by omega) rfl rfl rfl rfl
    (by omega) (by omega)

theorem stalled_le_three [LinearOrder α] (e : Nat → α) (n : Nat)
    (h3 : ∀ k, k < n → stalled e k < 3) : stalled e n ≤ 3 := by
  match n, h3 with
  | 0, _ => simp [stalled]
  | 1, _ => simp [stalled]
  | n + 2, h3 =>
    have := h3 (n + 1) (by omega)
    simp only [stalled]
    split <;> omega

theorem stalled_three [LinearOrder α] (e : Nat → α) (n : Nat)
    (h3 : ∀ k, k < n → stalled e k < 3) :
    stalled e n = 3 ↔ 4 ≤ n ∧ e (n - 3) ≤ e (n - 2) ∧ e (n - 2) ≤ e (n - 1) ∧ e (n - 1) ≤ e n := by
  match n, h3 with
  | 0, _ => simp [stalled]
  | 1, _ => simp [stalled]
  | 2, _ => simp only [stalled]; split <;> simp
  | 3, _ =>
    simp only [stalled]
    split
    · simp
    · split <;> simp
  | n + 4, h3 =>
    have h0 := h3 (n + 1) (by omega)
    have h1 := h3 (n + 2) (by omega)
    have h2 := h3 (n + 3) (by omega)
    simp only [stalled] at h1 h2 ⊢
    simp only [show n + 4 - 3 = n + 1 by omega, show n + 4 - 2 = n + 2 by omega,
      show n + 4 - 1 = n + 3 by omega]
    by_cases c1 : e (n + 2) < e (n + 1) <;> by_cases c2 : e (n + 3) < e (n + 2) <;>
      by_cases c3 : e (n + 4) < e (n + 3) <;>
      simp only [c1, c2, c3, if_true, if_false] at h1 h2 ⊢ <;>
      (simp [c1, c2, c3, not_lt.1, not_le.2]; try simp [not_lt] at c1 c2 c3) <;> omega

end Hpp
