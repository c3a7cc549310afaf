import Verif.Solve.Resume
import Verif.BySub.Resume

/-!
# C156: decrease of the error along the iterations

Sources: `/repo/include/hpp/constraints/solver/impl/hierarchical-iterative.hh`, lines 128-181, and
`/repo/include/hpp/constraints/solver/impl/by-substitution.hh`, lines 38-167.
-/

namespace Hpp

variable {A M α : Type}

namespace Progress

theorem three [LinearOrder α] (e : Nat → α) (k : Nat) (h : stalled e (k + 4) < 3) : e (k + 2) < e (k + 1) ∨ e (k + 3) < e (k + 2) ∨ e (k + 4) < e (k + 3) := by
  by_contra hc
  push Not at hc
  obtain ⟨h1, h2, h3⟩ := hc
  have e1 : stalled e (k + 2) = stalled e (k + 1) + 1 := if_neg (not_lt.2 h1)
  have e2 : stalled e (k + 3) = stalled e (k + 2) + 1 := if_neg (not_lt.2 h2)
  have e3 : stalled e (k + 4) = stalled e (k + 3) + 1 := if_neg (not_lt.2 h3)
  omega

theorem bs_three [LinearOrder α] (e : Nat → α) (k : Nat) (h : bsStalled e (k + 3) < 3) : e (k + 1) < e k ∨ e (k + 2) < e (k + 1) ∨ e (k + 3) < e (k + 2) := by
  by_contra hc
  push Not at hc
  obtain ⟨h1, h2, h3⟩ := hc
  have e1 : bsStalled e (k + 1) = bsStalled e k + 1 := if_neg (not_lt.2 h1)
  have e2 : bsStalled e (k + 2) = bsStalled e (k + 1) + 1 := if_neg (not_lt.2 h2)
  have e3 : bsStalled e (k + 3) = bsStalled e (k + 2) + 1 := if_neg (not_lt.2 h3)
  omega

theorem count [LinearOrder α] (e : Nat → α) (n : Nat) (h : ∀ i ≤ n, stalled e (i + 1) < 3) :
    n ≤ 3 * ((Finset.range n).filter fun i => e (i + 2) < e (i + 1)).card + stalled e (n + 1) := by
  induction n with
  | zero => exact Nat.zero_le _
  | succ n ih =>
    have ih := ih fun i hi => h i (Nat.le_succ_of_le hi)
    have hn := h n (Nat.le_succ n)
    rw [Finset.range_add_one, Finset.filter_insert]
    by_cases hd : e (n + 2) < e (n + 1)
    · rw [if_pos hd, Finset.card_insert_of_notMem (by simp)]
      omega
    · have e1 : stalled e (n + 2) = stalled e (n + 1) + 1 := if_neg hd
      rw [if_neg hd, show n + 1 + 1 = n + 2 from rfl, e1]
      omega

theorem bs_count [LinearOrder α] (e : Nat → α) (n : Nat) (h : ∀ i ≤ n, bsStalled e i < 3) :
    n ≤ 3 * ((Finset.range n).filter fun i => e (i + 1) < e i).card + bsStalled e n := by
  induction n with
  | zero => exact Nat.zero_le _
  | succ n ih =>
    have ih := ih fun i hi => h i (Nat.le_succ_of_le hi)
    have hn := h n (Nat.le_succ n)
    rw [Finset.range_add_one, Finset.filter_insert]
    by_cases hd : e (n + 1) < e n
    · rw [if_pos hd, Finset.card_insert_of_notMem (by simp)]
      omega
    · have e1 : bsStalled e (n + 1) = bsStalled e n + 1 := if_neg hd
      rw [if_neg hd, e1]
      omega

end Progress

/-- C156. Hierarchical solver: before the last iteration, one of three successive iterations decreases the error, the first iteration excepted, which is always
considered to decrease it. -/
theorem C156_progress [LinearOrder α] (O : Ops A M α) (thr dqMin : α) (maxIter rd : Nat) (a : A) (m : M) (k : Nat)
    (hk : k + 4 < (solve O thr dqMin maxIter rd a m).iter) :
    let e := trajErr O a m
    e (k + 2) < e (k + 1) ∨ e (k + 3) < e (k + 2) ∨ e (k + 4) < e (k + 3) := by
  intro e
  have hn : ¬ (thr < O.norm a ∧ rd = 0) := by
    intro h
    unfold solve at hk
    rw [if_pos h] at hk
    exact absurd hk (Nat.not_lt_zero _)
  exact Progress.three e k ((solve_spec O thr dqMin maxIter rd a m hn).before _ hk).2.2

/-- C156. Hierarchical solver: among the `n` iterations that follow the first one and precede the last one, at least `(n - 2) / 3` decrease the error. -/
theorem C156_count [LinearOrder α] (O : Ops A M α) (thr dqMin : α) (maxIter rd : Nat) (a : A) (m : M) (n : Nat)
    (hk : n + 1 < (solve O thr dqMin maxIter rd a m).iter) :
    let e := trajErr O a m
    n ≤ 3 * ((Finset.range n).filter fun i => e (i + 2) < e (i + 1)).card + 2 := by
  intro e
  have hn : ¬ (thr < O.norm a ∧ rd = 0) := by
    intro h
    unfold solve at hk
    rw [if_pos h] at hk
    exact absurd hk (Nat.not_lt_zero _)
  have hs : ∀ i ≤ n, stalled e (i + 1) < 3 := fun i hi =>
    ((solve_spec O thr dqMin maxIter rd a m hn).before _ (by omega)).2.2
  have := Progress.count e n hs
  have := hs n le_rfl
  omega

/-- C156. Solver by substitution without optimization: before the last iteration, one of three successive iterations decreases the error. -/
theorem C156_substitution [Field α] [LinearOrder α] (o : BsOps A M α) (thr dqMin : α) (maxIter rd : Nat) (w l : Bool) (hw : (w && l) = false) (a : A) (m : M)
    (k : Nat) (hk : k + 3 < (bsSolve o thr dqMin maxIter rd w l a m).iter) :
    let e := bsErr o a m
    e (k + 1) < e k ∨ e (k + 2) < e (k + 1) ∨ e (k + 3) < e (k + 2) := by
  intro e
  have hdef : (o.expl a).2 = true := by
    by_contra hc
    unfold bsSolve at hk
    rcases hex : o.expl a with ⟨a0, ok⟩
    rw [hex] at hk hc
    cases ok with
    | true => exact hc rfl
    | false => exact absurd hk (Nat.not_lt_zero _)
  have hn : ¬ (1 / 4 * thr < o.norm (o.expl a).1 ∧ rd = 0) := by
    intro h
    unfold bsSolve at hk
    rcases hex : o.expl a with ⟨a0, ok⟩
    rw [hex] at hk hdef h
    simp only at hdef h
    subst hdef
    simp only [if_pos h] at hk
    exact absurd hk (Nat.not_lt_zero _)
  exact Progress.bs_three e k ((bsSolve_spec o thr dqMin maxIter rd w l hw a m hdef hn).before _ hk).2.1

/-- C156. Solver by substitution without optimization: among the `n` first iterations, if they are not the last ones, at least `(n - 2) / 3` decrease the error. -/
theorem C156_substitution_count [Field α] [LinearOrder α] (o : BsOps A M α) (thr dqMin : α) (maxIter rd : Nat) (w l : Bool) (hw : (w && l) = false) (a : A) (m : M)
    (n : Nat) (hk : n < (bsSolve o thr dqMin maxIter rd w l a m).iter) :
    let e := bsErr o a m
    n ≤ 3 * ((Finset.range n).filter fun i => e (i + 1) < e i).card + 2 := by
  intro e
  have hdef : (o.expl a).2 = true := by
    by_contra hc
    unfold bsSolve at hk
    rcases hex : o.expl a with ⟨a0, ok⟩
    rw [hex] at hk hc
    cases ok with
    | true => exact hc rfl
    | false => exact absurd hk (Nat.not_lt_zero _)
  have hn : ¬ (1 / 4 * thr < o.norm (o.expl a).1 ∧ rd = 0) := by
    intro h
    unfold bsSolve at hk
    rcases hex : o.expl a with ⟨a0, ok⟩
    rw [hex] at hk hdef h
    simp only at hdef h
    subst hdef
    simp only [if_pos h] at hk
    exact absurd hk (Nat.not_lt_zero _)
  have hs : ∀ i ≤ n, bsStalled e i < 3 := fun i hi =>
    ((bsSolve_spec o thr dqMin maxIter rd w l hw a m hdef hn).before _ (by omega)).2.1
  have := Progress.bs_count e n hs
  have := hs n le_rfl
  omega

namespace ProgressEx

/-- One equation `x² = 1`, Newton steps with the line search Constant. -/
def square : Ops ℚ ℚ ℚ where
  norm x := (x * x - 1) * (x * x - 1)
  dir x _ := (-(x * x - 1) / (2 * x), (-(x * x - 1) / (2 * x)) * (-(x * x - 1) / (2 * x)))
  search x d := (x + d, d)

/-- The same without explicit constraint, for the solver by substitution. -/
def bsSquare : BsOps ℚ ℚ ℚ where
  expl a := (a, true)
  norm x := (x * x - 1) * (x * x - 1)
  cost _ := 0
  dir x _ := -(x * x - 1) / (2 * x)
  scale s d := s * d
  unscale s d := d / s
  dqNorm d := d * d
  search x d := (x + d, d, true)

end ProgressEx

open ProgressEx in
/-- The hypotheses of `C156_progress`, `C156_count` (with `n = 3`), `C156_substitution` and `C156_substitution_count` (with `n = 3`) are met. -/
example : 4 < (solve square (1 / 10 ^ 8) (1 / 10 ^ 12) 40 1 (1 / 10) 0).iter ∧
    3 < (bsSolve bsSquare (1 / 10 ^ 8) (1 / 10 ^ 12) 40 1 false false (1 / 10) 0).iter := by
  decide +kernel

open ProgressEx in
/-- C156. The error of the configuration returned is not bounded by the initial error: for the equation `x² = 1`, from `1 / n` with one iteration, the initial
squared error is less than 1 and the squared error returned is at least `n⁴ / 64`, with `MAX_ITERATION_REACHED`.  The configurations visited are not compared. -/
theorem C156_larger_refuted (n : ℚ) (hn : 4 ≤ n) :
    let r := solve square (1 / 10 ^ 8) (1 / 10 ^ 12) 1 1 (1 / n) 0
    square.norm (1 / n) < 1 ∧ n ^ 4 / 64 ≤ square.norm r.arg ∧ r.status = some .maxIterationReached ∧ r.iter = 1 := by
  intro r
  have h0 : (0 : ℚ) < n := by linarith
  have hx : (1 / n) * (1 / n) = 1 / n ^ 2 := by field_simp
  have hi0 : 0 < 1 / n ^ 2 := by positivity
  have hi1 : 1 / n ^ 2 ≤ 1 / 16 := by
    apply one_div_le_one_div_of_le (by norm_num)
    nlinarith
  have hN : square.norm (1 / n) = (1 / n ^ 2 - 1) * (1 / n ^ 2 - 1) := by
    show ((1 / n) * (1 / n) - 1) * ((1 / n) * (1 / n) - 1) = _
    rw [hx]
  have hlt : square.norm (1 / n) < 1 := by rw [hN]; nlinarith
  have hgt : 1 / 10 ^ 8 < square.norm (1 / n) := by rw [hN]; nlinarith
  have hd : -((1 / n) * (1 / n) - 1) / (2 * (1 / n)) = (n - 1 / n) / 2 := by field_simp; ring
  have hin : 1 / n ≤ 1 / 4 := one_div_le_one_div_of_le (by norm_num) hn
  have hin0 : 0 < 1 / n := by positivity
  have hstep : ¬ ((n - 1 / n) / 2) * ((n - 1 / n) / 2) < 1 / 10 ^ 12 := by
    have : 1 ≤ (n - 1 / n) / 2 := by linarith
    have : 1 ≤ ((n - 1 / n) / 2) * ((n - 1 / n) / 2) := by nlinarith
    rw [not_lt]
    refine le_trans ?_ this
    norm_num
  have hy : n / 2 ≤ 1 / n + (n - 1 / n) / 2 := by linarith
  generalize hyy : 1 / n + (n - 1 / n) / 2 = y at hy
  have hy2 : n ^ 2 / 4 ≤ y * y := by nlinarith
  have hn2 : 16 ≤ n ^ 2 := by nlinarith
  have h8 : n ^ 2 / 8 ≤ y * y - 1 := by linarith
  have hbig : n ^ 4 / 64 ≤ (y * y - 1) * (y * y - 1) := by
    have : (n ^ 2 / 8) * (n ^ 2 / 8) ≤ (y * y - 1) * (y * y - 1) := mul_self_le_mul_self (by positivity) h8
    calc n ^ 4 / 64 = (n ^ 2 / 8) * (n ^ 2 / 8) := by ring
      _ ≤ _ := this
  have hlarge : (1 / 10 ^ 8 : ℚ) < (y * y - 1) * (y * y - 1) := by
    refine lt_of_lt_of_le ?_ hbig
    have : (256 : ℚ) ≤ n ^ 4 := by
      calc (256 : ℚ) = 16 * 16 := by norm_num
        _ ≤ n ^ 2 * n ^ 2 := mul_self_le_mul_self (by norm_num) hn2
        _ = n ^ 4 := by ring
    have h2 : (4 : ℚ) ≤ n ^ 4 / 64 := by linarith
    refine lt_of_lt_of_le ?_ h2
    norm_num
  have hr : r = ⟨y, (n - 1 / n) / 2, 1, some .maxIterationReached⟩ := by
    show solve square _ _ 1 1 _ _ = _
    unfold solve
    dsimp only
    rw [if_neg (by rintro ⟨-, h⟩; cases h)]
    unfold solveLoop
    rw [if_pos ⟨hgt, by decide⟩]
    dsimp only [square]
    rw [hd, if_neg hstep, hyy]
    unfold solveLoop solveEnd
    rw [if_pos hlarge]
    rfl
  rw [hr]
  exact ⟨hlt, hbig, rfl, rfl⟩

end Hpp
