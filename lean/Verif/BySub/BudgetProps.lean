import Verif.Solve.BudgetProps
import Verif.BySub.OrderProps
import Verif.BySub.LoopProps

/-!
# C134. Iteration budget and error threshold of the solvers

Sources: `/repo/include/hpp/constraints/solver/impl/by-substitution.hh`, lines 38-167,
`/repo/include/hpp/constraints/solver/impl/hierarchical-iterative.hh`, lines 128-181, and
`/repo/src/solver/hierarchical-iterative.cc`, lines 744-828.
-/

namespace Hpp

open Matrix

section
variable {A M α : Type} [Field α] [LinearOrder α]

theorem bsEnd_status {optimize : Bool} {init : Option (A × α)} (h : optimize = true ∨ init = none) (s : BsSt A M α) :
    (bsEnd optimize init s).status = s.status := by
  unfold bsEnd
  rcases optimize with _ | _ <;> rcases init with _ | ⟨a0, n0⟩ <;> first | rfl | simp at h

theorem bsLoop_budget (o : BsOps A M α) (thr dqMin : α) {optimize : Bool} {init : Option (A × α)} (hi : optimize = true ∨ init = none)
    (k : Nat) : ∀ (left : Nat) (s : BsSt A M α),
    (bsLoop o thr dqMin optimize init left s).status ≠ .maxIterationReached →
    bsLoop o thr dqMin optimize init (left + k) s = bsLoop o thr dqMin optimize init left s := by
  intro left
  induction left with
  | zero =>
    intro s h
    cases k with
    | zero => rfl
    | succ k =>
      have hc : ¬ (optimize = true ∨ s.above = true ∧ s.dec ≠ 0) := by
        intro hc
        apply h
        rw [bsLoop, if_pos hc, bsEnd_status hi]
      rw [Nat.zero_add, bsLoop, bsLoop, if_neg hc, if_neg hc]
  | succ left ih =>
    intro s h
    rw [Nat.add_right_comm]
    unfold bsLoop at h ⊢
    by_cases hc : optimize = true ∨ s.above = true ∧ s.dec ≠ 0
    · rw [if_pos hc] at h
      rw [if_pos hc, if_pos hc]
      dsimp only at h ⊢
      generalize (if optimize = true then o.scale s.scaling (if s.only = true then s.mem else o.dir s.arg s.mem) else
        if s.only = true then s.mem else o.dir s.arg s.mem) = mm at h ⊢
      generalize (if s.only = true then s.prev else s.n) = prev at h ⊢
      split
      · rfl
      · rename_i hd
        rw [if_neg hd] at h
        split
        · rfl
        · rename_i s' hs'
          rw [hs'] at h
          exact ih s' h
    · rw [if_neg hc, if_neg hc]

/-- C134. Unless `MAX_ITERATION_REACHED` is returned by the solver by substitution, a larger number of iterations does not change anything.
If the error is initially below the threshold and the solver does not optimize, at most two iterations are performed; the
number of iterations allowed must then be 2 at least. -/
theorem C134_substitution_iterations (o : BsOps A M α) (thr dqMin : α) {maxIter maxIter' : Nat} (hn : maxIter ≤ maxIter') (rd : Nat)
    (w l : Bool) (a : A) (m : M) (h : (bsSolve o thr dqMin maxIter rd w l a m).status ≠ .maxIterationReached)
    (h2 : o.norm (o.expl a).1 < thr → (w && l) = false → 2 ≤ maxIter) :
    bsSolve o thr dqMin maxIter' rd w l a m = bsSolve o thr dqMin maxIter rd w l a m := by
  obtain ⟨k, rfl⟩ := Nat.exists_eq_add_of_le hn
  unfold bsSolve at h ⊢
  rcases hex : o.expl a with ⟨a0, _ | _⟩
  · rfl
  · rw [hex] at h h2
    dsimp only at h h2 ⊢
    by_cases hc : 1 / 4 * thr < o.norm a0 ∧ rd = 0
    · rw [if_pos hc, if_pos hc]
    · rw [if_neg hc] at h
      rw [if_neg hc, if_neg hc]
      by_cases hb : o.norm a0 < thr
      · cases hw : (w && l) with
        | false =>
          have := h2 hb hw
          congr 1
          unfold bsBudget
          rw [if_pos (by simp [hb]), if_pos (by simp [hb])]
          omega
        | true =>
          rw [hw] at h
          have e : ∀ n, bsBudget true (decide (o.norm a0 < thr)) n = n := fun n => by unfold bsBudget; simp
          rw [e] at h
          rw [e, e]
          exact bsLoop_budget o thr dqMin (.inl rfl) k _ _ h
      · have e : ∀ n, bsBudget (w && l) (decide (o.norm a0 < thr)) n = n := fun n => by unfold bsBudget; simp [hb]
        rw [e] at h
        rw [e, e]
        rw [if_neg (by simpa using hb)] at h ⊢
        exact bsLoop_budget o thr dqMin (.inr rfl) k _ _ h

theorem bsLoop_iter (o : BsOps A M α) (thr dqMin : α) (init : Option (A × α)) : ∀ (left : Nat) (s : BsSt A M α),
    s.iter ≤ (bsLoop o thr dqMin false init left s).iter := by
  have he : ∀ s : BsSt A M α, (bsEnd false init s).iter = s.iter := by
    intro s; unfold bsEnd; rcases init with _ | ⟨a0, n0⟩ <;> rfl
  intro left
  induction left with
  | zero => intro s; unfold bsLoop; split <;> rw [he]
  | succ left ih =>
    intro s
    unfold bsLoop
    split
    · simp only [Bool.false_eq_true, if_false]
      generalize (if s.only = true then s.mem else o.dir s.arg s.mem) = mm
      generalize (if s.only = true then s.prev else s.n) = prev
      split
      · rw [he]
      · split
        · exact Nat.le_succ _
        · rename_i s' hs'
          have : s'.iter = s.iter + 1 := by
            unfold bsStep at hs'
            split at hs'
            · cases hs'
            · split at hs'
              · cases hs'
              · cases hs'; rfl
          exact Nat.le_trans (by omega) (ih s')
    · rw [he]

theorem bsLoop_stop (o : BsOps A M α) (thr dqMin : α) (init : Option (A × α)) (left : Nat) (s : BsSt A M α)
    (h : ¬ (s.above = true ∧ s.dec ≠ 0)) : bsLoop o thr dqMin false init left s = bsEnd false init s := by
  cases left <;> rw [bsLoop, if_neg (by simpa using h)]

theorem bsLoop_go (o : BsOps A M α) (thr dqMin : α) (init : Option (A × α)) (left : Nat) (s : BsSt A M α)
    (h : s.above = true ∧ s.dec ≠ 0) (ho : s.only = false) : bsLoop o thr dqMin false init (left + 1) s =
    if o.dqNorm (o.dir s.arg s.mem) < dqMin then bsEnd false init { s with mem := o.dir s.arg s.mem, status := .infeasible }
    else match bsStep o thr false s s.n (o.dir s.arg s.mem) with
      | .inr (a, m) => ⟨a, m, s.iter + 1, .infeasible, true⟩
      | .inl s' => bsLoop o thr dqMin false init left s' := by
  rw [bsLoop, if_pos (.inr h)]
  simp only [ho, Bool.false_eq_true, if_false]
  rfl

/-- One iteration with two thresholds -/
theorem bsStep_threshold (o : BsOps A M α) (thr thr' : α) (s : BsSt A M α) (b : Bool) (prev : α) (m : M) :
    (∃ x, bsStep o thr false s prev m = .inr x ∧ bsStep o thr' false { s with above := b } prev m = .inr x) ∨
    ∃ s1 : BsSt A M α, bsStep o thr false s prev m = .inl s1 ∧ bsStep o thr' false { s with above := b } prev m =
      .inl { s1 with above := decide (1 / 4 * thr' < s1.n) } ∧ s1.above = decide (1 / 4 * thr < s1.n) ∧ s1.only = s.only ∧
      (s1.n < prev → s1.status = .success) ∧ s1.iter = s.iter + 1 := by
  unfold bsStep
  dsimp only
  rcases o.search s.arg m with ⟨a1, m1, _ | _⟩
  · exact .inl ⟨_, rfl, rfl⟩
  · dsimp only
    rcases o.expl a1 with ⟨a2, _ | _⟩
    · exact .inl ⟨_, rfl, rfl⟩
    · refine .inr ⟨_, rfl, rfl, rfl, rfl, fun h => ?_, rfl⟩
      exact if_pos (decide_eq_true h)

theorem bsLoop_optimize (o : BsOps A M α) (thr dqMin : α) (a0 : A) (init : Option (A × α)) (k : Nat) :
    ∀ (left : Nat) (s : BsSt A M α), OptInv o thr a0 s → s.qopt.isSome →
    (bsLoop o thr dqMin true init (left + k) s).undef = false →
    o.cost (bsLoop o thr dqMin true init (left + k) s).arg ≤ o.cost (bsLoop o thr dqMin true init left s).arg := by
  intro left
  induction left with
  | zero =>
    intro s hs hq hu
    have h1 := ((bsLoop_opt o thr dqMin a0 init (0 + k) s hs).2.2 hu).2.2 hq
    obtain ⟨x, hx⟩ := Option.isSome_iff_exists.1 hq
    have e : (bsLoop o thr dqMin true init 0 s).arg = x := by
      rw [bsLoop, if_pos (.inl rfl)]
      show s.qopt.getD s.arg = x
      rw [hx]; rfl
    rw [e, (hs.opt x hx).2.2]
    exact h1.2
  | succ left ih =>
    intro s hs hq hu
    rw [Nat.add_right_comm] at hu ⊢
    unfold bsLoop at hu ⊢
    simp only [true_or, if_true] at hu ⊢
    generalize (if s.only = true then s.prev else s.n) = prev at hu ⊢
    generalize o.scale s.scaling (if s.only = true then s.mem else o.dir s.arg s.mem) = m at hu ⊢
    by_cases hd : o.dqNorm m < dqMin
    · rw [if_pos hd, if_pos hd]
    · rw [if_neg hd] at hu
      rw [if_neg hd, if_neg hd]
      cases hst : bsStep o thr true s prev m with
      | inr p => exact le_refl _
      | inl s' =>
        rw [hst] at hu
        obtain ⟨h1, h2, h3, h4⟩ := bsStep_optInv o thr a0 s s' prev m hs hst
        exact ih s' h1 (h3 hq) hu

/-- C134. When the solver by substitution optimizes from a configuration that satisfies the constraints, more iterations never increase
the cost of the configuration returned, unless an explicit function is evaluated out of its domain. -/
theorem C134_optimize (o : BsOps A M α) (thr dqMin : α) {maxIter maxIter' : Nat} (hn : maxIter ≤ maxIter') (rd : Nat) (a : A) (m : M)
    (h0 : o.norm (o.expl a).1 ≤ 1 / 4 * thr) (hu : (bsSolve o thr dqMin maxIter' rd true true a m).undef = false) :
    o.cost (bsSolve o thr dqMin maxIter' rd true true a m).arg ≤ o.cost (bsSolve o thr dqMin maxIter rd true true a m).arg := by
  obtain ⟨k, rfl⟩ := Nat.exists_eq_add_of_le hn
  unfold bsSolve at hu ⊢
  rcases hex : o.expl a with ⟨a0, _ | _⟩
  · exact le_refl _
  · rw [hex] at h0 hu
    dsimp only at h0 hu ⊢
    simp only [Bool.and_self] at hu ⊢
    have hc : ¬ (1 / 4 * thr < o.norm a0 ∧ rd = 0) := fun h => not_lt.2 h0 h.1
    rw [if_neg hc] at hu
    rw [if_neg hc, if_neg hc]
    have e : ∀ n, bsBudget true (decide (o.norm a0 < thr)) n = n := fun n => by unfold bsBudget; simp
    rw [e] at hu
    rw [e, e]
    refine bsLoop_optimize o thr dqMin a0 _ k _ _ (bsInit_optInv o thr a a0 m hex) ?_ hu
    unfold bsInit
    simp only [true_and, not_lt.2 h0, not_false_eq_true, if_true, Option.isSome_some]

variable [IsStrictOrderedRing α]

theorem bsLoop_threshold (o : BsOps A M α) {thr thr' : α} (ht : thr ≤ thr') (dqMin : α) (init init' : Option (A × α)) :
    ∀ (left left' : Nat) (s : BsSt A M α), s.only = false → s.above = decide (1 / 4 * thr < s.n) →
    left' ≤ left → (init' = none → init = none ∧ left' = left ∧ (¬ 1 / 4 * thr' < s.n → s.status = .success)) →
    (bsLoop o thr dqMin false init left s).status = .success →
    (bsLoop o thr' dqMin false init' left' { s with above := decide (1 / 4 * thr' < s.n) }).status = .success ∧
    (bsLoop o thr' dqMin false init' left' { s with above := decide (1 / 4 * thr' < s.n) }).iter ≤
      (bsLoop o thr dqMin false init left s).iter := by
  have he : ∀ s : BsSt A M α, (bsEnd false init' s).iter = s.iter := by
    intro s; unfold bsEnd; rcases init' with _ | ⟨a0, n0⟩ <;> rfl
  have hsome : ∀ s : BsSt A M α, init' ≠ none → (bsEnd false init' s).status = .success := by
    intro s h; unfold bsEnd; rcases init' with _ | ⟨a0, n0⟩ <;> first | rfl | exact absurd rfl h
  have habove : ∀ n, 1 / 4 * thr' < n → 1 / 4 * thr < n := fun n h =>
    lt_of_le_of_lt (mul_le_mul_of_nonneg_left ht (by norm_num)) h
  intro left
  induction left with
  | zero =>
    intro left' s ho ha hl hi h
    obtain rfl : left' = 0 := by omega
    by_cases hi' : init' = none
    · obtain ⟨h1, -, h3⟩ := hi hi'
      subst h1 hi'
      by_cases hc : s.above = true ∧ s.dec ≠ 0
      · rw [bsLoop, if_pos (.inr hc)] at h
        cases h
      · rw [bsLoop_stop _ _ _ _ _ _ hc] at h
        rw [bsLoop_stop _ _ _ _ _ _ hc, bsLoop_stop _ _ _ _ _ { s with above := decide (1 / 4 * thr' < s.n) } fun h4 => hc ⟨by
          rw [ha]; exact decide_eq_true (habove _ (of_decide_eq_true h4.1)), h4.2⟩]
        exact ⟨h, Nat.le_refl _⟩
    · have h1 := bsLoop_iter o thr dqMin init 0 s
      rw [bsLoop]
      split
      · exact ⟨hsome _ hi', by rw [he]; exact h1⟩
      · exact ⟨hsome _ hi', by rw [he]; exact h1⟩
  | succ left ih =>
    intro left' s ho ha hl hi h
    have h1 := bsLoop_iter o thr dqMin init (left + 1) s
    cases left' with
    | zero =>
      have hi' : init' ≠ none := fun h => by have := (hi h).2.1; omega
      rw [bsLoop]
      split
      · exact ⟨hsome _ hi', by rw [he]; exact h1⟩
      · exact ⟨hsome _ hi', by rw [he]; exact h1⟩
    | succ left' =>
      by_cases hc' : 1 / 4 * thr' < s.n
      · have hc := habove _ hc'
        by_cases hd : s.dec = 0
        · have hstop : ¬ (s.above = true ∧ s.dec ≠ 0) := fun h => h.2 hd
          rw [bsLoop_stop _ _ _ _ _ _ hstop] at h h1
          rw [bsLoop_stop _ _ _ _ _ _ hstop, bsLoop_stop _ _ _ _ _ { s with above := decide (1 / 4 * thr' < s.n) } fun h => h.2 hd]
          by_cases hi' : init' = none
          · obtain ⟨h2, -, -⟩ := hi hi'
            subst h2 hi'
            exact ⟨h, Nat.le_refl _⟩
          · exact ⟨hsome _ hi', by rw [he]; exact h1⟩
        · have e1 : s.above = true := by rw [ha]; exact decide_eq_true hc
          rw [bsLoop_go _ _ _ _ _ _ ⟨e1, hd⟩ ho] at h h1
          rw [bsLoop_go _ _ _ _ _ _ ⟨e1, hd⟩ ho, bsLoop_go _ _ _ _ _ { s with above := decide (1 / 4 * thr' < s.n) }
            ⟨decide_eq_true hc', hd⟩ ho]
          dsimp only
          split
          · rename_i hq
            rw [if_pos hq] at h h1
            by_cases hi' : init' = none
            · obtain ⟨h2, -, -⟩ := hi hi'
              subst h2 hi'
              cases h
            · exact ⟨hsome _ hi', by rw [he]; exact h1⟩
          · rename_i hq
            rw [if_neg hq] at h
            rcases bsStep_threshold o thr thr' s (decide (1 / 4 * thr' < s.n)) s.n (o.dir s.arg s.mem) with
              ⟨x, e2, e3⟩ | ⟨s1, e2, e3, e4, e5, e6, e7⟩
            · rw [e2] at h; cases h
            · rw [e2] at h
              rw [e2, e3]
              refine ih left' s1 (by rw [e5, ho]) e4 (by omega) (fun h2 => ?_) h
              obtain ⟨h3, h4, -⟩ := hi h2
              exact ⟨h3, by omega, fun h5 => e6 (lt_of_le_of_lt (not_lt.1 h5) hc')⟩
      · rw [bsLoop_stop _ _ _ _ _ { s with above := decide (1 / 4 * thr' < s.n) } fun h => hc' (of_decide_eq_true h.1)]
        refine ⟨?_, by rw [he]; exact h1⟩
        by_cases hi' : init' = none
        · rw [bsEnd_status (.inr hi')]
          exact (hi hi').2.2 hc'
        · exact hsome _ hi'

/-- C134. If the solver by substitution succeeds without optimizing, it succeeds with a larger threshold, after the same number of
iterations at most, provided that the numerical steps do not depend on the threshold. -/
theorem C134_substitution_threshold (o : BsOps A M α) {thr thr' : α} (ht : thr ≤ thr') (dqMin : α) (maxIter rd : Nat)
    (w l : Bool) (hw : (w && l) = false) (a : A) (m : M) (h : (bsSolve o thr dqMin maxIter rd w l a m).status = .success) :
    (bsSolve o thr' dqMin maxIter rd w l a m).status = .success ∧
    (bsSolve o thr' dqMin maxIter rd w l a m).iter ≤ (bsSolve o thr dqMin maxIter rd w l a m).iter := by
  have habove : ∀ n, 1 / 4 * thr' < n → 1 / 4 * thr < n := fun n h =>
    lt_of_le_of_lt (mul_le_mul_of_nonneg_left ht (by norm_num)) h
  unfold bsSolve at h ⊢
  rw [hw] at h ⊢
  rcases hex : o.expl a with ⟨a0, _ | _⟩
  · rw [hex] at h; cases h
  · rw [hex] at h
    dsimp only at h ⊢
    by_cases hc : 1 / 4 * thr < o.norm a0 ∧ rd = 0
    · rw [if_pos hc] at h; cases h
    · rw [if_neg hc] at h
      rw [if_neg hc, if_neg fun h => hc ⟨habove _ h.1, h.2⟩]
      have e : bsInit o thr' false a0 m = { bsInit o thr false a0 m with above := decide (1 / 4 * thr' < o.norm a0) } := by
        unfold bsInit
        simp
      rw [e]
      refine bsLoop_threshold o ht dqMin _ _ _ _ (bsInit o thr false a0 m) rfl rfl ?_ ?_ h
      · unfold bsBudget
        by_cases hb : o.norm a0 < thr
        · rw [if_pos (by simp [lt_of_lt_of_le hb ht]), if_pos (by simp [hb])]
        · refine Nat.le_trans (m := maxIter) ?_ ?_
          · split
            · exact Nat.sub_le _ _
            · exact Nat.le_refl _
          · rw [if_neg (by simp [hb])]
      · intro hn
        have hb' : ¬ o.norm a0 < thr' := by
          intro hb'
          rw [if_pos (by simpa using hb')] at hn
          cases hn
        have hb : ¬ o.norm a0 < thr := fun h => hb' (lt_of_lt_of_le h ht)
        refine ⟨if_neg (by simpa using hb), ?_, fun _ => rfl⟩
        unfold bsBudget
        rw [if_neg (by simp [hb']), if_neg (by simp [hb])]

end

/-! ### Solvers -/

section
variable {κ S A : Type}

/-- Without the option to solve level by level the threshold is not read. -/
theorem descendLoop_noLevel (o : SvdOps ℝ) (thr thr' : ℝ) {n : Nat} : ∀ (ls : List (DLevel ℝ n)) (first : Bool) (p : Proj ℝ n)
    (dq : Fin n → ℝ), descendLoop o false thr first ls p dq = descendLoop o false thr' first ls p dq := by
  intro ls
  induction ls with
  | nil => intros; rfl
  | cons d ds ih =>
    intro first p dq
    unfold descendLoop
    simp only [Bool.false_and, ih]

theorem descend_noLevel (o : SvdOps ℝ) (thr thr' : ℝ) {n : Nat} (ls : List (DLevel ℝ n)) (dq : Fin n → ℝ) :
    descend o false thr ls dq = descend o false thr' ls dq := by
  unfold descend
  split
  · rfl
  · rfl
  · rw [descendLoop_noLevel o thr thr']

/-- C134. Let a solver have succeeded.  With a larger error threshold and a larger maximal number of iterations it succeeds after the
same number of iterations at most.  The line search is any one that does not read the threshold. -/
theorem C134_hierarchical_partial (s : HI ℝ κ) (hby : s.byLevel = false) {thr : ℝ} (ht : s.sqThr ≤ thr) {n : Nat} (hn : s.maxIter ≤ n)
    (D : Space ℝ → List ℝ → List ℝ → Nat → Nat → ℝ) (o : SvdOps ℝ) (J0 : A → Jac ℝ) (conf : A → Nat → ℝ) (sat : A → Nat → ℝ)
    (move : A → (Nat → ℝ) → A) (ls : LineSearch A S) (dqMin : ℝ) (q : A) (dq : Fin (indices s.free.segs).length → ℝ) (st : S)
    (h : (solve (s.fullOps D o J0 conf sat move ls) s.sqThr dqMin s.maxIter s.reducedDim q (dq, st)).status = some .success) :
    let s' : HI ℝ κ := { s with sqThr := thr, maxIter := n }
    let r' := solve (s'.fullOps D o J0 conf sat move ls) s'.sqThr dqMin s'.maxIter s'.reducedDim q (dq, st)
    r'.status = some .success ∧
    r'.iter ≤ (solve (s.fullOps D o J0 conf sat move ls) s.sqThr dqMin s.maxIter s.reducedDim q (dq, st)).iter := by
  have e : (HI.fullOps { s with sqThr := thr, maxIter := n } D o J0 conf sat move ls) = s.fullOps D o J0 conf sat move ls := by
    unfold HI.fullOps
    simp only [hby]
    congr 1
    funext q m
    exact congrArg (fun d : Option (Fin (indices s.free.segs).length → ℝ) => ((d.getD 0, m.2), d.getD 0 ⬝ᵥ d.getD 0))
      (descend_noLevel o thr s.sqThr _ _)
  intro s' r'
  have hr : r' = solve (s.fullOps D o J0 conf sat move ls) thr dqMin n s.reducedDim q (dq, st) := by
    show solve (HI.fullOps { s with sqThr := thr, maxIter := n } D o J0 conf sat move ls) thr dqMin n s.reducedDim q (dq, st) = _
    rw [e]
  have h1 := C134_iterations (s.fullOps D o J0 conf sat move ls) s.sqThr dqMin hn s.reducedDim q (dq, st) (by rw [h]; simp)
  rw [hr, ← h1]
  rw [← h1] at h
  exact C134_threshold _ ht dqMin n s.reducedDim q (dq, st) h

/-- The same solver by substitution with other parameters -/
def BS.withParams (s : BS ℝ κ) (thr : ℝ) (n : Nat) : BS ℝ κ := { s with hi := { s.hi with sqThr := thr, maxIter := n } }

theorem rows_params (s : BS ℝ κ) (thr : ℝ) (n : Nat) (l : Level ℝ κ) : (s.withParams thr n).rows l = s.rows l := by
  have h : ∀ (cs : List (Impl ℝ κ)) k, (s.withParams thr n).rowsLoop cs k = s.rowsLoop cs k := by
    intro cs
    induction cs with
    | nil => intro k; rfl
    | cons c cs ih =>
      intro k
      unfold BS.rowsLoop
      rw [ih]
      rfl
  unfold BS.rows
  rw [h]

theorem dLevels_params (s : BS ℝ κ) (thr : ℝ) (n : Nat) (D : Space ℝ → List ℝ → List ℝ → Nat → Nat → ℝ) (J0 : (Nat → ℝ) → Jac ℝ)
    (sat : (Nat → ℝ) → Nat → ℝ) (q : Nat → ℝ) : (s.withParams thr n).dLevels D J0 sat q = s.dLevels D J0 sat q := by
  refine List.map_congr_left fun l _ => ?_
  exact congrArg (satLevel fun j => sat q (hiFree s.hi j)) (congrArg (fun segs : Segs =>
    (⟨(indices segs).length, fun r c => (s.updateJ q segs (s.lJac D (J0 q) q l)
      (s.reducedJ0 segs (s.lJac D (J0 q) q l))).getD (fun _ _ => 0) r c,
      fun r => s.lErr D (J0 q) q l ((indices segs).getD r 0)⟩ : DLevel ℝ (indices s.hi.free.segs).length))
    (congrArg Blocks.segs (rows_params s thr n l)))

theorem reducedDim_params (s : BS ℝ κ) (thr : ℝ) (n : Nat) : (s.withParams thr n).reducedDim = s.reducedDim := by
  unfold BS.reducedDim
  refine congrArg List.sum (List.map_congr_left fun l _ => ?_)
  rw [rows_params]

/-- C134. The same for the solver by substitution when it does not optimize. -/
theorem C134_substitution_partial (s : BS ℝ κ) (hby : s.hi.byLevel = false) {thr : ℝ} (ht : s.hi.sqThr ≤ thr) {n : Nat} (hn : s.hi.maxIter ≤ n)
    (D : Space ℝ → List ℝ → List ℝ → Nat → Nat → ℝ) (o : SvdOps ℝ) (J0 : (Nat → ℝ) → Jac ℝ) (dom : (Nat → ℝ) → Bool)
    (sat : (Nat → ℝ) → Nat → ℝ) (move : (Nat → ℝ) → (Nat → ℝ) → Nat → ℝ) (ls : BsLineSearch S) (dqMin : ℝ) (optimize : Bool)
    (hw : (optimize && s.hi.lastIsOptional) = false) (q : Nat → ℝ)
    (m : (Fin (indices s.hi.free.segs).length → ℝ) × (Fin (indices s.hi.free.segs).length → ℝ) × S)
    (h : (bsSolve (s.fullOps D o J0 dom sat move ls) s.hi.sqThr dqMin s.hi.maxIter s.reducedDim optimize s.hi.lastIsOptional q
      m).status = .success) (h2 : 2 ≤ s.hi.maxIter) :
    let s' : BS ℝ κ := s.withParams thr n
    let r' := bsSolve (s'.fullOps D o J0 dom sat move ls) s'.hi.sqThr dqMin s'.hi.maxIter s'.reducedDim optimize
      s'.hi.lastIsOptional q m
    r'.status = .success ∧ r'.iter ≤ (bsSolve (s.fullOps D o J0 dom sat move ls) s.hi.sqThr dqMin s.hi.maxIter s.reducedDim optimize
      s.hi.lastIsOptional q m).iter := by
  have e : (s.withParams thr n).fullOps D o J0 dom sat move ls = s.fullOps D o J0 dom sat move ls := by
    have e1 : ∀ q m, (descend o (s.withParams thr n).hi.byLevel (s.withParams thr n).hi.sqThr
        (s.dLevels D J0 sat q) m) = descend o s.hi.byLevel s.hi.sqThr (s.dLevels D J0 sat q) m := by
      intro q m
      rw [show (s.withParams thr n).hi.byLevel = false from hby, hby]
      exact descend_noLevel o thr s.hi.sqThr _ _
    unfold BS.fullOps
    simp only [dLevels_params]
    have e2 : (fun (q : Nat → ℝ) (m : (Fin (indices s.hi.free.segs).length → ℝ) × (Fin (indices s.hi.free.segs).length → ℝ) × S) =>
        ((descend o (s.withParams thr n).hi.byLevel (s.withParams thr n).hi.sqThr (s.dLevels D J0 sat q) m.1).getD 0,
          (descend o (s.withParams thr n).hi.byLevel (s.withParams thr n).hi.sqThr (s.dLevels D J0 sat q) m.1).getD 0, m.2.2)) =
        fun q m => ((descend o s.hi.byLevel s.hi.sqThr (s.dLevels D J0 sat q) m.1).getD 0,
          (descend o s.hi.byLevel s.hi.sqThr (s.dLevels D J0 sat q) m.1).getD 0, m.2.2) := by
      funext q m
      rw [e1]
    exact congrArg (fun d => ({ BS.fullOps s D o J0 dom sat move ls with dir := d } : BsOps _ _ ℝ)) e2
  intro s' r'
  have hr : r' = bsSolve (s.fullOps D o J0 dom sat move ls) thr dqMin n s.reducedDim optimize s.hi.lastIsOptional q m := by
    show bsSolve ((s.withParams thr n).fullOps D o J0 dom sat move ls) thr dqMin n
      (s.withParams thr n).reducedDim optimize s.hi.lastIsOptional q m = _
    rw [e, reducedDim_params]
    rfl
  have h1 := C134_substitution_iterations (s.fullOps D o J0 dom sat move ls) s.hi.sqThr dqMin hn s.reducedDim optimize
    s.hi.lastIsOptional q m (by rw [h]; simp) (fun _ _ => h2)
  rw [hr, ← h1]
  rw [← h1] at h
  exact C134_substitution_threshold _ ht dqMin n s.reducedDim optimize s.hi.lastIsOptional hw q m h

end

/-! ### Examples -/

open SolveEx in
/-- Five iterations are enough; two with a larger threshold. -/
example : (solve newton 40000 1 5 1 1000 ()).status = some .success ∧ (solve newton 40000 1 5 1 1000 ()).iter = 5 ∧
    (solve newton 4000000000 1 5 1 1000 ()).iter = 2 := by decide +kernel

open BsEx in
/-- The hypotheses are met by iterations that succeed with several thresholds, and by an optimization. -/
example : (bsSolve ops 1 (1 / 1000) 40 1 false false (8, 0) 0).status = .success ∧
    (bsSolve ops 1 (1 / 1000) 40 1 false false (8, 0) 0).iter = 3 ∧
    (bsSolve ops 100 (1 / 1000) 40 1 false false (8, 0) 0).iter = 2 ∧
    ¬ ops.norm (ops.expl (8, 0)).1 < 1 ∧
    (bsSolve opt 1 (1 / 1000) 2 1 true true (-3 / 2, 0) 0).undef = false ∧
    opt.cost (bsSolve opt 1 (1 / 1000) 2 1 true true (-3 / 2, 0) 0).arg <
      opt.cost (bsSolve opt 1 (1 / 1000) 1 1 true true (-3 / 2, 0) 0).arg := by
  decide +kernel

open BsLinkEx in
/-- The solver of `BySub/NewtonLinkEx.lean` succeeds, hence it does with any larger threshold. -/
example (o : SvdOps ℝ) (ho : o.Exact) (hor : o.Ortho) (J0 : (Nat → ℝ) → Jac ℝ) (thr : ℝ) (ht : s.hi.sqThr ≤ thr) :
    (bsSolve ((s.withParams thr s.hi.maxIter).fullOps D o J0 (fun _ => true) (fun _ _ => 0) (fun q v i => q i + v i)
      fun _ env _ _ q u => (((), ⟨env.integrate q u, u, true, 0⟩), true)) thr (1 / 10 ^ 12) s.hi.maxIter
      (s.withParams thr s.hi.maxIter).reducedDim false s.hi.lastIsOptional (fun _ => 3 / 2)
      ((fun _ => 0 : Fin (indices s.hi.free.segs).length → ℝ), (fun _ => 0 : Fin (indices s.hi.free.segs).length → ℝ), ())).status =
      .success := by
  refine (C134_substitution_partial s rfl ht (Nat.le_refl _) D o J0 (fun _ => true) (fun _ _ => 0) (fun q v i => q i + v i)
    (fun _ env _ _ q u => (((), ⟨env.integrate q u, u, true, 0⟩), true)) (1 / 10 ^ 12) false rfl (fun _ => 3 / 2)
    ((fun _ => 0 : Fin (indices s.hi.free.segs).length → ℝ), (fun _ => 0 : Fin (indices s.hi.free.segs).length → ℝ), ()) ?_
    (by decide)).1
  rw [bs_fullOps_noSat]
  exact (solves o ho hor J0 _ _).1

end Hpp
