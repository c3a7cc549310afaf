import Verif.BySub.LoopProps
import Verif.BySub.Lemmas
import Verif.Solve.Props

/-!
# C127: solving a configuration that has already been solved
-/

namespace Hpp

variable {A M α κ : Type} [Field α] [LinearOrder α]

/-! ## All behaviours of the numerical steps -/

/-- A solution of the explicit constraints whose error is at most the fourth of the threshold is returned as it is. -/
theorem bsSolve_kept (o : BsOps A M α) (thr dqMin : α) (maxIter reducedDim : Nat) (w l : Bool) (hw : (w && l) = false)
    {a : A} (m : M) (hx : o.expl a = (a, true)) (hn : o.norm a ≤ 1 / 4 * thr) :
    bsSolve o thr dqMin maxIter reducedDim w l a m = ⟨a, m, 0, .success, false⟩ := by
  unfold bsSolve
  rw [hx, hw]
  have h1 : ¬ 1 / 4 * thr < o.norm a := not_lt.2 hn
  simp only [h1, false_and, if_false, decide_eq_true_eq]
  have hst : (bsInit o thr false a m).above = false := decide_eq_false h1
  have hl : ∀ (init : Option (A × α)) (b : Nat), bsLoop o thr dqMin false init b (bsInit o thr false a m) =
      bsEnd false init (bsInit o thr false a m) := by
    intro init b
    cases b <;> · unfold bsLoop; rw [hst]; simp
  rw [hl]
  split <;> simp [bsEnd, bsInit]

/-- `SUCCESS` from a configuration whose error was not below the threshold: the error is at most the fourth of the threshold. -/
theorem bsSolve_quarter (o : BsOps A M α) (thr dqMin : α) (maxIter reducedDim : Nat) (w l : Bool) (a : A) (m : M)
    (hs : (bsSolve o thr dqMin maxIter reducedDim w l a m).status = .success) (h0 : thr ≤ o.norm (o.expl a).1) :
    o.norm (bsSolve o thr dqMin maxIter reducedDim w l a m).arg ≤ 1 / 4 * thr := by
  cases hw : w && l with
  | true =>
    rw [Bool.and_eq_true] at hw
    obtain ⟨rfl, rfl⟩ := hw
    exact absurd hs (C37_optimize o thr dqMin maxIter reducedDim a m).1
  | false =>
    obtain ⟨hu, -⟩ := C37_success o thr dqMin maxIter reducedDim w l a m hs
    obtain ⟨⟨b, m', g1, b0, g2, g3⟩, g4, -⟩ := (C37_statuses o thr dqMin maxIter reducedDim w l hw a m).2.2 hu
    have hb0 : b0 = (o.expl a).1 := by
      unfold bsTraj at g2
      split at g2
      · simp only [Option.some.injEq, Prod.mk.injEq] at g2
        exact g2.1.symm
      · simp at g2
    have e1 : bsErr o a m (bsSolve o thr dqMin maxIter reducedDim w l a m).iter = o.norm b := by
      unfold bsErr; rw [g1]
    have e0 : bsErr o a m 0 = o.norm b0 := by unfold bsErr; rw [g2]
    rw [e1, e0] at g3 g4
    rw [← hb0] at h0
    have hn : ¬ o.norm b0 < thr := not_lt.2 h0
    rw [g3, if_neg (fun h => hn h.1)]
    rcases g4.1 hs with h | h
    · exact h
    · exact absurd h.1 hn

/-- From a configuration whose error is below the threshold: at most two iterations, and the error is not increased. -/
theorem bsSolve_below (o : BsOps A M α) (thr dqMin : α) (maxIter reducedDim : Nat) (w l : Bool) (hw : (w && l) = false) (a : A) (m : M)
    (hu : (bsSolve o thr dqMin maxIter reducedDim w l a m).undef = false) (h0 : o.norm (o.expl a).1 < thr) :
    (bsSolve o thr dqMin maxIter reducedDim w l a m).iter ≤ 2 ∧
    o.norm (bsSolve o thr dqMin maxIter reducedDim w l a m).arg ≤ o.norm (o.expl a).1 ∧
    (reducedDim ≠ 0 → (bsSolve o thr dqMin maxIter reducedDim w l a m).status = .success) := by
  obtain ⟨h1, -, h3⟩ := C37_statuses o thr dqMin maxIter reducedDim w l hw a m
  obtain ⟨⟨b, m', g1, b0, g2, g3⟩, g4, -⟩ := h3 hu
  have hb0 : b0 = (o.expl a).1 := by
    unfold bsTraj at g2
    split at g2
    · simp only [Option.some.injEq, Prod.mk.injEq] at g2
      exact g2.1.symm
    · simp at g2
  have e1 : bsErr o a m (bsSolve o thr dqMin maxIter reducedDim w l a m).iter = o.norm b := by
    unfold bsErr; rw [g1]
  have e0 : bsErr o a m 0 = o.norm b0 := by unfold bsErr; rw [g2]
  rw [e0] at h1 g3 g4
  rw [e1] at g3 g4
  rw [← hb0] at h0 ⊢
  rw [if_pos h0] at h1
  refine ⟨le_trans h1 (min_le_right _ _), ?_, fun hr => g4.2 (Or.inr ⟨h0, Or.inl hr⟩)⟩
  rw [g3]
  split
  · exact le_refl _
  · rename_i hc
    exact not_lt.1 fun h => hc ⟨h0, h⟩

/-! ## Solvers built by insertion of constraints -/

section
variable [IsStrictOrderedRing α] [DecidableEq κ] {nq nv : Nat} {ex : ECS α κ} {El : Fn α κ → List α → Prop}
  {h : List (Impl α κ × Nat)} {s : HI α κ}

/-- Specification: error of each mandatory constraint of the solver at `q` at most `t`. -/
def ErrorsAtMost (s : HI α κ) (h : List (Impl α κ × Nat)) (q : Nat → α) (t : α) : Prop :=
  ∀ e ∈ h, IsMandatory s e → ∃ r, s.getRhs e.1 = some (some r) ∧ sqSum (conError s.ineqThr q e.1 r) ≤ t

omit [IsStrictOrderedRing α] in
theorem errorsAtMost_norm (hb : HI.Built El nv h s)
    (hl : ∀ e ∈ h, e.1.fn.space.Lawful (El e.1.fn)) (hv : ∀ e ∈ h, ∀ q, El e.1.fn (e.1.fn.value q))
    (hne : s.lastIsOptional = true → s.levels ≠ []) {q : Nat → α} {n t : α} (hn : s.sqNorm q = some n) (ht : 0 ≤ t) :
    ErrorsAtMost s h q t ↔ n ≤ t := by
  obtain ⟨n', g1, g2, g3, g4⟩ := C33_worst hb hl hv hne q
  rw [hn, Option.some.injEq] at g1
  subst g1
  constructor
  · intro hall
    rcases g4 with rfl | ⟨e, he, hm, r, hr, g4⟩
    · exact ht
    · obtain ⟨r', hr', hle⟩ := hall e he hm
      rw [hr, Option.some.injEq, Option.some.injEq] at hr'
      rw [g4, hr']; exact hle
  · intro hle e he hm
    obtain ⟨r, hr, hx⟩ := g3 e he hm
    exact ⟨r, hr, le_trans hx hle⟩

omit [IsStrictOrderedRing α] in
/-- C127. Hierarchical solver: a configuration that satisfies the constraints is returned as it is with `SUCCESS`, without iteration,
whatever the line search is; in particular the result of a successful call is. -/
theorem C127_hierarchical (hb : HI.Built El nv h s)
    (hl : ∀ e ∈ h, e.1.fn.space.Lawful (El e.1.fn)) (hv : ∀ e ∈ h, ∀ q, El e.1.fn (e.1.fn.value q))
    (hne : s.lastIsOptional = true → s.levels ≠ [])
    (o : Ops (Nat → α) M α) (ho : ∀ q, s.sqNorm q = some (o.norm q)) (ht : 0 ≤ s.sqThr)
    (dqMin : α) (maxIter reducedDim : Nat) (m : M) :
    (∀ q, ErrorsAtMost s h q s.sqThr →
      solve o s.sqThr dqMin maxIter reducedDim q m = ⟨q, m, 0, some .success⟩) ∧
    (∀ q m' dqMin' maxIter', (solve o s.sqThr dqMin' maxIter' reducedDim q m').status = some .success →
      solve o s.sqThr dqMin maxIter reducedDim (solve o s.sqThr dqMin' maxIter' reducedDim q m').arg m =
        ⟨(solve o s.sqThr dqMin' maxIter' reducedDim q m').arg, m, 0, some .success⟩) := by
  have key : ∀ q, ErrorsAtMost s h q s.sqThr →
      solve o s.sqThr dqMin maxIter reducedDim q m = ⟨q, m, 0, some .success⟩ := by
    intro q hq
    have hn := (errorsAtMost_norm hb hl hv hne (ho q) ht).1 hq
    have h1 : ¬ s.sqThr < o.norm q := not_lt.2 hn
    unfold solve
    simp only [h1, false_and, if_false]
    cases maxIter <;> · unfold solveLoop; simp [h1, solveEnd]
  refine ⟨key, fun q m' dqMin' maxIter' hs => key _ ?_⟩
  exact ((C29_success hb hl hv hne o ho dqMin' maxIter' reducedDim q m').1 hs).2

variable (hx : ECS.Built nq nv ex) (hwf : ∀ c ∈ ex.cons, WellFormed nq nv c) (hcoh : AllCoherent ex.cons)
  (hlen : ∀ d ∈ ex.data, d.OutLen) (hb : HI.Built El nv h s)
  (hl : ∀ e ∈ h, e.1.fn.space.Lawful (El e.1.fn)) (hv : ∀ e ∈ h, ∀ q, El e.1.fn (e.1.fn.value q))
  (hne : s.lastIsOptional = true → s.levels ≠ [])
  (o : BsOps (Nat → α) M α) (ho : ∀ q, s.sqNorm q = some (o.norm q)) (hexp : ∀ q, (o.expl q).1 = ex.solve q) (ht : 0 ≤ s.sqThr)

include hx hwf hcoh hlen hb hl hv hne ho hexp ht

/-- C127. Solver by substitution, without optimization: a configuration that satisfies the explicit constraints, where they are defined,
and whose errors are at most the fourth of the threshold is returned as it is with `SUCCESS`, without iteration. -/
theorem C127_kept (dqMin : α) (maxIter reducedDim : Nat) (w : Bool) (hw : (w && s.lastIsOptional) = false) {q : Nat → α} (m : M)
    (hd : (o.expl q).2 = true) (hq : ∀ d ∈ ex.data, d.Holds q) (he : ErrorsAtMost s h q (1 / 4 * s.sqThr)) :
    bsSolve o s.sqThr dqMin maxIter reducedDim w s.lastIsOptional q m = ⟨q, m, 0, .success, false⟩ := by
  have h4 : 0 ≤ 1 / 4 * s.sqThr := by linarith
  have hfix : ex.solve q = q := (C13_solve hx hwf hcoh hlen q q).2 ⟨hq, fun _ _ => rfl⟩
  exact bsSolve_kept o s.sqThr dqMin maxIter reducedDim w _ hw m (Prod.ext ((hexp q).trans hfix) hd)
    ((errorsAtMost_norm hb hl hv hne (ho q) h4).1 he)

omit ht [IsStrictOrderedRing α] in
/-- C127. Solver by substitution, without optimization: if `solve` returns `SUCCESS` from a configuration that did not satisfy the
constraints once the explicit ones are solved, then a second call returns `SUCCESS` and the same configuration, without iteration,
whatever its line search and parameters are.  `hdef`: the explicit constraints are defined where they have been solved. -/
theorem C127_again (hdef : ∀ q, (o.expl q).2 = true → (o.expl (o.expl q).1).2 = true)
    (dqMin dqMin' : α) (maxIter maxIter' reducedDim reducedDim' : Nat) (w w' : Bool) (hw' : (w' && s.lastIsOptional) = false)
    {q q' : Nat → α} (m m' : M)
    (h0 : ∃ e ∈ h, IsMandatory s e ∧ ∃ r, s.getRhs e.1 = some (some r) ∧
      s.sqThr ≤ sqSum (conError s.ineqThr (ex.solve q) e.1 r))
    (hs : (bsSolve o s.sqThr dqMin maxIter reducedDim w s.lastIsOptional q m).status = .success)
    (hq' : (bsSolve o s.sqThr dqMin maxIter reducedDim w s.lastIsOptional q m).arg = q') :
    bsSolve o s.sqThr dqMin' maxIter' reducedDim' w' s.lastIsOptional q' m' = ⟨q', m', 0, .success, false⟩ := by
  have hthr : s.sqThr ≤ o.norm (o.expl q).1 := by
    obtain ⟨e, he, hm, r, hr, hle⟩ := h0
    obtain ⟨n, g1, -, g3, -⟩ := C33_worst hb hl hv hne (ex.solve q)
    rw [ho, Option.some.injEq] at g1
    obtain ⟨r', hr', hle'⟩ := g3 e he hm
    rw [hr, Option.some.injEq, Option.some.injEq] at hr'
    rw [hexp, g1]
    rw [← hr'] at hle'
    exact le_trans hle hle'
  have hn := bsSolve_quarter o s.sqThr dqMin maxIter reducedDim w _ q m hs hthr
  obtain ⟨hu, -⟩ := C37_success o s.sqThr dqMin maxIter reducedDim w _ q m hs
  obtain ⟨y, hy⟩ := bsSolve_expl o s.sqThr dqMin maxIter reducedDim w _ q m hu
  rw [hq'] at hn hy
  have hy1 : ex.solve y = q' := by rw [← hexp, hy]
  have hfix : ex.solve q' = q' := by
    have := C13_idempotent hx hwf hcoh hlen y
    rwa [hy1] at this
  refine bsSolve_kept o s.sqThr dqMin' maxIter' reducedDim' w' _ hw' m' (Prod.ext ((hexp q').trans hfix) ?_) hn
  have := hdef y (by rw [hy])
  rwa [hy] at this

omit hwf hcoh hlen hx ht [IsStrictOrderedRing α] in
/-- C127, part: solver by substitution, without optimization, from a configuration that satisfies the constraints once the explicit ones
are solved: at most two iterations, `SUCCESS` unless nothing is left to vary, and no error exceeds the largest initial one.  Missing: the
configuration is kept, see `C127_moves_refuted`; nothing is said if explicit constraints are not defined on the way. -/
theorem C127_better_partial (dqMin : α) (maxIter reducedDim : Nat) (w : Bool) (hw : (w && s.lastIsOptional) = false) (q : Nat → α) (m : M)
    (hu : (bsSolve o s.sqThr dqMin maxIter reducedDim w s.lastIsOptional q m).undef = false) {t : α} (h0t : 0 ≤ t) (htt : t < s.sqThr)
    (he : ErrorsAtMost s h (ex.solve q) t) :
    (bsSolve o s.sqThr dqMin maxIter reducedDim w s.lastIsOptional q m).iter ≤ 2 ∧
    ErrorsAtMost s h (bsSolve o s.sqThr dqMin maxIter reducedDim w s.lastIsOptional q m).arg t ∧
    (reducedDim ≠ 0 → (bsSolve o s.sqThr dqMin maxIter reducedDim w s.lastIsOptional q m).status = .success) := by
  have hn := (errorsAtMost_norm hb hl hv hne (ho _) h0t).1 he
  rw [← hexp] at hn
  obtain ⟨h1, h2, h3⟩ := bsSolve_below o s.sqThr dqMin maxIter reducedDim w _ hw q m hu (lt_of_le_of_lt hn htt)
  exact ⟨h1, (errorsAtMost_norm hb hl hv hne (ho _) h0t).2 (le_trans h2 hn), h3⟩

end

/-! ## Examples -/

namespace AgainEx

/-- One equation `x = 0`, no explicit constraint, and the line search `FixedSequence` (impl/hierarchical-iterative.hh:108-116) with the
values of hierarchical-iterative.cc: the memory holds the step and `alpha`. -/
def ops : BsOps ℚ (ℚ × ℚ) ℚ where
  expl a := (a, true)
  norm a := a * a
  cost _ := 0
  dir a m := (-a, m.2)
  scale c m := (c * m.1, m.2)
  unscale c m := (m.1 / c, m.2)
  dqNorm m := m.1 * m.1
  search a m := (a + m.2 * m.1, (m.2 * m.1, 95 / 100 - 8 / 10 * (95 / 100 - m.2)), true)

end AgainEx

open AgainEx in
/-- C127 fails for the claim that the result of a successful call is a fixed point: from 0.99, where the constraint is satisfied with
threshold 1, the first call returns `SUCCESS` after two iterations and a second call with a new line search moves the configuration
again.  A third one returns it as it is. -/
theorem C127_moves_refuted :
    let r := bsSolve ops 1 (1 / 10 ^ 12) 40 1 false false (99 / 100) (0, 1 / 5)
    let r' := bsSolve ops 1 (1 / 10 ^ 12) 40 1 false false r.arg (0, 1 / 5)
    ops.norm (99 / 100) < 1 ∧ r.status = .success ∧ r.iter = 2 ∧ r'.status = .success ∧ r'.arg ≠ r.arg ∧
      (bsSolve ops 1 (1 / 10 ^ 12) 40 1 false false r'.arg (0, 1 / 5)).arg = r'.arg := by
  decide +kernel

end Hpp
