import Verif.Solve.Lemmas
import Verif.HI.SatProps

/-!
# Statuses and termination of the hierarchical solver: C29, C30
-/

namespace Hpp

variable {A M α κ : Type}

/-! ## C29 -/

/-- C29. The four statuses, for every behaviour of the numerical steps.  The arguments visited are those
of the sequence `traj`; `r.iter` iterations are performed.  `ERROR_INCREASED` means that the last three
iterations did not decrease the error, `INFEASIBLE` that the step computed is too small or that there is
no free variable. -/
theorem C29_statuses [LinearOrder α] (o : Ops A M α) (thr dqMin : α) (maxIter reducedDim : Nat) (a : A)
    (m : M) :
    let r := solve o thr dqMin maxIter reducedDim a m
    let e := fun k => o.norm (traj o a m k).1
    let step := fun k => (o.dir (traj o a m k).1 (traj o a m k).2).2
    r.arg = (traj o a m r.iter).1 ∧
    (r.status = some .success ↔ e r.iter ≤ thr) ∧
    (r.status = some .maxIterationReached ↔
      thr < e r.iter ∧ r.iter = maxIter ∧ (reducedDim = 0 → e 0 ≤ thr)) ∧
    (r.status = some .errorIncreased ↔ thr < e r.iter ∧ r.iter < maxIter ∧ reducedDim ≠ 0 ∧ 4 ≤ r.iter ∧
      e (r.iter - 3) ≤ e (r.iter - 2) ∧ e (r.iter - 2) ≤ e (r.iter - 1) ∧ e (r.iter - 1) ≤ e r.iter) ∧
    (r.status = some .infeasible ↔ thr < e r.iter ∧ (reducedDim = 0 ∧ r.iter = 0 ∨
      r.iter < maxIter ∧ step r.iter < dqMin ∧
        ¬ (4 ≤ r.iter ∧ e (r.iter - 3) ≤ e (r.iter - 2) ∧ e (r.iter - 2) ≤ e (r.iter - 1) ∧
          e (r.iter - 1) ≤ e r.iter))) ∧
    r.status ≠ none ∧
    ∀ k, k < r.iter → thr < e k ∧ dqMin ≤ step k := by
  intro r e step
  by_cases h : thr < o.norm a ∧ reducedDim = 0
  · have hr : r = ⟨a, m, 0, some .infeasible⟩ := by
      show solve _ _ _ _ _ _ _ = _
      unfold solve
      simp [h]
    have he : thr < e 0 := h.1
    rw [hr]
    refine ⟨rfl, ?_, ?_, ?_, ?_, ?_, ?_⟩ <;> simp [h.2, not_le.2 he, he]
  · have hs : LoopSpec o thr dqMin maxIter a m r := solve_spec o thr dqMin maxIter reducedDim a m h
    have h3 := stalled_three (trajErr o a m) r.iter fun k hk => (hs.before k hk).2.2
    have hle := stalled_le_three (trajErr o a m) r.iter fun k hk => (hs.before k hk).2.2
    refine ⟨hs.arg, hs.success, ?_, ?_, ?_, hs.defined, fun k hk => ?_⟩
    · rw [hs.maxIt]
      constructor
      · rintro ⟨h1, h2⟩
        exact ⟨h1, h2, fun h0 => not_lt.1 fun h' => h ⟨h', h0⟩⟩
      · rintro ⟨h1, h2, _⟩
        exact ⟨h1, h2⟩
    · rw [hs.increased, h3]
      constructor
      · rintro ⟨h1, h2, h4, h5⟩
        exact ⟨h1, h2, fun h0 => h ⟨(hs.before 0 (by omega)).1, h0⟩, h4, h5⟩
      · rintro ⟨h1, h2, _, h4, h5⟩
        exact ⟨h1, h2, h4, h5⟩
    · rw [hs.infeasible]
      constructor
      · rintro ⟨h1, h2, h4, h5⟩
        exact ⟨h1, Or.inr ⟨h2, h5, fun h' => by have := h3.2 h'; omega⟩⟩
      · rintro ⟨h1, ⟨h2, h4⟩ | ⟨h2, h4, h5⟩⟩
        · rw [h4] at h1
          exact absurd ⟨h1, h2⟩ h
        · refine ⟨h1, h2, ?_, h4⟩
          have : ¬ stalled (trajErr o a m) r.iter = 3 := fun h' => h5 (h3.1 h')
          omega
    · obtain ⟨h1, h2, _⟩ := hs.before k hk
      exact ⟨h1, not_lt.1 h2⟩

/-- C29. For a solver built by insertion of constraints and changes of right hand sides, whose numerical
steps are arbitrary except that the error is the one computed by the solver: `SUCCESS` is returned exactly
if every constraint of the levels that count has, at the configuration returned, an error at most equal
to the threshold. -/
theorem C29_success [DecidableEq κ] {nv : Nat} [AddGroup α] [Mul α] [LinearOrder α]
    {El : Fn α κ → List α → Prop}
    {h : List (Impl α κ × Nat)} {s : HI α κ} (hb : HI.Built El nv h s)
    (hl : ∀ e ∈ h, e.1.fn.space.Lawful (El e.1.fn)) (hv : ∀ e ∈ h, ∀ q, El e.1.fn (e.1.fn.value q))
    (hne : s.lastIsOptional = true → s.levels ≠ [])
    (o : Ops (Nat → α) M α) (ho : ∀ q, s.sqNorm q = some (o.norm q))
    (dqMin : α) (maxIter reducedDim : Nat) (q : Nat → α) (m : M) :
    (solve o s.sqThr dqMin maxIter reducedDim q m).status = some .success ↔
      0 ≤ s.sqThr ∧ ∀ e ∈ h, IsMandatory s e → ∃ r, s.getRhs e.1 = some (some r) ∧
        sqSum (conError s.ineqThr (solve o s.sqThr dqMin maxIter reducedDim q m).arg e.1 r) ≤ s.sqThr := by
  obtain ⟨h1, h2, -⟩ := C29_statuses o s.sqThr dqMin maxIter reducedDim q m
  rw [h2]
  simp only [← h1]
  generalize (solve o s.sqThr dqMin maxIter reducedDim q m).arg = q'
  obtain ⟨n, g1, g2, g3, g4⟩ := C33_worst hb hl hv hne q'
  rw [ho, Option.some.injEq] at g1
  subst g1
  constructor
  · intro hn
    refine ⟨le_trans g2 hn, fun e he hm => ?_⟩
    obtain ⟨r, hr, hle⟩ := g3 e he hm
    exact ⟨r, hr, le_trans hle hn⟩
  · rintro ⟨h0, hall⟩
    rcases g4 with g4 | ⟨e, he, hm, r, hr, g4⟩
    · rw [g4]; exact h0
    · obtain ⟨r', hr', hle⟩ := hall e he hm
      rw [hr] at hr'
      simp only [Option.some.injEq] at hr'
      rw [g4, hr']; exact hle

namespace SolveEx

/-- Newton iterations on `x² = 2` in integers scaled by 100, one step is `x := (x + 20000 / x) / 2`. -/
def newton : Ops Int Unit Int where
  norm x := (x * x - 20000) * (x * x - 20000)
  dir x _ := ((), (x - (x + 20000 / x) / 2) ^ 2)
  search x _ := ((x + 20000 / x) / 2, ())

/-- Iterations that oscillate. -/
def osc : Ops Int Nat Int where
  norm x := x * x
  dir _ m := (m + 1, 1)
  search x m := (if m % 2 = 1 then -x else x, m)

end SolveEx

open SolveEx in
example : (solve newton 40000 1 40 1 1000 ()).status = some .success ∧
    (solve newton 40000 1 40 1 1000 ()).iter = 5 ∧ (solve newton 40000 1 40 1 1000 ()).arg = 141 ∧
    (solve newton 40000 1 4 1 1000 ()).status = some .maxIterationReached ∧
    (solve newton 1 1 40 1 1000 ()).status = some .infeasible ∧
    (solve newton 1 1 40 0 1000 ()).status = some .infeasible ∧
    (solve osc 1 0 40 1 2 0).status = some .errorIncreased ∧
    (solve osc 1 0 40 1 2 0).iter = 4 := by
  decide +kernel

open NanEx in
/-- C29 fails for errors that are not numbers: a solver whose only constraint has a value that is not a
number returns `SUCCESS`, whatever the numerical steps. -/
theorem C29_nan_refuted : ∃ (s : HI F Nat) (h : List (Impl F Nat × Nat)), HI.Built NanEx.El 1 h s ∧
    (∃ c ∈ h, ∀ q, c.1.fn.value q = [.nan]) ∧
    ∀ (o : Ops (Nat → F) M F), (∀ q, s.sqNorm q = some (o.norm q)) →
      ∀ (dqMin : F) (maxIter reducedDim : Nat) (q : Nat → F) (m : M),
        (solve o s.sqThr dqMin maxIter reducedDim q m).status = some .success := by
  refine ⟨s, [(c, 0)], s_built, ⟨(c, 0), by simp, fun _ => rfl⟩, fun o ho dqMin maxIter reducedDim q m => ?_⟩
  have hn : o.norm q = .num 0 := by
    have := ho q
    exact (Option.some.inj this).symm
  have hthr : ¬ s.sqThr < (.num 0 : F) := by decide
  unfold solve
  simp only [hn, hthr, false_and, if_false]
  cases maxIter <;> simp [solveLoop, solveEnd, hthr]

/-! ## C30 -/

/-- Instrumentation: the steps count the directions computed and the line searches performed. -/
def counting (o : Ops A M α) : Ops A (M × Nat × Nat) α where
  norm := o.norm
  dir a m := ((((o.dir a m.1).1), m.2.1 + 1, m.2.2), (o.dir a m.1).2)
  search a m := ((o.search a m.1).1, (o.search a m.1).2, m.2.1, m.2.2 + 1)

/-- C30. Whatever the errors, at most `maxIter` directions are computed and at most `maxIter` line
searches performed. -/
theorem C30_solve [LinearOrder α] (o : Ops A M α) (thr dqMin : α) (maxIter reducedDim : Nat) (a : A)
    (m : M) :
    let r := solve (counting o) thr dqMin maxIter reducedDim a (m, 0, 0)
    r.iter ≤ maxIter ∧ r.mem.2.1 ≤ maxIter ∧ r.mem.2.2 = r.iter := by
  intro r
  by_cases h : thr < o.norm a ∧ reducedDim = 0
  · have hr : r = ⟨a, (m, 0, 0), 0, some .infeasible⟩ := by
      show solve _ _ _ _ _ _ _ = _
      unfold solve counting
      simp [h]
    rw [hr]
    simp
  · have hs : LoopSpec (counting o) thr dqMin maxIter a (m, 0, 0) r :=
      solve_spec (counting o) thr dqMin maxIter reducedDim a (m, 0, 0) h
    have ht : ∀ k, (traj (counting o) a (m, 0, 0) k).2.2 = (k, k) := by
      intro k
      induction k with
      | zero => rfl
      | succ k ih =>
        show ((traj (counting o) a (m, 0, 0) k).2.2.1 + 1, (traj (counting o) a (m, 0, 0) k).2.2.2 + 1) = _
        rw [ih]
    refine ⟨hs.iter, ?_⟩
    rcases hs.mem with hm | ⟨hlt, hm⟩
    · rw [hm, ht]
      exact ⟨hs.iter, rfl⟩
    · rw [hm]
      show (traj (counting o) a (m, 0, 0) r.iter).2.2.1 + 1 ≤ _ ∧
        (traj (counting o) a (m, 0, 0) r.iter).2.2.2 = _
      rw [ht]
      exact ⟨hlt, rfl⟩

open SolveEx in
example : (solve (counting newton) 40000 1 40 1 1000 ((), 0, 0)).mem.2 = (5, 5) ∧
    (solve (counting newton) 1 1 40 1 1000 ((), 0, 0)).mem.2 = (6, 5) := by
  decide +kernel

end Hpp
