import Verif.BySub.Again

/-!
# C155 for the solver by substitution

Source: `/repo/include/hpp/constraints/solver/impl/by-substitution.hh`, lines 38-167 (`impl_solve`).
-/

namespace Hpp

variable {A M α : Type} [Field α] [LinearOrder α]

namespace Resume

theorem bsTraj_shift (o : BsOps A M α) (a : A) (m : M) (k : Nat) {p : A × M} (hp : bsTraj o a m k = some p)
    (hx : o.expl p.1 = (p.1, true)) : ∀ i, bsTraj o p.1 p.2 i = bsTraj o a m (k + i)
  | 0 => by
    rw [Nat.add_zero, hp]
    unfold bsTraj
    rw [hx]
    rfl
  | i + 1 => by
    show (bsTraj o p.1 p.2 i).bind _ = (bsTraj o a m (k + i)).bind _
    rw [bsTraj_shift o a m k hp hx i]

omit [Field α] in
theorem bsStalled_shift (e : Nat → α) (k : Nat) : ∀ i, bsStalled (fun i => e (k + i)) i ≤ bsStalled e (k + i)
  | 0 => Nat.zero_le _
  | i + 1 => by
    have h := bsStalled_shift e k i
    show (if e (k + (i + 1)) < e (k + i) then 0 else bsStalled (fun i => e (k + i)) i + 1) ≤
      if e (k + i + 1) < e (k + i) then 0 else bsStalled e (k + i) + 1
    rw [show k + (i + 1) = k + i + 1 from rfl]
    split
    · exact le_rfl
    · omega

omit [Field α] in
theorem bsStalled_le (e : Nat → α) (n : Nat) (h : ∀ k, k < n → bsStalled e k < 3) : bsStalled e n ≤ 3 := by
  cases n with
  | zero => exact Nat.zero_le _
  | succ n =>
    have := h n (Nat.lt_succ_self n)
    show (if e (n + 1) < e n then 0 else bsStalled e n + 1) ≤ 3
    split <;> omega

/-- There is a reason to stop. -/
theorem bs_stops {o : BsOps A M α} {thr dqMin : α} {k : Nat} {init : Option (A × α)} {a : A} {m : M} {r : BsOut A M}
    (h : BsSpec o thr dqMin k init a m r) (h0 : ∃ p, bsTraj o a m r.iter = some p) (h1 : 1 / 4 * thr < bsErr o a m r.iter)
    (h2 : ¬ bsStepNorm o a m r.iter < dqMin) (h3 : bsStalled (bsErr o a m) r.iter < 3) : r.iter = k := by
  cases hu : r.undef with
  | true =>
    obtain ⟨p, hp⟩ := h0
    rw [(h.undef hu).2] at hp
    cases hp
  | false =>
    obtain ⟨b, m', -, -, -, h4, -⟩ := h.last hu
    rcases h4 with h4 | h4 | h4 | h4
    · exact absurd h4 (not_le.2 h1)
    · omega
    · exact h4
    · exact absurd h4.2 h2

end Resume

open Resume

/-- C155. Solver by substitution, without optimization: `solve` is called with `k` iterations and returns `MAX_ITERATION_REACHED`; it is called again from the
configuration returned, with `j` iterations.  If the error reached is not below the threshold, then unless one call with `k + j` iterations returns
`ERROR_INCREASED`, the second call returns the same configuration and status as this one, and the iterations add up.  If the error reached is below the threshold,
the second call returns `SUCCESS` after at most two iterations and does not increase the error, provided the explicit constraints are defined.  For all behaviours
of the numerical steps; the explicit constraints keep the configurations that they return (C13). -/
theorem C155_substitution (o : BsOps A M α) (hi : ∀ a b, o.expl a = (b, true) → o.expl b = (b, true)) (thr dqMin : α) (k j rd : Nat) (w l : Bool)
    (hw : (w && l) = false) (a : A) (m : M) (hr : (bsSolve o thr dqMin k rd w l a m).status = .maxIterationReached) :
    let r := bsSolve o thr dqMin k rd w l a m
    let r' := bsSolve o thr dqMin j rd w l r.arg r.mem
    let R := bsSolve o thr dqMin (k + j) rd w l a m
    (thr ≤ o.norm r.arg →
      (R.status ≠ .errorIncreased → r'.status = R.status ∧ r'.undef = R.undef ∧ k + r'.iter = R.iter ∧ (R.undef = false → r'.arg = R.arg)) ∧
      (R.status = .errorIncreased → R.iter ≤ k + r'.iter)) ∧
    (o.norm r.arg < thr → r'.undef = false → r'.status = .success ∧ r'.iter ≤ 2 ∧ o.norm r'.arg ≤ o.norm r.arg) := by
  intro r r' R
  have hdef : (o.expl a).2 = true := by
    by_contra hc
    unfold bsSolve at hr
    rcases hex : o.expl a with ⟨a0, ok⟩
    rw [hex] at hr hc
    cases ok with
    | true => exact hc rfl
    | false => cases hr
  have hn : ¬ (1 / 4 * thr < o.norm (o.expl a).1 ∧ rd = 0) := by
    intro h
    unfold bsSolve at hr
    rcases hex : o.expl a with ⟨a0, ok⟩
    rw [hex] at hr hdef h
    simp only at hdef h
    subst hdef
    simp only [if_pos h] at hr
    cases hr
  have sp := bsSolve_spec o thr dqMin k rd w l hw a m hdef hn
  change BsSpec _ _ _ _ _ _ _ r at sp
  have hu : r.undef = false := by
    cases hc : r.undef with
    | false => rfl
    | true => exact absurd ((sp.undef hc).1.symm.trans hr) (by decide)
  obtain ⟨b, m', t1, t2, t3, -, t5⟩ := sp.last hu
  have h0 : ¬ o.norm (o.expl a).1 < thr := by
    intro h
    rw [if_pos h] at t5
    exact absurd ((t5.success (Or.inl rfl)).symm.trans hr) (by decide)
  have hdec : decide (o.norm (o.expl a).1 < thr) = false := decide_eq_false h0
  have hbud : ∀ n, bsBudget false false n = n := fun n => by unfold bsBudget; simp
  rw [if_neg h0, hdec, hbud] at sp
  rw [if_neg h0] at t3 t5
  rw [hdec, hbud] at t2 t5
  have hit : r.iter = k ∧ 1 / 4 * thr < bsErr o a m r.iter := by
    change r.status = .maxIterationReached at hr
    unfold BsStatus at t5
    rw [hr] at t5
    rcases t5 with ⟨-, h⟩ | ⟨-, -, h⟩ | ⟨g1, -, g2, -⟩ | ⟨-, -, -, h⟩
    · cases h
    · cases h
    · exact ⟨g2, not_le.1 fun h => g1 (Or.inr h)⟩
    · cases h
  obtain ⟨hit, herr⟩ := hit
  have hmem : r.mem = m' := by
    rcases t2 with h | h
    · exact h
    · exact absurd h.1 (by rw [hit]; exact lt_irrefl _)
  have harg : r.arg = b := t3
  rw [hit] at t1 herr
  have hbx : o.expl b = (b, true) := by
    obtain ⟨y, hy⟩ := bsTraj_expl o a m k b m' t1
    exact hi y b hy
  have hbef := sp.before
  rw [hit] at hbef
  have hz : bsErr o a m 0 = o.norm (o.expl a).1 := by unfold bsErr bsTraj; rw [if_pos hdef]
  have hq : 1 / 4 * thr < o.norm (o.expl a).1 := by
    rw [← hz]
    rcases Nat.eq_zero_or_pos k with h | h
    · rw [h] at herr; exact herr
    · exact (hbef 0 h).1
  have hrd : rd ≠ 0 := fun h => hn ⟨hq, h⟩
  have hxb : o.expl r.arg = (r.arg, true) := by rw [harg]; exact hbx
  refine ⟨fun hthr => ?_, fun hlt hu' => ?_⟩
  swap
  · have e : (o.expl r.arg).1 = r.arg := by rw [hxb]
    obtain ⟨g1, g2, g3⟩ := bsSolve_below o thr dqMin j rd w l hw r.arg r.mem hu' (by rw [e]; exact hlt)
    rw [e] at g2
    exact ⟨g3 hrd, g1, g2⟩
  have SR := bsSolve_spec o thr dqMin (k + j) rd w l hw a m hdef hn
  change BsSpec _ _ _ _ _ _ _ R at SR
  rw [if_neg h0, hdec, hbud] at SR
  have S2 := bsSolve_spec o thr dqMin j rd w l hw r.arg r.mem (by rw [hxb]) fun h => hrd h.2
  change BsSpec _ _ _ _ _ _ _ r' at S2
  have h0' : ¬ o.norm (o.expl r.arg).1 < thr := by rw [hxb]; exact not_lt.2 hthr
  rw [if_neg h0', decide_eq_false h0', hbud, harg, hmem] at S2
  have e0 : ∀ i, bsTraj o b m' i = bsTraj o a m (k + i) := bsTraj_shift o a m k t1 hbx
  have e1 : ∀ i, bsErr o b m' i = bsErr o a m (k + i) := fun i => by unfold bsErr; rw [e0]
  have e2 : ∀ i, bsStepNorm o b m' i = bsStepNorm o a m (k + i) := fun i => by unfold bsStepNorm; rw [e0]
  have e3 : ∀ i, bsStalled (bsErr o b m') i ≤ bsStalled (bsErr o a m) (k + i) := fun i => by
    rw [show bsErr o b m' = fun i => bsErr o a m (k + i) from funext e1]
    exact bsStalled_shift _ k i
  have hRk : k ≤ R.iter := by
    by_contra hc
    obtain ⟨g1, g2, g3, g4⟩ := hbef R.iter (by omega)
    have := bs_stops SR g4 g1 g3 g2
    omega
  have hA : R.iter ≤ k + r'.iter := by
    by_contra hc
    obtain ⟨g1, g2, g3, g4⟩ := SR.before (k + r'.iter) (by omega)
    have := bs_stops S2 (by rw [e0]; exact g4) (by rw [e1]; exact g1) (by rw [e2]; exact g3) (lt_of_le_of_lt (e3 _) g2)
    have := SR.iter
    omega
  refine ⟨fun hne => ?_, fun _ => hA⟩
  have hB : k + r'.iter ≤ R.iter := by
    by_contra hc
    obtain ⟨i, hi'⟩ := Nat.exists_eq_add_of_le hRk
    obtain ⟨g1, -, g3, p, g4⟩ := S2.before i (by omega)
    rw [e1, ← hi'] at g1
    rw [e2, ← hi'] at g3
    rw [e0, ← hi'] at g4
    have := S2.iter
    cases hU : R.undef with
    | true =>
      rw [(SR.undef hU).2] at g4
      cases g4
    | false =>
      obtain ⟨c, mc, -, -, -, q4, q5⟩ := SR.last hU
      have hc0 : ¬ ((none : Option (A × α)).isSome = true ∨ bsErr o a m R.iter ≤ 1 / 4 * thr) := by
        rintro (h | h)
        · cases h
        · exact absurd h (not_le.2 g1)
      rcases q4 with h | h | h | h
      · exact absurd h (not_le.2 g1)
      · exact hne (q5.increased hc0 h)
      · omega
      · exact g3 h.2
  have hI : k + r'.iter = R.iter := Nat.le_antisymm hB hA
  cases hU : R.undef with
  | true =>
    have hU' : r'.undef = true := by
      by_contra hc
      obtain ⟨c, mc, q1, -⟩ := S2.last (Bool.eq_false_iff.2 hc)
      rw [e0, hI, (SR.undef hU).2] at q1
      cases q1
    refine ⟨?_, hU', hI, fun h => by cases h⟩
    rw [(S2.undef hU').1, (SR.undef hU).1]
  | false =>
    obtain ⟨c, mc, q1, -, q3, -, q5⟩ := SR.last hU
    have hU' : r'.undef = false := by
      by_contra hc
      have := (S2.undef (Bool.not_eq_false _ ▸ hc)).2
      rw [e0, hI, q1] at this
      cases this
    obtain ⟨c', mc', p1, -, p3, -, p5⟩ := S2.last hU'
    rw [e0, hI, q1] at p1
    rw [e1, hI] at p5
    refine ⟨?_, hU', hI, fun _ => ?_⟩
    · have hle := bsStalled_le (bsErr o a m) R.iter fun i hi' => (SR.before i hi').2.1
      have hst := e3 r'.iter
      rw [hI] at hst
      by_cases hc0 : (none : Option (A × α)).isSome = true ∨ bsErr o a m R.iter ≤ 1 / 4 * thr
      · rw [p5.success hc0, q5.success hc0]
      · have hc1 : ¬ bsStalled (bsErr o a m) R.iter = 3 := fun h => hne (q5.increased hc0 h)
        have hc1' : ¬ bsStalled (bsErr o b m') r'.iter = 3 := by omega
        by_cases hc2 : R.iter = k + j
        · rw [q5.maxIt hc0 hc1 hc2, p5.maxIt hc0 hc1' (by omega)]
        · rw [q5.infeasible hc0 hc1 hc2, p5.infeasible hc0 hc1' (by omega)]
    · rw [Option.some.injEq, Prod.mk.injEq] at p1
      rw [p3, q3]
      exact p1.1.symm

open BsEx in
/-- The hypotheses of `C155_substitution` are met: `MAX_ITERATION_REACHED` after one iteration, then `SUCCESS`. -/
example : (∀ a b, ops.expl a = (b, true) → ops.expl b = (b, true)) ∧
    (bsSolve ops 1 (1 / 1000) 1 1 false false (8, 0) 0).status = .maxIterationReached ∧
    1 ≤ ops.norm (bsSolve ops 1 (1 / 1000) 1 1 false false (8, 0) 0).arg ∧
    (bsSolve ops 1 (1 / 1000) (1 + 39) 1 false false (8, 0) 0).status = .success := by
  refine ⟨fun a b h => ?_, by decide +kernel⟩
  simp only [ops, Prod.mk.injEq] at h ⊢
  obtain ⟨rfl, h⟩ := h
  exact ⟨rfl, h⟩

open BsEx in
/-- C155 fails for the solver by substitution when the error reached is below the threshold: with steps of a quarter of `x`, two calls with one iteration return
`SUCCESS`, one call with two iterations returns `MAX_ITERATION_REACHED` for the same configuration. -/
theorem C155_substitution_refuted :
    let o : BsOps (ℚ × ℚ) ℚ ℚ := { ops with dir := fun a _ => -(1 / 4 * a.1) }
    let r := bsSolve o 1 (1 / 1000) 1 1 false false (2 / 5, 0) 0
    let r' := bsSolve o 1 (1 / 1000) 1 1 false false r.arg r.mem
    let R := bsSolve o 1 (1 / 1000) 2 1 false false (2 / 5, 0) 0
    r.status = .maxIterationReached ∧ r'.status = .success ∧ R.status = .maxIterationReached ∧ r'.arg = (9 / 40, 9 / 20) ∧ R.arg = (9 / 40, 9 / 20) := by
  decide +kernel

/-- C155. Solver by substitution with optimization: `solve` is called repeatedly from the configuration returned by the previous call, with any numbers of
iterations `N` and any states `m` of the line search.  If the first configuration satisfies the constraints with a margin, all configurations returned do and their
costs do not increase, as long as the explicit constraints are defined. -/
theorem C155_optimize (o : BsOps A M α) (hi : ∀ a b, o.expl a = (b, true) → o.expl b = (b, true)) (thr dqMin : α) (rd : Nat) (N : Nat → Nat) (m : Nat → M)
    (q : Nat → A) (hq : ∀ n, q (n + 1) = (bsSolve o thr dqMin (N n) rd true true (q n) (m n)).arg)
    (hu : ∀ n, (bsSolve o thr dqMin (N n) rd true true (q n) (m n)).undef = false) (h0 : o.norm (o.expl (q 0)).1 ≤ 1 / 4 * thr) :
    (∀ n, o.norm (q (n + 1)) ≤ 1 / 4 * thr ∧ o.cost (q (n + 1)) ≤ o.cost (o.expl (q 0)).1) ∧
    ∀ i j, i ≤ j → o.cost (q (j + 1)) ≤ o.cost (q (i + 1)) := by
  have hx : ∀ n, o.expl (q (n + 1)) = (q (n + 1), true) := fun n => by
    obtain ⟨y, hy⟩ := bsSolve_expl o thr dqMin (N n) rd true true (q n) (m n) (hu n)
    rw [hq n]
    exact hi y _ hy
  have step : ∀ n, o.norm (o.expl (q n)).1 ≤ 1 / 4 * thr →
      o.norm (q (n + 1)) ≤ 1 / 4 * thr ∧ o.cost (q (n + 1)) ≤ o.cost (o.expl (q n)).1 := fun n h => by
    rw [hq n]
    exact (C37_optimize o thr dqMin (N n) rd (q n) (m n)).2.2 (hu n) h
  have hn : ∀ n, o.norm (q (n + 1)) ≤ 1 / 4 * thr := by
    intro n
    induction n with
    | zero => exact (step 0 h0).1
    | succ n ih => exact (step (n + 1) (by rw [hx n]; exact ih)).1
  have hs : ∀ n, o.cost (q (n + 1 + 1)) ≤ o.cost (q (n + 1)) := fun n => by
    have := (step (n + 1) (by rw [hx n]; exact hn n)).2
    rwa [hx n] at this
  have hm : ∀ i j, i ≤ j → o.cost (q (j + 1)) ≤ o.cost (q (i + 1)) := by
    intro i j hij
    induction hij with
    | refl => exact le_rfl
    | step _ ih => exact le_trans (hs _) ih
  exact ⟨fun n => ⟨hn n, le_trans (hm 0 n (Nat.zero_le n)) (step 0 h0).2⟩, hm⟩

namespace ResumeEx

/-- No explicit constraint, a constraint that fails at 4 only, and a cost that decreases with `x`. -/
def hole : BsOps ℚ ℚ ℚ where
  expl a := (a, true)
  norm a := if a = 4 then 1 else 0
  cost a := 100 - a
  dir _ _ := 4
  scale s d := s * d
  unscale s d := d / s
  dqNorm d := d * d
  search a d := (a + d, d, true)

end ResumeEx

open ResumeEx in
/-- C155 fails for the optimization: the scaling of the steps is restarted at each call.  Two calls with two iterations return 10, one call with four iterations
returns 3, the cost of which is higher. -/
theorem C155_optimize_refuted :
    let r := bsSolve hole 1 (1 / 1000) 2 1 true true 0 0
    let r' := bsSolve hole 1 (1 / 1000) 2 1 true true r.arg r.mem
    let R := bsSolve hole 1 (1 / 1000) 4 1 true true 0 0
    r.status = .maxIterationReached ∧ r'.status = .maxIterationReached ∧ R.status = .maxIterationReached ∧
    r.arg = 2 ∧ r'.arg = 10 ∧ R.arg = 3 ∧ hole.cost r'.arg < hole.cost R.arg := by
  decide +kernel

open ResumeEx in
theorem ResumeEx.hole_step (s : BsSt ℚ ℚ ℚ) (prev m : ℚ) : ∃ s', bsStep hole 1 true s prev m = .inl s' := ⟨_, rfl⟩

open ResumeEx in
theorem ResumeEx.hole_loop (init : Option (ℚ × ℚ)) : ∀ left s, (bsLoop hole 1 (1 / 1000) true init left s).undef = false
  | 0, s => by
    unfold bsLoop
    rw [if_pos (Or.inl rfl)]
    cases init <;> rfl
  | left + 1, s => by
    unfold bsLoop
    rw [if_pos (Or.inl rfl)]
    dsimp only
    rw [if_pos (rfl : true = true)]
    generalize (if s.only = true then s.prev else s.n) = prev
    generalize hole.scale s.scaling (if s.only = true then s.mem else hole.dir s.arg s.mem) = m
    split
    · cases init <;> rfl
    · obtain ⟨s', hs⟩ := hole_step s prev m
      rw [hs]
      exact hole_loop init left s'

open ResumeEx in
/-- The hypotheses of `C155_optimize` are met by calls with two iterations each. -/
example : ∃ q : Nat → ℚ, (∀ n, q (n + 1) = (bsSolve hole 1 (1 / 1000) 2 1 true true (q n) 0).arg) ∧
    (∀ n, (bsSolve hole 1 (1 / 1000) 2 1 true true (q n) 0).undef = false) ∧ hole.norm (hole.expl (q 0)).1 ≤ 1 / 4 * 1 ∧ q 1 = 2 ∧ q 2 = 10 := by
  refine ⟨fun n => Nat.rec 0 (fun _ x => (bsSolve hole 1 (1 / 1000) 2 1 true true x 0).arg) n, fun n => rfl, fun n => ?_, by decide +kernel, by decide +kernel,
    by decide +kernel⟩
  unfold bsSolve
  show (if _ then _ else _ : BsOut ℚ ℚ).undef = false
  split
  · rfl
  · exact hole_loop _ _ _

end Hpp
