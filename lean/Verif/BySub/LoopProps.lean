import Verif.BySub.LoopLemmas
import Verif.ECS.Props
import Verif.ECS.Examples
import Verif.HI.SatProps

/-!
# Statuses and termination of the solver by substitution: C37, C30
-/

namespace Hpp

variable {A M α κ : Type} [Field α] [LinearOrder α]

/-! ## C37 -/

/-- C37. Meaning of the statuses when the solver does not optimize, for every behaviour of the numerical
steps.  `a k` are the successive configurations, all of them solutions of the explicit constraints.  If
the error was below the threshold at the beginning the result is always `SUCCESS`, after at most two
iterations. -/
theorem C37_statuses (o : BsOps A M α) (thr dqMin : α) (maxIter reducedDim : Nat) (w l : Bool)
    (hw : (w && l) = false) (a : A) (m : M) :
    let r := bsSolve o thr dqMin maxIter reducedDim w l a m
    let e := bsErr o a m
    let step := bsStepNorm o a m
    let last3 := fun n => 3 ≤ n ∧ e (n - 3) ≤ e (n - 2) ∧ e (n - 2) ≤ e (n - 1) ∧ e (n - 1) ≤ e n
    r.iter ≤ (if e 0 < thr then min maxIter 2 else maxIter) ∧
    (r.undef = true → r.status = .infeasible ∧ bsTraj o a m r.iter = none) ∧
    (r.undef = false →
      (∃ b m', bsTraj o a m r.iter = some (b, m') ∧ (∃ b0, bsTraj o a m 0 = some (b0, m) ∧
        r.arg = if e 0 < thr ∧ e 0 < e r.iter then b0 else b)) ∧
      (r.status = .success ↔
        e r.iter ≤ 1 / 4 * thr ∨ e 0 < thr ∧ (reducedDim ≠ 0 ∨ e 0 ≤ 1 / 4 * thr)) ∧
      (r.status = .maxIterationReached ↔ 1 / 4 * thr < e r.iter ∧ thr ≤ e 0 ∧ reducedDim ≠ 0 ∧
        r.iter = maxIter ∧ ¬ last3 r.iter) ∧
      (r.status = .errorIncreased ↔ 1 / 4 * thr < e r.iter ∧ thr ≤ e 0 ∧ reducedDim ≠ 0 ∧
        last3 r.iter) ∧
      (r.status = .infeasible ↔ 1 / 4 * thr < e r.iter ∧ (reducedDim = 0 ∧ r.iter = 0 ∨
        thr ≤ e 0 ∧ r.iter < maxIter ∧ step r.iter < dqMin ∧ ¬ last3 r.iter))) := by
  intro r e step last3
  rcases hex : o.expl a with ⟨a0, ok⟩
  cases ok with
  | false =>
    have hr : r = ⟨a0, m, 0, .infeasible, true⟩ := by
      show bsSolve _ _ _ _ _ _ _ _ _ = _
      unfold bsSolve
      rw [hex]
    rw [hr]
    refine ⟨by simp, fun _ => ⟨rfl, by simp [bsTraj, hex]⟩, by simp⟩
  | true =>
    have ht0 : bsTraj o a m 0 = some (a0, m) := by simp [bsTraj, hex]
    have he0 : e 0 = o.norm a0 := by show bsErr o a m 0 = _; unfold bsErr; rw [ht0]
    by_cases h : 1 / 4 * thr < o.norm a0 ∧ reducedDim = 0
    · have hr : r = ⟨a0, m, 0, .infeasible, false⟩ := by
        show bsSolve _ _ _ _ _ _ _ _ _ = _
        unfold bsSolve
        rw [hex]
        simp only [decide_eq_true_eq, if_pos h]
      have he : 1 / 4 * thr < e 0 := he0 ▸ h.1
      rw [hr]
      refine ⟨by simp, by simp, fun _ => ⟨⟨a0, m, ht0, a0, ht0, by simp⟩, ?_, ?_, ?_, ?_⟩⟩
      · simp only [reduceCtorEq, h.2, ne_eq, not_true_eq_false, false_or, false_iff, not_or, not_le, not_and]
        exact ⟨he, fun _ => he⟩
      · simp [h.2]
      · simp [h.2]
      · simp only [h.2, true_and, true_iff]
        exact ⟨he, Or.inl trivial⟩
    · have hs := bsSolve_spec o thr dqMin maxIter reducedDim w l hw a m (by rw [hex]) (by rw [hex]; exact h)
      rw [hex] at hs
      simp only at hs
      change BsSpec o thr dqMin _ _ a m r at hs
      have hbud : bsBudget false (decide (o.norm a0 < thr)) maxIter =
          if e 0 < thr then min maxIter 2 else maxIter := by
        unfold bsBudget
        rw [he0]
        by_cases hb : o.norm a0 < thr
        · simp only [hb, decide_true, Bool.false_eq_true, not_false_eq_true, and_self, if_true]
          omega
        · simp [hb]
      have h3 := bsStalled_three e r.iter fun k hk => (hs.before k hk).2.1
      have hi := hs.iter
      rw [hbud] at hi
      refine ⟨hi, hs.undef, fun hu => ?_⟩
      obtain ⟨b, m', g1, g2, g3, g4, g5⟩ := hs.last hu
      have heb : e r.iter = o.norm b := by show bsErr o a m _ = _; unfold bsErr; rw [g1]
      have hred : thr ≤ e 0 → 1 / 4 * thr < e r.iter → 1 ≤ r.iter → reducedDim ≠ 0 := by
        intro _ _ hr1 h0
        exact h ⟨he0 ▸ (hs.before 0 hr1).1, h0⟩
      have hred0 : 1 / 4 * thr < e r.iter → reducedDim ≠ 0 := by
        intro h1 h0
        rcases Nat.eq_zero_or_pos r.iter with hz | hp
        · rw [hz] at h1
          exact h ⟨he0 ▸ h1, h0⟩
        · exact h ⟨he0 ▸ (hs.before 0 hp).1, h0⟩
      refine ⟨⟨b, m', g1, a0, ht0, ?_⟩, ?_⟩
      · rw [g3]
        by_cases hb : o.norm a0 < thr
        · simp only [hb, if_true, he0, heb, true_and]
        · simp only [hb, if_false, he0, false_and]
      · rw [hbud] at g5 g4
        change _ ∨ bsStalled e r.iter = 3 ∨ _ at g4
        change BsStatus _ (bsStalled e r.iter = 3) _ _ at g5
        rw [h3] at g4 g5
        change _ ∨ last3 r.iter ∨ _ at g4
        change BsStatus _ (last3 r.iter) _ _ at g5
        by_cases hb : o.norm a0 < thr
        · have hst := g5.success (Or.inl (by simp [hb]))
          have hb' : e 0 < thr := he0 ▸ hb
          have hne : ¬ thr ≤ e 0 := not_le.2 hb'
          rw [hst]
          refine ⟨?_, ?_, ?_, ?_⟩
          · simp only [true_iff]
            right
            refine ⟨hb', ?_⟩
            by_cases h0 : reducedDim = 0
            · right
              rw [he0]
              exact not_lt.1 fun h' => h ⟨h', h0⟩
            · exact Or.inl h0
          · simp [hne]
          · simp [hne]
          · simp only [reduceCtorEq, hne, false_and, or_false, false_iff, not_and]
            intro h1 h0
            exact absurd h0 (hred0 h1)
        · have hb' : ¬ e 0 < thr := he0 ▸ hb
          have hge : thr ≤ e 0 := not_lt.1 hb'
          simp only [hb, if_false, Option.isSome_none, Bool.false_eq_true, false_or] at g5 
          simp only [if_neg hb'] at g5 g4 hi
          change BsStatus (e r.iter ≤ _) _ _ _ at g5
          change (e r.iter ≤ _ ∨ _ ∨ _ ∨ _ ∧ step r.iter < dqMin) at g4
          by_cases c0 : e r.iter ≤ 1 / 4 * thr
          · have hst := g5.success c0
            rw [hst]
            have : ¬ 1 / 4 * thr < e r.iter := not_lt.2 c0
            simp only [c0, this, reduceCtorEq, true_or, false_and, and_self, iff_self]
          · have c0' : 1 / 4 * thr < e r.iter := not_le.1 c0
            have hr0 := hred0 c0'
            simp only [c0, c0', hb', hge, hr0, false_and, or_self, iff_false, true_and, ne_eq, not_false_eq_true,
              false_or]
            by_cases c1 : last3 r.iter
            · have hst := g5.increased c0 c1
              rw [hst]
              simp only [c1, reduceCtorEq, not_true_eq_false, and_false, not_false_eq_true, and_self]
            · by_cases c2 : r.iter = maxIter
              · have hst := g5.maxIt c0 c1 c2
                rw [hst]
                have hlt : ¬ r.iter < maxIter := by omega
                simp only [c1, reduceCtorEq, not_false_eq_true, and_self, eq_true c2, hlt, false_and]
              · have hst := g5.infeasible c0 c1 c2
                rw [hst]
                have : step r.iter < dqMin := ((g4.resolve_left c0).resolve_left c1).resolve_left c2 |>.2
                have hlt : r.iter < maxIter := lt_of_le_of_ne hi c2
                simp only [c1, reduceCtorEq, not_false_eq_true, and_self, c2, this, hlt, false_and]

omit [Field α] [LinearOrder α] in
/-- Every configuration of the sequence solves the explicit constraints. -/
theorem bsTraj_expl (o : BsOps A M α) (a : A) (m : M) (k : Nat) (b : A) (m' : M)
    (h : bsTraj o a m k = some (b, m')) : ∃ y, o.expl y = (b, true) := by
  have aux : ∀ y, (o.expl y).2 = true → (o.expl y).1 = b → ∃ y, o.expl y = (b, true) :=
    fun y h1 h2 => ⟨y, Prod.ext h2 h1⟩
  cases k with
  | zero =>
    unfold bsTraj at h
    split at h
    · rename_i h1
      simp only [Option.some.injEq, Prod.mk.injEq] at h
      exact aux a h1 h.1
    · simp at h
  | succ k =>
    unfold bsTraj at h
    rw [Option.bind_eq_some_iff] at h
    obtain ⟨p, -, h⟩ := h
    simp only at h
    split at h
    · rename_i h1
      simp only [Option.some.injEq, Prod.mk.injEq] at h
      exact aux _ h1.2 h.1
    · simp at h

/-- Whatever the status and the mode, unless an explicit constraint is not defined, the result is the
result of the resolution of the explicit constraints. -/
theorem bsSolve_expl (o : BsOps A M α) (thr dqMin : α) (maxIter reducedDim : Nat) (w l : Bool) (a : A)
    (m : M) (hu : (bsSolve o thr dqMin maxIter reducedDim w l a m).undef = false) :
    ∃ y, o.expl y = ((bsSolve o thr dqMin maxIter reducedDim w l a m).arg, true) := by
  cases hw : w && l with
  | false =>
    obtain ⟨b, m', h1, b0, h2, h3⟩ := ((C37_statuses o thr dqMin maxIter reducedDim w l hw a m).2.2 hu).1
    rw [h3]
    split
    · exact bsTraj_expl o a m 0 b0 m h2
    · exact bsTraj_expl o a m _ b m' h1
  | true =>
    unfold bsSolve at hu ⊢
    rw [hw] at hu ⊢
    rcases hex : o.expl a with ⟨a0, ok⟩
    rw [hex] at hu
    cases ok with
    | false => simp at hu
    | true =>
      simp only [decide_eq_true_eq] at hu ⊢
      split at hu
      · rename_i h
        rw [if_pos h]
        exact ⟨a, hex⟩
      · rename_i h
        rw [if_neg h]
        exact ((bsLoop_opt o thr dqMin a0 _ _ _ (bsInit_optInv o thr a a0 m hex)).2.2 hu).2.1

/-- C37. Whatever the status and the mode, unless the explicit solution is undefined, every explicit
constraint holds exactly at the configuration returned. -/
theorem C37_explicit_holds [DecidableEq κ] {nq nv : Nat} {s : ECS α κ} (h : ECS.Built nq nv s)
    (hwf : ∀ c ∈ s.cons, WellFormed nq nv c) (hcoh : AllCoherent s.cons)
    (hl : ∀ d ∈ s.data, d.OutLen) (o : BsOps (Nat → α) M α)
    (ho : ∀ q q', o.expl q = (q', true) → q' = s.solve q)
    (thr dqMin : α) (maxIter reducedDim : Nat) (w l : Bool) (q : Nat → α) (m : M)
    (hu : (bsSolve o thr dqMin maxIter reducedDim w l q m).undef = false) :
    ∀ d ∈ s.data, d.Holds (bsSolve o thr dqMin maxIter reducedDim w l q m).arg := by
  obtain ⟨y, hy⟩ := bsSolve_expl o thr dqMin maxIter reducedDim w l q m hu
  exact ((C13_solve h hwf hcoh hl y _).1 (ho _ _ hy).symm).1

/-- C37. `SUCCESS` is returned only if the residual of the implicit constraints is below the threshold at
the configuration returned: strictly, or at most the fourth of it. -/
theorem C37_success (o : BsOps A M α) (thr dqMin : α) (maxIter reducedDim : Nat) (w l : Bool) (a : A)
    (m : M) (h : (bsSolve o thr dqMin maxIter reducedDim w l a m).status = .success) :
    (bsSolve o thr dqMin maxIter reducedDim w l a m).undef = false ∧
    (o.norm (bsSolve o thr dqMin maxIter reducedDim w l a m).arg < thr ∨
      o.norm (bsSolve o thr dqMin maxIter reducedDim w l a m).arg ≤ 1 / 4 * thr) := by
  cases hw : w && l with
  | false =>
    obtain ⟨-, h2, h3⟩ := C37_statuses o thr dqMin maxIter reducedDim w l hw a m
    cases hu : (bsSolve o thr dqMin maxIter reducedDim w l a m).undef with
    | true => rw [(h2 hu).1] at h; simp at h
    | false =>
      refine ⟨rfl, ?_⟩
      obtain ⟨⟨b, m', g1, b0, g2, g3⟩, g4, -⟩ := h3 hu
      have e1 : bsErr o a m (bsSolve o thr dqMin maxIter reducedDim w l a m).iter = o.norm b := by
        unfold bsErr; rw [g1]
      have e0 : bsErr o a m 0 = o.norm b0 := by unfold bsErr; rw [g2]
      rw [e1, e0] at g3 g4
      rw [g3]
      by_cases hc : o.norm b0 < thr ∧ o.norm b0 < o.norm b
      · rw [if_pos hc]
        exact Or.inl hc.1
      · rw [if_neg hc]
        rcases g4.1 h with h' | h'
        · exact Or.inr h'
        · left
          have : ¬ o.norm b0 < o.norm b := fun hx => hc ⟨h'.1, hx⟩
          exact lt_of_le_of_lt (not_lt.1 this) h'.1
  | true =>
    exfalso
    unfold bsSolve at h
    rw [hw] at h
    rcases hex : o.expl a with ⟨a0, ok⟩
    rw [hex] at h
    cases ok with
    | false => simp at h
    | true =>
      simp only [decide_eq_true_eq] at h
      split at h
      · simp at h
      · have hall := bsLoop_opt o thr dqMin a0 (if o.norm a0 < thr then some (a0, o.norm a0) else none)
          (bsBudget true (decide (o.norm a0 < thr)) maxIter) _ (bsInit_optInv o thr a a0 m hex)
        generalize bsLoop o thr dqMin true (if o.norm a0 < thr then some (a0, o.norm a0) else none)
          (bsBudget true (decide (o.norm a0 < thr)) maxIter) (bsInit o thr true a0 m) = r at h hall
        cases hu : r.undef with
        | true => rw [hall.2.1 hu] at h; simp at h
        | false => rcases (hall.2.2 hu).1 with h' | h' <;> rw [h'] at h <;> simp at h

/-- C37, the implicit and explicit parts together.  For a solver built by insertion of constraints and
changes of right hand sides whose numerical steps are arbitrary except that the error is the one computed
by the solver: if `SUCCESS` is returned, every explicit constraint holds exactly and every implicit
constraint of the levels that count has an error at most equal to the threshold. -/
theorem C37_success_all [DecidableEq κ] [IsStrictOrderedRing α] {nq nv : Nat} {ex : ECS α κ}
    (hx : ECS.Built nq nv ex)
    (hwf : ∀ c ∈ ex.cons, WellFormed nq nv c) (hcoh : AllCoherent ex.cons)
    (hlen : ∀ d ∈ ex.data, d.OutLen)
    {El : Fn α κ → List α → Prop} {h : List (Impl α κ × Nat)} {s : HI α κ} (hb : HI.Built El nv h s)
    (hl : ∀ e ∈ h, e.1.fn.space.Lawful (El e.1.fn)) (hv : ∀ e ∈ h, ∀ q, El e.1.fn (e.1.fn.value q))
    (hne : s.lastIsOptional = true → s.levels ≠ [])
    (o : BsOps (Nat → α) M α) (ho : ∀ q, s.sqNorm q = some (o.norm q))
    (hexp : ∀ q q', o.expl q = (q', true) → q' = ex.solve q)
    (dqMin : α) (reducedDim : Nat) (w : Bool) (q : Nat → α) (m : M)
    (hs : (bsSolve o s.sqThr dqMin s.maxIter reducedDim w s.lastIsOptional q m).status = .success) :
    (∀ d ∈ ex.data, d.Holds (bsSolve o s.sqThr dqMin s.maxIter reducedDim w s.lastIsOptional q m).arg) ∧
    ∀ e ∈ h, IsMandatory s e → ∃ r, s.getRhs e.1 = some (some r) ∧
      sqSum (conError s.ineqThr
        (bsSolve o s.sqThr dqMin s.maxIter reducedDim w s.lastIsOptional q m).arg e.1 r) ≤ s.sqThr := by
  obtain ⟨h1, h2⟩ := C37_success o s.sqThr dqMin s.maxIter reducedDim w s.lastIsOptional q m hs
  refine ⟨C37_explicit_holds hx hwf hcoh hlen o hexp _ _ _ _ _ _ _ _ h1, fun e he hm => ?_⟩
  generalize (bsSolve o s.sqThr dqMin s.maxIter reducedDim w s.lastIsOptional q m).arg = q' at h2
  obtain ⟨n, g1, g2, g3, -⟩ := C33_worst hb hl hv hne q'
  rw [ho, Option.some.injEq] at g1
  subst g1
  obtain ⟨r, hr, hle⟩ := g3 e he hm
  refine ⟨r, hr, le_trans hle ?_⟩
  rcases h2 with h2 | h2
  · exact h2.le
  · have h0 : 0 ≤ 1 / 4 * s.sqThr := le_trans g2 h2
    have h0' : 0 ≤ s.sqThr := by linarith
    exact le_trans h2 (by linarith)

namespace BsEx

/-- One explicit variable `y = 2 x` and one implicit equation `x + y = 0`, with configurations
`(x, y)` and a step of `3 x / 4` at most. -/
def ops : BsOps (ℚ × ℚ) ℚ ℚ where
  expl a := ((a.1, 2 * a.1), decide (a.1 < 1000))
  norm a := (a.1 + a.2) * (a.1 + a.2)
  cost a := (a.1 - 1) * (a.1 - 1)
  dir a _ := -(3 / 4 * a.1)
  scale s d := s * d
  unscale s d := d / s
  dqNorm d := d * d
  search a d := ((a.1 + d, a.2), d, true)

end BsEx

open BsEx in
example :
    let r := bsSolve ops 1 (1 / 1000) 40 1 false false (8, 0) 0
    r.status = .success ∧ r.iter = 3 ∧ r.arg = (1 / 8, 1 / 4) ∧ r.undef = false := by
  decide +kernel

open BsEx in
example :
    (bsSolve ops 1 (1 / 1000) 2 1 false false (8, 0) 0).status = .maxIterationReached ∧
    (bsSolve ops 1 (1 / 1000) 40 1 false false (2000, 0) 0).undef = true ∧
    (bsSolve ops 0 (1 / 1000) 40 1 false false (8, 0) 0).status = .infeasible ∧
    (bsSolve ops 1 (1 / 1000) 40 0 false false (8, 0) 0).status = .infeasible ∧
    (bsSolve { ops with dir := fun _ _ => 1 } 1 (1 / 1000) 40 1 false false (8, 0) 0).status =
      .errorIncreased ∧
    (bsSolve ops 1 (1 / 1000) 40 1 false false (3 / 10, 0) 0).arg = (3 / 40, 3 / 20) := by
  decide +kernel

/-- C37, part: unless an explicit constraint is undefined, `INFEASIBLE` is returned without optimization
only if the error is larger than the fourth of the threshold.  Missing: larger than the threshold itself,
see the two refutations below. -/
theorem C37_infeasible_partial (o : BsOps A M α) (thr dqMin : α) (maxIter reducedDim : Nat) (w l : Bool)
    (hw : (w && l) = false) (a : A) (m : M)
    (hu : (bsSolve o thr dqMin maxIter reducedDim w l a m).undef = false)
    (h : (bsSolve o thr dqMin maxIter reducedDim w l a m).status = .infeasible) :
    1 / 4 * thr < o.norm (bsSolve o thr dqMin maxIter reducedDim w l a m).arg := by
  obtain ⟨⟨b, m', g1, b0, g2, g3⟩, -, -, -, g4⟩ :=
    (C37_statuses o thr dqMin maxIter reducedDim w l hw a m).2.2 hu
  have e1 : bsErr o a m (bsSolve o thr dqMin maxIter reducedDim w l a m).iter = o.norm b := by
    unfold bsErr; rw [g1]
  have e0 : bsErr o a m 0 = o.norm b0 := by unfold bsErr; rw [g2]
  obtain ⟨h1, h2⟩ := g4.1 h
  rw [e1] at h1
  rw [g3, e0, e1]
  by_cases hc : o.norm b0 < thr ∧ o.norm b0 < o.norm b
  · rw [if_pos hc]
    rcases h2 with ⟨-, h2⟩ | ⟨h2, -⟩
    · rw [h2] at g1
      rw [g2] at g1
      simp only [Option.some.injEq, Prod.mk.injEq] at g1
      rw [g1.1] at hc
      exact absurd hc.2 (lt_irrefl _)
    · rw [e0] at h2
      exact absurd hc.1 (not_lt.2 h2)
  · rw [if_neg hc]
    exact h1

open BsEx in
example : (bsSolve ops 1 (1 / 1000) 40 0 false false (8, 0) 0).undef = false := by decide +kernel

open BsEx in
/-- C37 fails for `INFEASIBLE`: without free variable, a configuration that satisfies the constraints
(strictly below the threshold, as tested by `isSatisfied`) is declared infeasible. -/
theorem C37_infeasible_refuted : ∃ (o : BsOps (ℚ × ℚ) ℚ ℚ) (a : ℚ × ℚ),
    (bsSolve o 1 (1 / 1000) 40 0 false false a 0).status = .infeasible ∧
    (bsSolve o 1 (1 / 1000) 40 0 false false a 0).undef = false ∧
    o.norm (bsSolve o 1 (1 / 1000) 40 0 false false a 0).arg < 1 :=
  ⟨ops, (3 / 10, 0), by decide +kernel⟩

open BsEx in
/-- C37 fails for `INFEASIBLE` with free variables too: the iterations have reached a configuration that
satisfies the constraints, with an error between the fourth of the threshold and the threshold, and the
next step is too small. -/
theorem C37_infeasible_step_refuted : ∃ (o : BsOps (ℚ × ℚ) ℚ ℚ) (a : ℚ × ℚ),
    (bsSolve o 1 (1 / 10) 40 1 false false a 0).status = .infeasible ∧
    (bsSolve o 1 (1 / 10) 40 1 false false a 0).undef = false ∧
    o.norm (bsSolve o 1 (1 / 10) 40 1 false false a 0).arg < 1 :=
  ⟨ops, (6 / 5, 0), by decide +kernel⟩

/-! ### optimization of the last level -/

/-- C37. With `optimize` and an optional last level, `SUCCESS` is never returned: the loop ends when the
number of iterations is reached, or when the step is too small.  If the first solution of the explicit
constraints satisfies the implicit ones with a margin, the configuration returned satisfies the
constraints too and its cost has not increased. -/
theorem C37_optimize (o : BsOps A M α) (thr dqMin : α) (maxIter reducedDim : Nat) (a : A) (m : M) :
    let r := bsSolve o thr dqMin maxIter reducedDim true true a m
    r.status ≠ .success ∧ r.status ≠ .errorIncreased ∧
    (r.undef = false → o.norm (o.expl a).1 ≤ 1 / 4 * thr →
      o.norm r.arg ≤ 1 / 4 * thr ∧ o.cost r.arg ≤ o.cost (o.expl a).1) := by
  intro r
  have hrd : r = bsSolve o thr dqMin maxIter reducedDim true true a m := rfl
  unfold bsSolve at hrd
  rcases hex : o.expl a with ⟨a0, ok⟩
  rw [hex] at hrd
  cases ok with
  | false =>
    rw [hrd]
    simp
  | true =>
    simp only [decide_eq_true_eq, Bool.and_self] at hrd
    by_cases hc : 1 / 4 * thr < o.norm a0 ∧ reducedDim = 0
    · rw [if_pos hc] at hrd
      rw [hrd]
      refine ⟨by simp, by simp, fun _ h => absurd hc.1 (not_lt.2 h)⟩
    · rw [if_neg hc] at hrd
      have hinv := bsInit_optInv o thr a a0 m hex
      have hall := bsLoop_opt o thr dqMin a0 (if o.norm a0 < thr then some (a0, o.norm a0) else none)
        (bsBudget true (decide (o.norm a0 < thr)) maxIter) _ hinv
      rw [← hrd] at hall
      refine ⟨?_, ?_, fun hu hn => ?_⟩
      · cases hu : r.undef with
        | true => rw [hall.2.1 hu]; simp
        | false => rcases (hall.2.2 hu).1 with h | h <;> rw [h] <;> simp
      · cases hu : r.undef with
        | true => rw [hall.2.1 hu]; simp
        | false => rcases (hall.2.2 hu).1 with h | h <;> rw [h] <;> simp
      · have hnn : ¬ 1 / 4 * thr < o.norm a0 := not_lt.2 hn
        have := (hall.2.2 hu).2.2 (by unfold bsInit; simp only [true_and, hnn, not_false_eq_true, if_true,
          Option.isSome_some])
        simpa [bsInit] using this

/-- The steps of `ops` with directions that decrease the cost, along the constraint `y = 2 x` (the
error is here the distance to the disc of radius 2). -/
def BsEx.opt : BsOps (ℚ × ℚ) ℚ ℚ :=
  { BsEx.ops with
    norm := fun a => if a.1 * a.1 < 4 then 0 else a.1 * a.1 - 4
    dir := fun a _ => (1 - a.1) * (3 / 4) }

open BsEx in
example :
    (bsSolve opt 1 (1 / 1000) 40 1 true true (-3 / 2, 0) 0).status = .infeasible ∧
    (bsSolve opt 1 (1 / 1000) 40 1 true true (-3 / 2, 0) 0).undef = false ∧
    opt.norm (-3 / 2, -3) ≤ 1 / 4 * 1 ∧
    (bsSolve opt 1 (1 / 1000) 40 1 true true (-3 / 2, 0) 0).arg = (123 / 128, 123 / 64) ∧
    (bsSolve opt 1 (1 / 1000) 2 1 true true (-3 / 2, 0) 0).status = .maxIterationReached := by
  decide +kernel

/-- Instrumentation: the memory also holds the configurations at which the error has been evaluated
after a step. -/
def logging (o : BsOps A M α) : BsOps A (M × List A) α where
  expl := o.expl
  norm := o.norm
  cost := o.cost
  dir a m := (o.dir a m.1, m.2)
  scale x m := (o.scale x m.1, m.2)
  unscale x m := (o.unscale x m.1, m.2)
  dqNorm m := o.dqNorm m.1
  search a m := ((o.search a m.1).1,
    ((o.search a m.1).2.1, (o.expl (o.search a m.1).1).1 :: m.2), (o.search a m.1).2.2)

/-- What the log says during the loop. -/
structure BestInv (o : BsOps A M α) (thr : α) (a0 : A) (s : BsSt A (M × List A) α) : Prop extends
    OptInv (logging o) thr a0 s where
  best : ∀ x ∈ s.mem.2, o.norm x ≤ 1 / 4 * thr → s.prevCost ≤ o.cost x
  visited : ∀ x, s.qopt = some x → x = a0 ∨ x ∈ s.mem.2

theorem bsLoop_best (o : BsOps A M α) (thr dqMin : α) (a0 : A) (init : Option (A × α)) :
    ∀ (left : Nat) (s : BsSt A (M × List A) α), BestInv o thr a0 s → s.qopt.isSome →
    (bsLoop (logging o) thr dqMin true init left s).undef = false →
    (∀ x ∈ (bsLoop (logging o) thr dqMin true init left s).mem.2, o.norm x ≤ 1 / 4 * thr →
      o.cost (bsLoop (logging o) thr dqMin true init left s).arg ≤ o.cost x) ∧
    ((bsLoop (logging o) thr dqMin true init left s).arg = a0 ∨
      (bsLoop (logging o) thr dqMin true init left s).arg ∈
        (bsLoop (logging o) thr dqMin true init left s).mem.2) := by
  have hend : ∀ s : BsSt A (M × List A) α, BestInv o thr a0 s → s.qopt.isSome →
      (∀ x ∈ s.mem.2, o.norm x ≤ 1 / 4 * thr → o.cost (s.qopt.getD s.arg) ≤ o.cost x) ∧
      (s.qopt.getD s.arg = a0 ∨ s.qopt.getD s.arg ∈ s.mem.2) := by
    intro s hs hq
    obtain ⟨x, hx⟩ := Option.isSome_iff_exists.1 hq
    rw [hx]
    refine ⟨fun y hy hn => ?_, hs.visited x hx⟩
    have := (hs.opt x hx).2.2
    change o.cost x = _ at this
    rw [Option.getD_some, this]
    exact hs.best y hy hn
  intro left
  induction left with
  | zero =>
    intro s hs hq hu
    unfold bsLoop
    simp only [true_or, if_true, bsEnd]
    exact hend s hs hq
  | succ left ih =>
    intro s hs hq hu
    unfold bsLoop at hu ⊢
    simp only [true_or, if_true] at hu ⊢
    have hlog : ((logging o).scale s.scaling (if s.only = true then s.mem else (logging o).dir s.arg s.mem)).2 =
        s.mem.2 := by
      show (if s.only = true then s.mem else (logging o).dir s.arg s.mem).2 = s.mem.2
      split <;> rfl
    generalize (if s.only = true then s.prev else s.n) = prev at hu ⊢
    generalize (logging o).scale s.scaling (if s.only = true then s.mem else (logging o).dir s.arg s.mem) = m
      at hu hlog ⊢
    by_cases hd : (logging o).dqNorm m < dqMin
    · simp only [if_pos hd, bsEnd]
      rw [hlog]
      exact hend s hs hq
    · simp only [if_neg hd] at hu ⊢
      cases hst : bsStep (logging o) thr true s prev m with
      | inr p => rw [hst] at hu; simp at hu
      | inl s' =>
        rw [hst] at hu
        simp only at hu ⊢
        obtain ⟨h1, h2, h3, h4⟩ := bsStep_optInv (logging o) thr a0 s s' prev m hs.toOptInv hst
        refine ih s' ⟨h1, ?_, ?_⟩ (h3 hq) hu
        all_goals
          unfold bsStep at hst
          rcases hsr : (logging o).search s.arg m with ⟨a1, m1, ok1⟩
          have hm1 : m1.2 = ((logging o).expl a1).1 :: s.mem.2 := by
            have : (logging o).search s.arg m = ((o.search s.arg m.1).1,
              ((o.search s.arg m.1).2.1, (o.expl (o.search s.arg m.1).1).1 :: m.2),
              (o.search s.arg m.1).2.2) := rfl
            rw [this] at hsr
            simp only [Prod.mk.injEq] at hsr
            rw [← hsr.2.1, ← hsr.1, ← hlog]; rfl
          rw [hsr] at hst
          cases ok1 with
          | false => simp at hst
          | true =>
            rcases hex : (logging o).expl a1 with ⟨a2, ok2⟩
            rw [hex] at hm1
            simp only [hex] at hst
            cases ok2 with
            | false => simp at hst
            | true =>
              simp only [if_true, Sum.inl.injEq] at hst
              by_cases ha : 1 / 4 * thr < (logging o).norm a2
              · simp only [ha, decide_true, if_true] at hst
                subst hst
                first
                | intro x hx hn
                  change x ∈ m1.2 at hx
                  rw [hm1] at hx
                  rcases List.mem_cons.1 hx with rfl | hx
                  · exact absurd ha (not_lt.2 hn)
                  · exact hs.best x hx hn
                | intro x hx
                  change s.qopt = some x at hx
                  change _ ∨ x ∈ m1.2
                  rw [hm1]
                  rcases hs.visited x hx with h | h
                  · exact Or.inl h
                  · exact Or.inr (List.mem_cons_of_mem _ h)
              · simp only [ha, decide_false, Bool.false_eq_true, if_false] at hst
                by_cases hcst : (logging o).cost a2 < s.prevCost
                · rw [if_pos hcst] at hst
                  subst hst
                  first
                  | intro x hx hn
                    change x ∈ m1.2 at hx
                    change (logging o).cost a2 ≤ _
                    rw [hm1] at hx
                    rcases List.mem_cons.1 hx with rfl | hx
                    · exact le_refl _
                    · exact le_trans hcst.le (hs.best x hx hn)
                  | intro x hx
                    simp only [Option.some.injEq] at hx
                    change _ ∨ x ∈ m1.2
                    rw [hm1, hx]
                    exact Or.inr (List.mem_cons_self ..)
                · rw [if_neg hcst] at hst
                  subst hst
                  first
                  | intro x hx hn
                    change x ∈ m1.2 at hx
                    change s.prevCost ≤ _
                    rw [hm1] at hx
                    rcases List.mem_cons.1 hx with rfl | hx
                    · exact not_lt.1 hcst
                    · exact hs.best x hx hn
                  | intro x hx
                    change s.qopt = some x at hx
                    change _ ∨ x ∈ m1.2
                    rw [hm1]
                    rcases hs.visited x hx with h | h
                    · exact Or.inl h
                    · exact Or.inr (List.mem_cons_of_mem _ h)

/-- C37. With `optimize` and an optional last level, if the first solution of the explicit constraints
satisfies the implicit ones with a margin, the configuration returned is the best of those visited that
satisfy the constraints. -/
theorem C37_optimize_best_partial (o : BsOps A M α) (thr dqMin : α) (maxIter reducedDim : Nat) (a : A)
    (m : M) (hn : o.norm (o.expl a).1 ≤ 1 / 4 * thr) :
    let r := bsSolve (logging o) thr dqMin maxIter reducedDim true true a (m, [])
    r.undef = false →
      r.arg ∈ (o.expl a).1 :: r.mem.2 ∧
      ∀ x ∈ (o.expl a).1 :: r.mem.2, o.norm x ≤ 1 / 4 * thr → o.cost r.arg ≤ o.cost x := by
  intro r hu
  have hdec := (C37_optimize (logging o) thr dqMin maxIter reducedDim a (m, [])).2.2 hu hn
  change _ ∧ o.cost r.arg ≤ o.cost (o.expl a).1 at hdec
  have hrd : r = bsSolve (logging o) thr dqMin maxIter reducedDim true true a (m, []) := rfl
  unfold bsSolve at hrd
  rcases hex : o.expl a with ⟨a0, ok⟩
  have hex' : (logging o).expl a = (a0, ok) := hex
  rw [hex] at hn hdec
  rw [hex'] at hrd
  cases ok with
  | false =>
    rw [hrd] at hu
    simp at hu
  | true =>
    have hnn : ¬ 1 / 4 * thr < (logging o).norm a0 := not_lt.2 hn
    simp only [decide_eq_true_eq, Bool.and_self, hnn, false_and, if_false] at hrd
    rw [hrd] at hu
    have hq : (bsInit (logging o) thr true a0 (m, [])).qopt = some a0 := by
      unfold bsInit
      simp only [true_and, hnn, not_false_eq_true, if_true]
    have := bsLoop_best o thr dqMin a0 _ _ _ ⟨bsInit_optInv (logging o) thr a a0 (m, []) hex', ?_, ?_⟩
      (by rw [hq]; rfl) hu
    · rw [← hrd] at this
      refine ⟨?_, ?_⟩
      · rcases this.2 with h | h
        · rw [h]; exact List.mem_cons_self ..
        · exact List.mem_cons_of_mem _ h
      · intro x hx hnx
        rcases List.mem_cons.1 hx with rfl | hx
        · exact hdec.2
        · exact this.1 x hx hnx
    · intro x hx; simp [bsInit] at hx
    · intro x hx
      rw [hq] at hx
      exact Or.inl (Option.some.inj hx).symm

open BsEx in
example :
    let r := bsSolve (logging opt) 1 (1 / 1000) 40 1 true true (-3 / 2, 0) (0, [])
    r.undef = false ∧ r.mem.2.length = 3 := by
  decide +kernel

/-- C37 fails for the optimization when the first configuration does not satisfy the constraints: a
configuration that satisfies them is visited, and another one, which does not, is returned. -/
theorem C37_optimize_refuted : ∃ (o : BsOps ℚ ℚ ℚ) (a : ℚ),
    let r := bsSolve (logging o) 1 (1 / 1000) 2 1 true true a (0, [])
    r.undef = false ∧ r.status = .maxIterationReached ∧ 1 < o.norm r.arg ∧ ∃ x ∈ r.mem.2, o.norm x = 0 :=
  -- the error vanishes at 0 only, the cost increases towards 0: 3, 0, -3
  ⟨{ expl := fun a => (a, true), norm := fun a => a * a, cost := fun a => 100 - a * a, dir := fun _ _ => -3,
     scale := fun s d => s * d, unscale := fun s d => d / s, dqNorm := fun d => d * d,
     search := fun a d => (a + d, d, true) }, 3, by decide +kernel⟩

/-! ## C30 -/

/-- Instrumentation: the steps count the directions computed and the line searches performed. -/
def bsCounting (o : BsOps A M α) : BsOps A (M × Nat × Nat) α where
  expl := o.expl
  norm := o.norm
  cost := o.cost
  dir a m := (o.dir a m.1, m.2.1 + 1, m.2.2)
  scale x m := (o.scale x m.1, m.2)
  unscale x m := (o.unscale x m.1, m.2)
  dqNorm m := o.dqNorm m.1
  search a m := ((o.search a m.1).1, ((o.search a m.1).2.1, m.2.1, m.2.2 + 1), (o.search a m.1).2.2)

theorem bsLoop_counts (o : BsOps A M α) (thr dqMin : α) (optimize : Bool) (init : Option (A × α)) :
    ∀ (left : Nat) (s : BsSt A (M × Nat × Nat) α), s.mem.2.1 ≤ s.iter → s.mem.2.2 = s.iter →
    (bsLoop (bsCounting o) thr dqMin optimize init left s).iter ≤ s.iter + left ∧
    (bsLoop (bsCounting o) thr dqMin optimize init left s).mem.2.1 ≤ s.iter + left ∧
    (bsLoop (bsCounting o) thr dqMin optimize init left s).mem.2.2 =
      (bsLoop (bsCounting o) thr dqMin optimize init left s).iter := by
  have hend : ∀ s : BsSt A (M × Nat × Nat) α, (bsEnd optimize init s).iter = s.iter ∧
      (bsEnd optimize init s).mem = s.mem := by
    intro s
    unfold bsEnd
    split <;> exact ⟨rfl, rfl⟩
  intro left
  induction left with
  | zero =>
    intro s h1 h2
    unfold bsLoop
    split
    · rw [(hend _).1, (hend _).2]
      exact ⟨Nat.le_refl _, h1, h2⟩
    · rw [(hend _).1, (hend _).2]
      exact ⟨Nat.le_refl _, h1, h2⟩
  | succ left ih =>
    intro s h1 h2
    unfold bsLoop
    by_cases hc : (optimize = true ∨ s.above = true ∧ s.dec ≠ 0)
    · rw [if_pos hc]
      simp only
      have hm : ∀ m, m = (if optimize = true then
            (bsCounting o).scale s.scaling (if s.only = true then s.mem else (bsCounting o).dir s.arg s.mem)
          else if s.only = true then s.mem else (bsCounting o).dir s.arg s.mem) →
          m.2.1 ≤ s.iter + 1 ∧ m.2.2 = s.iter := by
        rintro m rfl
        split
        · show (if s.only = true then s.mem else (bsCounting o).dir s.arg s.mem).2.1 ≤ _ ∧
            (if s.only = true then s.mem else (bsCounting o).dir s.arg s.mem).2.2 = _
          split
          · exact ⟨by omega, h2⟩
          · exact ⟨by show s.mem.2.1 + 1 ≤ _; omega, h2⟩
        · split
          · exact ⟨by omega, h2⟩
          · exact ⟨by show s.mem.2.1 + 1 ≤ _; omega, h2⟩
      generalize hmd : (if optimize = true then
            (bsCounting o).scale s.scaling (if s.only = true then s.mem else (bsCounting o).dir s.arg s.mem)
          else if s.only = true then s.mem else (bsCounting o).dir s.arg s.mem) = m
      obtain ⟨h3, h4⟩ := hm m hmd.symm
      generalize (if s.only = true then s.prev else s.n) = prev
      by_cases hd : (bsCounting o).dqNorm m < dqMin
      · simp only [if_pos hd]
        rw [(hend _).1, (hend _).2]
        exact ⟨by simp, by simp only; omega, h4⟩
      · simp only [if_neg hd]
        have hsr : (bsCounting o).search s.arg m = ((o.search s.arg m.1).1,
          ((o.search s.arg m.1).2.1, m.2.1, m.2.2 + 1), (o.search s.arg m.1).2.2) := rfl
        cases hst : bsStep (bsCounting o) thr optimize s prev m with
        | inr p =>
          simp only
          unfold bsStep at hst
          rw [hsr] at hst
          cases hok : (o.search s.arg m.1).2.2 with
          | false =>
            simp only [hok, Sum.inr.injEq] at hst
            subst hst
            exact ⟨by omega, by simp only; omega, by simp only; omega⟩
          | true =>
            simp only [hok] at hst
            rcases hex : (bsCounting o).expl (o.search s.arg m.1).1 with ⟨a2, ok2⟩
            rw [hex] at hst
            cases ok2 with
            | false =>
              simp only [Sum.inr.injEq] at hst
              subst hst
              exact ⟨by omega, by simp only; omega, by simp only; omega⟩
            | true => simp at hst
        | inl s' =>
          simp only
          have hs' : s'.iter = s.iter + 1 ∧ s'.mem.2 = (m.2.1, m.2.2 + 1) := by
            unfold bsStep at hst
            rw [hsr] at hst
            cases hok : (o.search s.arg m.1).2.2 with
            | false => simp [hok] at hst
            | true =>
              simp only [hok] at hst
              rcases hex : (bsCounting o).expl (o.search s.arg m.1).1 with ⟨a2, ok2⟩
              rw [hex] at hst
              cases ok2 with
              | false => simp at hst
              | true =>
                simp only [Sum.inl.injEq] at hst
                subst hst
                split
                · split
                  · exact ⟨rfl, rfl⟩
                  · split <;> exact ⟨rfl, rfl⟩
                · exact ⟨rfl, rfl⟩
          have := ih s' (by rw [hs'.1, hs'.2]; exact h3) (by rw [hs'.1, hs'.2, ← h4])
          rw [hs'.1] at this
          exact ⟨by omega, by omega, this.2.2⟩
    · rw [if_neg hc, (hend _).1, (hend _).2]
      exact ⟨by omega, by omega, h2⟩

/-- C30 for the solver by substitution, with or without optimization and whatever the errors: at most
`maxIter` directions are computed and at most `maxIter` line searches performed, at most two if the
error is already below the threshold and the solver does not optimize. -/
theorem C30_by_substitution (o : BsOps A M α) (thr dqMin : α) (maxIter reducedDim : Nat) (w l : Bool) (a : A)
    (m : M) :
    let r := bsSolve (bsCounting o) thr dqMin maxIter reducedDim w l a (m, 0, 0)
    let n := if (w && l) = false ∧ o.norm (o.expl a).1 < thr then min maxIter 2 else maxIter
    r.iter ≤ n ∧ r.mem.2.1 ≤ n ∧ r.mem.2.2 = r.iter := by
  intro r n
  have hrd : r = bsSolve (bsCounting o) thr dqMin maxIter reducedDim w l a (m, 0, 0) := rfl
  unfold bsSolve at hrd
  rcases hex : o.expl a with ⟨a0, ok⟩
  have hex' : (bsCounting o).expl a = (a0, ok) := hex
  rw [hex'] at hrd
  cases ok with
  | false => rw [hrd]; simp
  | true =>
    simp only [decide_eq_true_eq] at hrd
    split at hrd
    · rw [hrd]; simp
    · have := bsLoop_counts o thr dqMin (w && l)
        (if (bsCounting o).norm a0 < thr then some (a0, (bsCounting o).norm a0) else none)
        (bsBudget (w && l) (decide ((bsCounting o).norm a0 < thr)) maxIter)
        (bsInit (bsCounting o) thr (w && l) a0 (m, 0, 0)) (Nat.le_refl 0) rfl
      rw [← hrd] at this
      have hn : bsBudget (w && l) (decide ((bsCounting o).norm a0 < thr)) maxIter = n := by
        show _ = if (w && l) = false ∧ o.norm (o.expl a).1 < thr then min maxIter 2 else maxIter
        rw [hex]
        show bsBudget (w && l) (decide (o.norm a0 < thr)) maxIter = _
        unfold bsBudget
        cases hw : w && l <;> by_cases hb : o.norm a0 < thr <;> simp [hb]
        omega
      rw [hn] at this
      simpa [bsInit] using this

open BsEx in
example : (bsSolve (bsCounting ops) 1 (1 / 1000) 40 1 false false (8, 0) (0, 0, 0)).mem.2 = (3, 3) ∧
    (bsSolve (bsCounting opt) 1 (1 / 1000) 40 1 true true (-3 / 2, 0) (0, 0, 0)).mem.2 = (4, 3) := by
  decide +kernel

end Hpp
