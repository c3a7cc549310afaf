import Verif.BySub.Loop
import Mathlib.Tactic.Ring
import Mathlib.Tactic.Linarith

/-!
# Lemmas on the iterations of the solver by substitution
-/

namespace Hpp

variable {A M α : Type} [Field α] [LinearOrder α]

/-- Specification: successive arguments and memories when the solver does not optimize; `none` once an
explicit constraint is not defined. -/
def bsTraj (o : BsOps A M α) (a : A) (m : M) : Nat → Option (A × M)
  | 0 => if (o.expl a).2 then some ((o.expl a).1, m) else none
  | k + 1 => (bsTraj o a m k).bind fun p =>
    let r := o.search p.1 (o.dir p.1 p.2)
    if r.2.2 ∧ (o.expl r.1).2 then some ((o.expl r.1).1, r.2.1) else none

/-- Specification: error after `k` iterations. -/
def bsErr (o : BsOps A M α) (a : A) (m : M) (k : Nat) : α :=
  match bsTraj o a m k with
  | some p => o.norm p.1
  | none => 0

/-- Specification: squared norm of the step computed at iteration `k`. -/
def bsStepNorm (o : BsOps A M α) (a : A) (m : M) (k : Nat) : α :=
  match bsTraj o a m k with
  | some p => o.dqNorm (o.dir p.1 p.2)
  | none => 0

/-- Specification: number of successive iterations, up to the `k`-th one, that did not decrease the
error. -/
def bsStalled (e : Nat → α) : Nat → Nat
  | 0 => 0
  | k + 1 => if e (k + 1) < e k then 0 else bsStalled e k + 1

/-- The status, given whether the error is small enough, whether the iterations stall, whether the number
of iterations is reached. -/
def BsStatus (c0 c1 c2 : Prop) (st : Status) : Prop :=
  (c0 ∧ st = .success) ∨ (¬ c0 ∧ c1 ∧ st = .errorIncreased) ∨
  (¬ c0 ∧ ¬ c1 ∧ c2 ∧ st = .maxIterationReached) ∨ (¬ c0 ∧ ¬ c1 ∧ ¬ c2 ∧ st = .infeasible)

theorem BsStatus.success {c0 c1 c2 : Prop} {st : Status} (h : BsStatus c0 c1 c2 st) (h0 : c0) :
    st = .success := by
  unfold BsStatus at h; tauto

theorem BsStatus.increased {c0 c1 c2 : Prop} {st : Status} (h : BsStatus c0 c1 c2 st) (h0 : ¬ c0)
    (h1 : c1) : st = .errorIncreased := by
  unfold BsStatus at h; tauto

theorem BsStatus.maxIt {c0 c1 c2 : Prop} {st : Status} (h : BsStatus c0 c1 c2 st) (h0 : ¬ c0)
    (h1 : ¬ c1) (h2 : c2) : st = .maxIterationReached := by
  unfold BsStatus at h; tauto

theorem BsStatus.infeasible {c0 c1 c2 : Prop} {st : Status} (h : BsStatus c0 c1 c2 st) (h0 : ¬ c0)
    (h1 : ¬ c1) (h2 : ¬ c2) : st = .infeasible := by
  unfold BsStatus at h; tauto

/-- Specification of the result of the loop. -/
structure BsSpec (o : BsOps A M α) (thr dqMin : α) (budget : Nat) (init : Option (A × α)) (a : A) (m : M)
    (r : BsOut A M) : Prop where
  iter : r.iter ≤ budget
  before : ∀ k, k < r.iter → 1 / 4 * thr < bsErr o a m k ∧ bsStalled (bsErr o a m) k < 3 ∧
    ¬ bsStepNorm o a m k < dqMin ∧ ∃ p, bsTraj o a m k = some p
  undef : r.undef = true → r.status = .infeasible ∧ bsTraj o a m r.iter = none
  last : r.undef = false → ∃ b m', bsTraj o a m r.iter = some (b, m') ∧
    (r.mem = m' ∨ r.iter < budget ∧ r.mem = o.dir b m') ∧
    r.arg = (match init with
      | some (a0, n0) => if n0 < o.norm b then a0 else b
      | none => b) ∧
    (bsErr o a m r.iter ≤ 1 / 4 * thr ∨ bsStalled (bsErr o a m) r.iter = 3 ∨ r.iter = budget ∨
      r.iter < budget ∧ bsStepNorm o a m r.iter < dqMin) ∧
    BsStatus (init.isSome ∨ bsErr o a m r.iter ≤ 1 / 4 * thr) (bsStalled (bsErr o a m) r.iter = 3)
      (r.iter = budget) r.status

theorem bsLoop_spec (o : BsOps A M α) (thr dqMin : α) (budget : Nat) (init : Option (A × α)) (a : A)
    (m : M) :
    ∀ (left : Nat) (s : BsSt A M α), s.iter + left = budget →
    bsTraj o a m s.iter = some (s.arg, s.mem) → s.n = o.norm s.arg →
    s.dec + (bsStalled (bsErr o a m) s.iter : Int) = 3 → s.only = false →
    s.above = decide (1 / 4 * thr < s.n) →
    s.status = (if bsStalled (bsErr o a m) s.iter = 0 then .success else .errorIncreased) →
    (bsStalled (bsErr o a m) s.iter ≠ 0 → 1 / 4 * thr < s.n) →
    (∀ k, k < s.iter → 1 / 4 * thr < bsErr o a m k ∧ bsStalled (bsErr o a m) k < 3 ∧
      ¬ bsStepNorm o a m k < dqMin ∧ ∃ p, bsTraj o a m k = some p) →
    BsSpec o thr dqMin budget init a m (bsLoop o thr dqMin false init left s) := by
  intro left
  induction left with
  | zero =>
    intro s h1 h2 h3 h4 h5 h6 h7 h8 h9
    have herr : bsErr o a m s.iter = s.n := by unfold bsErr; rw [h2, h3]
    have hb : s.iter = budget := by omega
    unfold bsLoop
    by_cases hc : s.above = true ∧ s.dec ≠ 0
    · rw [if_pos (Or.inr hc)]
      have ha : 1 / 4 * thr < s.n := by simpa [h6] using hc.1
      have hst : bsStalled (bsErr o a m) s.iter ≠ 3 := by omega
      cases init with
      | none =>
        refine ⟨by simp [bsEnd, hb], h9, by simp [bsEnd], fun _ => ⟨s.arg, s.mem, h2, Or.inl rfl, rfl,
          Or.inr (Or.inr (Or.inl hb)), ?_⟩⟩
        exact Or.inr (Or.inr (Or.inl ⟨by simpa [bsEnd, herr] using ha, hst, hb, rfl⟩))
      | some p =>
        obtain ⟨a0, n0⟩ := p
        refine ⟨by simp [bsEnd, hb], h9, by simp [bsEnd], fun _ => ⟨s.arg, s.mem, h2, Or.inl rfl,
          by simp [bsEnd, h3],
          Or.inr (Or.inr (Or.inl hb)), Or.inl ⟨by simp, rfl⟩⟩⟩
    · rw [if_neg (by simpa using hc)]
      have hend : bsErr o a m s.iter ≤ 1 / 4 * thr ∨ bsStalled (bsErr o a m) s.iter = 3 := by
        by_cases ha : s.above = true
        · right
          have : s.dec = 0 := by by_contra h0; exact hc ⟨ha, h0⟩
          omega
        · left
          rw [h6] at ha
          rw [herr]; simpa using ha
      cases init with
      | none =>
        refine ⟨by simp [bsEnd, hb], h9, by simp [bsEnd], fun _ => ⟨s.arg, s.mem, h2, Or.inl rfl, rfl,
          by tauto, ?_⟩⟩
        by_cases ha : bsErr o a m s.iter ≤ 1 / 4 * thr
        · refine Or.inl ⟨Or.inr ha, ?_⟩
          show s.status = _
          rw [h7, if_pos]
          by_contra h0
          exact absurd (h8 h0) (by rw [← herr]; exact not_lt.2 ha)
        · have h3' : bsStalled (bsErr o a m) s.iter = 3 := by tauto
          refine Or.inr (Or.inl ⟨by simpa [bsEnd] using ha, h3', ?_⟩)
          show s.status = _
          rw [h7, if_neg (by omega)]
      | some p =>
        obtain ⟨a0, n0⟩ := p
        refine ⟨by simp [bsEnd, hb], h9, by simp [bsEnd], fun _ => ⟨s.arg, s.mem, h2, Or.inl rfl,
          by simp [bsEnd, h3],
          by tauto, Or.inl ⟨by simp, rfl⟩⟩⟩
  | succ left ih =>
    intro s h1 h2 h3 h4 h5 h6 h7 h8 h9
    have herr : bsErr o a m s.iter = s.n := by unfold bsErr; rw [h2, h3]
    have hstep : bsStepNorm o a m s.iter = o.dqNorm (o.dir s.arg s.mem) := by unfold bsStepNorm; rw [h2]
    have hb : s.iter < budget := by omega
    unfold bsLoop
    by_cases hc : s.above = true ∧ s.dec ≠ 0
    · rw [if_pos (Or.inr hc)]
      have ha : 1 / 4 * thr < s.n := by simpa [h6] using hc.1
      have hst : bsStalled (bsErr o a m) s.iter ≠ 3 := by omega
      simp only [h5, Bool.false_eq_true, if_false]
      by_cases hd : o.dqNorm (o.dir s.arg s.mem) < dqMin
      · rw [if_pos hd]
        have hd' : bsStepNorm o a m s.iter < dqMin := hstep ▸ hd
        cases init with
        | none =>
          refine ⟨by simp [bsEnd, hb.le], h9, by simp [bsEnd], fun _ => ⟨s.arg, s.mem, h2,
            Or.inr ⟨hb, rfl⟩, rfl, Or.inr (Or.inr (Or.inr ⟨hb, hd'⟩)), ?_⟩⟩
          exact Or.inr (Or.inr (Or.inr ⟨by simpa [bsEnd, herr] using ha, hst, hb.ne, rfl⟩))
        | some p =>
          obtain ⟨a0, n0⟩ := p
          refine ⟨by simp [bsEnd, hb.le], h9, by simp [bsEnd], fun _ => ⟨s.arg, s.mem, h2,
            Or.inr ⟨hb, rfl⟩, by simp [bsEnd, h3],
            Or.inr (Or.inr (Or.inr ⟨hb, hd'⟩)), Or.inl ⟨by simp, rfl⟩⟩⟩
      · rw [if_neg hd]
        have hd' : ¬ bsStepNorm o a m s.iter < dqMin := hstep ▸ hd
        have hstlt : bsStalled (bsErr o a m) s.iter < 3 := by
          have := hc.2
          by_contra hge
          have : s.dec < 0 := by omega
          -- `dec` cannot be negative: the count of stalled iterations is at most three
          have hle : bsStalled (bsErr o a m) s.iter ≤ 3 := by
            cases hi : s.iter with
            | zero => simp [bsStalled]
            | succ k =>
              have := (h9 k (by omega)).2.1
              simp only [bsStalled]
              split <;> omega
          omega
        have h9' : ∀ k, k < s.iter + 1 → 1 / 4 * thr < bsErr o a m k ∧ bsStalled (bsErr o a m) k < 3 ∧
            ¬ bsStepNorm o a m k < dqMin ∧ ∃ p, bsTraj o a m k = some p := by
          intro k hk
          rcases Nat.lt_succ_iff_lt_or_eq.1 hk with hk | rfl
          · exact h9 k hk
          · exact ⟨herr ▸ ha, hstlt, hd', _, h2⟩
        have htr : bsTraj o a m (s.iter + 1) =
            (if (o.search s.arg (o.dir s.arg s.mem)).2.2 ∧
                (o.expl (o.search s.arg (o.dir s.arg s.mem)).1).2 then
              some ((o.expl (o.search s.arg (o.dir s.arg s.mem)).1).1,
                (o.search s.arg (o.dir s.arg s.mem)).2.1) else none) := by
          show (bsTraj o a m s.iter).bind _ = _
          rw [h2]; rfl
        unfold bsStep
        rcases hsr : o.search s.arg (o.dir s.arg s.mem) with ⟨a1, m1, ok1⟩
        rw [hsr] at htr
        cases ok1 with
        | false =>
          simp only
          exact ⟨by simp; omega, h9', fun _ => ⟨rfl, by simpa using htr⟩, by simp⟩
        | true =>
          simp only at htr ⊢
          rcases hex : o.expl a1 with ⟨a2, ok2⟩
          rw [hex] at htr
          cases ok2 with
          | false =>
            simp only
            exact ⟨by simp; omega, h9', fun _ => ⟨rfl, by simpa using htr⟩, by simp⟩
          | true =>
            simp only [Bool.false_eq_true, if_false]
            simp only [and_self, if_true] at htr
            have herr' : bsErr o a m (s.iter + 1) = o.norm a2 := by unfold bsErr; rw [htr]
            have hstl : bsStalled (bsErr o a m) (s.iter + 1) =
                if o.norm a2 < s.n then 0 else bsStalled (bsErr o a m) s.iter + 1 := by
              show (if _ then _ else _) = _
              rw [herr, herr']
            apply ih
            · show s.iter + 1 + left = budget
              omega
            · exact htr
            · rfl
            · show (if decide (o.norm a2 < s.n) = true then (3 : Int) else s.dec - 1) +
                (bsStalled (bsErr o a m) (s.iter + 1) : Int) = 3
              rw [hstl]
              by_cases hlt : o.norm a2 < s.n
              · simp [hlt]
              · simp only [hlt, decide_false, Bool.false_eq_true, if_false]
                push_cast
                omega
            · exact h5
            · rfl
            · show (if decide (o.norm a2 < s.n) = true then Status.success else Status.errorIncreased) =
                if bsStalled (bsErr o a m) (s.iter + 1) = 0 then _ else _
              rw [hstl]
              by_cases hlt : o.norm a2 < s.n <;> simp [hlt]
            · show bsStalled (bsErr o a m) (s.iter + 1) ≠ 0 → _ < o.norm a2
              rw [hstl]
              by_cases hlt : o.norm a2 < s.n
              · simp [hlt]
              · intro _
                exact lt_of_lt_of_le ha (not_lt.1 hlt)
            · exact h9'
    · rw [if_neg (by simpa using hc)]
      have hend : bsErr o a m s.iter ≤ 1 / 4 * thr ∨ bsStalled (bsErr o a m) s.iter = 3 := by
        by_cases ha : s.above = true
        · right
          have : s.dec = 0 := by by_contra h0; exact hc ⟨ha, h0⟩
          omega
        · left
          rw [h6] at ha
          rw [herr]; simpa using ha
      cases init with
      | none =>
        refine ⟨by simp [bsEnd, hb.le], h9, by simp [bsEnd], fun _ => ⟨s.arg, s.mem, h2, Or.inl rfl, rfl,
          by tauto, ?_⟩⟩
        by_cases ha : bsErr o a m s.iter ≤ 1 / 4 * thr
        · refine Or.inl ⟨Or.inr ha, ?_⟩
          show s.status = _
          rw [h7, if_pos]
          by_contra h0
          exact absurd (h8 h0) (by rw [← herr]; exact not_lt.2 ha)
        · have h3' : bsStalled (bsErr o a m) s.iter = 3 := by tauto
          refine Or.inr (Or.inl ⟨by simpa [bsEnd] using ha, h3', ?_⟩)
          show s.status = _
          rw [h7, if_neg (by omega)]
      | some p =>
        obtain ⟨a0, n0⟩ := p
        refine ⟨by simp [bsEnd, hb.le], h9, by simp [bsEnd], fun _ => ⟨s.arg, s.mem, h2, Or.inl rfl,
          by simp [bsEnd, h3],
          by tauto, Or.inl ⟨by simp, rfl⟩⟩⟩

/-- When the solver does not optimize. -/
theorem bsSolve_spec (o : BsOps A M α) (thr dqMin : α) (maxIter reducedDim : Nat) (w l : Bool)
    (hw : (w && l) = false) (a : A) (m : M) (hdef : (o.expl a).2 = true)
    (h : ¬ (1 / 4 * thr < o.norm (o.expl a).1 ∧ reducedDim = 0)) :
    BsSpec o thr dqMin (bsBudget false (decide (o.norm (o.expl a).1 < thr)) maxIter)
      (if o.norm (o.expl a).1 < thr then some ((o.expl a).1, o.norm (o.expl a).1) else none) a m
      (bsSolve o thr dqMin maxIter reducedDim w l a m) := by
  unfold bsSolve
  rw [hw]
  rcases hex : o.expl a with ⟨a0, ok⟩
  rw [hex] at h hdef
  simp only at h hdef
  subst hdef
  simp only [decide_eq_true_eq, if_neg h]
  apply bsLoop_spec
  · show 0 + _ = _
    omega
  · show bsTraj o a m 0 = some (a0, m)
    simp [bsTraj, hex]
  · rfl
  · simp [bsInit, bsStalled]
  · rfl
  · rfl
  · simp [bsInit, bsStalled]
  · simp [bsInit, bsStalled]
  · intro k hk
    exact absurd hk (Nat.not_lt_zero k)

omit [Field α] in
theorem bsStalled_three (e : Nat → α) (n : Nat) (h3 : ∀ k, k < n → bsStalled e k < 3) :
    bsStalled e n = 3 ↔ 3 ≤ n ∧ e (n - 3) ≤ e (n - 2) ∧ e (n - 2) ≤ e (n - 1) ∧ e (n - 1) ≤ e n := by
  match n, h3 with
  | 0, _ => simp [bsStalled]
  | 1, _ => simp only [bsStalled]; split <;> simp
  | 2, _ =>
    simp only [bsStalled]
    split
    · simp
    · split <;> simp
  | n + 3, h3 =>
    have h0 := h3 n (by omega)
    have h1 := h3 (n + 1) (by omega)
    have h2 := h3 (n + 2) (by omega)
    simp only [bsStalled] at h1 h2 ⊢
    simp only [show n + 3 - 3 = n by omega, show n + 3 - 2 = n + 1 by omega,
      show n + 3 - 1 = n + 2 by omega]
    by_cases c1 : e (n + 1) < e n <;> by_cases c2 : e (n + 2) < e (n + 1) <;>
      by_cases c3 : e (n + 3) < e (n + 2) <;>
      simp only [c1, c2, c3, if_true, if_false] at h1 h2 ⊢ <;>
      (simp [c1, c2, c3, not_lt.1, not_le.2]; try simp [not_lt] at c1 c2 c3; omega)

/-! ### optimization -/

/-- Invariant of the loop when the solver optimizes. -/
structure OptInv (o : BsOps A M α) (thr : α) (a0 : A) (s : BsSt A M α) : Prop where
  arg : ∃ y, o.expl y = (s.arg, true)
  opt : ∀ x, s.qopt = some x → (∃ y, o.expl y = (x, true)) ∧ o.norm x ≤ 1 / 4 * thr ∧
    o.cost x = s.prevCost
  cost : s.prevCost ≤ o.cost a0

theorem bsInit_optInv (o : BsOps A M α) (thr : α) (a a0 : A) (m : M) (hex : o.expl a = (a0, true)) :
    OptInv o thr a0 (bsInit o thr true a0 m) := by
  refine ⟨⟨a, hex⟩, ?_, by simp [bsInit]⟩
  intro x hx
  unfold bsInit at hx
  simp only [true_and] at hx
  split at hx
  · rename_i h'
    simp only [Option.some.injEq] at hx
    subst hx
    exact ⟨⟨a, hex⟩, not_lt.1 h', by simp [bsInit]⟩
  · simp at hx

theorem bsStep_optInv (o : BsOps A M α) (thr : α) (a0 : A) (s s' : BsSt A M α) (prev : α) (m : M)
    (hs : OptInv o thr a0 s) (h : bsStep o thr true s prev m = .inl s') :
    OptInv o thr a0 s' ∧ s'.iter = s.iter + 1 ∧ (s.qopt.isSome → s'.qopt.isSome) ∧
      s'.prevCost ≤ s.prevCost := by
  unfold bsStep at h
  rcases hsr : o.search s.arg m with ⟨a1, m1, ok1⟩
  rw [hsr] at h
  cases ok1 with
  | false => simp at h
  | true =>
    rcases hex : o.expl a1 with ⟨a2, ok2⟩
    simp only [hex] at h
    cases ok2 with
    | false => simp at h
    | true =>
      simp only [if_true, Sum.inl.injEq] at h
      by_cases ha : 1 / 4 * thr < o.norm a2
      · simp only [ha, decide_true, if_true] at h
        subst h
        refine ⟨⟨?_, hs.opt, hs.cost⟩, rfl, id, le_refl _⟩
        cases hq : s.qopt with
        | none => exact ⟨a1, hex⟩
        | some x => exact (hs.opt x hq).1
      · simp only [ha, decide_false, Bool.false_eq_true, if_false] at h
        by_cases hcst : o.cost a2 < s.prevCost
        · rw [if_pos hcst] at h
          subst h
          refine ⟨⟨⟨a1, hex⟩, ?_, le_trans hcst.le hs.cost⟩, rfl, fun _ => rfl, hcst.le⟩
          intro x hx
          simp only [Option.some.injEq] at hx
          subst hx
          exact ⟨⟨a1, hex⟩, not_lt.1 ha, rfl⟩
        · rw [if_neg hcst] at h
          subst h
          exact ⟨⟨⟨a1, hex⟩, hs.opt, hs.cost⟩, rfl, id, le_refl _⟩

theorem bsLoop_opt (o : BsOps A M α) (thr dqMin : α) (a0 : A) (init : Option (A × α)) :
    ∀ (left : Nat) (s : BsSt A M α), OptInv o thr a0 s →
    (bsLoop o thr dqMin true init left s).iter ≤ s.iter + left ∧
    ((bsLoop o thr dqMin true init left s).undef = true →
      (bsLoop o thr dqMin true init left s).status = .infeasible) ∧
    ((bsLoop o thr dqMin true init left s).undef = false →
      ((bsLoop o thr dqMin true init left s).status = .infeasible ∨
        (bsLoop o thr dqMin true init left s).status = .maxIterationReached) ∧
      (∃ y, o.expl y = ((bsLoop o thr dqMin true init left s).arg, true)) ∧
      (s.qopt.isSome → o.norm (bsLoop o thr dqMin true init left s).arg ≤ 1 / 4 * thr ∧
        o.cost (bsLoop o thr dqMin true init left s).arg ≤ s.prevCost)) := by
  have hend : ∀ s : BsSt A M α, OptInv o thr a0 s →
      (∃ y, o.expl y = (s.qopt.getD s.arg, true)) ∧
      (s.qopt.isSome → o.norm (s.qopt.getD s.arg) ≤ 1 / 4 * thr ∧
        o.cost (s.qopt.getD s.arg) ≤ s.prevCost) := by
    intro s hs
    cases hq : s.qopt with
    | none => exact ⟨hs.arg, by simp⟩
    | some x =>
      obtain ⟨h1, h2, h3⟩ := hs.opt x hq
      exact ⟨h1, fun _ => ⟨h2, h3.le⟩⟩
  intro left
  induction left with
  | zero =>
    intro s hs
    unfold bsLoop
    simp only [true_or, if_true, bsEnd]
    exact ⟨by omega, by simp, fun _ => ⟨by simp, hend s hs⟩⟩
  | succ left ih =>
    intro s hs
    unfold bsLoop
    simp only [true_or, if_true]
    generalize (if s.only = true then s.prev else s.n) = prev
    generalize (o.scale s.scaling (if s.only = true then s.mem else o.dir s.arg s.mem)) = m
    by_cases hd : o.dqNorm m < dqMin
    · simp only [if_pos hd, bsEnd]
      exact ⟨by omega, by simp, fun _ => ⟨by simp, hend s hs⟩⟩
    · simp only [if_neg hd]
      cases hst : bsStep o thr true s prev m with
      | inr p =>
        simp only
        exact ⟨by omega, fun _ => trivial, by simp⟩
      | inl s' =>
        simp only
        obtain ⟨h1, h2, h3, h4⟩ := bsStep_optInv o thr a0 s s' prev m hs hst
        obtain ⟨g1, g2, g3⟩ := ih s' h1
        refine ⟨by omega, g2, fun hu => ?_⟩
        obtain ⟨e1, e2, e3⟩ := g3 hu
        exact ⟨e1, e2, fun hq => ⟨(e3 (h3 hq)).1, le_trans (e3 (h3 hq)).2 h4⟩⟩

end Hpp
