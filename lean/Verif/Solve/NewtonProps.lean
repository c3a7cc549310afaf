import Verif.Solve.SlopeProps
import Verif.Solve.Props
import Mathlib.Tactic.Tauto

/-!
# The solver on linear constraints: C91
-/

namespace Hpp

open Matrix

variable {A α S : Type}

/-- Specification: linear constraints.  The error is an affine function of the step, with constant
Jacobians. -/
def LinearLevels [Field α] {n : Nat} (integrate : A → (Fin n → α) → A) (lv : List (NLevel A α n)) : Prop :=
  ∀ l ∈ lv, ∀ q v, l.err (integrate q v) = l.err q + l.J q *ᵥ v ∧ l.J (integrate q v) = l.J q

/-- Specification: a step from `q` satisfies all constraints. -/
def Solves [Field α] {n : Nat} (integrate : A → (Fin n → α) → A) (lv : List (NLevel A α n)) (q : A)
    (v : Fin n → α) : Prop :=
  ∀ l ∈ lv, l.err (integrate q v) = 0

/-- Specification: a line search that moves along the direction, by a step length of [bmin, 1], as long as
its state satisfies an invariant. -/
def StepsIn [Field α] [LinearOrder α] {n : Nat} (integrate : A → (Fin n → α) → A) (I : S → Prop) (bmin : α)
    (ls : S → A → (Fin n → α) → S × LsOut A (Fin n → α)) : Prop :=
  ∀ s q u, I s → I (ls s q u).1 ∧ ∃ b, bmin ≤ b ∧ b ≤ 1 ∧ (ls s q u).2.arg = integrate q (b • u)

section
variable [Field α] [LinearOrder α] [IsStrictOrderedRing α] {n : Nat}

omit [LinearOrder α] [IsStrictOrderedRing α] in
theorem norms_scale (l : NLevel A α n) (q q' : A) (b : α) (h : l.err q' = (1 - b) • l.err q) :
    l.norms q' = (l.norms q).map fun x => (1 - b) ^ 2 * x := by
  unfold NLevel.norms
  rw [List.map_map]
  refine List.map_congr_left fun k _ => ?_
  simp only [Function.comp, Finset.mul_sum]
  refine Finset.sum_congr rfl fun i _ => ?_
  rw [h]
  split
  · simp only [Pi.smul_apply, smul_eq_mul]; ring
  · simp

theorem foldl_max_scale (c : α) (hc : 0 ≤ c) (l : List α) : ∀ x : α,
    (l.map fun x => c * x).foldl max (c * x) = c * l.foldl max x := by
  induction l with
  | nil => intro x; rfl
  | cons y l ih =>
    intro x
    rw [List.map_cons, List.foldl_cons, List.foldl_cons, ← mul_max_of_nonneg _ _ hc, ih]

theorem nSqNorm_scale (opt : Bool) (lv : List (NLevel A α n)) (q q' : A) (b : α)
    (h : ∀ l ∈ lv, l.err q' = (1 - b) • l.err q) :
    nSqNorm opt lv q' = (1 - b) ^ 2 * nSqNorm opt lv q := by
  have key : ∀ lv : List (NLevel A α n), (∀ l ∈ lv, l.err q' = (1 - b) • l.err q) →
      (lv.flatMap fun l => l.norms q') = (lv.flatMap fun l => l.norms q).map fun x => (1 - b) ^ 2 * x := by
    intro lv
    induction lv with
    | nil => intro _; rfl
    | cons l lv ih =>
      intro h
      rw [List.flatMap_cons, List.flatMap_cons, List.map_append, norms_scale l q q' b (h l (by simp)),
        ih fun l' hl' => h l' (by simp [hl'])]
  unfold nSqNorm
  rw [key _ fun l hl => h l (by
    cases opt
    · exact hl
    · exact List.mem_of_mem_dropLast hl)]
  have := foldl_max_scale ((1 - b) ^ 2) (sq_nonneg _)
    ((if opt then lv.dropLast else lv).flatMap fun l => l.norms q) 0
  rwa [mul_zero] at this

omit [Field α] [IsStrictOrderedRing α] in
theorem le_foldl_max (l : List α) : ∀ x : α, x ≤ l.foldl max x := by
  induction l with
  | nil => intro x; exact le_refl _
  | cons y l ih => intro x; exact (le_max_left x y).trans (ih _)

omit [IsStrictOrderedRing α] in
theorem nSqNorm_nonneg (opt : Bool) (lv : List (NLevel A α n)) (q : A) : 0 ≤ nSqNorm opt lv q :=
  le_foldl_max _ _

theorem nSqNorm_zero (opt : Bool) (lv : List (NLevel A α n)) (q : A) (h : ∀ l ∈ lv, l.err q = 0) :
    nSqNorm opt lv q = 0 := by
  have := nSqNorm_scale opt lv q q 1 fun l hl => by rw [h l hl, smul_zero]
  simpa using this

/-- One iteration on linear constraints that have a solution. -/
theorem newton_dir {o : SvdOps α} (ho : o.Exact) {thr : α} {lv : List (NLevel A α n)}
    {integrate : A → (Fin n → α) → A} (hlin : LinearLevels integrate lv) {q : A} {v : Fin n → α}
    (hv : Solves integrate lv q v) (dq : Fin n → α) :
    Solves integrate lv q ((descend o false thr (lv.map fun l => l.at q) dq).getD 0) := by
  have hv' : ∀ d ∈ lv.map (fun l => l.at q), d.J *ᵥ v + d.e = 0 := by
    intro d hd
    obtain ⟨l, hl, rfl⟩ := List.mem_map.1 hd
    have := (hlin l hl q v).1
    rw [hv l hl] at this
    rw [add_comm]
    exact this.symm
  intro l hl
  cases h : descend o false thr (lv.map fun l => l.at q) dq with
  | none =>
    have : lv = [] := by
      cases lv with
      | nil => rfl
      | cons l lv => cases lv <;> simp [descend] at h
    subst this
    simp at hl
  | some r =>
    have h1 := lexOpt_zero _ Set.univ v r trivial hv' (C36_lexicographic o ho thr _ dq h) (l.at q)
      (List.mem_map.2 ⟨l, hl, rfl⟩)
    rw [Option.getD_some, (hlin l hl q r).1, add_comm]
    exact h1

omit [LinearOrder α] [IsStrictOrderedRing α] in
theorem linear_scale {lv : List (NLevel A α n)} {integrate : A → (Fin n → α) → A}
    (hlin : LinearLevels integrate lv) {q : A} {v : Fin n → α} (hv : Solves integrate lv q v) (b : α) :
    ∀ l ∈ lv, l.err (integrate q (b • v)) = (1 - b) • l.err q := by
  intro l hl
  have h1 := (hlin l hl q v).1
  rw [hv l hl] at h1
  have h2 : l.J q *ᵥ v = -l.err q := (neg_eq_of_add_eq_zero_right h1.symm).symm
  rw [(hlin l hl q _).1, mulVec_smul, h2, sub_smul, one_smul, smul_neg, sub_eq_add_neg]

/-- Trajectory on linear constraints that have a solution. -/
theorem newton_traj {o : SvdOps α} (ho : o.Exact) {opt : Bool} {thr : α} {lv : List (NLevel A α n)}
    {integrate : A → (Fin n → α) → A} (hlin : LinearLevels integrate lv) {I : S → Prop} {bmin : α}
    {ls : S → A → (Fin n → α) → S × LsOut A (Fin n → α)} (hls : StepsIn integrate I bmin ls)
    {q : A} (hq : ∃ v, Solves integrate lv q v) (dq : Fin n → α) {s : S} (hs : I s) :
    ∀ k, (∃ v, Solves integrate lv (traj (newtonOps o false opt thr lv ls) q (dq, s) k).1 v) ∧
      I (traj (newtonOps o false opt thr lv ls) q (dq, s) k).2.2 ∧
      ∃ b, bmin ≤ b ∧ b ≤ 1 ∧ ∀ l ∈ lv,
        l.err (traj (newtonOps o false opt thr lv ls) q (dq, s) (k + 1)).1 =
          (1 - b) • l.err (traj (newtonOps o false opt thr lv ls) q (dq, s) k).1 := by
  set O := newtonOps o false opt thr lv ls with hO
  have step : ∀ q' : A, ∀ m : (Fin n → α) × S, (∃ v, Solves integrate lv q' v) → I m.2 →
      (∃ v, Solves integrate lv (O.search q' (O.dir q' m).1).1 v) ∧ I (O.search q' (O.dir q' m).1).2.2 ∧
      ∃ b, bmin ≤ b ∧ b ≤ 1 ∧ ∀ l ∈ lv, l.err (O.search q' (O.dir q' m).1).1 = (1 - b) • l.err q' := by
    rintro q' m ⟨v, hv⟩ hm
    have hd := newton_dir (thr := thr) ho hlin hv m.1
    set d := (descend o false thr (lv.map fun l => l.at q') m.1).getD 0 with hdd
    obtain ⟨h1, b, hb1, hb2, h2⟩ := hls m.2 q' d hm
    have h3 : (O.search q' (O.dir q' m).1).1 = integrate q' (b • d) := h2
    refine ⟨⟨(1 - b) • d, ?_⟩, h1, b, hb1, hb2, ?_⟩
    · intro l hl
      have e1 := linear_scale hlin hd b l hl
      rw [h3, (hlin l hl _ _).1, (hlin l hl q' _).2, e1, mulVec_smul, ← smul_add]
      have e2 := (hlin l hl q' d).1
      rw [hd l hl] at e2
      rw [← e2, smul_zero]
    · intro l hl
      rw [h3]
      exact linear_scale hlin hd b l hl
  intro k
  induction k with
  | zero =>
    obtain ⟨-, -, h3⟩ := step q (dq, s) hq hs
    exact ⟨hq, hs, h3⟩
  | succ k ih =>
    obtain ⟨h1, h2, -⟩ := ih
    obtain ⟨g1, g2, -⟩ := step _ _ h1 h2
    obtain ⟨-, -, g3⟩ := step _ (traj O q (dq, s) (k + 1)).2 g1 g2
    exact ⟨g1, g2, g3⟩

theorem newton_err {o : SvdOps α} (ho : o.Exact) {opt : Bool} {thr : α} {lv : List (NLevel A α n)}
    {integrate : A → (Fin n → α) → A} (hlin : LinearLevels integrate lv) {I : S → Prop} {bmin : α}
    {ls : S → A → (Fin n → α) → S × LsOut A (Fin n → α)} (hls : StepsIn integrate I bmin ls)
    {q : A} (hq : ∃ v, Solves integrate lv q v) (dq : Fin n → α) {s : S} (hs : I s) (k : Nat) :
    nSqNorm opt lv (traj (newtonOps o false opt thr lv ls) q (dq, s) (k + 1)).1 ≤
      (1 - bmin) ^ 2 * nSqNorm opt lv (traj (newtonOps o false opt thr lv ls) q (dq, s) k).1 := by
  obtain ⟨-, -, b, h1, h2, h3⟩ := newton_traj (opt := opt) (thr := thr) ho hlin hls hq dq hs k
  rw [nSqNorm_scale opt lv _ _ b h3]
  refine mul_le_mul_of_nonneg_right ?_ (nSqNorm_nonneg _ _ _)
  exact pow_le_pow_left₀ (by linarith) (by linarith) 2

theorem newton_err_pow {o : SvdOps α} (ho : o.Exact) {opt : Bool} {thr : α} {lv : List (NLevel A α n)}
    {integrate : A → (Fin n → α) → A} (hlin : LinearLevels integrate lv) {I : S → Prop} {bmin : α}
    {ls : S → A → (Fin n → α) → S × LsOut A (Fin n → α)} (hls : StepsIn integrate I bmin ls)
    {q : A} (hq : ∃ v, Solves integrate lv q v) (dq : Fin n → α) {s : S} (hs : I s) (k : Nat) :
    nSqNorm opt lv (traj (newtonOps o false opt thr lv ls) q (dq, s) k).1 ≤
      ((1 - bmin) ^ 2) ^ k * nSqNorm opt lv q := by
  induction k with
  | zero => rw [pow_zero, one_mul]; exact le_refl _
  | succ k ih =>
    refine (newton_err ho hlin hls hq dq hs k).trans ?_
    rw [pow_succ' ((1 - bmin) ^ 2) k, mul_assoc]
    exact mul_le_mul_of_nonneg_left ih (sq_nonneg _)

end

/-! ## C91 -/

/-- C91. Linear constraints, possibly in several levels, that have a common solution, and a line search
whose step lengths are in [bmin, 1] with bmin > 0: the error is divided at each iteration by at least
1 / (1 - bmin)².  The solver returns `SUCCESS`, or the number of iterations is not sufficient for this rate, or
there is a solution at a distance of the configuration returned smaller than the smallest step accepted, and
then the status is `INFEASIBLE`.  `ERROR_INCREASED` is never returned. -/
theorem C91_converges [Field α] [LinearOrder α] [IsStrictOrderedRing α] {n : Nat} (o : SvdOps α) (ho : o.Exact)
    (opt : Bool) (thr dqMin : α) (ht : 0 ≤ thr) (lv : List (NLevel A α n))
    (integrate : A → (Fin n → α) → A) (hlin : LinearLevels integrate lv) (I : S → Prop) (bmin : α)
    (hb0 : 0 < bmin) (ls : S → A → (Fin n → α) → S × LsOut A (Fin n → α)) (hls : StepsIn integrate I bmin ls)
    (maxIter : Nat) (q : A) (hq : ∃ v, Solves integrate lv q v) (dq : Fin n → α) (s : S) (hs : I s) :
    let r := solve (newtonOps o false opt thr lv ls) thr dqMin maxIter n q (dq, s)
    nSqNorm opt lv r.arg ≤ ((1 - bmin) ^ 2) ^ r.iter * nSqNorm opt lv q ∧
    (r.status = some .success ∨
      (r.status = some .maxIterationReached ∧ thr < ((1 - bmin) ^ 2) ^ maxIter * nSqNorm opt lv q) ∨
      (r.status = some .infeasible ∧ ∃ v, Solves integrate lv r.arg v ∧ v ⬝ᵥ v < dqMin)) := by
  intro r
  obtain ⟨h1, h2, h3, h4, h5, h6, h7⟩ :=
    C29_statuses (newtonOps o false opt thr lv ls) thr dqMin maxIter n q (dq, s)
  have herr := newton_err_pow (opt := opt) (thr := thr) ho hlin hls hq dq hs
  have hr : r = solve (newtonOps o false opt thr lv ls) thr dqMin maxIter n q (dq, s) := rfl
  rw [← hr] at h1 h2 h3 h4 h5 h6 h7
  refine ⟨by rw [h1]; exact herr _, ?_⟩
  cases hst : r.status with
  | none => exact absurd hst h6
  | some st =>
    cases st with
    | success => exact Or.inl rfl
    | maxIterationReached =>
      obtain ⟨g1, g2, -⟩ := h3.1 hst
      refine Or.inr (Or.inl ⟨rfl, lt_of_lt_of_le g1 ?_⟩)
      have := herr r.iter
      rw [g2] at this ⊢
      exact this
    | errorIncreased =>
      exfalso
      obtain ⟨g1, g2, -, g3, -, -, g4⟩ := h4.1 hst
      have e1 := newton_err (opt := opt) (thr := thr) ho hlin hls hq dq hs (r.iter - 1)
      rw [show r.iter - 1 + 1 = r.iter by omega] at e1
      have e2 := lt_of_le_of_lt ht (h7 (r.iter - 1) (by omega)).1
      obtain ⟨-, -, b, hb, hb', -⟩ := newton_traj (opt := opt) (thr := thr) ho hlin hls hq dq hs 0
      have e3 : (1 - bmin) ^ 2 < 1 := by nlinarith
      have e4 := mul_lt_mul_of_pos_right e3 e2
      rw [one_mul] at e4
      exact absurd (g4.trans e1) (not_le.2 e4)
    | infeasible =>
      right; right
      refine ⟨rfl, ?_⟩
      obtain ⟨g1, g2⟩ := h5.1 hst
      obtain ⟨⟨v, hv⟩, -, -⟩ := newton_traj (opt := opt) (thr := thr) ho hlin hls hq dq hs r.iter
      rcases g2 with ⟨g2, g3⟩ | ⟨g2, g3, -⟩
      · exfalso
        rw [g3] at g1 hv
        have hz : ∀ l ∈ lv, l.err q = 0 := by
          intro l hl
          have e1 := hv l hl
          have e2 := (hlin l hl q v).1
          have e3 : l.J q *ᵥ v = 0 := by
            funext i
            subst g2
            simp [mulVec, dotProduct]
          have e4 : l.err (integrate q v) = 0 := e1
          rw [e4, e3, add_zero] at e2
          exact e2.symm
        have g1' : thr < nSqNorm opt lv q := g1
        rw [nSqNorm_zero opt lv q hz] at g1'
        exact absurd ht (not_le.2 g1')
      · have hd := newton_dir (thr := thr) ho hlin hv
          (traj (newtonOps o false opt thr lv ls) q (dq, s) r.iter).2.1
        exact ⟨_, by rw [h1]; exact hd, g3⟩

theorem foldl_max_le [LinearOrder α] {l : List α} {x y : α} : l.foldl max x ≤ y ↔ x ≤ y ∧ ∀ z ∈ l, z ≤ y := by
  induction l generalizing x with
  | nil => simp
  | cons a l ih =>
    rw [List.foldl_cons, ih, max_le_iff]
    simp only [List.mem_cons, forall_eq_or_imp]
    tauto

/-- C91. Meaning of `SUCCESS`, for any constraints and line search: the squared norm of the error of each constraint of
the mandatory levels is at most the threshold. -/
theorem C91_success [Field α] [LinearOrder α] [IsStrictOrderedRing α] {n : Nat} (o : SvdOps α)
    (byLevel opt : Bool) (thr dqMin : α) (ht : 0 ≤ thr) (lv : List (NLevel A α n))
    (ls : S → A → (Fin n → α) → S × LsOut A (Fin n → α)) (maxIter : Nat) (q : A) (dq : Fin n → α) (s : S) :
    let r := solve (newtonOps o byLevel opt thr lv ls) thr dqMin maxIter n q (dq, s)
    r.status = some .success ↔ ∀ l ∈ (if opt then lv.dropLast else lv), ∀ k : Fin l.nc,
      (∑ i, if l.blk i = k then l.err r.arg i ^ 2 else 0) ≤ thr := by
  intro r
  obtain ⟨h1, h2, -⟩ := C29_statuses (newtonOps o byLevel opt thr lv ls) thr dqMin maxIter n q (dq, s)
  have h1' : r.arg = (traj (newtonOps o byLevel opt thr lv ls) q (dq, s) r.iter).1 := h1
  refine h2.trans ?_
  show nSqNorm opt lv (traj (newtonOps o byLevel opt thr lv ls) q (dq, s) r.iter).1 ≤ thr ↔ _
  rw [← h1']
  unfold nSqNorm
  rw [foldl_max_le]
  constructor
  · rintro ⟨-, h⟩ l hl k
    have := h _ (List.mem_flatMap.2 ⟨l, hl, List.mem_map.2 ⟨k, List.mem_finRange k, rfl⟩⟩)
    simpa only [sq] using this
  · intro h
    refine ⟨ht, fun z hz => ?_⟩
    obtain ⟨l, hl, hz⟩ := List.mem_flatMap.1 hz
    obtain ⟨k, -, rfl⟩ := List.mem_map.1 hz
    simpa only [sq] using h l hl k

/-- C91. The line searches of the library meet the condition of `C91_converges`: constant steps with 1,
backtracking with the default parameters and the fixed sequence with 1/5, the line search based on the norm of the
error with its parameter alphaMin. -/
theorem C91_line_searches {n : Nat} (opt : Bool) (lv : List (NLevel A ℝ n)) (integrate : A → (Fin n → ℝ) → A)
    (thr alphaMin : ℝ) (h1 : alphaMin < 1) :
    StepsIn integrate (fun _ => True) 1 (lsC opt lv integrate) ∧
    StepsIn integrate (fun _ => True) (1 / 5) (lsB opt lv integrate) ∧
    StepsIn integrate (fun s => ∃ k : Nat, s = ⟨95 / 100 - 3 / 4 * (4 / 5) ^ k, 95 / 100, 4 / 5⟩) (1 / 5)
      (lsF opt lv integrate) ∧
    StepsIn integrate (fun s => ∃ a b, s = ErrNormBased.mk3 alphaMin a b) alphaMin (lsE opt lv integrate thr) := by
  refine ⟨fun s q u _ => ⟨trivial, 1, le_refl _, le_refl _, ?_⟩, fun s q u _ => ⟨trivial, ?_⟩, ?_, ?_⟩
  · rw [one_smul]; rfl
  · obtain ⟨out, g1, -, g2, g3⟩ := C32_backtracking (newtonEnv opt lv integrate)
      (localSlope (lv.map fun l => l.at q) u) (nSqNorm opt lv q) q u
    unfold lsB
    rw [g1]
    simp only [Option.getD_some]
    rcases g3 with ⟨-, -, k, -, g4, g5, -⟩ | ⟨-, g4, -⟩
    · exact ⟨_, g5.le, pow_le_one₀ (by norm_num) (by norm_num), by rw [g2, g4]; rfl⟩
    · exact ⟨1 / 5, le_refl _, by norm_num, by rw [g2, g4]; rfl⟩
  · rintro s q u ⟨k, rfl⟩
    have e1 : (0 : ℝ) < (4 / 5) ^ k := by positivity
    have e2 : ((4 : ℝ) / 5) ^ k ≤ 1 := pow_le_one₀ (by norm_num) (by norm_num)
    refine ⟨⟨k + 1, ?_⟩, 95 / 100 - 3 / 4 * (4 / 5) ^ k, by linarith, by linarith, rfl⟩
    simp only [lsF, FixedSeq.call, FixedSeq.mk.injEq, and_self, and_true]
    rw [pow_succ]
    ring
  · rintro s q u ⟨a, b, rfl⟩
    obtain ⟨al, g1, g2, g3, g4⟩ := C32_error_norm (newtonEnv opt lv integrate) alphaMin a b h1
      (nSqNorm opt lv q) thr q u
    exact ⟨⟨a, b, rfl⟩, al, g1.le, g2.le, by
      unfold lsE
      rw [g4, g3]; rfl⟩

/-- The initial state of the fixed sequence meets its invariant. -/
example : ∃ k : Nat, FixedSeq.init ℝ = ⟨95 / 100 - 3 / 4 * (4 / 5) ^ k, 95 / 100, 4 / 5⟩ :=
  ⟨0, by unfold FixedSeq.init; norm_num⟩

/-- C91. With constant steps linear constraints that have a common solution are solved in one iteration: the
error of every level is then zero. -/
theorem C91_constant [Field α] [LinearOrder α] [IsStrictOrderedRing α] {n : Nat} (o : SvdOps α) (ho : o.Exact)
    (opt : Bool) (thr dqMin : α) (ht : 0 ≤ thr) (lv : List (NLevel A α n))
    (integrate : A → (Fin n → α) → A) (hlin : LinearLevels integrate lv)
    (maxIter : Nat) (hm : maxIter ≠ 0) (q : A) (hq : ∃ v, Solves integrate lv q v) (dq : Fin n → α) :
    let r := solve (newtonOps o false opt thr lv (lsC opt lv integrate)) thr dqMin maxIter n q (dq, ())
    (r.status = some .success ∧ (r.iter = 0 ∧ r.arg = q ∨ r.iter = 1 ∧ ∀ l ∈ lv, l.err r.arg = 0)) ∨
      (r.status = some .infeasible ∧ r.iter = 0 ∧ r.arg = q ∧ ∃ v, Solves integrate lv q v ∧ v ⬝ᵥ v < dqMin) := by
  intro r
  have hls : StepsIn integrate (fun _ => True) (1 : α) (lsC opt lv integrate) := fun s q u _ =>
    ⟨trivial, 1, le_refl _, le_refl _, by rw [one_smul]; rfl⟩
  obtain ⟨h1, -, -, -, -, -, h7⟩ :=
    C29_statuses (newtonOps o false opt thr lv (lsC opt lv integrate)) thr dqMin maxIter n q (dq, ())
  have hr : r = solve (newtonOps o false opt thr lv (lsC opt lv integrate)) thr dqMin maxIter n q (dq, ()) := rfl
  rw [← hr] at h1 h7
  have hz : ∀ l ∈ lv, l.err (traj (newtonOps o false opt thr lv (lsC opt lv integrate)) q (dq, ()) 1).1 = 0 := by
    obtain ⟨-, -, b, hb1, hb2, hb⟩ := newton_traj (opt := opt) (thr := thr) ho hlin hls hq dq (s := ()) trivial 0
    intro l hl
    rw [hb l hl, le_antisymm hb2 hb1, sub_self, zero_smul]
  have hle : r.iter ≤ 1 := by
    by_contra hc
    have := (h7 1 (by omega)).1
    have e : nSqNorm opt lv (traj (newtonOps o false opt thr lv (lsC opt lv integrate)) q (dq, ()) 1).1 = 0 :=
      nSqNorm_zero opt lv _ hz
    have this' : thr < nSqNorm opt lv
      (traj (newtonOps o false opt thr lv (lsC opt lv integrate)) q (dq, ()) 1).1 := this
    rw [e] at this'
    exact absurd ht (not_le.2 this')
  have hcases : (r.iter = 0 ∧ r.arg = q) ∨ (r.iter = 1 ∧ ∀ l ∈ lv, l.err r.arg = 0) := by
    rcases Nat.le_one_iff_eq_zero_or_eq_one.1 hle with h | h
    · left; rw [h] at h1; exact ⟨h, h1⟩
    · right
      rw [h] at h1
      exact ⟨h, by rw [h1]; exact hz⟩
  obtain ⟨-, g⟩ := C91_converges o ho opt thr dqMin ht lv integrate hlin (fun _ => True) 1 one_pos _ hls maxIter q
    hq dq () trivial
  rcases g with g | ⟨g1, g2⟩ | ⟨g1, v, g2, g3⟩
  · exact Or.inl ⟨g, hcases⟩
  · rw [sub_self, zero_pow two_ne_zero, zero_pow hm, zero_mul] at g2
    exact absurd ht (not_le.2 g2)
  · right
    have h5 := (C29_statuses (newtonOps o false opt thr lv (lsC opt lv integrate)) thr dqMin maxIter n q
      (dq, ())).2.2.2.2.1.1 g1
    rcases hcases with ⟨h, h'⟩ | ⟨h, h'⟩
    · refine ⟨g1, h, h', v, ?_, g3⟩
      have g2' : Solves integrate lv r.arg v := g2
      rwa [h'] at g2'
    · exfalso
      have e := nSqNorm_zero opt lv r.arg h'
      have h5' : thr < nSqNorm opt lv (traj (newtonOps o false opt thr lv (lsC opt lv integrate)) q (dq, ())
        r.iter).1 := h5.1
      rw [← h1, e] at h5'
      exact absurd ht (not_le.2 h5')

/-- C91. With one level and constant steps: failure happens exactly if the initial error exceeds the threshold
although a solution is closer than the smallest step accepted. -/
theorem C91_constant_iff [Field α] [LinearOrder α] [IsStrictOrderedRing α] {n : Nat} (o : SvdOps α)
    (ho : o.Exact) (opt : Bool) (thr dqMin : α) (ht : 0 ≤ thr) (l : NLevel A α n)
    (integrate : A → (Fin n → α) → A) (hlin : LinearLevels integrate [l])
    (maxIter : Nat) (hm : maxIter ≠ 0) (q : A) (hq : ∃ v, Solves integrate [l] q v) (dq : Fin n → α) :
    (solve (newtonOps o false opt thr [l] (lsC opt [l] integrate)) thr dqMin maxIter n q (dq, ())).status =
        some .success ↔
      nSqNorm opt [l] q ≤ thr ∨ ∀ v, Solves integrate [l] q v → dqMin ≤ v ⬝ᵥ v := by
  have hc := C91_constant o ho opt thr dqMin ht [l] integrate hlin maxIter hm q hq dq
  set r := solve (newtonOps o false opt thr [l] (lsC opt [l] integrate)) thr dqMin maxIter n q (dq, ()) with hr
  obtain ⟨h1, h2, -, -, h5, -, h7⟩ :=
    C29_statuses (newtonOps o false opt thr [l] (lsC opt [l] integrate)) thr dqMin maxIter n q (dq, ())
  rw [← hr] at h1 h2 h5 h7
  constructor
  · intro h
    by_contra hn
    push Not at hn
    obtain ⟨hn1, v, hv, hn2⟩ := hn
    rcases hc with ⟨-, ⟨h3, h4⟩ | ⟨h3, -⟩⟩ | ⟨h3, -⟩
    · have := h2.1 h
      rw [h3] at this
      exact absurd this (not_le.2 hn1)
    · have h8 : dqMin ≤ o.solve (l.J q) (-l.err q) ⬝ᵥ o.solve (l.J q) (-l.err q) := (h7 0 (by omega)).2
      have hd : Solves integrate [l] q (o.solve (l.J q) (-l.err q)) :=
        newton_dir (thr := thr) ho hlin hv dq
      obtain ⟨w, hw⟩ := ho.range (l.J q) (-l.err q)
      set d := o.solve (l.J q) (-l.err q) with hdd
      have e1 := (hlin l (by simp) q v).1
      have e2 := (hlin l (by simp) q d).1
      rw [hv l (by simp)] at e1
      rw [hd l (by simp)] at e2
      have e3 : l.J q *ᵥ (v - d) = 0 := by
        rw [mulVec_sub, sub_eq_zero]
        exact add_left_cancel (e1.symm.trans e2)
      have e4 : d ⬝ᵥ (v - d) = 0 := by
        rw [hw, dotProduct_comm, dotProduct_mulVec, ← mulVec_transpose, transpose_transpose]
        rw [hw] at e3
        rw [e3, zero_dotProduct]
      have e5 : v ⬝ᵥ v = d ⬝ᵥ d + (v - d) ⬝ᵥ (v - d) := by
        have : v = d + (v - d) := by abel
        rw [show v ⬝ᵥ v = (d + (v - d)) ⬝ᵥ (d + (v - d)) by rw [← this]]
        rw [add_dotProduct, dotProduct_add, dotProduct_add, e4, dotProduct_comm (v - d) d, e4]
        ring
      have := dot_self_nonneg (v - d)
      linarith
    · rw [h3] at h; cases h
  · intro h
    rcases hc with ⟨h3, -⟩ | ⟨h3, h4, h5', v, hv, h6⟩
    · exact h3
    · rcases h with h | h
      · have := (h5.1 h3).1
        rw [h4] at this
        exact absurd h (not_le.2 this)
      · exact absurd h6 (not_lt.2 (h v hv))

/-- The constraint `10⁷ x = 1`. -/
def stiffL : NLevel (Fin 1 → ℚ) ℚ 1 where
  m := 1
  J _ := !![10 ^ 7]
  err q := ![10 ^ 7 * q 0 - 1]
  nc := 1
  blk := id

theorem stiffL_linear : LinearLevels (· + ·) [stiffL] := by
  intro l hl q v
  obtain rfl := List.mem_singleton.1 hl
  refine ⟨?_, rfl⟩
  show (![10 ^ 7 * (q + v) 0 - 1] : Fin 1 → ℚ) = ![10 ^ 7 * q 0 - 1] + !![10 ^ 7] *ᵥ v
  funext i
  fin_cases i
  show 10 ^ 7 * (q 0 + v 0) - 1 = 10 ^ 7 * q 0 - 1 + (!![10 ^ 7] *ᵥ v : Fin 1 → ℚ) 0
  have : (!![10 ^ 7] *ᵥ v : Fin 1 → ℚ) 0 = 10 ^ 7 * v 0 := by simp [mulVec, dotProduct]
  rw [this]
  ring

theorem stiffL_solves : Solves (· + ·) [stiffL] 0 ![1 / 10 ^ 7] := by
  intro l hl
  obtain rfl := List.mem_singleton.1 hl
  show (![10 ^ 7 * (0 + ![1 / 10 ^ 7] : Fin 1 → ℚ) 0 - 1] : Fin 1 → ℚ) = 0
  funext i
  fin_cases i
  simp

/-- C91. `SUCCESS` is not always returned: `INFEASIBLE` is returned for the linear constraint `10⁷ x = 1` at 0,
for every threshold smaller than 1, with the smallest step of the code, since the solution is too close. -/
theorem C91_infeasible_refuted (o : SvdOps ℚ) (ho : o.Exact) (thr : ℚ) (h0 : 0 ≤ thr) (h1 : thr < 1)
    (maxIter : Nat) (hm : maxIter ≠ 0) (dq : Fin 1 → ℚ) :
    (∃ v, Solves (· + ·) [stiffL] 0 v) ∧
    (solve (newtonOps o false false thr [stiffL] (lsC false [stiffL] (· + ·))) thr (1 / 10 ^ 12) maxIter 1 0
      (dq, ())).status = some .infeasible := by
  refine ⟨⟨_, stiffL_solves⟩, ?_⟩
  have h := C91_constant o ho false thr (1 / 10 ^ 12) h0 [stiffL] (· + ·) stiffL_linear maxIter hm 0
    ⟨_, stiffL_solves⟩ dq
  have hi := C91_constant_iff o ho false thr (1 / 10 ^ 12) h0 stiffL (· + ·) stiffL_linear maxIter hm 0
    ⟨_, stiffL_solves⟩ dq
  rcases h with ⟨h, -⟩ | ⟨h, -⟩
  · exfalso
    rcases hi.1 h with h2 | h2
    · have e : nSqNorm false [stiffL] 0 = 1 := by
        have : stiffL.norms 0 = [stiffL.err 0 ⬝ᵥ stiffL.err 0] := norms_one stiffL rfl 0
        simp only [nSqNorm, Bool.false_eq_true, if_false, List.flatMap_cons, List.flatMap_nil, List.append_nil,
          this, List.foldl_cons, List.foldl_nil]
        have e2 : stiffL.err 0 ⬝ᵥ stiffL.err 0 = 1 := by
          show (![10 ^ 7 * (0 : Fin 1 → ℚ) 0 - 1] : Fin 1 → ℚ) ⬝ᵥ ![10 ^ 7 * (0 : Fin 1 → ℚ) 0 - 1] = 1
          simp [dotProduct]
        rw [e2]
        norm_num
      rw [e] at h2
      exact absurd h1 (not_lt.2 h2)
    · have := h2 _ stiffL_solves
      simp [dotProduct] at this
      norm_num at this
  · exact h

/-! ### Level by level -/

/-- First level: `x = 1`. -/
def lblL : NLevel (Fin 2 → ℚ) ℚ 2 where
  m := 1
  J _ := !![1, 0]
  err q := ![q 0 - 1]
  nc := 1
  blk := id

/-- Second level: `y = 100 x`. -/
def lblL' : NLevel (Fin 2 → ℚ) ℚ 2 where
  m := 1
  J _ := !![-100, 1]
  err q := ![q 1 - 100 * q 0]
  nc := 1
  blk := id

theorem lbl_linear : LinearLevels (· + ·) [lblL, lblL'] := by
  intro l hl q v
  rcases List.mem_cons.1 hl with rfl | hl
  · refine ⟨?_, rfl⟩
    show (![(q + v) 0 - 1] : Fin 1 → ℚ) = ![q 0 - 1] + !![1, 0] *ᵥ v
    funext i
    fin_cases i
    simp [dotProduct]
    ring
  · obtain rfl := List.mem_singleton.1 hl
    refine ⟨?_, rfl⟩
    show (![(q + v) 1 - 100 * (q + v) 0] : Fin 1 → ℚ) = ![q 1 - 100 * q 0] + !![-100, 1] *ᵥ v
    funext i
    fin_cases i
    simp [dotProduct]
    ring

theorem lbl_solves : Solves (· + ·) [lblL, lblL'] 0 ![1, 100] := by
  intro l hl
  rcases List.mem_cons.1 hl with rfl | hl
  · show (![(0 + ![1, 100] : Fin 2 → ℚ) 0 - 1] : Fin 1 → ℚ) = 0
    funext i
    fin_cases i
    simp
  · obtain rfl := List.mem_singleton.1 hl
    show (![(0 + ![1, 100] : Fin 2 → ℚ) 1 - 100 * (0 + ![1, 100] : Fin 2 → ℚ) 0] : Fin 1 → ℚ) = 0
    funext i
    fin_cases i
    simp

theorem lbl_norm (x : ℚ) : nSqNorm false [lblL, lblL'] ![x, 0] = max ((x - 1) * (x - 1)) (100 * x * (100 * x)) := by
  have h1 : lblL.norms ![x, 0] = [lblL.err ![x, 0] ⬝ᵥ lblL.err ![x, 0]] := norms_one lblL rfl _
  have h2 : lblL'.norms ![x, 0] = [lblL'.err ![x, 0] ⬝ᵥ lblL'.err ![x, 0]] := norms_one lblL' rfl _
  have e1 : lblL.err ![x, 0] ⬝ᵥ lblL.err ![x, 0] = (x - 1) * (x - 1) := by
    show (![![x, 0] 0 - 1] : Fin 1 → ℚ) ⬝ᵥ ![![x, 0] 0 - 1] = _
    simp [dotProduct]
  have e2 : lblL'.err ![x, 0] ⬝ᵥ lblL'.err ![x, 0] = 100 * x * (100 * x) := by
    show (![![x, 0] 1 - 100 * ![x, 0] 0] : Fin 1 → ℚ) ⬝ᵥ ![![x, 0] 1 - 100 * ![x, 0] 0] = _
    simp [dotProduct]
  simp only [nSqNorm, Bool.false_eq_true, if_false, List.flatMap_cons, List.flatMap_nil, h1, h2, e1, e2,
    List.cons_append, List.nil_append, List.foldl_cons, List.foldl_nil]
  rw [max_eq_right (mul_self_nonneg _)]

theorem lbl_descend (o : SvdOps ℚ) (ho : o.Exact) (thr x : ℚ) (h : thr < (1 - x) * (1 - x)) (dq : Fin 2 → ℚ) :
    descend o true thr ([lblL, lblL'].map fun l => l.at ![x, 0]) dq = some ![1 - x, 0] := by
  have hs : o.solve (!![1, 0] : Matrix (Fin 1) (Fin 2) ℚ) (-![x - 1]) = ![1 - x, 0] := by
    obtain ⟨w, hw⟩ := ho.range (!![1, 0] : Matrix (Fin 1) (Fin 2) ℚ) (-![x - 1])
    have hl := ho.ls (!![1, 0] : Matrix (Fin 1) (Fin 2) ℚ) (-![x - 1]) ![1 - x, 0]
    set d := o.solve (!![1, 0] : Matrix (Fin 1) (Fin 2) ℚ) (-![x - 1]) with hd
    have e1 : d 1 = 0 := by rw [hw]; simp [mulVec, dotProduct]
    have e2 : (d 0 - (1 - x)) * (d 0 - (1 - x)) ≤ 0 := by
      simp [dotProduct] at hl
      nlinarith
    have e3 := mul_self_eq_zero.1 (le_antisymm e2 (mul_self_nonneg _))
    funext i
    fin_cases i
    · show d 0 = 1 - x
      linarith
    · exact e1
  have he : (-![x - 1] : Fin 1 → ℚ) ⬝ᵥ (-![x - 1]) > thr := by
    have : (-![x - 1] : Fin 1 → ℚ) ⬝ᵥ (-![x - 1]) = (1 - x) * (1 - x) := by
      simp [dotProduct]
    rw [this]
    exact h
  show some (descendLoop o true thr true [⟨1, !![1, 0], ![x - 1]⟩, lblL'.at ![x, 0]] none dq) = _
  unfold descendLoop
  simp only [Nat.one_ne_zero, if_false, if_true, Bool.true_and, decide_eq_true he, hs]

theorem lbl_step (o : SvdOps ℚ) (ho : o.Exact) (thr x a : ℚ) (h : thr < (1 - x) * (1 - x)) (dq : Fin 2 → ℚ) :
    let O := newtonOps o true false thr [lblL, lblL'] (lsF false [lblL, lblL'] (· + ·))
    (O.dir ![x, 0] (dq, ⟨a, 19 / 20, 4 / 5⟩)).2 = (1 - x) * (1 - x) ∧
    O.search ![x, 0] (O.dir ![x, 0] (dq, ⟨a, 19 / 20, 4 / 5⟩)).1 =
      (![x + a * (1 - x), 0], (![1 - x, 0], ⟨19 / 20 - 4 / 5 * (19 / 20 - a), 19 / 20, 4 / 5⟩)) := by
  intro O
  have hd : O.dir ![x, 0] (dq, ⟨a, 19 / 20, 4 / 5⟩) =
      ((![1 - x, 0], ⟨a, 19 / 20, 4 / 5⟩), ![1 - x, 0] ⬝ᵥ ![1 - x, 0]) := by
    show (((descend o true thr _ dq).getD 0, _), _) = _
    simp only [lbl_descend o ho thr x h, Option.getD_some]
  rw [hd]
  refine ⟨by simp [dotProduct], ?_⟩
  show (![x, 0] + a • ![1 - x, 0], (![1 - x, 0], _)) = _
  refine Prod.ext ?_ rfl
  funext i
  fin_cases i
  · simp
  · simp

/-- C91 fails with `solveLevelByLevel`: for the linear constraints `x = 1`, then `y = 100 x`, from 0, with the
fixed sequence of steps, the solver returns `ERROR_INCREASED` after four iterations, whatever the exact
decomposition and the number of iterations allowed above four. -/
theorem C91_level_by_level_refuted (o : SvdOps ℚ) (ho : o.Exact) (thr : ℚ) (h1 : thr ≤ 1 / 100)
    (maxIter : Nat) (hm : 5 ≤ maxIter) (dq : Fin 2 → ℚ) :
    LinearLevels (· + ·) [lblL, lblL'] ∧ (∃ v, Solves (· + ·) [lblL, lblL'] 0 v) ∧
    (solve (newtonOps o true false thr [lblL, lblL'] (lsF false [lblL, lblL'] (· + ·))) thr (1 / 10 ^ 12)
      maxIter 2 ![0, 0] (dq, FixedSeq.init ℚ)).status = some .errorIncreased := by
  refine ⟨lbl_linear, ⟨_, lbl_solves⟩, ?_⟩
  set O := newtonOps o true false thr [lblL, lblL'] (lsF false [lblL, lblL'] (· + ·)) with hO
  have t0 : traj O ![0, 0] (dq, FixedSeq.init ℚ) 0 = (![0, 0], (dq, ⟨1 / 5, 19 / 20, 4 / 5⟩)) := by
    show (_, (_, FixedSeq.init ℚ)) = _
    unfold FixedSeq.init
    norm_num
  have step : ∀ k (x a : ℚ) (d : Fin 2 → ℚ), thr < (1 - x) * (1 - x) →
      traj O ![0, 0] (dq, FixedSeq.init ℚ) k = (![x, 0], (d, ⟨a, 19 / 20, 4 / 5⟩)) →
      trajStep O ![0, 0] (dq, FixedSeq.init ℚ) k = (1 - x) * (1 - x) ∧
      ∃ d', traj O ![0, 0] (dq, FixedSeq.init ℚ) (k + 1) =
        (![x + a * (1 - x), 0], (d', ⟨19 / 20 - 4 / 5 * (19 / 20 - a), 19 / 20, 4 / 5⟩)) := by
    intro k x a d hx hk
    obtain ⟨g1, g2⟩ := lbl_step o ho thr x a hx d
    refine ⟨?_, ![1 - x, 0], ?_⟩
    · unfold trajStep
      rw [hk]
      exact g1
    · show O.search _ (O.dir _ _).1 = _
      rw [hk]
      exact g2
  obtain ⟨s0, d1, t1⟩ := step 0 0 (1 / 5) dq (by norm_num; linarith) t0
  norm_num at t1
  obtain ⟨s1, d2, t2⟩ := step 1 (1 / 5) (7 / 20) d1 (by norm_num; linarith) t1
  norm_num at t2
  obtain ⟨s2, d3, t3⟩ := step 2 (12 / 25) (47 / 100) d2 (by norm_num; linarith) t2
  norm_num at t3
  obtain ⟨s3, d4, t4⟩ := step 3 (1811 / 2500) (283 / 500) d3 (by norm_num; linarith) t3
  norm_num at t4
  have hx4 : thr < (1 - 1100487 / 1250000) * (1 - 1100487 / 1250000) := by norm_num; linarith
  obtain ⟨s4, -⟩ := step 4 (1100487 / 1250000) _ d4 hx4 t4
  have E : ∀ k (x : ℚ) m, traj O ![0, 0] (dq, FixedSeq.init ℚ) k = (![x, 0], m) →
      trajErr O ![0, 0] (dq, FixedSeq.init ℚ) k = max ((x - 1) * (x - 1)) (100 * x * (100 * x)) := by
    intro k x m hk
    unfold trajErr
    rw [hk]
    exact lbl_norm x
  have e0 := E _ _ _ t0
  have e1 := E _ _ _ t1
  have e2 := E _ _ _ t2
  have e3 := E _ _ _ t3
  have e4 := E _ _ _ t4
  norm_num at e0 e1 e2 e3 e4 s0 s1 s2 s3 s4
  have sp := solve_spec O thr (1 / 10 ^ 12) maxIter 2 ![0, 0] (dq, FixedSeq.init ℚ) (by norm_num)
  generalize solve O thr (1 / 10 ^ 12) maxIter 2 ![0, 0] (dq, FixedSeq.init ℚ) = r at sp ⊢
  have st1 : stalled (trajErr O ![0, 0] (dq, FixedSeq.init ℚ)) 1 = 0 := rfl
  have st2 : stalled (trajErr O ![0, 0] (dq, FixedSeq.init ℚ)) 2 = 1 := by
    show (if _ then 0 else stalled _ 1 + 1) = 1
    rw [e1, e2, st1, if_neg (by norm_num)]
  have st3 : stalled (trajErr O ![0, 0] (dq, FixedSeq.init ℚ)) 3 = 2 := by
    show (if _ then 0 else stalled _ 2 + 1) = 2
    rw [e2, e3, st2, if_neg (by norm_num)]
  have st4 : stalled (trajErr O ![0, 0] (dq, FixedSeq.init ℚ)) 4 = 3 := by
    show (if _ then 0 else stalled _ 3 + 1) = 3
    rw [e3, e4, st3, if_neg (by norm_num)]
  have hle : r.iter ≤ 4 := by
    by_contra hc
    have := (sp.before 4 (by omega)).2.2
    omega
  have hcase : r.iter = 0 ∨ r.iter = 1 ∨ r.iter = 2 ∨ r.iter = 3 ∨ r.iter = 4 := by omega
  have hthr : thr < trajErr O ![0, 0] (dq, FixedSeq.init ℚ) r.iter := by
    rcases hcase with h | h | h | h | h <;> rw [h]
    · rw [e0]; linarith
    · rw [e1]; linarith
    · rw [e2]; linarith
    · rw [e3]; linarith
    · rw [e4]; linarith
  have hst : ¬ trajStep O ![0, 0] (dq, FixedSeq.init ℚ) r.iter < 1 / 10 ^ 12 := by
    rcases hcase with h | h | h | h | h <;> rw [h]
    · rw [s0]; norm_num
    · rw [s1]; norm_num
    · rw [s2]; norm_num
    · rw [s3]; norm_num
    · rw [s4]; norm_num
  cases hs : r.status with
  | none => exact absurd hs sp.defined
  | some st =>
    cases st with
    | success => exact absurd (sp.success.1 hs) (not_le.2 hthr)
    | maxIterationReached => have := (sp.maxIt.1 hs).2; omega
    | errorIncreased => rfl
    | infeasible => exact absurd (sp.infeasible.1 hs).2.2.2 hst

/-- `C91_converges` applies to the two levels `x = 1` and `y = 100 x`, without `solveLevelByLevel`. -/
example : LinearLevels (· + ·) [lblL, lblL'] ∧ ∃ v, Solves (· + ·) [lblL, lblL'] 0 v :=
  ⟨lbl_linear, _, lbl_solves⟩

end Hpp
