import Verif.Solve.BoundsProps
import Verif.HI.Props
import Verif.BySub.Props
import Verif.Segments.Props

/-!
# Free variables: C118

Sources: `/repo/include/hpp/constraints/solver/hierarchical-iterative.hh`, lines 377-403 (`freeVariables`);
`/repo/src/solver/hierarchical-iterative.cc`, lines 364-407 (`update`), 712-719 (`integrate`), 744-828
(`computeDescentDirection`, `expandDqSmall`); `/repo/include/hpp/constraints/solver/impl/hierarchical-iterative.hh`,
lines 39-181.
-/

namespace Hpp

variable {α κ S M A : Type}

/-- `HierarchicalIterative::integrate` (hierarchical-iterative.cc:712-719) for the whole velocity vector: `plus` is the
integration in the configuration space, `sat` is `saturate_->saturate`. -/
def integrateWith (plus : (Nat → α) → (Nat → α) → Nat → α) (sat : (Nat → α) → SatState α) (q v : Nat → α) : Nat → α :=
  (sat (plus q v)).qSat

/-- The steps of `solve` with the whole vector `dq_` in memory.  `small` is the outcome of `computeSaturation` and
`computeDescentDirection` (hierarchical-iterative.cc:744-823): `dqSmall_`, or `none` if there is no level, in which case
`dq_` is set to zero (line 748); `expandDqSmall` (lines 825-828) writes the free variables only.  The line search modifies
the step in place. -/
def freeOps [Zero α] {n : Nat} (norm : (Nat → α) → α) (free : Fin n → Nat)
    (small : (Nat → α) → S → Option (Fin n → α) × S) (sq : (Nat → α) → α)
    (ls : S → (Nat → α) → (Nat → α) → S × LsOut (Nat → α) (Nat → α)) :
    Ops (Nat → α) ((Nat → α) × S) α where
  norm := norm
  dir q m :=
    let r := small q m.2
    let dq := match r.1 with
      | none => fun _ => 0
      | some v => expand free v m.1
    ((dq, r.2), sq dq)
  search q m :=
    let r := ls m.2 q m.1
    (r.2.arg, (r.2.step, r.1))

/-- Specification: a line search integrates a multiple of the step, and leaves that multiple in the step. -/
def Scales [Mul α] (integrate : (Nat → α) → (Nat → α) → Nat → α)
    (ls : S → (Nat → α) → (Nat → α) → S × LsOut (Nat → α) (Nat → α)) : Prop :=
  ∀ s q u, ∃ t : α, (ls s q u).2.step = (fun k => t * u k) ∧
    (ls s q u).2.arg = integrate q (ls s q u).2.step

/-- Specification: the configuration coordinate `i` depends on the velocity coordinates `vel i` only, and does not move if they
are zero. -/
def PlusLocal [Zero α] (plus : (Nat → α) → (Nat → α) → Nat → α) (vel : Nat → Nat → Prop) : Prop :=
  ∀ q v i, (∀ k, vel i k → v k = 0) → plus q v i = q i

/-! ## C118 -/

/-- C118. `freeVariables(intervals)`: the variables that are free are those of the intervals, in increasing
order, whatever the order and the overlaps of the intervals, and their number is the number of distinct
indices. -/
theorem C118_intervals (s : HI α κ) (l : Segs) :
    (∀ i, i ∈ indices (s.setFree l).free.segs ↔ ∃ g ∈ l, g.first ≤ i ∧ i < g.first + g.len) ∧
    (indices (s.setFree l).free.segs).Pairwise (· < ·) ∧
    (s.setFree l).free.nb = (indices (s.setFree l).free.segs).length := by
  have hsegs : ∀ (b : Blocks), (l.foldl (fun (b : Blocks) (i : Seg) => b.add i.first i.len) b).segs = b.segs ++ l := by
    induction l with
    | nil => simp
    | cons g l ih => intro b; rw [List.foldl_cons, ih]; simp [Blocks.add]
  have e1 : (s.setFree l).free.segs = shrink (sort l) := by
    show (Blocks.update true true true _).segs = _
    simp only [Blocks.update, if_true, hsegs, Blocks.empty, List.nil_append]
  have e2 : (s.setFree l).free.nb = cardinal (s.setFree l).free.segs := rfl
  obtain ⟨h1, h2⟩ := C01_normalise l
  rw [e2, e1]
  refine ⟨fun i => ?_, h1.disjoint.indices_sorted, cardinal_eq_length _⟩
  rw [mem_indices, h2]
  exact Iff.rfl

/-- C118. Two lists of intervals with the same indices give the same free variables. -/
theorem C118_order (s : HI α κ) (l l' : Segs)
    (h : ∀ i, (∃ g ∈ l, g.first ≤ i ∧ i < g.first + g.len) ↔ ∃ g ∈ l', g.first ≤ i ∧ i < g.first + g.len) :
    indices (s.setFree l).free.segs = indices (s.setFree l').free.segs ∧
    (s.setFree l).free.nb = (s.setFree l').free.nb := by
  obtain ⟨a1, a2, a3⟩ := C118_intervals s l
  obtain ⟨b1, b2, b3⟩ := C118_intervals s l'
  have : indices (s.setFree l).free.segs = indices (s.setFree l').free.segs := by
    refine List.Perm.eq_of_pairwise (le := (· < ·)) (fun _ _ _ _ h1 h2 => absurd h1 (lt_asymm h2)) a2 b2 ?_
    rw [List.perm_ext_iff_of_nodup (a2.imp ne_of_lt) (b2.imp ne_of_lt)]
    intro i
    rw [a1, b1, h]
  exact ⟨this, by rw [a3, b3, this]⟩

/-- C118. `saturation::Base`, and lists of bounds that do not concern a coordinate, do not change it; with
consistent bounds a coordinate within its bounds is not changed. -/
theorem C118_saturation [LinearOrder α] (entries : List (SatEntry α)) (h : SatEntriesOk entries) (q : Nat → α) (i : Nat)
    (hb : ∀ e ∈ entries, e.iq = i → e.lb ≤ q i ∧ q i ≤ e.ub) :
    (satBase q).qSat i = q i ∧ (satLoopInPlace entries q fun _ => 0).qSat i = q i := by
  refine ⟨rfl, ?_⟩
  rw [(C31_idempotent entries h q (fun _ => 0) fun _ => 0).1]
  obtain ⟨h1, h2, -⟩ := C31_within_bounds entries h q q fun _ => 0
  by_cases hi : ∃ e ∈ entries, e.iq = i
  · obtain ⟨e, he, rfl⟩ := hi
    exact (h1 e he).2.2.1 (hb e he rfl).1 (hb e he rfl).2
  · exact h2 i fun e he hne => hi ⟨e, he, hne⟩

/-- C118. The four line searches integrate a multiple of the step. -/
theorem C118_line_searches (integrate : (Nat → ℝ) → (Nat → ℝ) → Nat → ℝ) (err : (Nat → ℝ) → ℝ)
    (slope : (Nat → ℝ) → (Nat → ℝ) → ℝ) (thr : ℝ) :
    let env : LsEnv (Nat → ℝ) (Nat → ℝ) ℝ := ⟨integrate, fun t u k => t * u k, err⟩
    Scales integrate (fun (s : Unit) q u => (s, lsConstant env q u)) ∧
    (∃ ls : Unit → (Nat → ℝ) → (Nat → ℝ) → Unit × LsOut (Nat → ℝ) (Nat → ℝ), Scales integrate ls ∧
      ∀ q u, backtracking env (.default ℝ) 5 (slope q u) (err q) q u = some (ls () q u).2) ∧
    Scales integrate (fun (s : FixedSeq ℝ) q u => s.call env q u) ∧
    Scales integrate (fun (s : ErrNormBased) q u => (s, s.call env (err q) thr q u)) := by
  intro env
  refine ⟨fun s q u => ⟨1, by simp [lsConstant], rfl⟩, ?_, fun s q u => ⟨s.alpha, rfl, rfl⟩,
    fun s q u => ⟨_, rfl, rfl⟩⟩
  refine ⟨fun s q u => (s, (backtracking env (.default ℝ) 5 (slope q u) (err q) q u).getD ⟨q, u, true, 0⟩), ?_, ?_⟩
  · intro s q u
    obtain ⟨out, g1, -, g2, g3⟩ := C32_backtracking env (slope q u) (err q) q u
    simp only [g1, Option.getD_some]
    rcases g3 with ⟨-, -, k, -, g4, -⟩ | ⟨-, g4, -⟩
    · exact ⟨_, g4, g2⟩
    · exact ⟨_, g4, g2⟩
  · intro q u
    obtain ⟨out, g1, -⟩ := C32_backtracking env (slope q u) (err q) q u
    simp only [g1, Option.getD_some]

/-- C118. Variables that are not free are left unchanged by `HierarchicalIterative::solve`: whatever the constraints, the
decompositions and the line search, provided that they are not out of bounds at the start (`C118_saturation` gives
`hsat`).  `dq_` is zero after `update`.  Missing: variables out of their bounds, see
`C118_out_of_bounds_refuted`. -/
theorem C118_unchanged_partial [Field α] [LinearOrder α] {n : Nat} (plus : (Nat → α) → (Nat → α) → Nat → α)
    (vel : Nat → Nat → Prop) (hplus : PlusLocal plus vel) (sat : (Nat → α) → SatState α) (free : Fin n → Nat)
    (norm sq : (Nat → α) → α) (small : (Nat → α) → S → Option (Fin n → α) × S)
    (ls : S → (Nat → α) → (Nat → α) → S × LsOut (Nat → α) (Nat → α)) (hls : Scales (integrateWith plus sat) ls)
    (thr dqMin : α) (maxIter : Nat) (q : Nat → α) (s : S) (i : Nat) (hi : ∀ k, vel i k → ∀ j, free j ≠ k)
    (hsat : ∀ q' : Nat → α, q' i = q i → (sat q').qSat i = q' i) :
    (solve (freeOps norm free small sq ls) thr dqMin maxIter n q (fun _ => 0, s)).arg i = q i := by
  set o := freeOps norm free small sq ls with ho
  obtain ⟨h1, -⟩ := C29_statuses o thr dqMin maxIter n q (fun _ => 0, s)
  rw [h1]
  have key : ∀ k, (traj o q (fun _ => 0, s) k).1 i = q i ∧
      ∀ c, (∀ j, free j ≠ c) → (traj o q (fun _ => 0, s) k).2.1 c = 0 := by
    intro k
    induction k with
    | zero => exact ⟨rfl, fun _ _ => rfl⟩
    | succ k ih =>
      have e : traj o q (fun _ => 0, s) (k + 1) = o.search (traj o q (fun _ => 0, s) k).1
        (o.dir (traj o q (fun _ => 0, s) k).1 (traj o q (fun _ => 0, s) k).2).1 := rfl
      rw [e]
      generalize traj o q (fun _ => 0, s) k = p at ih
      obtain ⟨i1, i2⟩ := ih
      have hdq : ∀ c, (∀ j, free j ≠ c) → (o.dir p.1 p.2).1.1 c = 0 := by
        intro c hc
        show (match (small p.1 p.2.2).1 with
          | none => fun _ => 0
          | some v => expand free v p.2.1 : Nat → α) c = 0
        cases (small p.1 p.2.2).1 with
        | none => rfl
        | some v => exact (expand_notMem free v p.2.1 c hc).trans (i2 c hc)
      generalize (o.dir p.1 p.2).1 = m at hdq
      obtain ⟨t, t1, t2⟩ := hls m.2 p.1 m.1
      have hst : ∀ c, (∀ j, free j ≠ c) → (ls m.2 p.1 m.1).2.step c = 0 := by
        intro c hc
        rw [t1]
        show t * m.1 c = 0
        rw [hdq c hc, mul_zero]
      refine ⟨?_, hst⟩
      show (ls m.2 p.1 m.1).2.arg i = q i
      rw [t2]
      have hpl := hplus p.1 (ls m.2 p.1 m.1).2.step i fun k hk => hst k (hi k hk)
      unfold integrateWith
      rw [hsat _ (hpl.trans i1), hpl, i1]
  exact (key _).1

/-- C118. Same for `BySubstitution::solve`, with and without optimisation, for variables that are neither free nor
outputs of explicit constraints: these are the only ones that the explicit constraints may change. -/
theorem C118_by_substitution_partial [Field α] [LinearOrder α] {n : Nat} (plus : (Nat → α) → (Nat → α) → Nat → α)
    (vel : Nat → Nat → Prop) (hplus : PlusLocal plus vel) (sat : (Nat → α) → SatState α) (free : Fin n → Nat)
    (o : BsOps (Nat → α) M α) (out : Nat → Prop) (hex : ∀ q i, ¬ out i → (o.expl q).1 i = q i)
    (hse : ∀ q m, ∃ v : Nat → α, (∀ c, (∀ j, free j ≠ c) → v c = 0) ∧
      ∀ i, ¬ out i → (o.search q m).1 i = integrateWith plus sat q v i)
    (thr dqMin : α) (maxIter reducedDim : Nat) (w l : Bool) (q : Nat → α) (m : M) (i : Nat)
    (hi : ∀ k, vel i k → ∀ j, free j ≠ k) (ho : ¬ out i)
    (hsat : ∀ q' : Nat → α, q' i = q i → (sat q').qSat i = q' i) :
    (bsSolve o thr dqMin maxIter reducedDim w l q m).arg i = q i := by
  let P : (Nat → α) → Prop := fun a => a i = q i
  have hP : ∀ a, P a → P (o.expl a).1 := fun a ha => (hex a i ho).trans ha
  have hS : ∀ a m, P a → P (o.search a m).1 := by
    intro a m ha
    obtain ⟨v, h1, h2⟩ := hse a m
    have hpl := hplus a v i fun k hk => h1 k (hi k hk)
    show (o.search a m).1 i = q i
    rw [h2 i ho]
    unfold integrateWith
    rw [hsat _ (hpl.trans ha), hpl]
    exact ha
  have h0 : P (o.expl q).1 := hP q rfl
  show P (bsSolve o thr dqMin maxIter reducedDim w l q m).arg
  unfold bsSolve
  cases hx : o.expl q with
  | mk a0 b =>
    rw [hx] at h0
    cases b with
    | false => exact h0
    | true =>
      dsimp only
      split
      · exact h0
      · refine bs_inv o P (fun a m ha => ⟨hP _ (hS a m ha), hS a m ha⟩) thr dqMin _ _ ?_ _ _ h0 ?_
        · intro p hp
          split at hp
          · obtain rfl := Option.some.inj hp
            exact h0
          · cases hp
        · intro a ha
          unfold bsInit at ha
          simp only at ha
          split at ha
          · obtain rfl := Option.some.inj ha
            exact h0
          · cases ha

namespace FreeEx

/-- Two variables, `q 0` is free, `q 1` is bounded by 0 and 1; the constraint is `q 0 = 1`. -/
def plus (q v : Nat → ℚ) : Nat → ℚ := fun i => q i + v i
def sat (q : Nat → ℚ) : SatState ℚ := satLoopInPlace [⟨1, 1, 0, 1⟩] q fun _ => 0
def env : LsEnv (Nat → ℚ) (Nat → ℚ) ℚ := ⟨integrateWith plus sat, fun t u k => t * u k, fun q => (q 0 - 1) ^ 2⟩
def ops : Ops (Nat → ℚ) ((Nat → ℚ) × Unit) ℚ :=
  freeOps (n := 1) (fun q => (q 0 - 1) ^ 2) ![0] (fun q s => (some ![1 - q 0], s)) (fun v => v 0 ^ 2 + v 1 ^ 2)
    fun s q u => (s, lsConstant env q u)

theorem scales : Scales (integrateWith plus sat) (fun (s : Unit) q u => (s, lsConstant env q u)) :=
  fun s q u => ⟨1, by simp [lsConstant], rfl⟩

theorem plusLocal : PlusLocal plus fun i k => k = i := by
  intro q v i h
  simp [plus, h i rfl]

theorem satOk : SatEntriesOk [(⟨1, 1, 0, 1⟩ : SatEntry ℚ)] :=
  ⟨by simp, by simp⟩

/-- The hypotheses hold for `q 1 = 1/2`, which is kept although the solver has moved `q 0`. -/
example : (∀ k, (fun i k => k = i) 1 k → ∀ j : Fin 1, (![0] : Fin 1 → Nat) j ≠ k) ∧
    (∀ q' : Nat → ℚ, q' 1 = 1 / 2 → (sat q').qSat 1 = q' 1) ∧
    let r := solve ops (1 / 100) 0 10 1 (fun i => if i = 1 then 1 / 2 else 5) (fun _ => 0, ())
    r.arg 0 = 1 ∧ r.arg 1 = 1 / 2 ∧ r.status = some .success := by
  refine ⟨?_, ?_, by decide +kernel⟩
  · rintro k rfl j
    fin_cases j
    decide
  · intro q' hq'
    refine (C118_saturation _ satOk q' 1 ?_).2
    intro e he _
    simp only [List.mem_singleton] at he
    subst he
    rw [hq']
    norm_num

/-- A solver by substitution for three variables: `q 0` is free, `q 1` is computed by the explicit constraint `q 1 = 2 q 0`,
`q 2` is neither. -/
def bsOps : BsOps (Nat → ℚ) ℚ ℚ where
  expl q := (Function.update q 1 (2 * q 0), true)
  norm q := (q 0 - 1) ^ 2
  cost _ := 0
  dir q _ := 1 - q 0
  scale t m := t * m
  unscale t m := m / t
  dqNorm m := m ^ 2
  search q m :=
    let r := integrateWith plus (fun q => satLoopInPlace [⟨2, 2, 0, 1⟩] q fun _ => 0) q fun k => if k = 0 then m else 0
    (Function.update r 1 (2 * r 0), m, true)

example (w l : Bool) (N : Nat) :
    (bsSolve bsOps (1 / 100) 0 N 1 w l (fun i => if i = 2 then 1 / 2 else 5) 0).arg 2 = 1 / 2 := by
  have hok : SatEntriesOk [(⟨2, 2, 0, 1⟩ : SatEntry ℚ)] := ⟨by simp, by simp⟩
  refine C118_by_substitution_partial plus (fun i k => k = i) plusLocal
    (fun q => satLoopInPlace [⟨2, 2, 0, 1⟩] q fun _ => 0) ![0] bsOps (fun i => i = 1) ?_ ?_ _ _ N 1 w l
    (fun i => if i = 2 then 1 / 2 else 5) 0 2 ?_ (by decide) ?_
  · intro q i hi
    exact Function.update_of_ne hi _ _
  · intro q m
    refine ⟨fun k => if k = 0 then m else 0, fun c hc => ?_, fun i hi => Function.update_of_ne hi _ _⟩
    exact if_neg fun h => hc 0 (by simp [h])
  · rintro k rfl j
    fin_cases j
    decide
  · intro q' hq'
    refine (C118_saturation _ hok q' 2 ?_).2
    intro e he _
    simp only [List.mem_singleton] at he
    subst he
    rw [hq']
    norm_num

/-- This solver does move the free variable, and the output follows. -/
example : let r := bsSolve bsOps (1 / 100) 0 10 1 false false (fun i => if i = 2 then 1 / 2 else 5) 0
    r.arg 0 = 1 ∧ r.arg 1 = 2 ∧ r.arg 2 = 1 / 2 := by decide +kernel

end FreeEx

open FreeEx in
/-- C118 is false for variables out of their bounds: they are moved to the bound by the first step. -/
theorem C118_out_of_bounds_refuted :
    let r := solve ops (1 / 100) 0 10 1 (fun i => if i = 1 then 2 else 5) (fun _ => 0, ())
    (∀ j : Fin 1, (![0] : Fin 1 → Nat) j ≠ 1) ∧ r.status = some .success ∧ r.arg 1 = 1 := by
  intro r
  exact ⟨by decide, by decide +kernel, by decide +kernel⟩

section
variable [Zero α] [DecidableEq κ] {El : Fn α κ → List α → Prop} {nv : Nat} {h : List (Impl α κ × Nat)} {s : HI α κ}

/-- C118. Setting the free variables resets all the right hand sides. -/
theorem C118_resets (hb : HI.Built El nv h s) (l : Segs)
    (hl : ∀ e ∈ h, e.1.fn.space.Lawful (El e.1.fn)) (hv : ∀ e ∈ h, ∀ q, El e.1.fn (e.1.fn.value q)) :
    ∀ e ∈ h, (s.setFree l).getRhs e.1 = some (some e.1.fn.space.neutral) := by
  have hb' : HI.Built El nv h (s.setFree l) := .free hb
  obtain ⟨hs, hf, -⟩ := hb'.inv hl hv
  obtain ⟨R, hR, hRe⟩ := updated_rhsIs hs hf (update_neutral _)
  intro e he
  rw [getRhs_eq hs hf hR he, hRe e he]

end

open HIEx in
/-- C118: thus right hand sides are not kept. -/
theorem C118_rhs_refuted : ∃ s : HI Int Nat, HI.Built HIEx.El 3 [(cA, 0)] s ∧
    s.getRhs cA = some (some [4, 0]) ∧ (s.setFree [⟨0, 3⟩]).getRhs cA = some (some [0, 0]) := by
  obtain ⟨s, hs, h1, -⟩ := C24_set_get s1_built (fun e he => law e (by simp_all [hist]))
    (fun e he => val e (by simp_all [hist])) (cA, 0) (by simp) [4, 0] rfl
  have hb : HI.Built HIEx.El 3 [(cA, 0)] s := .setRhs (c := cA) (v := [4, 0]) s1_built
    (by intro e he _; simp only [List.mem_singleton] at he; subst he; rfl) rfl hs
  exact ⟨s, hb, h1, C118_resets hb _ (fun e he => law e (by simp_all [hist]))
    (fun e he => val e (by simp_all [hist])) (cA, 0) (by simp)⟩

section
variable [Zero α] [DecidableEq κ] {E : Space α → List α → Prop} {nq nv : Nat} {h : BHist α κ} {s s' : BS α κ}

/-- C118. Adding a constraint to a solver by substitution, whether it becomes explicit (the free variables are then set
again) or not, resets the right hand sides of all the constraints solved iteratively. -/
theorem C118_add_resets (hb : BS.Built E nq nv h s) (fuel p : Nat) (c : BCon α κ) (junk : List α)
    (hc : ∃ fn mask comp, Impl.Built fn mask comp c.impl) (ha : s.add fuel c p junk = (s', .ok true))
    (hl : BHist.Lawful E (h ++ [(c, p, decide (s.ex.data.length < s'.ex.data.length))])) :
    ∀ e ∈ h, e.2.2 = false → s'.getRhs e.1 = some (some e.1.impl.fn.space.neutral) := by
  have hb' := BS.Built.add hb hc ha
  obtain ⟨h1, -⟩ := hb'.parts
  obtain ⟨l1, l2⟩ := hl.impl
  obtain ⟨hs, hf, -⟩ := h1.inv l1 l2
  have hupd : ∃ s0 : HI α κ, s'.hi = s0.update := by
    obtain ⟨-, -, a3⟩ := BS.add_true ha
    rcases a3 with ⟨e, n, he, hx, hhi⟩ | ⟨hx, hhi, -⟩
    · exact ⟨_, hhi⟩
    · obtain ⟨-, lv, st, -, -, e⟩ := HI.add_none hhi
      exact ⟨_, e⟩
  obtain ⟨s0, e0⟩ := hupd
  rw [e0] at hs
  obtain ⟨R, hR, hRe⟩ := updated_rhsIs hs hf (update_neutral _)
  intro e he hfl
  have hm : (e.1.impl, e.2.1) ∈ implOf (h ++ [(c, p, decide (s.ex.data.length < s'.ex.data.length))]) :=
    mem_implOf.2 ⟨e, by simp [he], hfl, rfl, rfl⟩
  unfold BS.getRhs
  rw [e0, getRhs_eq hs hf hR hm, hRe _ hm]

end

open BsX in
/-- A right hand side of the implicit constraint is set, then the explicit constraint is added. -/
example : (s1.setRhs cI [3]).map (fun r => (r.1.getRhs cI, (r.1.add 20 cE 0).1.getRhs cI)) =
    some (some (some [3]), some (some [0])) := by decide +kernel

end Hpp
