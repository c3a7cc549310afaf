import Verif.Solve.LevelLinear

/-!
# C155: calling `solve` again after `MAX_ITERATION_REACHED`

Source: `/repo/include/hpp/constraints/solver/impl/hierarchical-iterative.hh`, lines 123-181 (`solve`).
-/

namespace Hpp

open Matrix

variable {A M α : Type}

namespace Resume

theorem traj_shift (O : Ops A M α) (a : A) (m : M) (k : Nat) : ∀ i, traj O (traj O a m k).1 (traj O a m k).2 i = traj O a m (k + i)
  | 0 => rfl
  | i + 1 => by
    show O.search (traj O (traj O a m k).1 (traj O a m k).2 i).1 (O.dir _ _).1 = O.search (traj O a m (k + i)).1
      (O.dir (traj O a m (k + i)).1 (traj O a m (k + i)).2).1
    rw [traj_shift O a m k i]

theorem stalled_shift [LinearOrder α] (e : Nat → α) (k : Nat) : ∀ i, stalled (fun i => e (k + i)) i ≤ stalled e (k + i)
  | 0 => Nat.zero_le _
  | 1 => Nat.zero_le _
  | i + 2 => by
    have h := stalled_shift e k (i + 1)
    show (if e (k + (i + 2)) < e (k + (i + 1)) then 0 else stalled (fun i => e (k + i)) (i + 1) + 1) ≤
      if e (k + i + 2) < e (k + i + 1) then 0 else stalled e (k + i + 1) + 1
    have e1 : k + (i + 2) = k + i + 2 := by omega
    have e2 : k + (i + 1) = k + i + 1 := by omega
    rw [e1, e2]
    rw [e2] at h
    split
    · exact le_rfl
    · omega

theorem stalled_two [LinearOrder α] (e : Nat → α) (i : Nat) (hi : i ≤ 2) : stalled e i < 3 := by
  match i, hi with
  | 0, _ => exact Nat.zero_lt_succ _
  | 1, _ => exact Nat.zero_lt_succ _
  | 2, _ =>
    show (if e 2 < e 1 then 0 else 0 + 1) < 3
    split <;> omega

/-- There is a reason to stop. -/
theorem stops [LinearOrder α] {O : Ops A M α} {thr dqMin : α} {k : Nat} {a : A} {m : M} {r : SolveOut A M} (h : LoopSpec O thr dqMin k a m r)
    (h1 : thr < trajErr O a m r.iter) (h2 : ¬ trajStep O a m r.iter < dqMin) (h3 : stalled (trajErr O a m) r.iter < 3) : r.iter = k := by
  cases hs : r.status with
  | none => exact absurd hs h.defined
  | some x =>
    cases x with
    | success => exact absurd (h.success.1 hs) (not_le.2 h1)
    | maxIterationReached => exact (h.maxIt.1 hs).2
    | errorIncreased => have := (h.increased.1 hs).2.2; omega
    | infeasible => exact absurd (h.infeasible.1 hs).2.2.2 h2

end Resume

open Resume

/-- C155. `solve` is called with `k` iterations and returns `MAX_ITERATION_REACHED`; it is called again from the configuration returned, with `j` iterations.
Unless one call with `k + j` iterations returns `ERROR_INCREASED`, the second call returns the same configuration and status as this one, and the iterations add
up.  Otherwise the second call does not stop before.  For all behaviours of the numerical steps, the state of which (`dqSmall_`, line search) is kept. -/
theorem C155_resume [LinearOrder α] (O : Ops A M α) (thr dqMin : α) (k j rd : Nat) (a : A) (m : M)
    (hr : (solve O thr dqMin k rd a m).status = some .maxIterationReached) :
    let r := solve O thr dqMin k rd a m
    let r' := solve O thr dqMin j rd r.arg r.mem
    let R := solve O thr dqMin (k + j) rd a m
    (R.status ≠ some .errorIncreased → r'.arg = R.arg ∧ r'.status = R.status ∧ k + r'.iter = R.iter) ∧
    (R.status = some .errorIncreased → R.iter ≤ k + r'.iter) := by
  intro r r' R
  have hn : ¬ (thr < O.norm a ∧ rd = 0) := by
    intro h
    unfold solve at hr
    rw [if_pos h] at hr
    cases hr
  have sp := solve_spec O thr dqMin k rd a m hn
  have hit : r.iter = k := (sp.maxIt.1 hr).2
  have herr : thr < trajErr O a m k := by have := (sp.maxIt.1 hr).1; rwa [show (solve O thr dqMin k rd a m).iter = k from hit] at this
  have harg : r.arg = (traj O a m k).1 := by have := sp.arg; rwa [show (solve O thr dqMin k rd a m).iter = k from hit] at this
  have hmem : r.mem = (traj O a m k).2 := by
    rcases sp.mem with h | ⟨h, -⟩
    · rwa [show (solve O thr dqMin k rd a m).iter = k from hit] at h
    · exact absurd h (by rw [show (solve O thr dqMin k rd a m).iter = k from hit]; exact lt_irrefl _)
  have hbef : ∀ i, i < k → thr < trajErr O a m i ∧ ¬ trajStep O a m i < dqMin ∧ stalled (trajErr O a m) i < 3 := fun i hi =>
    sp.before i (by rw [show (solve O thr dqMin k rd a m).iter = k from hit]; exact hi)
  have h0 : thr < O.norm a := by
    rcases Nat.eq_zero_or_pos k with h | h
    · rw [h] at herr; exact herr
    · exact (hbef 0 h).1
  have hrd : rd ≠ 0 := fun h => hn ⟨h0, h⟩
  have SR := solve_spec O thr dqMin (k + j) rd a m hn
  have S2 := solve_spec O thr dqMin j rd r.arg r.mem fun h => hrd h.2
  change LoopSpec O thr dqMin (k + j) a m R at SR
  change LoopSpec O thr dqMin j r.arg r.mem r' at S2
  rw [harg, hmem] at S2
  have e1 : ∀ i, trajErr O (traj O a m k).1 (traj O a m k).2 i = trajErr O a m (k + i) := fun i => by
    unfold trajErr; rw [traj_shift]
  have e2 : ∀ i, trajStep O (traj O a m k).1 (traj O a m k).2 i = trajStep O a m (k + i) := fun i => by
    unfold trajStep; rw [traj_shift]
  have e3 : ∀ i, stalled (trajErr O (traj O a m k).1 (traj O a m k).2) i ≤ stalled (trajErr O a m) (k + i) := fun i => by
    rw [show trajErr O (traj O a m k).1 (traj O a m k).2 = fun i => trajErr O a m (k + i) from funext e1]
    exact stalled_shift _ k i
  have hRk : k ≤ R.iter := by
    by_contra hc
    obtain ⟨g1, g2, g3⟩ := hbef R.iter (by omega)
    have := stops SR g1 g2 g3
    omega
  have hA : R.iter ≤ k + r'.iter := by
    by_contra hc
    obtain ⟨g1, g2, g3⟩ := SR.before (k + r'.iter) (by omega)
    have := stops S2 (by rw [e1]; exact g1) (by rw [e2]; exact g2) (lt_of_le_of_lt (e3 _) g3)
    have := SR.iter
    omega
  refine ⟨fun hne => ?_, fun _ => hA⟩
  have hB : k + r'.iter ≤ R.iter := by
    by_contra hc
    obtain ⟨i, hi⟩ := Nat.exists_eq_add_of_le hRk
    obtain ⟨g1, g2, -⟩ := S2.before i (by omega)
    rw [e1, ← hi] at g1
    rw [e2, ← hi] at g2
    have := S2.iter
    cases hs : R.status with
    | none => exact SR.defined hs
    | some x =>
      cases x with
      | success => exact absurd (SR.success.1 hs) (not_le.2 g1)
      | maxIterationReached => have := (SR.maxIt.1 hs).2; omega
      | errorIncreased => exact hne hs
      | infeasible => exact g2 (SR.infeasible.1 hs).2.2.2
  have hI : k + r'.iter = R.iter := Nat.le_antisymm hB hA
  refine ⟨?_, ?_, hI⟩
  · rw [S2.arg, SR.arg, traj_shift, hI]
  · cases hs : R.status with
    | none => exact absurd hs SR.defined
    | some x =>
      cases x with
      | success => exact S2.success.2 (by rw [e1, hI]; exact SR.success.1 hs)
      | maxIterationReached =>
        obtain ⟨g1, g2⟩ := SR.maxIt.1 hs
        exact S2.maxIt.2 ⟨by rw [e1, hI]; exact g1, by omega⟩
      | errorIncreased => exact absurd hs hne
      | infeasible =>
        obtain ⟨g1, g2, g3, g4⟩ := SR.infeasible.1 hs
        refine S2.infeasible.2 ⟨by rw [e1, hI]; exact g1, by omega, lt_of_le_of_lt (e3 _) (by rw [hI]; exact g3), by rw [e2, hI]; exact g4⟩

open LevelLinear ChainEx in
/-- C155. The second case happens, and the second call may then succeed: with the five levels of `C153_five_refuted`, one call with seven iterations returns
`ERROR_INCREASED`, and a call with two iterations followed by a call with five iterations returns `SUCCESS`. -/
theorem C155_increased_refuted (o : SvdOps ℝ) (ho : o.Exact) (hor : o.Ortho) (thr dqMin : ℝ) (h0 : 0 ≤ thr) (h1 : thr < 1) (h2 : dqMin ≤ 1) (dq : Fin 5 → ℝ) :
    let O := newtonOps o true false thr lv (lsC false lv (· + ·))
    let r := solve O thr dqMin 2 5 0 (dq, ())
    let r' := solve O thr dqMin 5 5 r.arg r.mem
    (solve O thr dqMin 7 5 0 (dq, ())).status = some .errorIncreased ∧ r.status = some .maxIterationReached ∧ r'.status = some .success ∧
    r'.arg = fun _ => 1 := by
  intro O r r'
  have hd : ∀ (k : Fin 5) (m : (Fin 5 → ℝ) × Unit), O.dir (pt k) m = ((Pi.single k 1, ()), 1) := by
    intro k m
    show (((descend o true thr (lv.map fun l => l.at (pt k)) m.1).getD 0, m.2), _ ⬝ᵥ _) = _
    rw [direction ho hor h0 h1 k m.1, Option.getD_some]
    simp
  have ht : ∀ k, k ≤ 5 → (traj O 0 (dq, ()) k).1 = pt k := by
    intro k
    induction k with
    | zero => intro _; funext j; simp [traj, pt]
    | succ k ih =>
      intro hk
      have e := ih (by omega)
      show (O.search (traj O 0 (dq, ()) k).1 (O.dir (traj O 0 (dq, ()) k).1 (traj O 0 (dq, ()) k).2).1).1 = _
      rw [e, hd ⟨k, by omega⟩]
      exact pt_succ ⟨k, by omega⟩
  have he : ∀ k, k ≤ 4 → trajErr O 0 (dq, ()) k = 1 := by
    intro k hk
    unfold trajErr
    rw [ht k (by omega)]
    exact norm_pt ⟨k, by omega⟩
  have hs : ∀ k, k ≤ 4 → trajStep O 0 (dq, ()) k = 1 := by
    intro k hk
    unfold trajStep
    rw [ht k (by omega), hd ⟨k, by omega⟩]
  have h5 : trajErr O 0 (dq, ()) 5 = 0 := by
    unfold trajErr
    rw [ht 5 le_rfl]
    have hn : ∀ i, (lev i).norms (pt 5) = [0] := by
      intro i
      have : (lev i).norms (pt 5) = [val i (pt 5) 0 * val i (pt 5) 0] := by
        show [∑ a : Fin 1, if (0 : Fin 1) = 0 then val i (pt 5) a * val i (pt 5) a else 0] = _
        simp
      rw [this]
      have e : val i (pt 5) 0 = 0 := by
        show pt 5 i - (if i = 0 then 1 else pt 5 (i - 1)) = 0
        unfold pt
        fin_cases i <;> simp
      rw [e, mul_zero]
    show (((lv.flatMap fun l => l.norms (pt 5)).foldl max 0) : ℝ) = 0
    simp [lv, List.finRange_succ, hn]
  have sp := solve_spec O thr dqMin 2 5 0 (dq, ()) (by norm_num)
  change LoopSpec O thr dqMin 2 0 (dq, ()) r at sp
  have hle := sp.iter
  have hit : r.iter = 2 := stops sp (by rw [he _ (by omega)]; exact h1) (by rw [hs _ (by omega)]; exact not_lt.2 h2) (stalled_two _ _ hle)
  have hst : r.status = some .maxIterationReached := sp.maxIt.2 ⟨by rw [he _ (by omega)]; exact h1, hit⟩
  have harg : r.arg = (traj O 0 (dq, ()) 2).1 := by rw [sp.arg, hit]
  have hmem : r.mem = (traj O 0 (dq, ()) 2).2 := by
    rcases sp.mem with h | ⟨h, -⟩
    · rw [h, hit]
    · omega
  have S2 := solve_spec O thr dqMin 5 5 r.arg r.mem (by norm_num)
  change LoopSpec O thr dqMin 5 r.arg r.mem r' at S2
  rw [harg, hmem] at S2
  have e1 : ∀ i, trajErr O (traj O 0 (dq, ()) 2).1 (traj O 0 (dq, ()) 2).2 i = trajErr O 0 (dq, ()) (2 + i) := fun i => by
    unfold trajErr; rw [traj_shift]
  have e2 : ∀ i, trajStep O (traj O 0 (dq, ()) 2).1 (traj O 0 (dq, ()) 2).2 i = trajStep O 0 (dq, ()) (2 + i) := fun i => by
    unfold trajStep; rw [traj_shift]
  have hit' : r'.iter = 3 := by
    rcases lt_trichotomy r'.iter 3 with h | h | h
    · have := stops S2 (by rw [e1, he _ (by omega)]; exact h1) (by rw [e2, hs _ (by omega)]; exact not_lt.2 h2) (stalled_two _ _ (by omega))
      omega
    · exact h
    · have := (S2.before 3 h).1
      rw [e1, h5] at this
      exact absurd h0 (not_le.2 this)
  refine ⟨(C153_five_refuted o ho hor thr dqMin h0 h1 h2 7 (by norm_num) dq).2.2.1, hst, S2.success.2 ?_, ?_⟩
  · rw [e1, hit', h5]
    exact h0
  · rw [S2.arg, traj_shift, hit', ht 5 le_rfl]
    funext j
    show (if j.val < 5 then (1 : ℝ) else 0) = 1
    rw [if_pos j.2]

namespace ResumeEx

/-- One equation `x = 0` and the line search `FixedSequence` (impl/hierarchical-iterative.hh:106-113) with the values of
hierarchical-iterative.cc:92: the memory holds the direction and `alpha`. -/
def fixed : Ops ℚ (ℚ × ℚ) ℚ where
  norm a := a * a
  dir a m := ((-a, m.2), a * a)
  search a m := (a + m.2 * m.1, (m.1, 95 / 100 - 8 / 10 * (95 / 100 - m.2)))

end ResumeEx

open ResumeEx in
/-- The hypotheses of `C155_resume` are met: `MAX_ITERATION_REACHED` after two iterations, then `SUCCESS`. -/
example : (solve fixed (1 / 10 ^ 4) (1 / 10 ^ 12) 2 1 1 (0, 1 / 5)).status = some .maxIterationReached ∧
    (solve fixed (1 / 10 ^ 4) (1 / 10 ^ 12) (2 + 18) 1 1 (0, 1 / 5)).status = some .success := by
  decide +kernel

open ResumeEx in
/-- C155 fails for the line search `FixedSequence`, that `solve` takes by value: the second call starts with short steps again.  One equation `x = 0` from 1, one
iteration and then two others with a new line search: all calls return `MAX_ITERATION_REACHED`, the configuration is 52/125 instead of 689/2500 with three
iterations in one call. -/
theorem C155_line_search_refuted :
    let r := solve fixed (1 / 10 ^ 4) (1 / 10 ^ 12) 1 1 1 (0, 1 / 5)
    let r' := solve fixed (1 / 10 ^ 4) (1 / 10 ^ 12) 2 1 r.arg (r.mem.1, 1 / 5)
    let R := solve fixed (1 / 10 ^ 4) (1 / 10 ^ 12) 3 1 1 (0, 1 / 5)
    r.status = some .maxIterationReached ∧ r'.status = some .maxIterationReached ∧ R.status = some .maxIterationReached ∧
    r'.arg = 52 / 125 ∧ R.arg = 689 / 2500 := by
  decide +kernel

end Hpp
