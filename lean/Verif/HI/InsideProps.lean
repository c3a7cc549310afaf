import Verif.HI.OrderProps
import Verif.Solve.BudgetProps
import Verif.Solve.BoundsProps
import Verif.Solve.SaturationProps

/-!
# C142: bounds that are not reached do not matter

Sources: `/repo/src/solver/hierarchical-iterative.cc`, lines 653-672 (`computeSaturation`), 712-719 (`integrate`),
`/repo/include/hpp/constraints/solver/impl/hierarchical-iterative.hh`, lines 39-181.
-/

namespace Hpp

open Matrix

/-! ## Solvers that do the same along an execution -/

section
variable {A M α : Type} [LinearOrder α]

theorem solveLoop_along {o o' : Ops A M α} (hn : o'.norm = o.norm) (thr dqMin : α) (a0 : A) (m0 : M) :
    ∀ (left iter dec : Nat) (prev : Option α) (a : A) (m : M) (n : α) (st : Option Status), traj o a0 m0 iter = (a, m) →
    (∀ j, iter ≤ j → j ≤ (solveLoop o thr dqMin left iter dec prev a m n st).iter →
      o'.dir (traj o a0 m0 j).1 (traj o a0 m0 j).2 = o.dir (traj o a0 m0 j).1 (traj o a0 m0 j).2) →
    (∀ j, iter ≤ j → j < (solveLoop o thr dqMin left iter dec prev a m n st).iter →
      o'.search (traj o a0 m0 j).1 (o.dir (traj o a0 m0 j).1 (traj o a0 m0 j).2).1 =
        o.search (traj o a0 m0 j).1 (o.dir (traj o a0 m0 j).1 (traj o a0 m0 j).2).1) →
    solveLoop o' thr dqMin left iter dec prev a m n st = solveLoop o thr dqMin left iter dec prev a m n st := by
  intro left
  induction left with
  | zero => intros; rfl
  | succ left ih =>
    intro iter dec prev a m n st htr hd hs
    have hd0 := hd iter le_rfl (solveLoop_iter o thr dqMin _ _ _ _ _ _ _ _)
    rw [htr] at hd0
    have S : ∀ (o : Ops A M α), solveLoop o thr dqMin (left + 1) iter dec prev a m n st =
        if thr < n ∧ dec ≠ 0 then
          if (o.dir a m).2 < dqMin then ⟨a, (o.dir a m).1, iter, solveEnd thr n (left + 1) (some .infeasible)⟩
          else solveLoop o thr dqMin left (iter + 1)
            (if (match prev with | none => true | some p => decide (o.norm (o.search a (o.dir a m).1).1 < p)) then 3 else dec - 1)
            (some (o.norm (o.search a (o.dir a m).1).1)) (o.search a (o.dir a m).1).1 (o.search a (o.dir a m).1).2
            (o.norm (o.search a (o.dir a m).1).1)
            (if (match prev with | none => true | some p => decide (o.norm (o.search a (o.dir a m).1).1 < p)) then st else some .errorIncreased)
        else ⟨a, m, iter, solveEnd thr n (left + 1) st⟩ := fun _ => rfl
    have hd0 : o'.dir a m = o.dir a m := hd0
    rw [S o', S o]
    by_cases h1 : thr < n ∧ dec ≠ 0
    · rw [if_pos h1, if_pos h1, hd0]
      by_cases h2 : (o.dir a m).2 < dqMin
      · rw [if_pos h2, if_pos h2]
      · rw [if_neg h2, if_neg h2]
        rw [S o, if_pos h1, if_neg h2] at hd hs
        have hs0 := hs iter le_rfl (Nat.lt_of_lt_of_le (Nat.lt_succ_self _) (solveLoop_iter o thr dqMin _ _ _ _ _ _ _ _))
        rw [htr] at hs0
        have hs0 : o'.search a (o.dir a m).1 = o.search a (o.dir a m).1 := hs0
        rw [hs0, hn]
        exact ih (iter + 1) _ _ _ _ _ _ (by show o.search _ _ = _; rw [htr]) (fun j h1 h2 => hd j (by omega) h2)
          (fun j h1 h2 => hs j (by omega) h2)
    · rw [if_neg h1, if_neg h1]

/-- C142. If two solvers have the same errors, and the same steps at the successive configurations of one of them, they return the
same result. -/
theorem solve_along {o o' : Ops A M α} (hn : o'.norm = o.norm) (thr dqMin : α) (maxIter rd : Nat) (a : A) (m : M)
    (hd : ∀ j ≤ (solve o thr dqMin maxIter rd a m).iter,
      o'.dir (traj o a m j).1 (traj o a m j).2 = o.dir (traj o a m j).1 (traj o a m j).2)
    (hs : ∀ j < (solve o thr dqMin maxIter rd a m).iter,
      o'.search (traj o a m j).1 (o.dir (traj o a m j).1 (traj o a m j).2).1 =
        o.search (traj o a m j).1 (o.dir (traj o a m j).1 (traj o a m j).2).1) :
    solve o' thr dqMin maxIter rd a m = solve o thr dqMin maxIter rd a m := by
  unfold solve at hd hs ⊢
  dsimp only at hd hs ⊢
  rw [hn]
  by_cases h1 : thr < o.norm a ∧ rd = 0
  · rw [if_pos h1, if_pos h1]
  · rw [if_neg h1] at hd hs ⊢
    rw [if_neg h1]
    exact solveLoop_along hn thr dqMin a m _ _ _ _ _ _ _ _ rfl (fun j _ => hd j) (fun j _ => hs j)

end

/-! ## Saturation inside the bounds -/

/-- Specification: the coordinates that are bounded are strictly within their bounds. -/
def StrictlyInside (entries : List (SatEntry ℝ)) (q : Nat → ℝ) : Prop := ∀ e ∈ entries, e.lb < q e.iq ∧ q e.iq < e.ub

theorem clampLoop_inside {entries : List (SatEntry ℝ)} {q : Nat → ℝ} (h : StrictlyInside entries q) (q' : Nat → ℝ) (sat : Nat → Int) :
    (clampLoop q entries q' sat).ret = false := by
  have key : ∀ (l : List (SatEntry ℝ)) (st : SatState ℝ), (∀ e ∈ l, e.lb < q e.iq ∧ q e.iq < e.ub) → st.ret = false →
      (l.foldl (satStep q) st).ret = false := by
    intro l
    induction l with
    | nil => intro st _ h; exact h
    | cons e l ih =>
      intro st he hr
      refine ih _ (fun e' he' => he e' (List.mem_cons_of_mem _ he')) ?_
      obtain ⟨h1, h2⟩ := he e (List.mem_cons_self ..)
      show (st.ret || (clamp e.lb e.ub (q e.iq)).2.2) = false
      unfold clamp
      rw [if_neg (not_le.2 h1), if_neg (not_le.2 h2), hr]
      rfl
  exact key entries _ h rfl

theorem satInPlace_inside {entries : List (SatEntry ℝ)} {q : Nat → ℝ} (h : InBounds entries q) (sat : Nat → Int) :
    (satLoopInPlace entries q sat).qSat = q := by
  have key : ∀ (l : List (SatEntry ℝ)) (st : SatState ℝ), (∀ e ∈ l, e.lb ≤ q e.iq ∧ q e.iq ≤ e.ub) → st.qSat = q →
      (l.foldl (fun s e => satStep s.qSat s e) st).qSat = q := by
    intro l
    induction l with
    | nil => intro st _ h; exact h
    | cons e l ih =>
      intro st he hr
      refine ih _ (fun e' he' => he e' (List.mem_cons_of_mem _ he')) ?_
      obtain ⟨h1, h2⟩ := he e (List.mem_cons_self ..)
      show Function.update st.qSat e.iq (clamp e.lb e.ub (st.qSat e.iq)).1 = q
      rw [hr]
      have : (clamp e.lb e.ub (q e.iq)).1 = q e.iq := by
        unfold clamp
        split
        · exact le_antisymm h1 (by assumption)
        · split
          · exact le_antisymm (by assumption) h2
          · rfl
      rw [this, Function.update_eq_self]
  exact key entries _ h rfl

/-- `saturation_` as `computeSaturation` uses it (hierarchical-iterative.cc:653-672): what `saturate` wrote if it returned true. -/
noncomputable def satFlags (entries : List (SatEntry ℝ)) (sat0 : Nat → Int) (q : Nat → ℝ) : Nat → ℝ :=
  if (clampLoop q entries q sat0).ret then fun k => ((clampLoop q entries q sat0).sat k : ℝ) else fun _ => 0

/-- `integrate` (hierarchical-iterative.cc:712-719): `plus` then saturation. -/
noncomputable def satMove (plus : (Nat → ℝ) → (Nat → ℝ) → Nat → ℝ) (entries : List (SatEntry ℝ)) (q v : Nat → ℝ) : Nat → ℝ :=
  (satLoopInPlace entries (plus q v) fun _ => 0).qSat

/-! ## Line searches -/

/-- Specification: a line search looks at the configurations of the segment from `q` to `q + u` only, and reads the slope at `q` only.
`I` is an invariant of its state. -/
def LineSearch.Local {A S : Type} (ls : LineSearch A S) (I : S → Prop) : Prop :=
  ∀ (V : Type) (env env' : LsEnv A V ℝ) (slope slope' : A → V → ℝ) (st : S) (q : A) (u : V), I st → env.smul 1 u = u →
    env'.smul = env.smul → env'.err = env.err → slope' q u = slope q u →
    (∀ c, 0 ≤ c → c ≤ 1 → env'.integrate q (env.smul c u) = env.integrate q (env.smul c u)) →
    ls V env' slope' st q u = ls V env slope st q u ∧ I (ls V env slope st q u).1

theorem btLoop_local {A V : Type} {env env' : LsEnv A V ℝ} {q : A} {u : V} (h1 : env'.smul = env.smul) (h2 : env'.err = env.err)
    (h3 : ∀ c, 0 ≤ c → c ≤ 1 → env'.integrate q (env.smul c u) = env.integrate q (env.smul c u)) (f0 t : ℝ) :
    ∀ (fuel : Nat) (alpha : ℝ) (evals : Nat), 0 ≤ alpha → alpha ≤ 1 →
      btLoop env' (.default ℝ) q u f0 t fuel alpha evals = btLoop env (.default ℝ) q u f0 t fuel alpha evals := by
  have hf : ∀ evals, btFallback env' (.default ℝ) q u evals = btFallback env (.default ℝ) q u evals := by
    intro evals
    unfold btFallback
    rw [h1, h3 _ (by norm_num [BtParam.default]) (by norm_num [BtParam.default])]
  intro fuel
  induction fuel with
  | zero => intro alpha evals _ _; unfold btLoop; rw [hf]
  | succ fuel ih =>
    intro alpha evals ha0 ha1
    unfold btLoop
    dsimp only
    rw [hf, h1, h2, h3 alpha ha0 ha1, ih _ _ (mul_nonneg ha0 (by norm_num [BtParam.default])) (by
      show alpha * (7 / 10) ≤ 1
      linarith)]

/-- C142. The line searches of the library are local: `Backtracking` with the default parameters, `FixedSequence` from any number between 0
and the maximum, `ErrorNormBased` with any lower limit in [0, 1]. -/
theorem C142_line_searches {A : Type} (thr : ℝ) :
    LineSearch.Local (A := A) lineConstant (fun _ => True) ∧ LineSearch.Local (A := A) lineBacktracking (fun _ => True) ∧
    LineSearch.Local (A := A) lineFixedSequence (fun f => 0 ≤ f.alpha ∧ f.alpha ≤ f.alphaMax ∧ f.alphaMax ≤ 1 ∧ 0 ≤ f.K ∧ f.K ≤ 1) ∧
    LineSearch.Local (A := A) (lineErrorNormBased thr)
      (fun e => ∃ alphaMin a b, 0 ≤ alphaMin ∧ alphaMin ≤ 1 ∧ e = ErrNormBased.mk3 alphaMin a b) := by
  refine ⟨?_, ?_, ?_, ?_⟩
  · intro V env env' slope slope' st q u _ hu h1 h2 _ h3
    refine ⟨?_, trivial⟩
    have := h3 1 zero_le_one le_rfl
    rw [hu] at this
    unfold lineConstant lsConstant
    rw [this]
  · intro V env env' slope slope' st q u _ hu h1 h2 hsl h3
    refine ⟨?_, trivial⟩
    unfold lineBacktracking backtracking
    dsimp only
    rw [hsl, h2, btLoop_local h1 h2 h3 _ _ _ _ _ zero_le_one le_rfl]
    unfold btFallback
    rw [h1, h3 _ (by norm_num [BtParam.default]) (by norm_num [BtParam.default])]
  · intro V env env' slope slope' f q u ⟨i1, i2, i3, i4, i5⟩ hu h1 h2 _ h3
    refine ⟨?_, ?_⟩
    · unfold lineFixedSequence FixedSeq.call
      rw [h1, h3 _ i1 (le_trans i2 i3)]
    · show 0 ≤ f.alphaMax - f.K * (f.alphaMax - f.alpha) ∧ f.alphaMax - f.K * (f.alphaMax - f.alpha) ≤ f.alphaMax ∧ _
      have hp : 0 ≤ f.K * (f.alphaMax - f.alpha) := mul_nonneg i4 (by linarith)
      have hq : f.K * (f.alphaMax - f.alpha) ≤ f.alphaMax - f.alpha := mul_le_of_le_one_left (by linarith) i5
      exact ⟨by linarith, by linarith, i3, i4, i5⟩
  · intro V env env' slope slope' e q u hI hu h1 h2 _ h3
    refine ⟨?_, hI⟩
    obtain ⟨am, a, b, h0, h1', rfl⟩ := hI
    unfold lineErrorNormBased ErrNormBased.call
    dsimp only
    have ht1 := Real.tanh_lt_one ((ErrNormBased.mk3 am a b).a * (env.err q / thr) + (ErrNormBased.mk3 am a b).b)
    have ht2 := Real.neg_one_lt_tanh ((ErrNormBased.mk3 am a b).a * (env.err q / thr) + (ErrNormBased.mk3 am a b).b)
    have k1 : 0 ≤ (1 - am) / 2 * (1 - Real.tanh (a * (env.err q / thr) + b)) := mul_nonneg (by linarith) (by
      have : Real.tanh (a * (env.err q / thr) + b) < 1 := ht1
      linarith)
    have k2 : 0 ≤ (1 - am) / 2 * (1 + Real.tanh (a * (env.err q / thr) + b)) := mul_nonneg (by linarith) (by
      have : -1 < Real.tanh (a * (env.err q / thr) + b) := ht2
      linarith)
    rw [h1, h2, h3]
    · show (0 : ℝ) ≤ 0.5 + am / 2 - (1 - am) / 2 * Real.tanh (a * (env.err q / thr) + b)
      norm_num
      linarith
    · show 0.5 + am / 2 - (1 - am) / 2 * Real.tanh (a * (env.err q / thr) + b) ≤ (1 : ℝ)
      norm_num
      linarith

/-! ## Solvers built by insertion of constraints -/

section
variable {κ S A : Type} {s : HI ℝ κ} {D : Space ℝ → List ℝ → List ℝ → Nat → Nat → ℝ} {o : SvdOps ℝ}
  {entries : List (SatEntry ℝ)}

theorem satFlags_inside {q : Nat → ℝ} (h : StrictlyInside entries q) (sat0 : Nat → Int) : satFlags entries sat0 q = fun _ => 0 := by
  unfold satFlags
  rw [clampLoop_inside h]
  rfl

theorem dLevels_inside {J0 : A → Jac ℝ} {conf : A → Nat → ℝ} {q : A} (h : StrictlyInside entries (conf q)) (sat0 : Nat → Int) :
    s.dLevels D J0 conf (fun q => satFlags entries sat0 (conf q)) q = s.dLevels D J0 conf (fun _ _ => 0) q := by
  unfold HI.dLevels
  dsimp only
  rw [satFlags_inside h]

/-- C142. If the successive configurations of the solver without bounds are strictly inside the bounds, and the steps before they are
shortened by the line search do not go out of them, then the solver with bounds returns the same result: same configuration, same
status, same number of iterations.  Any type of configurations (`conf` gives the coordinates), any integration `plus`, any integration
with bounds `satp` that is equal to `plus` as long as the bounds are not reached, any decomposition, content of the matrices and of the
saturation flags, any local line search. -/
theorem C142_any_space {I : S → Prop} {ls : LineSearch A S} (hls : ls.Local I) {J0 : A → Jac ℝ} (conf : A → Nat → ℝ)
    (plus satp : A → (Nat → ℝ) → A) (hsat : ∀ q v, InBounds entries (conf (plus q v)) → satp q v = plus q v)
    (sat0 : Nat → Int) (dqMin : ℝ) (maxIter rd : Nat)
    (q : A) (m : (Fin (indices s.free.segs).length → ℝ) × S) (hI : I m.2)
    (hin : ∀ j ≤ (solve (s.fullOps D o J0 conf (fun _ _ => 0) plus ls) s.sqThr dqMin maxIter rd q m).iter,
      StrictlyInside entries (conf (traj (s.fullOps D o J0 conf (fun _ _ => 0) plus ls) q m j).1))
    (hseg : ∀ j < (solve (s.fullOps D o J0 conf (fun _ _ => 0) plus ls) s.sqThr dqMin maxIter rd q m).iter, ∀ c : ℝ, 0 ≤ c → c ≤ 1 →
      InBounds entries (conf (plus (traj (s.fullOps D o J0 conf (fun _ _ => 0) plus ls) q m j).1
        (expand (hiFree s) (c • (traj (s.fullOps D o J0 conf (fun _ _ => 0) plus ls) q m (j + 1)).2.1) fun _ => 0)))) :
    solve (s.fullOps D o J0 conf (fun q => satFlags entries sat0 (conf q)) satp ls) s.sqThr dqMin maxIter rd q m =
      solve (s.fullOps D o J0 conf (fun _ _ => 0) plus ls) s.sqThr dqMin maxIter rd q m := by
  have hst : ∀ j, I (traj (s.fullOps D o J0 conf (fun _ _ => 0) plus ls) q m j).2.2 := by
    intro j
    induction j with
    | zero => exact hI
    | succ j ih => exact (hls _ _ _ _ _ _ _ _ ih (one_smul ℝ _) rfl rfl rfl fun _ _ _ => rfl).2
  refine solve_along (o := s.fullOps D o J0 conf (fun _ _ => 0) plus ls)
    (o' := s.fullOps D o J0 conf (fun q => satFlags entries sat0 (conf q)) satp ls) rfl s.sqThr dqMin maxIter rd q m
    (fun j hj => ?_) (fun j hj => ?_)
  · show ((((descend o s.byLevel s.sqThr (s.dLevels D J0 conf (fun q => satFlags entries sat0 (conf q)) _) _).getD 0), _), _) = _
    rw [dLevels_inside (hin j hj)]
    rfl
  · have hseg' := hseg j hj
    have hin' := hin j hj.le
    have hst' := hst j
    change ∀ c : ℝ, 0 ≤ c → c ≤ 1 → InBounds entries (conf (plus _ (expand (hiFree s)
      (c • ((s.fullOps D o J0 conf (fun _ _ => 0) plus ls).dir (traj (s.fullOps D o J0 conf (fun _ _ => 0) plus ls) q m j).1
        (traj (s.fullOps D o J0 conf (fun _ _ => 0) plus ls) q m j).2).1.1) fun _ => 0))) at hseg'
    generalize traj (s.fullOps D o J0 conf (fun _ _ => 0) plus ls) q m j = x at hin' hseg' hst' ⊢
    have key := (hls _ (s.lsEnv conf plus) (s.lsEnv conf satp)
      (fun q u => localSlope (s.dLevels D J0 conf (fun _ _ => 0) q) u)
      (fun q u => localSlope (s.dLevels D J0 conf (fun q => satFlags entries sat0 (conf q)) q) u) x.2.2 x.1
      ((s.fullOps D o J0 conf (fun _ _ => 0) plus ls).dir x.1 x.2).1.1 hst' (one_smul ℝ _) rfl rfl
      (by rw [dLevels_inside hin']) (fun c h0 h1 => hsat _ _ (hseg' c h0 h1))).1
    show ((ls _ (s.lsEnv conf satp) _ x.2.2 _ _).2.arg, _, (ls _ (s.lsEnv conf satp) _ x.2.2 _ _).1) = _
    rw [key]
    rfl

variable {J0 : (Nat → ℝ) → Jac ℝ} {ls : LineSearch (Nat → ℝ) S} {I : S → Prop}

/-- C142 for the integration of the code: `plus`, then saturation of the result. -/
theorem C142_bounds (hls : ls.Local I) (plus : (Nat → ℝ) → (Nat → ℝ) → Nat → ℝ) (sat0 : Nat → Int) (dqMin : ℝ) (maxIter rd : Nat)
    (q : Nat → ℝ) (m : (Fin (indices s.free.segs).length → ℝ) × S) (hI : I m.2)
    (hin : ∀ j ≤ (solve (s.fullOps D o J0 id (fun _ _ => 0) plus ls) s.sqThr dqMin maxIter rd q m).iter,
      StrictlyInside entries (traj (s.fullOps D o J0 id (fun _ _ => 0) plus ls) q m j).1)
    (hseg : ∀ j < (solve (s.fullOps D o J0 id (fun _ _ => 0) plus ls) s.sqThr dqMin maxIter rd q m).iter, ∀ c : ℝ, 0 ≤ c → c ≤ 1 →
      InBounds entries (plus (traj (s.fullOps D o J0 id (fun _ _ => 0) plus ls) q m j).1
        (expand (hiFree s) (c • (traj (s.fullOps D o J0 id (fun _ _ => 0) plus ls) q m (j + 1)).2.1) fun _ => 0))) :
    solve (s.fullOps D o J0 id (satFlags entries sat0) (satMove plus entries) ls) s.sqThr dqMin maxIter rd q m =
      solve (s.fullOps D o J0 id (fun _ _ => 0) plus ls) s.sqThr dqMin maxIter rd q m :=
  C142_any_space hls id plus (satMove plus entries) (fun _ _ h => satInPlace_inside h _) sat0 dqMin maxIter rd q m hI hin hseg

theorem expand_scale (c : ℝ) {n : Nat} (free : Fin n → Nat) (v : Fin n → ℝ) (i : Nat) :
    expand free (c • v) (fun _ => 0) i = c * expand free v (fun _ => 0) i := by
  have key : ∀ (l : List (Fin n)) (d d' : Nat → ℝ), (∀ i, d' i = c * d i) →
      ∀ i, l.foldl (fun d j => Function.update d (free j) ((c • v) j)) d' i =
        c * l.foldl (fun d j => Function.update d (free j) (v j)) d i := by
    intro l
    induction l with
    | nil => intro d d' h; exact h
    | cons j l ih =>
      intro d d' h
      refine ih _ _ fun i => ?_
      by_cases hi : i = free j
      · subst hi; simp
      · simp [Function.update_of_ne hi, h i]
  exact key _ _ _ (fun i => by simp) i

/-- C142. In vector spaces it is enough that the successive configurations are strictly inside the bounds and the full steps inside. -/
theorem C142_vector_space (hls : ls.Local I) (sat0 : Nat → Int) (dqMin : ℝ) (maxIter rd : Nat)
    (q : Nat → ℝ) (m : (Fin (indices s.free.segs).length → ℝ) × S) (hI : I m.2)
    (hin : ∀ j ≤ (solve (s.fullOps D o J0 id (fun _ _ => 0) (fun q v i => q i + v i) ls) s.sqThr dqMin maxIter rd q m).iter,
      StrictlyInside entries (traj (s.fullOps D o J0 id (fun _ _ => 0) (fun q v i => q i + v i) ls) q m j).1)
    (hfull : ∀ j < (solve (s.fullOps D o J0 id (fun _ _ => 0) (fun q v i => q i + v i) ls) s.sqThr dqMin maxIter rd q m).iter,
      InBounds entries fun i => (traj (s.fullOps D o J0 id (fun _ _ => 0) (fun q v i => q i + v i) ls) q m j).1 i +
        expand (hiFree s) (traj (s.fullOps D o J0 id (fun _ _ => 0) (fun q v i => q i + v i) ls) q m (j + 1)).2.1 (fun _ => 0) i) :
    solve (s.fullOps D o J0 id (satFlags entries sat0) (satMove (fun q v i => q i + v i) entries) ls) s.sqThr dqMin maxIter rd q m =
      solve (s.fullOps D o J0 id (fun _ _ => 0) (fun q v i => q i + v i) ls) s.sqThr dqMin maxIter rd q m := by
  refine C142_bounds hls _ sat0 dqMin maxIter rd q m hI hin fun j hj c h0 h1 e he => ?_
  obtain ⟨a1, a2⟩ := hin j hj.le e he
  obtain ⟨b1, b2⟩ := hfull j hj e he
  rw [expand_scale]
  dsimp only at b1 b2
  generalize (traj (s.fullOps D o J0 id (fun _ _ => 0) (fun q v i => q i + v i) ls) q m j).1 e.iq = x at a1 a2 b1 b2 ⊢
  generalize expand (hiFree s) _ (fun _ => 0) e.iq = y at b1 b2 ⊢
  constructor
  · nlinarith
  · nlinarith

end

end Hpp
