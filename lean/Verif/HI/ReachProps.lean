import Verif.HI.OrderProps

/-!
# C129. Constraints that do not depend on the free variables

Sources: `/repo/include/hpp/constraints/solver/impl/hierarchical-iterative.hh`, lines 39-181, and
`/repo/src/solver/hierarchical-iterative.cc`, lines 364-430, 623-672, 694-719 and 744-828.
-/

namespace Hpp

open Matrix

variable {A S κ : Type}

/-- Specification: the line search returns a configuration obtained by integration from the current one. -/
def LineSearch.Integrates (ls : LineSearch A S) : Prop :=
  ∀ (V : Type) (env : LsEnv A V ℝ) (slope : A → V → ℝ) (st : S) (q : A) (u : V),
    ∃ v, (ls V env slope st q u).2.arg = env.integrate q v

/-- C129. The line searches of the library do. -/
theorem C129_line_searches (thr : ℝ) :
    (lineConstant : LineSearch A Unit).Integrates ∧ (lineBacktracking : LineSearch A Unit).Integrates ∧
    (lineFixedSequence : LineSearch A (FixedSeq ℝ)).Integrates ∧
    (lineErrorNormBased thr : LineSearch A ErrNormBased).Integrates := by
  refine ⟨fun V env slope st q u => ⟨_, rfl⟩, fun V env slope st q u => ?_, fun V env slope st q u => ⟨_, rfl⟩,
    fun V env slope st q u => ⟨_, rfl⟩⟩
  obtain ⟨out, g1, -, g2, -⟩ := C32_backtracking env (slope q u) (env.err q) q u
  refine ⟨out.step, ?_⟩
  unfold lineBacktracking
  simp only [g1, Option.getD_some]
  exact g2

theorem expand_not_free {n : Nat} (free : Fin n → Nat) (u : Fin n → ℝ) (k : Nat) (hk : ∀ j, free j ≠ k) :
    expand free u (fun _ => 0) k = 0 := by
  unfold expand
  have key : ∀ (l : List (Fin n)) (d : Nat → ℝ), d k = 0 →
      (l.foldl (fun d j => Function.update d (free j) (u j)) d) k = 0 := by
    intro l
    induction l with
    | nil => exact fun d h => h
    | cons j l ih =>
      intro d hd
      rw [List.foldl_cons]
      refine ih _ ?_
      rw [Function.update_of_ne (Ne.symm (hk j))]
      exact hd
  exact key _ _ rfl

section
variable [DecidableEq κ] {El : Fn ℝ κ → List ℝ → Prop} {nv : Nat} {h : List (Impl ℝ κ × Nat)} {s : HI ℝ κ} {R : κ → List ℝ}

/-- C129. A mandatory constraint that only reads variables that are not free, and which is not satisfied at the initial
configuration: `solve` does not return SUCCESS, and the value of the constraint has not changed.  `rd` are the variables that
the function reads; `move` is the integration followed by saturation. -/
theorem C129_never (hb : HI.Built El nv h s)
    (hl : ∀ e ∈ h, e.1.fn.space.Lawful (El e.1.fn)) (hv : ∀ e ∈ h, ∀ q, El e.1.fn (e.1.fn.value q))
    (hR : HI.RhsIs El h s R) (hne : s.lastIsOptional = true → s.levels ≠ []) {e : Impl ℝ κ × Nat} (he : e ∈ h)
    (hm : IsMandatory s e) (rd : Nat → Prop)
    (hread : ∀ q q' : Nat → ℝ, (∀ i, rd i → q i = q' i) → e.1.fn.value q = e.1.fn.value q')
    (D : Space ℝ → List ℝ → List ℝ → Nat → Nat → ℝ) (o : SvdOps ℝ) (J0 : (Nat → ℝ) → Jac ℝ) (sat : (Nat → ℝ) → Nat → ℝ)
    (move : (Nat → ℝ) → (Nat → ℝ) → Nat → ℝ)
    (hmove : ∀ q v : Nat → ℝ, (∀ k, ¬ Covers s.free.segs k → v k = 0) → ∀ i, rd i → move q v i = q i)
    (ls : LineSearch (Nat → ℝ) S) (hls : ls.Integrates) (dqMin : ℝ) (q : Nat → ℝ)
    (dq : Fin (indices s.free.segs).length → ℝ) (st : S)
    (hun : s.sqThr < sqSum (conError s.ineqThr q e.1 (R e.1.fn.key))) :
    let r := solve (s.fullOps D o J0 id sat move ls) s.sqThr dqMin s.maxIter s.reducedDim q (dq, st)
    r.status ≠ some .success ∧ e.1.fn.value r.arg = e.1.fn.value q ∧ ∀ i, rd i → r.arg i = q i := by
  intro r
  set ops := s.fullOps D o J0 id sat move ls with hops
  obtain ⟨h1, -⟩ := C29_statuses ops s.sqThr dqMin s.maxIter s.reducedDim q (dq, st)
  have hkeep : ∀ k i, rd i → (traj ops q (dq, st) k).1 i = q i := by
    intro k
    induction k with
    | zero => exact fun i _ => rfl
    | succ k ih =>
      intro i hi
      have e1 : traj ops q (dq, st) (k + 1) = ops.search (traj ops q (dq, st) k).1
        (ops.dir (traj ops q (dq, st) k).1 (traj ops q (dq, st) k).2).1 := rfl
      rw [e1]
      generalize traj ops q (dq, st) k = p at ih
      rw [← ih i hi]
      generalize (ops.dir p.1 p.2).1 = m
      obtain ⟨v, hv⟩ := hls _ (s.lsEnv id move) (fun q u => localSlope (s.dLevels D J0 id sat q) u) m.2 p.1 m.1
      show (ls _ (s.lsEnv id move) (fun q u => localSlope (s.dLevels D J0 id sat q) u) m.2 p.1 m.1).2.arg i = p.1 i
      rw [hv]
      refine hmove _ _ (fun k hk => expand_not_free _ _ _ fun j hj => hk ?_) i hi
      rw [← mem_indices, ← hj]
      unfold hiFree
      rw [List.getD_eq_getElem?_getD, List.getElem?_eq_getElem j.2, Option.getD_some]
      exact List.getElem_mem j.2
  have harg : ∀ i, rd i → r.arg i = q i := by
    intro i hi
    rw [show r.arg = _ from h1]
    exact hkeep _ i hi
  have hval : e.1.fn.value r.arg = e.1.fn.value q := hread _ _ harg
  refine ⟨fun hsuc => ?_, hval, harg⟩
  obtain ⟨hs, hf, -⟩ := hb.inv hl hv
  have hnorm : ∀ q, s.sqNorm q = some (ops.norm q) := by
    intro q
    show s.sqNorm q = some ((s.sqNorm q).getD 0)
    rw [solver_sqNorm_eq hs hf hR hne]
    rfl
  obtain ⟨-, h3⟩ := (C29_success hb hl hv hne ops hnorm dqMin s.maxIter s.reducedDim q (dq, st)).1 hsuc
  obtain ⟨w, h4, h5⟩ := h3 e he hm
  rw [getRhs_eq hs hf hR he] at h4
  obtain rfl : R e.1.fn.key = w := Option.some.inj (Option.some.inj h4)
  have h6 : conError s.ineqThr r.arg e.1 (R e.1.fn.key) = conError s.ineqThr q e.1 (R e.1.fn.key) := by
    unfold conError
    rw [hval]
  have h7 : sqSum (conError s.ineqThr r.arg e.1 (R e.1.fn.key)) ≤ s.sqThr := h5
  rw [h6] at h7
  exact absurd hun (not_lt.2 h7)

/-- C129. When no constraint depends on the free variables: `solve` returns SUCCESS if the mandatory constraints are satisfied
and INFEASIBLE otherwise, in both cases without any iteration, and the configuration is returned unchanged. -/
theorem C129_nothing (hb : HI.Built El nv h s)
    (hl : ∀ e ∈ h, e.1.fn.space.Lawful (El e.1.fn)) (hv : ∀ e ∈ h, ∀ q, El e.1.fn (e.1.fn.value q))
    (hR : HI.RhsIs El h s R) (hne : s.lastIsOptional = true → s.levels ≠ []) (ht : 0 ≤ s.sqThr)
    (hno : ∀ e ∈ h, dependsOnFree s.free.segs e.1 = false)
    (D : Space ℝ → List ℝ → List ℝ → Nat → Nat → ℝ) (o : SvdOps ℝ) (J0 : A → Jac ℝ) (conf : A → Nat → ℝ) (sat : A → Nat → ℝ)
    (move : A → (Nat → ℝ) → A) (ls : LineSearch A S) (dqMin : ℝ) (q : A)
    (dq : Fin (indices s.free.segs).length → ℝ) (st : S) :
    let r := solve (s.fullOps D o J0 conf sat move ls) s.sqThr dqMin s.maxIter s.reducedDim q (dq, st)
    r.arg = q ∧ r.iter = 0 ∧
    ((∀ e ∈ h, IsMandatory s e → sqSum (conError s.ineqThr (conf q) e.1 (R e.1.fn.key)) ≤ s.sqThr) → r.status = some .success) ∧
    ((∃ e ∈ h, IsMandatory s e ∧ s.sqThr < sqSum (conError s.ineqThr (conf q) e.1 (R e.1.fn.key))) →
      r.status = some .infeasible) := by
  obtain ⟨hs, hf, -⟩ := hb.inv hl hv
  have hdim : s.reducedDim = 0 := by
    rw [C23_reduced_dimension hb hl hv]
    refine List.sum_eq_zero fun x hx => ?_
    obtain ⟨e, he, rfl⟩ := List.mem_map.1 hx
    rw [hno e he]
    rfl
  have hn : (s.sqNorm (conf q)).getD 0 ≤ s.sqThr ↔
      ∀ e ∈ h, IsMandatory s e → sqSum (conError s.ineqThr (conf q) e.1 (R e.1.fn.key)) ≤ s.sqThr := by
    rw [solver_sqNorm_eq hs hf hR hne, Option.getD_some]
    have key : ∀ (l : List (Impl ℝ κ)) (a : ℝ),
        l.foldl (fun m c => max m (sqSum (conError s.ineqThr (conf q) c (R c.fn.key)))) a ≤ s.sqThr ↔
        a ≤ s.sqThr ∧ ∀ c ∈ l, sqSum (conError s.ineqThr (conf q) c (R c.fn.key)) ≤ s.sqThr := by
      intro l
      induction l with
      | nil => simp
      | cons c l ih =>
        intro a
        rw [List.foldl_cons, ih, max_le_iff]
        simp only [List.mem_cons, forall_eq_or_imp, and_assoc]
    rw [key]
    constructor
    · rintro ⟨-, h2⟩ e he hm
      exact h2 e.1 ((mem_mandatory hs e.1).2 ⟨e.2, he, hm⟩)
    · intro h2
      refine ⟨ht, fun c hc => ?_⟩
      obtain ⟨p, hp, hm⟩ := (mem_mandatory hs c).1 hc
      exact h2 (c, p) hp hm
  intro r
  by_cases hle : (s.sqNorm (conf q)).getD 0 ≤ s.sqThr
  · have hr : r.arg = q ∧ r.iter = 0 ∧ r.status = some .success := by
      have hnl : ¬ (s.sqThr < (s.fullOps D o J0 conf sat move ls).norm q) := not_lt.2 hle
      show (solve _ _ _ _ _ _ _).arg = _ ∧ (solve _ _ _ _ _ _ _).iter = _ ∧ (solve _ _ _ _ _ _ _).status = _
      unfold solve
      simp only [hnl, false_and, if_false]
      cases s.maxIter <;> simp [solveLoop, solveEnd, hnl]
    refine ⟨hr.1, hr.2.1, fun _ => hr.2.2, ?_⟩
    rintro ⟨e, he, hm, hlt⟩
    exact absurd (hn.1 hle e he hm) (not_le.2 hlt)
  · have hgt : s.sqThr < (s.fullOps D o J0 conf sat move ls).norm q := not_le.1 hle
    have hr : r.arg = q ∧ r.iter = 0 ∧ r.status = some .infeasible := by
      show (solve _ _ _ _ _ _ _).arg = _ ∧ (solve _ _ _ _ _ _ _).iter = _ ∧ (solve _ _ _ _ _ _ _).status = _
      unfold solve
      simp [hgt, hdim]
    exact ⟨hr.1, hr.2.1, fun h2 => absurd (hn.2 h2) hle, fun _ => hr.2.2⟩

end

/-- Two solvers whose levels have the same linearised errors. -/
theorem hi_solve_same {s s'' : HI ℝ κ} (h1 : s''.sqThr = s.sqThr) (h3 : s''.maxIter = s.maxIter) (h5 : s''.byLevel = s.byLevel)
    (hlen : s.levels.length = s''.levels.length) (D : Space ℝ → List ℝ → List ℝ → Nat → Nat → ℝ) {o o' : SvdOps ℝ}
    (ho : o.Exact) (hor : o.Ortho) (ho' : o'.Exact) (hor' : o'.Ortho) (J0 J0' : A → Jac ℝ) (conf : A → Nat → ℝ)
    (hnorm : ∀ a, s.sqNorm (conf a) = HI.sqNorm { s'' with free := s.free } (conf a))
    (hdim : s.reducedDim = HI.reducedDim { s'' with free := s.free })
    (hsame : ∀ a (i : Nat) l l', s.levels[i]? = some l → s''.levels[i]? = some l' →
      DLevel.Same (s.dLevel D (J0 a) (conf a) l) (HI.dLevel { s'' with free := s.free } D (J0' a) (conf a) l'))
    (sat : A → Nat → ℝ) (move : A → (Nat → ℝ) → A) (ls : LineSearch A S) (dqMin : ℝ) (q : A)
    (dq : Fin (indices s.free.segs).length → ℝ) (st : S) :
    solve (HI.fullOps { s'' with free := s.free } D o' J0' conf sat move ls) s''.sqThr dqMin s''.maxIter
      (HI.reducedDim { s'' with free := s.free }) q (dq, st) =
    solve (s.fullOps D o J0 conf sat move ls) s.sqThr dqMin s.maxIter s.reducedDim q (dq, st) := by
  have hlev : ∀ q, List.Forall₂ DLevel.Same (s.dLevels D J0 conf sat q)
      (HI.dLevels { s'' with free := s.free } D J0' conf sat q) := by
    intro q
    refine forall₂_of_index _ _ ?_ ?_
    · unfold HI.dLevels
      rw [List.length_map, List.length_map]
      exact hlen
    · intro i a b ha hb1
      unfold HI.dLevels at ha hb1
      rw [List.getElem?_map] at ha hb1
      obtain ⟨l, hl1, rfl⟩ := Option.map_eq_some_iff.1 ha
      obtain ⟨l', hl2, rfl⟩ := Option.map_eq_some_iff.1 hb1
      exact C128_saturation (hsame q i l l' hl1 hl2) _
  have hops : s.fullOps D o J0 conf sat move ls = HI.fullOps { s'' with free := s.free } D o' J0' conf sat move ls := by
    have hd : ∀ q (v : Fin (indices s.free.segs).length → ℝ), descend o s.byLevel s.sqThr (s.dLevels D J0 conf sat q) v =
        descend o' s''.byLevel s''.sqThr (HI.dLevels { s'' with free := s.free } D J0' conf sat q) v := by
      intro q v
      rw [h1, h5]
      exact C128_direction ho hor ho' hor' s.byLevel s.sqThr (hlev q) v
    have hslope : (fun q u => localSlope (s.dLevels D J0 conf sat q) u) =
        fun q u => localSlope (HI.dLevels { s'' with free := s.free } D J0' conf sat q) u := by
      funext q u
      exact C128_slope (hlev q) u
    have henv : s.lsEnv conf move = HI.lsEnv { s'' with free := s.free } conf move := by
      unfold HI.lsEnv
      simp only [hnorm]
      rfl
    unfold HI.fullOps
    simp only [hnorm, hd, hslope, henv]
  rw [← hops, ← hdim, h1, h3]

section
variable [DecidableEq κ] {El : Fn ℝ κ → List ℝ → Prop} {nv nv' : Nat} {h h' : List (Impl ℝ κ × Nat)} {s s' : HI ℝ κ}
  {R : κ → List ℝ}

/-- C129. A constraint that does not depend on the free variables and is satisfied exactly (or is optional) can be removed: `solve`
returns the same configuration, status and number of iterations.  `A` is a set of configurations that `solve` does not leave: those
where the variables that are not free have given values. -/
theorem C129_removable (hb : HI.Built El nv h s) (hb' : HI.Built El nv' h' s') {c : Impl ℝ κ} {p : Nat}
    (hp : h.Perm ((c, p) :: h')) (hlen : s.levels.length = s'.levels.length)
    (hl : ∀ e ∈ h, e.1.fn.space.Lawful (El e.1.fn)) (hv : ∀ e ∈ h, ∀ q, El e.1.fn (e.1.fn.value q))
    (hopt : s.SameOptions s') (hR : HI.RhsIs El h s R) (hR' : HI.RhsIs El h' s' R)
    (hne : s.lastIsOptional = true → s.levels ≠ []) (hfree : dependsOnFree s.free.segs c = false)
    (D : Space ℝ → List ℝ → List ℝ → Nat → Nat → ℝ) {o o' : SvdOps ℝ}
    (ho : o.Exact) (hor : o.Ortho) (ho' : o'.Exact) (hor' : o'.Ortho) (J0 J0' : A → Jac ℝ) (conf : A → Nat → ℝ)
    (hzero : IsMandatory s (c, p) → ∀ a, sqSum (conError s.ineqThr (conf a) c (R c.fn.key)) = 0)
    (sat : A → Nat → ℝ) (move : A → (Nat → ℝ) → A) (ls : LineSearch A S) (dqMin : ℝ) (q : A) (dq : Nat → ℝ) (st : S) :
    let r := solve (s.fullOps D o J0 conf sat move ls) s.sqThr dqMin s.maxIter s.reducedDim q (fun j => dq (hiFree s j), st)
    let r' := solve (s'.fullOps D o' J0' conf sat move ls) s'.sqThr dqMin s'.maxIter s'.reducedDim q
      (fun j => dq (hiFree s' j), st)
    r'.arg = r.arg ∧ r'.status = r.status ∧ r'.iter = r.iter := by
  have hmem : ∀ e ∈ h', e ∈ h := fun e he => hp.mem_iff.2 (List.mem_cons_of_mem _ he)
  have hl' : ∀ e ∈ h', e.1.fn.space.Lawful (El e.1.fn) := fun e he => hl e (hmem e he)
  have hv' : ∀ e ∈ h', ∀ q, El e.1.fn (e.1.fn.value q) := fun e he => hv e (hmem e he)
  obtain ⟨hs, hf, -⟩ := hb.inv hl hv
  obtain ⟨hs', hf', -⟩ := hb'.inv hl' hv'
  obtain ⟨hfr, h1, h2, h3, h4, h5⟩ := hopt
  obtain ⟨s'', rfl⟩ : ∃ s'', s' = { s'' with free := s.free } := ⟨s', by rw [← hfr]⟩
  have hat : ∀ i, (atLevel h i).Perm (if p = i then c :: atLevel h' i else atLevel h' i) := by
    intro i
    refine (atLevel_perm hp i).trans ?_
    unfold atLevel
    rw [List.filter_cons]
    by_cases hpi : p = i
    · simp [hpi]
    · simp [hpi]
  have hnorm : ∀ a, s.sqNorm (conf a) = HI.sqNorm { s'' with free := s.free } (conf a) := by
    intro a
    have hne' : s''.lastIsOptional = true → s''.levels ≠ [] := by
      intro g1 g2
      apply hne (h4.symm.trans g1)
      have g3 : s''.levels.length = 0 := by rw [g2]; rfl
      exact List.length_eq_zero_iff.1 (hlen.trans g3)
    rw [solver_sqNorm_eq hs hf hR hne, solver_sqNorm_eq hs' hf' hR' hne']
    have hn : HI.nMandatory { s'' with free := s.free } = s.nMandatory := by
      unfold HI.nMandatory
      have h4' : s''.lastIsOptional = s.lastIsOptional := h4
      have hlen' : s.levels.length = s''.levels.length := hlen
      show (if s''.lastIsOptional then s''.levels.length - 1 else s''.levels.length) = _
      rw [h4', hlen']
    have h2' : s''.ineqThr = s.ineqThr := h2
    rw [hn]
    simp only [h2']
    congr 1
    have hrc : RightCommutative fun (m : ℝ) (c : Impl ℝ κ) => max m (sqSum (conError s.ineqThr (conf a) c (R c.fn.key))) :=
      ⟨fun a b c => max_right_comm _ _ _⟩
    have hp1 : ((List.range s.nMandatory).flatMap (atLevel h)).Perm
        (if p < s.nMandatory then c :: (List.range s.nMandatory).flatMap (atLevel h')
          else (List.range s.nMandatory).flatMap (atLevel h')) := by
      refine (List.Perm.flatMap_left _ fun i _ => hat i).trans ?_
      generalize s.nMandatory = n
      induction n with
      | zero => simp
      | succ n ih =>
        rw [List.range_succ, List.flatMap_append, List.flatMap_append, List.flatMap_singleton, List.flatMap_singleton]
        refine (ih.append_right _).trans ?_
        by_cases a1 : p < n
        · rw [if_pos a1, if_pos (Nat.lt_succ_of_lt a1), if_neg (by omega)]
          exact List.Perm.refl _
        · rw [if_neg a1]
          by_cases a2 : p = n
          · rw [if_pos a2, if_pos (by omega)]
            exact List.perm_middle
          · rw [if_neg a2, if_neg (by omega)]
    rw [hp1.foldl_eq 0]
    by_cases hpm : p < s.nMandatory
    · rw [if_pos hpm, List.foldl_cons]
      have hm : IsMandatory s (c, p) := by
        intro hlo
        unfold HI.nMandatory at hpm
        rw [if_pos hlo] at hpm
        show p + 1 < _
        omega
      rw [hzero hm a, max_self]
    · rw [if_neg hpm]
  have hdim : s.reducedDim = HI.reducedDim { s'' with free := s.free } := by
    rw [C23_reduced_dimension hb hl hv, C23_reduced_dimension hb' hl' hv', (hp.map _).sum_eq, List.map_cons, List.sum_cons, hfree]
    exact Nat.zero_add _
  have hsame : ∀ a (i : Nat) l l', s.levels[i]? = some l → s''.levels[i]? = some l' →
      DLevel.Same (s.dLevel D (J0 a) (conf a) l) (HI.dLevel { s'' with free := s.free } D (J0' a) (conf a) l') := by
    intro a i l l' hl1 hl2
    refine ⟨?_, fun x => ?_⟩
    · refine (dLevel_empty hb hl hv hl1 _ _).trans (Iff.trans ?_ (dLevel_empty hb' hl' hv' hl2 (J0' a) (conf a)).symm)
      constructor
      · intro H d hd
        refine H d ((hat i).mem_iff.2 ?_)
        split
        · exact List.mem_cons_of_mem _ hd
        · exact hd
      · intro H d hd hdf
        have hd' := (hat i).mem_iff.1 hd
        split at hd'
        · rcases List.mem_cons.1 hd' with rfl | hd''
          · rw [hfree] at hdf
            cases hdf
          · exact H d hd'' hdf
        · exact H d hd' hdf
    · refine (dLevel_cost hb hl hv hR hl1 _ _ x).trans (Eq.trans ?_ (dLevel_cost hb' hl' hv' hR' hl2 (J0' a) (conf a) x).symm)
      have h2' : s''.ineqThr = s.ineqThr := h2
      simp only [h2']
      refine (((hat i).map _).sum_eq).trans ?_
      split
      · rw [List.map_cons, List.sum_cons]
        have : ∑ r ∈ Finset.range c.fn.space.nv, conCost s.free.segs s.ineqThr D (conf a) x (R c.fn.key) c r = 0 := by
          refine Finset.sum_eq_zero fun r _ => ?_
          unfold conCost
          rw [if_neg]
          rw [hfree]
          rintro ⟨h0, -⟩
          cases h0
        rw [this, zero_add]
      · rfl
  intro r r'
  have : r' = r := hi_solve_same h1 h3 h5 hlen D ho hor ho' hor' J0 J0' conf hnorm hdim hsame sat move ls dqMin q _ st
  rw [this]
  exact ⟨rfl, rfl, rfl⟩

end

namespace ReachEx
open HINewtonEx

/-- `q ↦ q₁ - 1` -/
noncomputable def fn3 : Fn ℝ Nat where
  key := 1
  inputSize := 2
  inputDer := 2
  spaceId := 1
  space := vectorSpace ℝ 1
  value q := [q 1 - 1]
  jac _ := fun _ k => if k = 1 then 1 else 0
  activeQ := [false, true]
  active := [false, true]

/-- `q₁ = 1` -/
noncomputable def con3 : Impl ℝ Nat := (Impl.create fn3 [.equality] []).get rfl

/-- The constraints `q₁² = q₀` and `q₁ = 1`; only `q₀` is free. -/
noncomputable def sol1 : HI ℝ Nat :=
  { (((HI.init ℝ Nat 2).add con3 0).1.add con 0).1.setFreeIndices (Blocks.empty.add 0 1) with
    sqThr := 1 / 10 ^ 8, ineqThr := 0, maxIter := 20, lastIsOptional := false, byLevel := false }

/-- The constraint `q₁² = q₀` alone -/
noncomputable def sol2 : HI ℝ Nat :=
  { ((HI.init ℝ Nat 2).add con 0).1.setFreeIndices (Blocks.empty.add 0 1) with
    sqThr := 1 / 10 ^ 8, ineqThr := 0, maxIter := 20, lastIsOptional := false, byLevel := false }

/-- The constraint `q₁ = 1` alone -/
noncomputable def sol3 : HI ℝ Nat :=
  { ((HI.init ℝ Nat 2).add con3 0).1.setFreeIndices (Blocks.empty.add 0 1) with
    sqThr := 1 / 10 ^ 8, ineqThr := 0, maxIter := 20, lastIsOptional := false, byLevel := false }

theorem built1 : HI.Built El 2 [(con3, 0), (con, 0)] sol1 :=
  .params _ _ _ _ _ (.free (.add (h := [(con3, 0)]) (.add (h := []) .init
    ⟨fn3, [], [.equality], .create _ _ (Option.some_get _).symm⟩ (Prod.ext rfl rfl))
    ⟨fn, [], [.equality], .create _ _ (Option.some_get _).symm⟩ (Prod.ext rfl rfl)))

theorem built2 : HI.Built El 2 [(con, 0)] sol2 :=
  .params _ _ _ _ _ (.free (.add (h := []) .init
    ⟨fn, [], [.equality], .create _ _ (Option.some_get _).symm⟩ (Prod.ext rfl rfl)))

theorem built3 : HI.Built El 2 [(con3, 0)] sol3 :=
  .params _ _ _ _ _ (.free (.add (h := []) .init
    ⟨fn3, [], [.equality], .create _ _ (Option.some_get _).symm⟩ (Prod.ext rfl rfl)))

theorem rhs1 : HI.RhsIs El [(con3, 0), (con, 0)] sol1 fun _ => [0] where
  el := by
    intro e he
    simp only [List.mem_cons, List.not_mem_nil, or_false] at he
    rcases he with rfl | rfl <;> rfl
  eq := by
    intro i l hi
    have h0 : i < 1 := lt_of_getElem?_some (l := sol1.levels) hi
    obtain rfl : i = 0 := by omega
    obtain rfl : (sol1.levels[0]?).get rfl = l := Option.some.inj ((Option.some_get _).trans hi)
    rfl

theorem rhs2 : HI.RhsIs El [(con, 0)] sol2 fun _ => [0] where
  el := by
    intro e he
    obtain rfl := List.mem_singleton.1 he
    rfl
  eq := by
    intro i l hi
    have h0 : i < 1 := lt_of_getElem?_some (l := sol2.levels) hi
    obtain rfl : i = 0 := by omega
    obtain rfl : (sol2.levels[0]?).get rfl = l := Option.some.inj ((Option.some_get _).trans hi)
    rfl

theorem rhs3 : HI.RhsIs El [(con3, 0)] sol3 fun _ => [0] where
  el := by
    intro e he
    obtain rfl := List.mem_singleton.1 he
    rfl
  eq := by
    intro i l hi
    have h0 : i < 1 := lt_of_getElem?_some (l := sol3.levels) hi
    obtain rfl : i = 0 := by omega
    obtain rfl : (sol3.levels[0]?).get rfl = l := Option.some.inj ((Option.some_get _).trans hi)
    rfl

theorem con3_error (q : Nat → ℝ) : conError 0 q con3 [0] = [q 1 - 1 - 0] := rfl

theorem con3_sq (q : Nat → ℝ) : sqSum (conError 0 q con3 [0]) = (q 1 - 1) ^ 2 := by
  rw [con3_error]
  simp [sqSum]
  ring

/-- From `q₁ = 2` the solver never succeeds, and `q₁` stays equal to 2. -/
example (o : SvdOps ℝ) (J0 : (Nat → ℝ) → Jac ℝ) (q : Nat → ℝ) (hq : q 1 = 2) :
    let r := solve (sol1.fullOps D o J0 id (fun _ _ => 0) (fun q v i => q i + v i) lineBacktracking) sol1.sqThr (1 / 10 ^ 12)
      sol1.maxIter sol1.reducedDim q (fun _ => 0, ())
    r.status ≠ some .success ∧ r.arg 1 = 2 := by
  have H := C129_never built1
    (by intro e he
        simp only [List.mem_cons, List.not_mem_nil, or_false] at he
        rcases he with rfl | rfl <;> exact vectorSpace_lawful 1)
    (by intro e he q
        simp only [List.mem_cons, List.not_mem_nil, or_false] at he
        rcases he with rfl | rfl <;> rfl)
    rhs1 (fun h => by cases h) (e := (con3, 0)) (List.mem_cons_self ..) (fun h => by cases h) (· = 1)
    (fun q q' h => by show [q 1 - 1] = [q' 1 - 1]; rw [h 1 rfl]) D o J0 (fun _ _ => 0) (fun q v i => q i + v i)
    (by rintro q v hv i rfl
        show q 1 + v 1 = q 1
        rw [hv 1, add_zero]
        rintro ⟨g, hg, h1, h2⟩
        obtain rfl : g = ⟨0, 1⟩ := List.mem_singleton.1 hg
        exact absurd h2 (by decide))
    lineBacktracking (C129_line_searches 0).2.1 (1 / 10 ^ 12) q (fun _ => 0) ()
    (by show (1 / 10 ^ 8 : ℝ) < sqSum (conError 0 q con3 [0])
        rw [con3_sq, hq]
        norm_num)
  exact ⟨H.1, (H.2.2 1 rfl).trans hq⟩

/-- With `q₁ = 1` alone nothing can be moved. -/
example (o : SvdOps ℝ) (J0 : (Nat → ℝ) → Jac ℝ) (q : Nat → ℝ) (hq : q 1 = 2) :
    (solve (sol3.fullOps D o J0 id (fun _ _ => 0) (fun q v i => q i + v i) lineBacktracking) sol3.sqThr (1 / 10 ^ 12)
      sol3.maxIter sol3.reducedDim q (fun _ => 0, ())).status = some .infeasible :=
  (C129_nothing built3
    (by intro e he
        obtain rfl := List.mem_singleton.1 he
        exact vectorSpace_lawful 1)
    (by intro e he q
        obtain rfl := List.mem_singleton.1 he
        rfl)
    rhs3 (fun h => by cases h) (by show (0 : ℝ) ≤ 1 / 10 ^ 8; norm_num)
    (by intro e he
        obtain rfl := List.mem_singleton.1 he
        rfl)
    D o J0 id (fun _ _ => 0) (fun q v i => q i + v i) lineBacktracking (1 / 10 ^ 12) q (fun _ => 0) ()).2.2.2
    ⟨(con3, 0), List.mem_cons_self .., fun h => (by cases h),
      (by show (1 / 10 ^ 8 : ℝ) < sqSum (conError 0 q con3 [0])
          rw [con3_sq, hq]
          norm_num)⟩

/-- From the configurations with `q₁ = 1`, the constraint `q₁ = 1` can be removed. -/
example (o o' : SvdOps ℝ) (ho : o.Exact) (hor : o.Ortho) (ho' : o'.Exact) (hor' : o'.Ortho)
    (J0 J0' : {q : Nat → ℝ // q 1 = 1} → Jac ℝ) (q : {q : Nat → ℝ // q 1 = 1}) :
    (solve (sol2.fullOps D o' J0' Subtype.val (fun _ _ => 0)
      (fun q v => ⟨fun i => if i = 1 then 1 else q.1 i + v i, rfl⟩) lineBacktracking) sol2.sqThr (1 / 10 ^ 12)
      sol2.maxIter sol2.reducedDim q (fun _ => 0, ())).arg =
    (solve (sol1.fullOps D o J0 Subtype.val (fun _ _ => 0)
      (fun q v => ⟨fun i => if i = 1 then 1 else q.1 i + v i, rfl⟩) lineBacktracking) sol1.sqThr (1 / 10 ^ 12)
      sol1.maxIter sol1.reducedDim q (fun _ => 0, ())).arg :=
  (C129_removable built1 built2 (c := con3) (p := 0) (List.Perm.refl _) rfl
    (by intro e he
        simp only [List.mem_cons, List.not_mem_nil, or_false] at he
        rcases he with rfl | rfl <;> exact vectorSpace_lawful 1)
    (by intro e he q
        simp only [List.mem_cons, List.not_mem_nil, or_false] at he
        rcases he with rfl | rfl <;> rfl)
    ⟨rfl, rfl, rfl, rfl, rfl, rfl⟩ rhs1 rhs2 (fun h => by cases h) rfl D ho hor ho' hor' J0 J0' Subtype.val
    (by intro _ a
        show sqSum (conError 0 a.1 con3 [0]) = 0
        rw [con3_sq, a.2]
        norm_num)
    (fun _ _ => 0) (fun q v => ⟨fun i => if i = 1 then 1 else q.1 i + v i, rfl⟩) lineBacktracking (1 / 10 ^ 12) q (fun _ => 0)
    ()).1

end ReachEx

end Hpp
