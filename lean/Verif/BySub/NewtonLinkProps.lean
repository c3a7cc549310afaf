import Verif.BySub.NewtonLink
import Verif.BySub.LoopProps

/-!
# C115. Local convergence of a solver by substitution built by `add`
-/

namespace Hpp

open Matrix

variable {κ S : Type}

section
variable [DecidableEq κ] {El : Space ℝ → List ℝ → Prop}
  {D : Space ℝ → List ℝ → List ℝ → Nat → Nat → ℝ} {Vel : Fn ℝ κ → (ℝ → List ℝ) → (Nat → ℝ) → Prop}
  {h : BHist ℝ κ} {s : BS ℝ κ} {nq nv : Nat}

/-- C115. Equality constraints: along each curve, the rows of the error that are solved for have for derivative the product of
the rows of the Jacobian computed by the solver by the velocity. -/
theorem C115_level_derivative (hb : BS.Built El nq nv h s) (hl : BHist.Lawful El h)
    (heq : ∀ e ∈ implOf h, ∀ t ∈ e.1.comp, t = .equality ∨ t = .equalToZero)
    (hmov : ∀ (u : ℝ → Nat → ℝ) (t0 : ℝ) (w : Nat → ℝ), (∀ k < nv, HasDerivAt (fun t => u t k) (w k) t0) →
      Moves (fun f => El f.space) (implOf h) D Vel nv (fun t => u (t0 + t)) w)
    {i : Nat} {l : Level ℝ κ} (hi : s.hi.levels[i]? = some l) :
    CurveDeriv nv (s.rows l).segs (fun q => s.lErr D (fun _ _ => 0) q l) (fun q => s.lJac D (fun _ _ => 0) q l) := by
  intro u t0 w hu ρ hρ
  obtain ⟨l1, l2⟩ := hl.impl
  obtain ⟨hs, hf, R, hR⟩ := hb.parts.1.inv l1 l2
  have hρ' := bs_rows_lt hb hl hi ρ hρ
  have hok : ∀ c ∈ atLevel (implOf h) i, c.Ok := fun c hc => by
    obtain ⟨_, _, _, hcb⟩ := hf.built _ (mem_atLevel.1 hc)
    exact hcb.ok.1
  obtain ⟨E, hE, -⟩ := level_evalJac hs hf hR hi D s.hi.ineqThr s.hi.free.segs (u (t0 + 0)) fun _ _ => 0
  obtain ⟨pre, c, post, r, t, b, x, ⟨hsplit, hρr, hr, hbm⟩, htc, -, -, hx, hxd, hJ⟩ :=
    level_row_along hs hf hR hi s.hi.ineqThr (fun _ _ => 0) (hmov u t0 w hu) hE ρ (by
      rw [(hs.level i l hi).nv]; exact hρ')
  have hm := rowMaskBy_row s.rowActive (pre := pre) (post := post) (by rw [← hsplit]; exact hok) hr hbm
  rw [← hsplit, ← hρr, ((bs_rows hb hl hi).1 ρ).1 hρ] at hm
  have hbt : b = true := by
    have := Option.some.inj hm
    split at this
    · exact this.symm
    · cases this
  subst hbt
  have ht : t = .equality ∨ t = .equalToZero := by
    have htm : t ∈ l.comp := List.mem_of_getElem? htc
    rw [(hs.level i l hi).comp, List.mem_flatMap] at htm
    obtain ⟨c', hc', htc'⟩ := htm
    exact heq _ (mem_atLevel.1 hc') t htc'
  have hx' : ∀ τ, ((l.error s.hi.ineqThr (u (t0 + τ))).getD []).getD ρ 0 = x τ := by
    intro τ
    rw [hx τ]
    rcases ht with rfl | rfl <;> rfl
  have hle : ∀ q, s.lErr D (fun _ _ => 0) q l ρ = ((l.error s.hi.ineqThr q).getD []).getD ρ 0 := by
    intro q
    obtain ⟨E', hE', he', -⟩ := level_evalJac hs hf hR hi D s.hi.ineqThr s.hi.free.segs q fun _ _ => 0
    unfold BS.lErr
    rw [hE', he']
    rfl
  have hJ' : ∀ k, s.lJac D (fun _ _ => 0) (u t0) l ρ k =
      ∑ j ∈ Finset.range c.fn.space.nv, D c.fn.space (R c.fn.key) (c.fn.value (u (t0 + 0))) r j * c.fn.jac (u (t0 + 0)) j k := by
    intro k
    have h1 := hJ k
    rw [if_neg (by rcases ht with rfl | rfl <;> rintro (⟨h, -⟩ | ⟨h, -⟩) <;> cases h)] at h1
    rw [← h1]
    unfold BS.lJac
    rw [add_zero] at hE
    rw [hE]
    rfl
  have h3 : HasDerivAt (fun τ => x (-t0 + τ)) (∑ j ∈ Finset.range c.fn.space.nv,
      D c.fn.space (R c.fn.key) (c.fn.value (u (t0 + 0))) r j *
        ∑ k ∈ Finset.range nv, c.fn.jac (u (t0 + 0)) j k * w k) t0 :=
    HasDerivAt.comp_const_add (-t0) t0 (by rw [neg_add_cancel]; exact hxd)
  refine HasDerivAt.congr_of_eventuallyEq (h3.congr_deriv ?_) ?_
  · simp only [hJ']
    exact (sum_swap_apply _ _ _ _ _).symm
  · filter_upwards with τ
    rw [hle, ← hx', add_neg_cancel_left]

omit [DecidableEq κ] in
theorem bsSolve_dims {A M : Type} (o : BsOps A M ℝ) (thr dqMin : ℝ) (maxIter n n' : Nat) (w l : Bool) (a : A) (m : M) {a0 : A}
    (he : o.expl a = (a0, true)) (ht : 0 ≤ thr) (hz : n = 0 → o.norm a0 = 0)
    (hsuc : (bsSolve o thr dqMin maxIter n' w l a m).status = .success) :
    bsSolve o thr dqMin maxIter n w l a m = bsSolve o thr dqMin maxIter n' w l a m := by
  unfold bsSolve at hsuc ⊢
  simp only [he] at hsuc ⊢
  by_cases hn : 1 / 4 * thr < o.norm a0
  · have hr : n ≠ 0 := fun h0 => by
      rw [hz h0] at hn
      linarith
    by_cases hf : n' = 0
    · rw [if_pos (⟨hn, hf⟩ : 1 / 4 * thr < o.norm a0 ∧ n' = 0)] at hsuc
      cases hsuc
    · rw [if_neg (fun h : 1 / 4 * thr < o.norm a0 ∧ n = 0 => hr h.2),
        if_neg (fun h : 1 / 4 * thr < o.norm a0 ∧ n' = 0 => hf h.2)]
  · rw [if_neg (fun h : 1 / 4 * thr < o.norm a0 ∧ n = 0 => hn h.1),
      if_neg (fun h : 1 / 4 * thr < o.norm a0 ∧ n' = 0 => hn h.1)]

/-- If the search succeeds with the number of free variables in the first test of `solve`, it gives the same result with the
number of rows solved for. -/
theorem bs_solve_dims (hb : BS.Built El nq nv h s) (hl : BHist.Lawful El h)
    (o : SvdOps ℝ) (dqMin : ℝ) (ht : 0 ≤ s.hi.sqThr) (byLevel : Bool)
    (ls : S → (Nat → ℝ) → (Fin (indices s.hi.free.segs).length → ℝ) →
      (S × LsOut (Nat → ℝ) (Fin (indices s.hi.free.segs).length → ℝ)) × Bool)
    (maxIter : Nat) (w l : Bool) (q : Nat → ℝ)
    (m : (Fin (indices s.hi.free.segs).length → ℝ) × (Fin (indices s.hi.free.segs).length → ℝ) × S)
    (hsuc : (bsSolve (bsNewtonOps o byLevel false s.hi.sqThr (s.hi.levels.map (s.nLevel D)) (bsExpl s) ls) s.hi.sqThr dqMin
      maxIter (indices s.hi.free.segs).length w l q m).status = .success) :
    bsSolve (bsNewtonOps o byLevel false s.hi.sqThr (s.hi.levels.map (s.nLevel D)) (bsExpl s) ls) s.hi.sqThr dqMin
      maxIter s.reducedDim w l q m =
    bsSolve (bsNewtonOps o byLevel false s.hi.sqThr (s.hi.levels.map (s.nLevel D)) (bsExpl s) ls) s.hi.sqThr dqMin
      maxIter (indices s.hi.free.segs).length w l q m := by
  have hz : s.reducedDim = 0 → ∀ a, nSqNorm false (s.hi.levels.map (s.nLevel D)) a = 0 := by
    intro hr0 a
    refine nSqNorm_zero false _ a fun l hl' => ?_
    obtain ⟨l, hm, rfl⟩ := List.mem_map.1 hl'
    have h1 : (s.rows l).nb = 0 := List.sum_eq_zero_iff.1 hr0 _ (List.mem_map.2 ⟨l, hm, rfl⟩)
    obtain ⟨i, hi⟩ := List.getElem?_of_mem hm
    have h2 : (indices (s.rows l).segs).length = 0 := by
      obtain ⟨k1, -, k3, -⟩ := bs_rows hb hl hi
      rw [h1] at k3
      rw [List.length_eq_zero_iff, List.eq_nil_iff_forall_not_mem]
      intro ρ hρ
      exact absurd (List.mem_of_getElem? ((k1 ρ).1 hρ)) (List.count_eq_zero.1 k3.symm)
    funext r
    exact absurd r.2 (by show ¬ r.1 < (indices (s.rows l).segs).length; omega)
  exact bsSolve_dims _ _ _ _ _ _ _ _ _ _ (a0 := s.ex.solve q) rfl ht (fun h0 => hz h0 _) hsuc

/-- C115. Local convergence of the solver by substitution, for equality constraints on a vector space, with the explicit
constraints, the error, the reduced Jacobians and the rows that it computes for the constraints inserted.
If the Jacobians of the functions are their derivatives, if, around the initial configuration, the reduced Jacobians are Lipschitz
continuous and bounded and the linearised constraints have a solution of norm at most `β` times the error, if the
initial error is small enough and if enough iterations are allowed, then `SUCCESS` is returned.  At the configuration returned the explicit
constraints hold exactly, the squared error computed by the solver is below the threshold, and so is the
squared error of each implicit constraint. -/
theorem C115_success (hb : BS.Built El nq nq h s) (hl : BHist.Lawful El h) (hsy : s.Synced)
    (hw : ∀ c ∈ explOf h, WellFormed nq nq c) (hvec : ∀ c ∈ explOf h, c.inV = c.inQ ∧ c.outV = c.outQ)
    (hs : ∀ c ∈ explOf h, c.inQ.Pairwise lexLe) (hol : ∀ d ∈ s.ex.data, d.OutLen)
    (hD : ∀ q, ∀ d ∈ s.ex.data, d.IsDeriv q (d.c.jac (rview q d.c.inQ) d.fval d.rhs))
    (heq : ∀ e ∈ implOf h, ∀ t ∈ e.1.comp, t = .equality ∨ t = .equalToZero)
    (hmov : ∀ (u : ℝ → Nat → ℝ) (t0 : ℝ) (w : Nat → ℝ), (∀ k < nq, HasDerivAt (fun t => u t k) (w k) t0) →
      Moves (fun f => El f.space) (implOf h) D Vel nq (fun t => u (t0 + t)) w)
    (hdep : ∀ e ∈ implOf h, true ∈ e.1.mask → s.rowActive e.1 = true)
    (hopt : s.hi.lastIsOptional = false) (hby : s.hi.byLevel = false)
    (hlv : s.hi.levels.length ≤ 1 ∨ ∃ l ls, s.hi.levels = l :: ls ∧ indices (s.rows l).segs ≠ [])
    (o : SvdOps ℝ) (ho : o.Exact) (hor : o.Ortho) (dqMin : ℝ) (ht : 0 < s.hi.sqThr)
    (q0 : Nat → ℝ) (ρ L β K : ℝ) (hL : 0 ≤ L) (hβ : 0 ≤ β) (hK0 : 0 ≤ K)
    (hLip : ∀ l ∈ s.hi.levels, ∀ x x', dist x 0 ≤ ρ → dist x' 0 ≤ ρ → ∀ v,
      nrm ((s.dJ D (fun _ _ => 0) (bsSub s q0 x') l - s.dJ D (fun _ _ => 0) (bsSub s q0 x) l) *ᵥ v) ≤
        L * nrm (x' - x) * nrm v)
    (hlin : ∀ x, dist x 0 ≤ ρ → ∃ v, (∀ l ∈ s.hi.levels, s.dJ D (fun _ _ => 0) (bsSub s q0 x) l *ᵥ v =
      -s.dErr D (fun _ _ => 0) (bsSub s q0 x) l) ∧
      nrm v ≤ β * Real.sqrt ((s.hi.sqNorm (bsSub s q0 x)).getD 0))
    (hK : ∀ l ∈ s.hi.levels, ∀ x, dist x 0 ≤ ρ → ∀ v, (s.dJ D (fun _ _ => 0) (bsSub s q0 x) l *ᵥ v) ⬝ᵥ
      (s.dJ D (fun _ _ => 0) (bsSub s q0 x) l *ᵥ v) ≤ K * (v ⬝ᵥ v))
    (ε : ℝ) (hε : s.hi.sqNorm (s.ex.solve q0) = some (ε ^ 2)) (hε0 : 0 ≤ ε) (hρ : 2 * β * ε ≤ ρ)
    (hE : L * β ^ 2 * ε ≤ 1 / 2)
    (I : S → Prop) (bmin : ℝ) (hbm : 0 < bmin) (hb1 : bmin ≤ 1)
    (ls : S → (Nat → ℝ) → (Fin (indices s.hi.free.segs).length → ℝ) →
      (S × LsOut (Nat → ℝ) (Fin (indices s.hi.free.segs).length → ℝ)) × Bool)
    (hls : BsStepsIn (bsMove s) (bsExpl s) I bmin ls) (hm : ((1 - bmin / 2) ^ s.hi.maxIter * ε) ^ 2 ≤ 1 / 4 * s.hi.sqThr)
    (hdq : K * dqMin ≤ 1 / 4 * s.hi.sqThr) (J0 : (Nat → ℝ) → Jac ℝ) (w : Bool)
    (dq u : Fin (indices s.hi.free.segs).length → ℝ) (st : S) (hst : I st) :
    let r := bsSolve (s.ops D o J0 ls) s.hi.sqThr dqMin s.hi.maxIter s.reducedDim w s.hi.lastIsOptional q0 (dq, u, st)
    r.status = .success ∧ (∀ d ∈ s.ex.data, d.Holds r.arg) ∧
    (∃ x, s.hi.sqNorm r.arg = some x ∧ x < s.hi.sqThr) ∧
    ∀ e ∈ implOf h, ∃ v, s.hi.isConstraintSatisfied e.1 r.arg = some (some (v, true)) ∧ sqSum v < s.hi.sqThr := by
  have hk : s.Kept h := fun e he => ⟨fun r hr => hdep e he (List.mem_of_getElem? hr), fun r t _ htc hin => by
    rcases heq e he t (List.mem_of_getElem? htc) with rfl | rfl <;> rcases hin with h | h <;> cases h⟩
  have hne : s.hi.lastIsOptional = true → s.hi.levels ≠ [] := fun h => by rw [hopt] at h; cases h
  have hnorm : ∀ q, s.hi.sqNorm q = some (nSqNorm false (s.hi.levels.map (s.nLevel D)) q) := fun q => by
    have := bs_nSqNorm_levels (D := D) hb hl hk hne q
    rwa [hopt] at this
  have hnerr : ∀ q, nErr (s.hi.levels.map (s.nLevel D)) q = Real.sqrt ((s.hi.sqNorm q).getD 0) := fun q => by
    rw [hnorm q]; rfl
  have herr : nErr (s.hi.levels.map (s.nLevel D)) (s.ex.solve q0) = ε := by
    rw [hnerr, hε, Option.getD_some, Real.sqrt_sq hε0]
  have hsteps := C115_same_steps (D := D) hb hl hk hne o J0 ls
  rw [hopt, hby] at hsteps
  have main := C95_solver hb hsy hw hvec hs hol hD o ho hor s.hi.sqThr dqMin ht.le (s.hi.levels.map (s.nLevel D)) (by
      rcases hlv with h | ⟨l, ls', h, hr⟩
      · exact .inl (by rwa [List.length_map])
      · refine .inr ⟨_, _, by rw [h]; rfl, ?_⟩
        show (indices (s.rows l).segs).length ≠ 0
        exact fun h => hr (List.length_eq_zero_iff.1 h)) (by
      intro l hl'
      obtain ⟨l, hml, rfl⟩ := List.mem_map.1 hl'
      obtain ⟨i, hi⟩ := List.getElem?_of_mem hml
      exact ⟨_, _, _, _, _, rfl, C115_level_derivative hb hl heq hmov hi⟩)
    q0 ρ L β K hL hβ hK0 (by
      intro l hl' x x' hx hx' v
      obtain ⟨l, hml, rfl⟩ := List.mem_map.1 hl'
      exact hLip l hml x x' hx hx' v) (by
      intro x hx
      obtain ⟨v, h1, h2⟩ := hlin x hx
      refine ⟨v, fun l hl' => ?_, by rw [hnerr]; exact h2⟩
      obtain ⟨l, hml, rfl⟩ := List.mem_map.1 hl'
      exact h1 l hml) (by
      intro l hl' x hx v
      obtain ⟨l, hml, rfl⟩ := List.mem_map.1 hl'
      exact hK l hml x hx v) (by rw [herr]; exact hρ) (by rw [herr]; exact hE) I bmin hbm hb1 ls hls s.hi.maxIter
    (by rw [herr]; exact hm) hdq w false (Bool.and_false w) dq u st hst
  intro r
  have er : r = bsSolve (bsNewtonOps o false false s.hi.sqThr (s.hi.levels.map (s.nLevel D)) (bsExpl s) ls) s.hi.sqThr
      dqMin s.hi.maxIter (indices s.hi.free.segs).length w false q0 (dq, u, st) := by
    show bsSolve _ _ _ _ _ _ _ _ _ = _
    rw [hsteps, hopt]
    exact bs_solve_dims hb hl o dqMin ht.le false ls s.hi.maxIter w false q0 (dq, u, st) main.1
  rw [er]
  refine ⟨main.1, main.2.1, ?_⟩
  obtain ⟨-, h4⟩ := C37_success _ _ _ _ _ _ _ _ _ main.1
  have h5 : nSqNorm false (s.hi.levels.map (s.nLevel D)) (bsSolve (bsNewtonOps o false false s.hi.sqThr
      (s.hi.levels.map (s.nLevel D)) (bsExpl s) ls) s.hi.sqThr dqMin s.hi.maxIter (indices s.hi.free.segs).length w false q0
      (dq, u, st)).arg < s.hi.sqThr := by
    rcases h4 with h4 | h4
    · exact h4
    · refine lt_of_le_of_lt h4 ?_
      linarith
  generalize (bsSolve (bsNewtonOps o false false s.hi.sqThr (s.hi.levels.map (s.nLevel D)) (bsExpl s) ls) s.hi.sqThr
    dqMin s.hi.maxIter (indices s.hi.free.segs).length w false q0 (dq, u, st)).arg = q at h5
  refine ⟨⟨_, hnorm q, h5⟩, fun e he => ?_⟩
  obtain ⟨l1, l2⟩ := hl.impl
  obtain ⟨hin, hf, R, hR'⟩ := hb.parts.1.inv l1 l2
  have h6 := hnorm q
  rw [solver_sqNorm_eq hin hf hR' hne] at h6
  have h7 := (foldl_max_spec (fun c : Impl ℝ κ => sqSum (conError s.hi.ineqThr q c (R c.fn.key)))
    ((List.range s.hi.nMandatory).flatMap (atLevel (implOf h))) 0).2.1 e.1 (by
      rw [List.mem_flatMap]
      refine ⟨e.2, ?_, mem_atLevel.2 he⟩
      rw [List.mem_range, HI.nMandatory, hopt]
      exact (C23_levels hb.parts.1 l1 l2).2.1 e he)
  rw [Option.some.inj h6, conError_of_equalities hf hR' he (heq e he)] at h7
  have h8 := lt_of_le_of_lt h7 h5
  refine ⟨_, ?_, h8⟩
  rw [isConstraintSatisfied_eq hin hf hR' he]
  simp only [decide_eq_true h8]

/-- C115. Under the same conditions, if the implicit formulation of each explicit constraint has no error where the
constraint holds and if both parts of the solver have the threshold `t`, then `isSatisfied` answers `true` at
a configuration where the conclusion of `C115_success` holds. -/
theorem C115_satisfied (hb : BS.Built El nq nv h s) (hl : BHist.Lawful El h) (hopt : s.hi.lastIsOptional = false)
    (t : ℝ) (ht : 0 < t) (hthr : s.ex.threshold = t) (hsq : s.hi.sqThr = t * t)
    (hag : ∀ d ∈ s.ex.data, ∀ q, d.Holds q → normSq (d.c.space.sub (d.c.h q) d.rhs) = 0)
    (q : Nat → ℝ) (hex : ∀ d ∈ s.ex.data, d.Holds q) (x : ℝ) (hx : s.hi.sqNorm q = some x) (hxt : x < s.hi.sqThr) :
    ∃ err, s.isSatisfied q = some (err, true) := by
  have hne : s.hi.lastIsOptional = true → s.hi.levels ≠ [] := fun h => by rw [hopt] at h; cases h
  obtain ⟨err, b, h1, h2⟩ := C40_enforced hb hl t (by rw [hthr]; linarith) hthr hsq hne q
  refine ⟨err, ?_⟩
  rw [h1, h2.2 ⟨ht.ne', ?_, ?_⟩]
  · intro d hd
    rw [hag d hd q (hex d hd)]
    exact mul_pos ht ht
  · intro e he hf hm
    obtain ⟨l1, l2⟩ := hl.impl
    obtain ⟨b', g1, g2⟩ := C33_satisfied hb.parts.1 l1 l2 hne q
    have hb' : b' = true := by
      unfold HI.isSatisfied at g1
      rw [hx, Option.map_some, decide_eq_true hxt] at g1
      exact (Option.some.inj g1).symm
    have := (g2.1 hb').2 (e.1.impl, e.2.1) (mem_implOf.2 ⟨e, he, hf, rfl, rfl⟩) hm
    rwa [hsq] at this

end

end Hpp
