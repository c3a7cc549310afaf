import Verif.BySub.InsideEx

/-!
# C144: local convergence of the solver by substitution inside the bounds

Sources: `/repo/include/hpp/constraints/solver/impl/by-substitution.hh`, lines 38-167, `/repo/src/solver/by-substitution.cc`, lines 166-204,
`/repo/src/solver/hierarchical-iterative.cc`, lines 653-672 and 712-719.
-/

namespace Hpp

open Matrix

/-- The states that a solver that does not optimize reaches are those of the successive iterations. -/
theorem bsReach_traj {A M α : Type} [Field α] [LinearOrder α] {o : BsOps A M α} {thr dqMin : α} {a a0 : A} {m : M}
    (ha : o.expl a = (a0, true)) {t : BsSt A M α} (ht : BsReach o thr dqMin false (bsInit o thr false a0 m) t) :
    t.only = false ∧ ∃ k, bsTraj o a m k = some (t.arg, t.mem) := by
  induction ht with
  | start =>
    refine ⟨rfl, 0, ?_⟩
    show (if (o.expl a).2 then some ((o.expl a).1, m) else none) = _
    rw [ha]
    rfl
  | @step t t' hr h1 h2 h3 ih =>
    obtain ⟨i1, k, i2⟩ := ih
    have em : o.stepMem false t = o.dir t.arg t.mem := by
      unfold BsOps.stepMem
      rw [i1]
      rfl
    rw [em] at h3
    unfold bsStep at h3
    rcases hs : o.search t.arg (o.dir t.arg t.mem) with ⟨a1, m1, _ | _⟩
    · rw [hs] at h3
      cases h3
    · rw [hs] at h3
      dsimp only at h3
      rcases he : o.expl a1 with ⟨a2, _ | _⟩
      · rw [he] at h3
        cases h3
      · rw [he] at h3
        dsimp only at h3
        have h4 := Sum.inl.inj h3
        rw [← h4]
        refine ⟨i1, k + 1, ?_⟩
        rw [bsTraj, i2, Option.bind_some]
        dsimp only
        rw [hs]
        dsimp only
        rw [he]
        rfl

section
variable {κ S : Type} [DecidableEq κ] {El : Space ℝ → List ℝ → Prop}
  {D : Space ℝ → List ℝ → List ℝ → Nat → Nat → ℝ} {Vel : Fn ℝ κ → (ℝ → List ℝ) → (Nat → ℝ) → Prop}
  {h : BHist ℝ κ} {s : BS ℝ κ} {nq : Nat}

/-- `pinocchio::integrate` in a vector space -/
def plusNat (q v : Nat → ℝ) : Nat → ℝ := fun i => q i + v i

/-- Moving the free variables only: if the bounds hold before the move and after the resolution of the explicit constraints, they hold in
between. -/
theorem bsMove_inside (hb : BS.Built El nq nq h s) (hsy : s.Synced) (hw : ∀ c ∈ explOf h, WellFormed nq nq c)
    (hvec : ∀ c ∈ explOf h, c.inV = c.inQ ∧ c.outV = c.outQ) (hol : ∀ d ∈ s.ex.data, d.OutLen)
    {entries : List (SatEntry ℝ)} {q : Nat → ℝ} {v : Fin (indices s.hi.free.segs).length → ℝ} (h1 : StrictlyInside entries q)
    (h2 : StrictlyInside entries (s.ex.solve (bsMove s q v))) : InBounds entries (bsMove s q v) := by
  obtain ⟨-, b2, b3, -⟩ := hb.parts
  obtain ⟨hI, -, hnv⟩ := Inv.built b2
  intro e he
  by_cases hf : ∃ j, bsFree s j = e.iq
  · have hw' := hw
    rw [← b3] at hw'
    have hcoh := coherent_of_vec hvec
    rw [← b3] at hcoh
    obtain ⟨j, hj⟩ := hf
    have hmem : bsFree s j ∈ indices s.ex.notOutDers.segs := by
      unfold bsFree
      rw [List.getD_eq_getElem?_getD, List.getElem?_eq_getElem j.2, Option.getD_some, ← hsy]
      exact List.getElem_mem _
    have hcov := ((hI.notOutDers _).1 ((mem_indices _ _).1 hmem)).2
    have hnw : ∀ c ∈ s.ex.cons, ¬ Writes c e.iq := by
      intro c hc hwr
      refine hcov ⟨c, hc, ?_⟩
      rw [b3] at hc
      unfold WritesV
      rw [(hvec c hc).2, hj]
      exact hwr
    have e1 := ((C13_solve b2 hw' hcoh hol (bsMove s q v) _).1 rfl).2 _ hnw
    have := h2 e he
    rw [e1] at this
    exact ⟨this.1.le, this.2.le⟩
  · push Not at hf
    have e1 : bsMove s q v e.iq = q e.iq := by
      show q e.iq + expand (bsFree s) v (fun _ => 0) e.iq = _
      rw [expand_notMem _ _ _ _ hf, add_zero]
    rw [e1]
    exact ⟨(h1 e he).1.le, (h1 e he).2.le⟩

omit [DecidableEq κ] in
/-- The step lengths of the line searches of the library (the conditions of C91), for explicit constraints that are defined
everywhere. -/
theorem C144_line_searches (s : BS ℝ κ) (slope : (Nat → ℝ) → (Fin (indices s.hi.free.segs).length → ℝ) → ℝ) (thr alphaMin : ℝ)
    (h1 : alphaMin < 1) :
    BsStepsIn (bsMove s) (bsExpl s) (fun _ => True) 1 (fun st q u => (lineConstant _ (s.lsEnv plusNat) slope st q u, true)) ∧
    BsStepsIn (bsMove s) (bsExpl s) (fun _ => True) (1 / 5) (fun st q u => (lineBacktracking _ (s.lsEnv plusNat) slope st q u, true)) ∧
    BsStepsIn (bsMove s) (bsExpl s) (fun s => ∃ k : Nat, s = ⟨95 / 100 - 3 / 4 * (4 / 5) ^ k, 95 / 100, 4 / 5⟩) (1 / 5)
      (fun st q u => (lineFixedSequence _ (s.lsEnv plusNat) slope st q u, true)) ∧
    BsStepsIn (bsMove s) (bsExpl s) (fun s => ∃ a b, s = ErrNormBased.mk3 alphaMin a b) alphaMin
      (fun st q u => (lineErrorNormBased thr _ (s.lsEnv plusNat) slope st q u, true)) := by
  refine ⟨fun st q u _ => ⟨trivial, 1, le_refl _, le_refl _, ?_⟩, fun st q u _ => ⟨trivial, ?_⟩, ?_, ?_⟩
  · rw [one_smul]; rfl
  · obtain ⟨out, g1, -, g2, g3⟩ := C32_backtracking (s.lsEnv plusNat) (slope q u) ((s.lsEnv plusNat).err q) q u
    unfold lineBacktracking
    dsimp only
    rw [g1]
    simp only [Option.getD_some]
    rcases g3 with ⟨-, -, k, -, g4, g5, -⟩ | ⟨-, g4, -⟩
    · exact ⟨_, g5.le, pow_le_one₀ (by norm_num) (by norm_num), by rw [g2, g4]; rfl⟩
    · exact ⟨1 / 5, le_refl _, by norm_num, by rw [g2, g4]; rfl⟩
  · rintro st q u ⟨k, rfl⟩
    have e1 : (0 : ℝ) < (4 / 5) ^ k := by positivity
    have e2 : ((4 : ℝ) / 5) ^ k ≤ 1 := pow_le_one₀ (by norm_num) (by norm_num)
    refine ⟨⟨k + 1, ?_⟩, 95 / 100 - 3 / 4 * (4 / 5) ^ k, by linarith, by linarith, rfl⟩
    simp only [lineFixedSequence, FixedSeq.call, FixedSeq.mk.injEq, and_self, and_true]
    rw [pow_succ]
    ring
  · rintro st q u ⟨a, b, rfl⟩
    obtain ⟨al, g1, g2, g3, g4⟩ := C32_error_norm (s.lsEnv plusNat) alphaMin a b h1 ((s.lsEnv plusNat).err q) thr q u
    exact ⟨⟨a, b, rfl⟩, al, g1.le, g2.le, by
      unfold lineErrorNormBased
      dsimp only
      rw [g4, g3]; rfl⟩

/-- C144. Local convergence of the solver by substitution inside the bounds.  Under the hypotheses of C115, if the configurations where the
explicit constraints hold and whose free variables are around the initial ones are strictly inside the bounds, the solver with saturation
takes the same steps as the solver without bounds: it returns `SUCCESS` and a configuration strictly inside the bounds where the explicit constraints
hold exactly and the implicit ones up to the threshold. -/
theorem C144_success (hb : BS.Built El nq nq h s) (hl : BHist.Lawful El h) (hsy : s.Synced)
    (hw : ∀ c ∈ explOf h, WellFormed nq nq c) (hvec : ∀ c ∈ explOf h, c.inV = c.inQ ∧ c.outV = c.outQ)
    (hs : ∀ c ∈ explOf h, c.inQ.Pairwise lexLe) (hol : ∀ d ∈ s.ex.data, d.OutLen)
    (hD : ∀ q, ∀ d ∈ s.ex.data, d.IsDeriv q (d.c.jac (rview q d.c.inQ) d.fval d.rhs))
    (heq : ∀ e ∈ implOf h, ∀ t ∈ e.1.comp, t = .equality ∨ t = .equalToZero)
    (hmov : ∀ (u : ℝ → Nat → ℝ) (t0 : ℝ) (w : Nat → ℝ), (∀ k < nq, HasDerivAt (fun t => u t k) (w k) t0) →
      Moves (fun f => El f.space) (implOf h) D Vel nq (fun t => u (t0 + t)) w)
    (hdep : ∀ e ∈ implOf h, true ∈ e.1.mask → s.rowActive e.1 = true)
    (hopt : s.hi.lastIsOptional = false) (hby : s.hi.byLevel = false)
    (hlv : s.hi.levels.length ≤ 1 ∨ ∃ l ls, s.hi.levels = l :: ls ∧ indices (s.rows l).segs ≠ [])
    (o : SvdOps ℝ) (ho : o.Exact) (hor : o.Ortho) (dqMin : ℝ) (ht : 0 < s.hi.sqThr)
    (q0 : Nat → ℝ) (ρ L β K : ℝ) (hL : 0 ≤ L) (hβ : 0 ≤ β) (hK0 : 0 ≤ K)
    (hLip : ∀ l ∈ s.hi.levels, ∀ x x', dist x 0 ≤ ρ → dist x' 0 ≤ ρ → ∀ v,
      nrm ((s.dJ D (fun _ _ => 0) (bsSub s q0 x') l - s.dJ D (fun _ _ => 0) (bsSub s q0 x) l) *ᵥ v) ≤
        L * nrm (x' - x) * nrm v)
    (hlin : ∀ x, dist x 0 ≤ ρ → ∃ v, (∀ l ∈ s.hi.levels, s.dJ D (fun _ _ => 0) (bsSub s q0 x) l *ᵥ v =
      -s.dErr D (fun _ _ => 0) (bsSub s q0 x) l) ∧
      nrm v ≤ β * Real.sqrt ((s.hi.sqNorm (bsSub s q0 x)).getD 0))
    (hK : ∀ l ∈ s.hi.levels, ∀ x, dist x 0 ≤ ρ → ∀ v, (s.dJ D (fun _ _ => 0) (bsSub s q0 x) l *ᵥ v) ⬝ᵥ
      (s.dJ D (fun _ _ => 0) (bsSub s q0 x) l *ᵥ v) ≤ K * (v ⬝ᵥ v))
    (ε : ℝ) (hε : s.hi.sqNorm (s.ex.solve q0) = some (ε ^ 2)) (hε0 : 0 ≤ ε) (hρ : 2 * β * ε ≤ ρ)
    (hE : L * β ^ 2 * ε ≤ 1 / 2) (J0 : (Nat → ℝ) → Jac ℝ)
    (I I' : S → Prop) (bmin : ℝ) (hbm : 0 < bmin) (hb1 : bmin ≤ 1) (ls : BsLineSearch S) (hloc : ls.Local I')
    (hls : BsStepsIn (bsMove s) (bsExpl s) I bmin fun st q u => ls _ (s.lsEnv plusNat)
      (fun q u => localSlope (s.hi.levels.map (s.dLevel D (J0 q) q)) u) st q u)
    (hm : ((1 - bmin / 2) ^ s.hi.maxIter * ε) ^ 2 ≤ 1 / 4 * s.hi.sqThr)
    (hdq : K * dqMin ≤ 1 / 4 * s.hi.sqThr) (w : Bool)
    (dq u : Fin (indices s.hi.free.segs).length → ℝ) (st : S) (hst : I st) (hst' : I' st)
    (entries : List (SatEntry ℝ)) (sat0 : Nat → Int) (hball : ∀ x, dist x 0 ≤ ρ → StrictlyInside entries (bsSub s q0 x)) :
    let r := bsSolve (s.fullOps D o J0 (fun _ => true) (satFlags entries sat0) (satMove plusNat entries) ls) s.hi.sqThr dqMin s.hi.maxIter
      s.reducedDim w s.hi.lastIsOptional q0 (dq, u, st)
    r = bsSolve (s.fullOps D o J0 (fun _ => true) (fun _ _ => 0) plusNat ls) s.hi.sqThr dqMin s.hi.maxIter
      s.reducedDim w s.hi.lastIsOptional q0 (dq, u, st) ∧
    r.status = .success ∧ (∀ d ∈ s.ex.data, d.Holds r.arg) ∧ StrictlyInside entries r.arg ∧
    (∃ x, r.arg = bsSub s q0 x ∧ dist x 0 ≤ 2 * β * ε) ∧
    (∃ x, s.hi.sqNorm r.arg = some x ∧ x < s.hi.sqThr) ∧
    ∀ e ∈ implOf h, ∃ v, s.hi.isConstraintSatisfied e.1 r.arg = some (some (v, true)) ∧ sqSum v < s.hi.sqThr := by
  intro r
  have hk : s.Kept h := fun e he => ⟨fun r hr => hdep e he (List.mem_of_getElem? hr), fun r t _ htc hin => by
    rcases heq e he t (List.mem_of_getElem? htc) with rfl | rfl <;> rcases hin with h | h <;> cases h⟩
  have hne : s.hi.lastIsOptional = true → s.hi.levels ≠ [] := fun h => by rw [hopt] at h; cases h
  have hnorm : ∀ q, s.hi.sqNorm q = some (nSqNorm false (s.hi.levels.map (s.nLevel D)) q) := fun q => by
    have := bs_nSqNorm_levels (D := D) hb hl hk hne q
    rwa [hopt] at this
  have hnerr : ∀ q, nErr (s.hi.levels.map (s.nLevel D)) q = Real.sqrt ((s.hi.sqNorm q).getD 0) := fun q => by
    rw [hnorm q]; rfl
  have hcoh : AllCoherent (explOf h) := coherent_of_vec hvec
  obtain ⟨hP, hq0, -⟩ := C95_parametrises hb hsy hw hcoh hol q0
  have e0 : bsSub s q0 0 = s.ex.solve q0 := (Prod.mk.inj hq0).1.symm
  have herr : nErr (s.hi.levels.map (s.nLevel D)) (bsSub s q0 0) = ε := by
    rw [e0, hnerr, hε, Option.getD_some, Real.sqrt_sq hε0]
  have hR := bs_regular hb hsy hw hvec hs hol hD (s.hi.levels.map (s.nLevel D)) (by
      intro l hl'
      obtain ⟨l, hml, rfl⟩ := List.mem_map.1 hl'
      obtain ⟨i, hi⟩ := List.getElem?_of_mem hml
      exact ⟨_, _, _, _, _, rfl, C115_level_derivative hb hl heq hmov hi⟩)
    q0 ρ L β hL (by
      intro l hl' x x' hx hx' v
      obtain ⟨l, hml, rfl⟩ := List.mem_map.1 hl'
      exact hLip l hml x x' hx hx' v) (by
      intro x hx
      obtain ⟨v, h1, h2⟩ := hlin x hx
      refine ⟨v, fun l hl' => ?_, by rw [hnerr]; exact h2⟩
      obtain ⟨l, hml, rfl⟩ := List.mem_map.1 hl'
      exact h1 l hml)
  have hlv1 : (s.hi.levels.map (s.nLevel D)).length ≤ 1 ∨ ∃ l ls, s.hi.levels.map (s.nLevel D) = l :: ls ∧ l.m ≠ 0 := by
    rcases hlv with h | ⟨l, ls', h, hr⟩
    · exact .inl (by rwa [List.length_map])
    · refine .inr ⟨_, _, by rw [h]; rfl, ?_⟩
      show (indices (s.rows l).segs).length ≠ 0
      exact fun h => hr (List.length_eq_zero_iff.1 h)
  set ls0 := fun (st : S) (q : Nat → ℝ) (u : Fin (indices s.hi.free.segs).length → ℝ) => ls _ (s.lsEnv plusNat)
      (fun q u => localSlope (s.hi.levels.map (s.dLevel D (J0 q) q)) u) st q u with hls0
  have hsteps := C115_same_steps (D := D) hb hl hk hne o J0 ls0
  rw [hopt, hby] at hsteps
  have eops : s.fullOps D o J0 (fun _ => true) (fun _ _ => 0) plusNat ls = _ := (bs_fullOps_noSat s D o J0 plusNat ls).trans hsteps
  have hww : (w && s.hi.lastIsOptional) = false := by rw [hopt]; exact Bool.and_false w
  have hsame : r = bsSolve (s.fullOps D o J0 (fun _ => true) (fun _ _ => 0) plusNat ls) s.hi.sqThr dqMin s.hi.maxIter
      s.reducedDim w s.hi.lastIsOptional q0 (dq, u, st) := by
    refine C142_substitution hloc plusNat sat0 dqMin s.hi.maxIter s.reducedDim w s.hi.lastIsOptional q0 (dq, u, st) hst' fun t ht' hc => ?_
    rw [hww] at ht' hc ⊢
    obtain ⟨ho1, k, hk1⟩ := bsReach_traj (o := s.fullOps D o J0 (fun _ => true) (fun _ _ => 0) plusNat ls) (a := q0) rfl ht'
    have hm1 : (s.fullOps D o J0 (fun _ => true) (fun _ _ => 0) plusNat ls).stepMem false t =
        (s.fullOps D o J0 (fun _ => true) (fun _ _ => 0) plusNat ls).dir t.arg t.mem := by
      unfold BsOps.stepMem
      rw [ho1]
      rfl
    rw [hm1]
    rw [eops] at hk1 ⊢
    obtain ⟨ls', hls', hk2⟩ := C95_refines o false false s.hi.sqThr (s.hi.levels.map (s.nLevel D)) (bsExpl s) (bsMove s) (bsSub s q0) (· + ·)
      hP I bmin ls0 hls q0 0 hq0 dq u st hst
    obtain ⟨u', hk3⟩ := hk2 k
    rw [hk3] at hk1
    obtain ⟨f1, f2⟩ := Prod.mk.inj (Option.some.inj hk1)
    have hn : ∀ y, nErr ((s.hi.levels.map (s.nLevel D)).map (NLevel.pull (bsSub s q0))) y = nErr (s.hi.levels.map (s.nLevel D)) (bsSub s q0 y) :=
      fun y => by unfold nErr; rw [nSqNorm_pull]
    have hlv' : ((s.hi.levels.map (s.nLevel D)).map (NLevel.pull (bsSub s q0))).length ≤ 1 ∨
        ∃ l ls, (s.hi.levels.map (s.nLevel D)).map (NLevel.pull (bsSub s q0)) = l :: ls ∧ l.m ≠ 0 := by
      rcases hlv1 with h | ⟨l, ls, h1, h2⟩
      · left; rwa [List.length_map]
      · right; exact ⟨l.pull (bsSub s q0), ls.map (NLevel.pull (bsSub s q0)), by rw [h1]; rfl, h2⟩
    have htr := local_traj (thr := s.hi.sqThr) ho hor hlv' hR hls' hbm.le hL hβ (by rw [hn, herr]; exact hρ) (by rw [hn, herr]; exact hE) dq hst k
    set p := traj (newtonOps o false false s.hi.sqThr ((s.hi.levels.map (s.nLevel D)).map (NLevel.pull (bsSub s q0))) ls') 0 (dq, st) k
      with hp
    obtain ⟨t1, -⟩ := htr
    have hd0 := nErr_nonneg ((s.hi.levels.map (s.nLevel D)).map (NLevel.pull (bsSub s q0))) p.1
    rw [hn 0, herr] at t1
    have hx : dist p.1 0 ≤ ρ := by
      refine t1.trans (le_trans ?_ hρ)
      nlinarith
    obtain ⟨-, d2⟩ := local_dir (thr := s.hi.sqThr) ho hor hlv' hR hx p.2.1
    rw [at_pull] at d2
    have hmem : t.mem.1 = p.2.1 := by rw [← f2]
    have hdd : ((bsNewtonOps o false false s.hi.sqThr (s.hi.levels.map (s.nLevel D)) (bsExpl s) ls0).dir t.arg t.mem).2.1 =
        (descend o false s.hi.sqThr ((s.hi.levels.map (s.nLevel D)).map fun l => l.at (bsSub s q0 p.1)) p.2.1).getD 0 := by
      rw [← hmem, f1]
      rfl
    rw [hdd]
    set d := (descend o false s.hi.sqThr ((s.hi.levels.map (s.nLevel D)).map fun l => l.at (bsSub s q0 p.1)) p.2.1).getD 0
    rw [← f1]
    refine ⟨hball _ hx, fun c h0 h1 => ?_⟩
    refine bsMove_inside hb hsy hw hvec hol (q := bsSub s q0 p.1) (v := c • d) (hball _ hx) ?_
    have hmv := (Prod.mk.inj (hP.move p.1 (c • d))).1
    have hmv' : s.ex.solve (bsMove s (bsSub s q0 p.1) (c • d)) = bsSub s q0 (p.1 + c • d) := hmv
    rw [hmv']
    refine hball _ ((dist_triangle _ p.1 _).trans (le_trans (add_le_add (pi_move p.1 (c • d)) t1) ?_))
    rw [nrm_smul, abs_of_nonneg h0]
    have d3 := mul_le_of_le_one_left (nrm_nonneg d) h1
    have d4 := mul_nonneg hβ hd0
    linarith
  have main := C115_success (D := D) hb hl hsy hw hvec hs hol hD heq hmov hdep hopt hby hlv o ho hor dqMin ht q0 ρ L β K hL hβ hK0
    hLip hlin hK ε hε hε0 hρ hE I bmin hbm hb1 ls0 hls hm hdq J0 w dq u st hst
  rw [← bs_fullOps_noSat s D o J0 plusNat ls, ← hsame] at main
  obtain ⟨m1, m2, m3, m4⟩ := main
  have hpos : ∃ x, r.arg = bsSub s q0 x ∧ dist x 0 ≤ 2 * β * ε := by
    obtain ⟨-, -, -, y, y1, y2, -⟩ := C95_converges o ho hor s.hi.sqThr dqMin ht.le (s.hi.levels.map (s.nLevel D)) hlv1 (bsExpl s) (bsMove s)
      (bsSub s q0) (· + ·) hP q0 0 hq0 ρ L β hR hL hβ (by rw [herr]; exact hρ) (by rw [herr]; exact hE) I bmin hbm hb1 ls0 hls
      s.hi.maxIter w false (Bool.and_false w) dq u st hst
    rw [herr] at y2
    refine ⟨y, ?_, y2⟩
    rw [← y1, hsame, eops, hopt]
    have hsuc := (C95_success o ho hor s.hi.sqThr dqMin ht.le (s.hi.levels.map (s.nLevel D)) hlv1 (bsExpl s) (bsMove s)
      (bsSub s q0) (· + ·) hP q0 0 hq0 ρ L β hR hL hβ (by rw [herr]; exact hρ) (by rw [herr]; exact hE) I bmin hbm hb1 ls0 hls
      s.hi.maxIter (by rw [herr]; exact hm) K (by
        intro l hl' x hx v
        obtain ⟨l, hml, rfl⟩ := List.mem_map.1 hl'
        exact hK l hml x hx v) hK0 hdq w false (Bool.and_false w) dq u st hst).1
    exact congrArg BsOut.arg (bs_solve_dims hb hl o dqMin ht.le false ls0 s.hi.maxIter w false q0 (dq, u, st) hsuc)
  refine ⟨hsame, m1, m2, ?_, hpos, m3, m4⟩
  obtain ⟨x, x1, x2⟩ := hpos
  rw [x1]
  exact hball _ (x2.trans hρ)

end

open BsLinkEx in
/-- The hypotheses are met by the explicit constraint `q₁ = q₀²` and the implicit constraint `q₁ = 2`, from `q₀ = 3/2`, where `q₀` is between 1/2 and
5/2 and `q₁` between 1/2 and 5. -/
example (o : SvdOps ℝ) (ho : o.Exact) (hor : o.Ortho) (J0 : (Nat → ℝ) → Jac ℝ) (dq u) (sat0 : Nat → Int) :
    let r := bsSolve (s.fullOps D o J0 (fun _ => true) (satFlags [⟨0, 0, 1 / 2, 5 / 2⟩, ⟨1, 1, 1 / 2, 5⟩] sat0)
      (satMove plusNat [⟨0, 0, 1 / 2, 5 / 2⟩, ⟨1, 1, 1 / 2, 5⟩]) BsInsideEx.lsC) s.hi.sqThr (1 / 10 ^ 12) s.hi.maxIter s.reducedDim false
      s.hi.lastIsOptional (fun _ => 3 / 2) (dq, u, ())
    r.status = .success ∧ r.arg 1 = r.arg 0 ^ 2 ∧ (r.arg 1 - 2) ^ 2 < 1 / 100 := by
  intro r
  have hmem : ∀ l ∈ s.hi.levels, l = lev := fun l hl => by rw [levels_eq] at hl; exact List.mem_singleton.1 hl
  have hx : ∀ x : Fin (indices s.hi.free.segs).length → ℝ, dist x 0 ≤ 1 / 2 → |x ⟨0, Nat.one_pos⟩| ≤ 1 / 2 := by
    intro x hx
    have := (dist_le_pi_dist x 0 ⟨0, Nat.one_pos⟩).trans hx
    rwa [Real.dist_eq, Pi.zero_apply, sub_zero] at this
  have hs0 : s.hi.sqNorm (s.ex.solve fun _ => 3 / 2) = some ((1 / 4 : ℝ) ^ 2) := by
    have e := (C95_parametrises s_built rfl BsR.s_wf (coherent_of_vec BsR.s_vec) BsR.s_len (fun _ => 3 / 2)).2.1
    have e' : s.ex.solve (fun _ => 3 / 2) = bsSub s (fun _ => 3 / 2) 0 := (Prod.mk.inj e).1
    rw [BsLinkEx.sqNorm_eq, e', (sub_eq _ _).2]
    simp only [Pi.zero_apply]
    norm_num
  obtain ⟨-, h1, h2, -, ⟨x', hx1, -⟩, ⟨x, h3, h4⟩, -⟩ := C144_success (D := D) (Vel := Vel) s_built lawful rfl BsR.s_wf BsR.s_vec BsR.s_sorted
    BsR.s_len BsR.s_deriv
    (by intro e he t ht
        rw [impl_eq, List.mem_singleton] at he; subst he
        exact .inr (List.mem_singleton.1 ht))
    moves
    (by intro e he _
        rw [impl_eq, List.mem_singleton] at he; subst he
        decide)
    rfl rfl (.inl (le_refl 1)) o ho hor (1 / 10 ^ 12) (by show (0 : ℝ) < 1 / 10 * (1 / 10); norm_num)
    (fun _ => 3 / 2) (1 / 2) 2 (1 / 2) 16 (by norm_num) (by norm_num) (by norm_num)
    (by
      intro l hl x x' _ _ v
      obtain rfl := hmem l hl
      rw [sub_mulVec, dJ_mul, dJ_mul, (sub_eq _ _).1, (sub_eq _ _).1, nrm_free, nrm_free]
      set a := x ⟨0, Nat.one_pos⟩
      set b := x' ⟨0, Nat.one_pos⟩
      set c := v ⟨0, Nat.one_pos⟩
      have e : ((fun _ => 2 * (3 / 2 + b) * c) - fun _ => 2 * (3 / 2 + a) * c :
          Fin (indices (s.rows lev).segs).length → ℝ) = fun _ => 2 * (b - a) * c := by
        funext r; simp only [Pi.sub_apply]; ring
      rw [e, nrm_rows, abs_mul, abs_mul, abs_two]
      exact le_refl _)
    (by
      intro x hxx
      have hx1 := abs_le.1 (hx x hxx)
      set a := x ⟨0, Nat.one_pos⟩ with ha'
      have ha : 0 < 3 / 2 + a := by linarith [hx1.1]
      refine ⟨fun _ => -((3 / 2 + a) ^ 2 - 2) / (2 * (3 / 2 + a)), fun l hl => ?_, ?_⟩
      · obtain rfl := hmem l hl
        funext r
        rw [dJ_mul, Pi.neg_apply, dErr_eq, (sub_eq _ _).1, (sub_eq _ _).2]
        show 2 * (3 / 2 + a) * (-((3 / 2 + a) ^ 2 - 2) / (2 * (3 / 2 + a))) = -((3 / 2 + a) ^ 2 - 2)
        rw [mul_div_cancel₀]
        linarith
      · rw [nrm_free, BsLinkEx.sqNorm_eq, (sub_eq _ _).2, Option.getD_some, Real.sqrt_sq_eq_abs]
        show |-((3 / 2 + a) ^ 2 - 2) / (2 * (3 / 2 + a))| ≤ 1 / 2 * |(3 / 2 + a) ^ 2 - 2|
        rw [abs_div, abs_neg, abs_of_pos (show 0 < 2 * (3 / 2 + a) by linarith), div_le_iff₀ (by linarith)]
        have := abs_nonneg ((3 / 2 + a) ^ 2 - 2)
        nlinarith [hx1.1])
    (by
      intro l hl x hxx v
      obtain rfl := hmem l hl
      have hx1 := abs_le.1 (hx x hxx)
      rw [dJ_mul, (sub_eq _ _).1, ← nrm_sq v, nrm_free, sq_abs]
      set a := x ⟨0, Nat.one_pos⟩
      set b := v ⟨0, Nat.one_pos⟩
      unfold dotProduct
      rw [sum_rows]
      nlinarith [hx1.1, hx1.2, sq_nonneg b, mul_nonneg (sq_nonneg b) (show 0 ≤ 4 - (3 / 2 + a) ^ 2 by nlinarith [hx1.1, hx1.2])])
    (1 / 4) hs0 (by norm_num) (by norm_num) (by norm_num) J0 (fun _ => True) (fun _ => True) 1 one_pos le_rfl BsInsideEx.lsC
    (bsLocal_of_local (C142_line_searches 0).1 fun _ => true) (C144_line_searches s _ 0 0 one_pos).1
    (by show ((1 - 1 / 2 : ℝ) ^ 3 * (1 / 4)) ^ 2 ≤ 1 / 4 * (1 / 10 * (1 / 10)); norm_num)
    (by show (16 : ℝ) * (1 / 10 ^ 12) ≤ 1 / 4 * (1 / 10 * (1 / 10)); norm_num) false dq u () trivial trivial
    [⟨0, 0, 1 / 2, 5 / 2⟩, ⟨1, 1, 1 / 2, 5⟩] sat0 (by
      intro x hxx e he
      have hx1 := abs_le.1 (hx x hxx)
      simp only [List.mem_cons, List.not_mem_nil, or_false] at he
      rcases he with rfl | rfl
      · dsimp only
        rw [(sub_eq _ _).1]
        constructor <;> linarith [hx1.1, hx1.2]
      · dsimp only
        rw [(sub_eq _ _).2]
        constructor <;> nlinarith [hx1.1, hx1.2])
  change r.status = _ at h1
  change r.arg = _ at hx1
  change s.hi.sqNorm r.arg = _ at h3
  refine ⟨h1, ?_, ?_⟩
  · rw [hx1, (sub_eq _ _).1, (sub_eq _ _).2]
  · rw [BsLinkEx.sqNorm_eq] at h3
    rw [Option.some.inj h3]
    refine lt_of_lt_of_eq h4 ?_
    show (1 / 10 * (1 / 10) : ℝ) = _
    norm_num

end Hpp
