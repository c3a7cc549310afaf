import Verif.HI.InsideProps
import Verif.HI.NewtonLinkEx

/-!
# C143: local convergence inside the bounds

Sources: `/repo/src/solver/hierarchical-iterative.cc`, lines 653-672 (`computeSaturation`), 712-719 (`integrate`),
`/repo/include/hpp/constraints/solver/impl/hierarchical-iterative.hh`, lines 39-181.
-/

namespace Hpp

open Matrix

variable {κ S : Type}

/-- `pinocchio::integrate` in a vector space -/
def plusFin {n : Nat} (q : Fin n → ℝ) (v : Nat → ℝ) : Fin n → ℝ := fun i => q i + v i

/-- `integrate` (hierarchical-iterative.cc:712-719) in a vector space: addition then saturation. -/
noncomputable def satFin {n : Nat} (entries : List (SatEntry ℝ)) (q : Fin n → ℝ) (v : Nat → ℝ) : Fin n → ℝ := fun i =>
  (satLoopInPlace entries (coords (plusFin q v)) fun _ => 0).qSat i

theorem satFin_inside {n : Nat} {entries : List (SatEntry ℝ)} {q : Fin n → ℝ} {v : Nat → ℝ}
    (h : InBounds entries (coords (plusFin q v))) : satFin entries q v = plusFin q v := by
  funext i
  unfold satFin
  rw [satInPlace_inside h]
  simp [coords]

/-- The step lengths of the line searches of the library (the conditions of C91), for the steps of a solver. -/
theorem C143_line_searches (s : HI ℝ κ) {n : Nat} (slope : (Fin n → ℝ) → (Fin (indices s.free.segs).length → ℝ) → ℝ) (thr alphaMin : ℝ)
    (h1 : alphaMin < 1) :
    StepsIn (hiMove s) (fun _ => True) 1 (fun st q u => lineConstant _ (s.lsEnv (coords (n := n)) plusFin) slope st q u) ∧
    StepsIn (hiMove s) (fun _ => True) (1 / 5) (fun st q u => lineBacktracking _ (s.lsEnv (coords (n := n)) plusFin) slope st q u) ∧
    StepsIn (hiMove s) (fun s => ∃ k : Nat, s = ⟨95 / 100 - 3 / 4 * (4 / 5) ^ k, 95 / 100, 4 / 5⟩) (1 / 5)
      (fun st q u => lineFixedSequence _ (s.lsEnv (coords (n := n)) plusFin) slope st q u) ∧
    StepsIn (hiMove s) (fun s => ∃ a b, s = ErrNormBased.mk3 alphaMin a b) alphaMin
      (fun st q u => lineErrorNormBased thr _ (s.lsEnv (coords (n := n)) plusFin) slope st q u) := by
  refine ⟨fun s q u _ => ⟨trivial, 1, le_refl _, le_refl _, ?_⟩, fun st q u _ => ⟨trivial, ?_⟩, ?_, ?_⟩
  · rw [one_smul]; rfl
  · obtain ⟨out, g1, -, g2, g3⟩ := C32_backtracking (s.lsEnv (coords (n := n)) plusFin) (slope q u)
      ((s.lsEnv (coords (n := n)) plusFin).err q) q u
    unfold lineBacktracking
    dsimp only
    rw [g1]
    simp only [Option.getD_some]
    rcases g3 with ⟨-, -, k, -, g4, g5, -⟩ | ⟨-, g4, -⟩
    · exact ⟨_, g5.le, pow_le_one₀ (by norm_num) (by norm_num), by rw [g2, g4]; rfl⟩
    · exact ⟨1 / 5, le_refl _, by norm_num, by rw [g2, g4]; rfl⟩
  · rintro s q u ⟨k, rfl⟩
    have e1 : (0 : ℝ) < (4 / 5) ^ k := by positivity
    have e2 : ((4 : ℝ) / 5) ^ k ≤ 1 := pow_le_one₀ (by norm_num) (by norm_num)
    refine ⟨⟨k + 1, ?_⟩, 95 / 100 - 3 / 4 * (4 / 5) ^ k, by linarith, by linarith, rfl⟩
    simp only [lineFixedSequence, FixedSeq.call, FixedSeq.mk.injEq, and_self, and_true]
    rw [pow_succ]
    ring
  · rintro st q u ⟨a, b, rfl⟩
    obtain ⟨al, g1, g2, g3, g4⟩ := C32_error_norm (s.lsEnv (coords (n := n)) plusFin) alphaMin a b h1
      ((s.lsEnv (coords (n := n)) plusFin).err q) thr q u
    exact ⟨⟨a, b, rfl⟩, al, g1.le, g2.le, by
      unfold lineErrorNormBased
      dsimp only
      rw [g4, g3]; rfl⟩

section
variable [DecidableEq κ] {El : Fn ℝ κ → List ℝ → Prop}
  {D : Space ℝ → List ℝ → List ℝ → Nat → Nat → ℝ} {Vel : Fn ℝ κ → (ℝ → List ℝ) → (Nat → ℝ) → Prop}
  {h : List (Impl ℝ κ × Nat)} {s : HI ℝ κ} {nv nq : Nat}

/-- C143. Local convergence inside the bounds.  Under the hypotheses of C114, if the ball around the initial configuration is strictly
inside the bounds, the solver with saturation takes the same steps as the solver without bounds: it returns `SUCCESS` and a configuration
inside the bounds where all the constraints are satisfied up to the threshold, and the variables that are not free have not changed. -/
theorem C143_success (hb : HI.Built El nv h s)
    (hl : ∀ e ∈ h, e.1.fn.space.Lawful (El e.1.fn)) (hv : ∀ e ∈ h, ∀ q, El e.1.fn (e.1.fn.value q))
    (hnd : (indices s.free.segs).Nodup) (hlt : ∀ k ∈ indices s.free.segs, k < nq)
    (heq : ∀ e ∈ h, ∀ t ∈ e.1.comp, t = .equality ∨ t = .equalToZero)
    (hdep : ∀ e ∈ h, true ∈ e.1.mask → dependsOnFree s.free.segs e.1 = true)
    (hopt : s.lastIsOptional = false) (hby : s.byLevel = false)
    (hlv : s.levels.length ≤ 1 ∨ ∃ l ls, s.levels = l :: ls ∧ indices l.rows.segs ≠ [])
    (o : SvdOps ℝ) (ho : o.Exact) (hor : o.Ortho) (dqMin : ℝ) (ht : 0 ≤ s.sqThr)
    (q0 : Fin nq → ℝ) (ρ L β K : ℝ) (hL : 0 ≤ L) (hβ : 0 ≤ β) (hK0 : 0 ≤ K)
    (hmov : ∀ q, dist q q0 ≤ ρ → ∀ v, Moves El h D Vel nq (fun u => coords (hiMove s q (u • v)))
      (expand (hiFree s) v fun _ => 0))
    (hLip : ∀ l ∈ s.levels, ∀ q v, dist q q0 ≤ ρ → dist (hiMove s q v) q0 ≤ ρ → ∀ w,
      nrm ((s.dJ D (fun _ _ => 0) (coords (hiMove s q v)) l - s.dJ D (fun _ _ => 0) (coords q) l) *ᵥ w) ≤
        L * nrm v * nrm w)
    (hlin : ∀ q, dist q q0 ≤ ρ → ∃ v, (∀ l ∈ s.levels, s.dJ D (fun _ _ => 0) (coords q) l *ᵥ v =
      -s.dErr D (fun _ _ => 0) (coords q) l) ∧ nrm v ≤ β * Real.sqrt ((s.sqNorm (coords q)).getD 0))
    (hK : ∀ l ∈ s.levels, ∀ q, dist q q0 ≤ ρ → ∀ v, (s.dJ D (fun _ _ => 0) (coords q) l *ᵥ v) ⬝ᵥ
      (s.dJ D (fun _ _ => 0) (coords q) l *ᵥ v) ≤ K * (v ⬝ᵥ v))
    (ε : ℝ) (hε : s.sqNorm (coords q0) = some (ε ^ 2)) (hε0 : 0 ≤ ε) (hρ : 2 * β * ε ≤ ρ) (hE : L * β ^ 2 * ε ≤ 1 / 2)
    (J0 : (Fin nq → ℝ) → Jac ℝ) (I I' : S → Prop) (bmin : ℝ) (hbm : 0 < bmin) (ls : LineSearch (Fin nq → ℝ) S) (hloc : ls.Local I')
    (hls : StepsIn (hiMove s) I bmin fun st q u => ls _ (s.lsEnv coords plusFin)
      (fun q u => localSlope (s.levels.map (s.dLevel D (J0 q) (coords q))) u) st q u)
    (hm : ((1 - bmin / 2) ^ s.maxIter * ε) ^ 2 ≤ s.sqThr)
    (hdq : K * dqMin ≤ s.sqThr) (dq : Fin (indices s.free.segs).length → ℝ) (st : S) (hst : I st) (hst' : I' st)
    (entries : List (SatEntry ℝ)) (sat0 : Nat → Int) (hball : ∀ q : Fin nq → ℝ, dist q q0 ≤ ρ → StrictlyInside entries (coords q)) :
    let r := solve (s.fullOps D o J0 coords (fun q => satFlags entries sat0 (coords q)) (satFin entries) ls) s.sqThr dqMin s.maxIter
      s.reducedDim q0 (dq, st)
    r = solve (s.fullOps D o J0 coords (fun _ _ => 0) plusFin ls) s.sqThr dqMin s.maxIter s.reducedDim q0 (dq, st) ∧
    r.status = some .success ∧ dist r.arg q0 ≤ 2 * β * ε ∧ StrictlyInside entries (coords r.arg) ∧
    (∃ x, s.sqNorm (coords r.arg) = some x ∧ x ≤ s.sqThr) ∧
    (∀ e ∈ h, ∃ v b, s.isConstraintSatisfied e.1 (coords r.arg) = some (some (v, b)) ∧ sqSum v ≤ s.sqThr) ∧
    ∀ k : Fin nq, (k : Nat) ∉ indices s.free.segs → r.arg k = q0 k := by
  intro r
  have hsame : r = solve (s.fullOps D o J0 coords (fun _ _ => 0) plusFin ls) s.sqThr dqMin s.maxIter s.reducedDim q0 (dq, st) := by
    obtain ⟨hnorm, hR⟩ := C114_regular (D := D) hb hl hv hnd hlt heq hdep hopt q0 ρ L β hL hmov hLip hlin
    have hk : s.Kept h := fun e he => ⟨fun r hr => hdep e he (List.mem_of_getElem? hr), fun r t _ htc hin => by
      rcases heq e he t (List.mem_of_getElem? htc) with rfl | rfl <;> rcases hin with h | h <;> cases h⟩
    have hsteps := C114_same_steps (D := D) hb hl hv hk (fun h => by rw [hopt] at h; cases h) o J0 (coords (n := nq))
      (fun st q u => ls _ (s.lsEnv coords plusFin)
        (fun q u => localSlope (s.levels.map (s.dLevel D (J0 q) (coords q))) u) st q u)
    rw [hopt, hby] at hsteps
    have e := (fullOps_noSat s D o J0 (coords (n := nq)) plusFin ls).trans hsteps
    have herr : nErr (s.levels.map (s.nLevel D coords)) q0 = ε := by
      unfold nErr
      have h1 := hnorm q0
      rw [hε] at h1
      rw [← Option.some.inj h1, Real.sqrt_sq hε0]
    have hlv' : (s.levels.map (s.nLevel D (coords (n := nq)))).length ≤ 1 ∨
        ∃ l ls, s.levels.map (s.nLevel D (coords (n := nq))) = l :: ls ∧ l.m ≠ 0 := by
      rcases hlv with h | ⟨l, ls', h, hr⟩
      · exact .inl (by rwa [List.length_map])
      · refine .inr ⟨_, _, by rw [h]; rfl, ?_⟩
        show (indices l.rows.segs).length ≠ 0
        exact fun h => hr (List.length_eq_zero_iff.1 h)
    have htraj := local_traj (thr := s.sqThr) ho hor hlv' hR hls hbm.le hL hβ (by rw [herr]; exact hρ) (by rw [herr]; exact hE) dq hst
    have hdist : ∀ j, dist (traj (s.fullOps D o J0 coords (fun _ _ => 0) plusFin ls) q0 (dq, st) j).1 q0 ≤ ρ ∧
        ∀ c : ℝ, 0 ≤ c → c ≤ 1 → dist (hiMove s (traj (s.fullOps D o J0 coords (fun _ _ => 0) plusFin ls) q0 (dq, st) j).1
          (c • (traj (s.fullOps D o J0 coords (fun _ _ => 0) plusFin ls) q0 (dq, st) (j + 1)).2.1)) q0 ≤ ρ := by
      intro j
      rw [e]
      obtain ⟨t1, t2, -⟩ := htraj j
      have e0 := nErr_nonneg (s.levels.map (s.nLevel D (coords (n := nq)))) (traj (newtonOps o false false s.sqThr
        (s.levels.map (s.nLevel D coords)) (fun st q u => ls _ (s.lsEnv coords plusFin)
        (fun q u => localSlope (s.levels.map (s.dLevel D (J0 q) (coords q))) u) st q u)) q0 (dq, st) j).1
      have hq : dist (traj (newtonOps o false false s.sqThr
          (s.levels.map (s.nLevel D coords)) (fun st q u => ls _ (s.lsEnv coords plusFin)
          (fun q u => localSlope (s.levels.map (s.dLevel D (J0 q) (coords q))) u) st q u)) q0 (dq, st) j).1 q0 ≤ ρ := by
        rw [herr] at t1
        refine t1.trans (le_trans ?_ hρ)
        nlinarith
      refine ⟨hq, fun c h0 h1 => ?_⟩
      obtain ⟨-, d2⟩ := local_dir (thr := s.sqThr) ho hor hlv' hR hq (traj (newtonOps o false false s.sqThr
          (s.levels.map (s.nLevel D coords)) (fun st q u => ls _ (s.lsEnv coords plusFin)
          (fun q u => localSlope (s.levels.map (s.dLevel D (J0 q) (coords q))) u) st q u)) q0 (dq, st) j).2.1
      refine (dist_triangle _ _ _).trans (le_trans (add_le_add (hiMove_dist hnd _ _) t1) ?_)
      rw [nrm_smul, abs_of_nonneg h0, herr]
      change nrm ((traj (newtonOps o false false s.sqThr
          (s.levels.map (s.nLevel D coords)) (fun st q u => ls _ (s.lsEnv coords plusFin)
          (fun q u => localSlope (s.levels.map (s.dLevel D (J0 q) (coords q))) u) st q u)) q0 (dq, st) (j + 1)).2.1) ≤ _ at d2
      have d3 := mul_le_of_le_one_left (nrm_nonneg (traj (newtonOps o false false s.sqThr
          (s.levels.map (s.nLevel D coords)) (fun st q u => ls _ (s.lsEnv coords plusFin)
          (fun q u => localSlope (s.levels.map (s.dLevel D (J0 q) (coords q))) u) st q u)) q0 (dq, st) (j + 1)).2.1) h1
      have d4 := mul_nonneg hβ e0
      linarith
    exact C142_any_space hloc coords plusFin (satFin entries) (fun q v h => satFin_inside h) sat0 dqMin s.maxIter s.reducedDim q0
      (dq, st) hst' (fun j _ => hball _ (hdist j).1) (fun j _ c h0 h1 e he => by
        obtain ⟨a, b⟩ := hball _ ((hdist j).2 c h0 h1) e he
        exact ⟨a.le, b.le⟩)
  have hmain := C114_success (D := D) hb hl hv hnd hlt heq hdep hopt hby hlv o ho hor dqMin ht q0 ρ L β K hL hβ hK0 hmov hLip hlin hK ε hε
    hε0 hρ hE I bmin hbm _ hls hm hdq J0 dq st hst
  rw [← fullOps_noSat s D o J0 (coords (n := nq)) plusFin ls, ← hsame] at hmain
  obtain ⟨m1, m2, m3, m4, m5⟩ := hmain
  exact ⟨hsame, m1, m2, hball _ (m2.trans hρ), m3, m4, m5⟩

end

open HINewtonEx in
/-- The hypotheses are met by `q₁² = q₀` around `(2, 3/2)`, where `q₁` is free and bounded by 1/2 and 5/2. -/
example (o : SvdOps ℝ) (ho : o.Exact) (hor : o.Ortho) (J0 : (Fin 2 → ℝ) → Jac ℝ) (dq) (sat0 : Nat → Int) :
    let r := solve (sol.fullOps D o J0 coords (fun q => satFlags [⟨1, 1, 1 / 2, 5 / 2⟩] sat0 (coords q)) (satFin [⟨1, 1, 1 / 2, 5 / 2⟩])
      lineConstant) sol.sqThr (1 / 10 ^ 12) sol.maxIter sol.reducedDim (![2, 3 / 2] : Fin 2 → ℝ) (dq, ())
    r.status = some .success ∧ r.arg 0 = 2 ∧ (r.arg 1 ^ 2 - 2) ^ 2 ≤ 1 / 10 ^ 8 ∧ r.arg 1 < 5 / 2 := by
  intro r
  have hmem : ∀ l ∈ sol.levels, l = lev := fun l hl => by rw [levels_eq] at hl; exact List.mem_singleton.1 hl
  obtain ⟨-, h1, -, h2, ⟨x, hx, hx'⟩, -, h5⟩ := C143_success (D := D) (Vel := Vel) (nq := 2) built law val
    (by rw [free_eq]; simp) (by rw [free_eq]; simp)
    (by intro e he t ht
        simp only [List.mem_singleton] at he; subst he
        exact .inl (List.mem_singleton.1 ht))
    (by intro e he _
        simp only [List.mem_singleton] at he; subst he
        rfl)
    rfl rfl (.inl (le_refl 1)) o ho hor (1 / 10 ^ 12) (by show (0 : ℝ) ≤ 1 / 10 ^ 8; norm_num) ![2, 3 / 2] (1 / 2) 2 (1 / 2) 16
    (by norm_num) (by norm_num) (by norm_num) (fun q _ v => moves q v)
    (by
      intro l hl q v _ _ w
      obtain rfl := hmem l hl
      rw [nrm_rows, sub_mulVec, Pi.sub_apply, dJ_mul, dJ_mul, nrm_free, nrm_free, move]
      show |2 * (q 1 + comp v) * comp w - 2 * q 1 * comp w| ≤ _
      rw [show 2 * (q 1 + comp v) * comp w - 2 * q 1 * comp w = 2 * comp v * comp w by ring, abs_mul, abs_mul]
      norm_num)
    (by
      intro q hq
      obtain ⟨b1, -⟩ := in_ball hq
      refine ⟨fun _ => -(q 1 ^ 2 - q 0) / (2 * q 1), fun l hl => ?_, ?_⟩
      · obtain rfl := hmem l hl
        funext r
        rw [dJ_mul, Pi.neg_apply, dErr_eq]
        show 2 * q 1 * (-(q 1 ^ 2 - q 0) / (2 * q 1)) = -(q 1 ^ 2 - q 0)
        field_simp
      · rw [nrm_free, sqNorm_eq]
        show |-(q 1 ^ 2 - q 0) / (2 * q 1)| ≤ 1 / 2 * Real.sqrt ((q 1 ^ 2 - q 0) ^ 2)
        rw [Real.sqrt_sq_eq_abs, abs_div, abs_neg, abs_of_pos (by linarith : 0 < 2 * q 1), div_le_iff₀ (by linarith)]
        nlinarith [abs_nonneg (q 1 ^ 2 - q 0)])
    (by
      intro l hl q hq v
      obtain rfl := hmem l hl
      obtain ⟨b1, b2⟩ := in_ball hq
      unfold dotProduct
      rw [sum_rows, sum_free, dJ_mul]
      show 2 * q 1 * comp v * (2 * q 1 * comp v) ≤ 16 * (comp v * comp v)
      have hq4 : q 1 * q 1 ≤ 4 := by nlinarith
      have := mul_le_mul_of_nonneg_right hq4 (mul_self_nonneg (comp v))
      linarith [show 2 * q 1 * comp v * (2 * q 1 * comp v) = 4 * (q 1 * q 1 * (comp v * comp v)) by ring])
    (1 / 4) (by rw [sqNorm_eq]; show some (((3 / 2 : ℝ) ^ 2 - 2) ^ 2) = _; norm_num) (by norm_num) (by norm_num) (by norm_num)
    J0 (fun _ => True) (fun _ => True) 1 one_pos lineConstant (C142_line_searches 0).1 (C143_line_searches sol _ 0 0 one_pos).1
    (by show ((1 - (1 : ℝ) / 2) ^ 20 * (1 / 4)) ^ 2 ≤ 1 / 10 ^ 8; norm_num)
    (by show (16 : ℝ) * (1 / 10 ^ 12) ≤ 1 / 10 ^ 8; norm_num) dq () trivial trivial [⟨1, 1, 1 / 2, 5 / 2⟩] sat0 (by
      intro q hq e he
      obtain rfl := List.mem_singleton.1 he
      obtain ⟨b1, b2⟩ := in_ball hq
      show 1 / 2 < q 1 ∧ q 1 < 5 / 2
      constructor <;> linarith)
  have h6 : r.arg 0 = 2 := h5 0 (by rw [free_eq]; simp)
  refine ⟨h1, h6, ?_, (h2 _ (List.mem_singleton.2 rfl)).2⟩
  rw [sqNorm_eq] at hx
  have hx2 := Option.some.inj hx
  rw [← hx2] at hx'
  have : (r.arg 1 ^ 2 - r.arg 0) ^ 2 ≤ 1 / 10 ^ 8 := hx'
  rwa [h6] at this

end Hpp
