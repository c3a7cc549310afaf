import Verif.HI.NewtonLink
import Mathlib.Analysis.Calculus.Deriv.Prod
import Mathlib.Analysis.Calculus.Deriv.Shift

/-!
# C114. Local convergence of a solver built by `add`
-/

namespace Hpp

open Matrix

variable {κ S : Type}

section
variable [DecidableEq κ] {El : Fn ℝ κ → List ℝ → Prop}
  {D : Space ℝ → List ℝ → List ℝ → Nat → Nat → ℝ} {Vel : Fn ℝ κ → (ℝ → List ℝ) → (Nat → ℝ) → Prop}
  {h : List (Impl ℝ κ × Nat)} {s : HI ℝ κ} {nv nq : Nat}

omit [DecidableEq κ] in
theorem hiFree_inj (hnd : (indices s.free.segs).Nodup) : Function.Injective (hiFree s) := by
  intro a b hab
  have ha := a.2
  have hb := b.2
  unfold hiFree at hab
  rw [List.getD_eq_getElem?_getD, List.getD_eq_getElem?_getD, List.getElem?_eq_getElem ha,
    List.getElem?_eq_getElem hb] at hab
  exact Fin.ext ((List.Nodup.getElem_inj_iff hnd).1 hab)

omit [DecidableEq κ] in
theorem expand_add_smul {n : Nat} (free : Fin n → Nat) (hinj : Function.Injective free) (x v : Fin n → ℝ) (k : Nat) :
    expand free (x + v) (fun _ => 0) k = expand free x (fun _ => 0) k + expand free v (fun _ => 0) k := by
  by_cases hk : ∃ j, free j = k
  · obtain ⟨j, rfl⟩ := hk
    rw [expand_mem _ hinj, expand_mem _ hinj, expand_mem _ hinj]; rfl
  · push Not at hk
    rw [expand_notMem _ _ _ _ hk, expand_notMem _ _ _ _ hk, expand_notMem _ _ _ _ hk, add_zero]

omit [DecidableEq κ] in
theorem hiMove_add (hnd : (indices s.free.segs).Nodup) (q : Fin nq → ℝ) (x v : Fin (indices s.free.segs).length → ℝ) :
    hiMove s q (x + v) = hiMove s (hiMove s q x) v := by
  funext i
  unfold hiMove
  rw [expand_add_smul _ (hiFree_inj hnd), add_assoc]

omit [DecidableEq κ] in
theorem hiMove_zero (hnd : (indices s.free.segs).Nodup) (q : Fin nq → ℝ) : hiMove s q 0 = q := by
  funext i
  have h0 : expand (hiFree s) (0 : Fin (indices s.free.segs).length → ℝ) (fun _ => 0) (i : Nat) = 0 := by
    by_cases hk : ∃ j, hiFree s j = i
    · obtain ⟨j, hj⟩ := hk
      rw [← hj, expand_mem _ (hiFree_inj hnd)]; rfl
    · push Not at hk
      exact expand_notMem _ _ _ _ hk
  unfold hiMove
  rw [h0, add_zero]

omit [DecidableEq κ] in
theorem hiMove_dist (hnd : (indices s.free.segs).Nodup) (q : Fin nq → ℝ)
    (v : Fin (indices s.free.segs).length → ℝ) : dist (hiMove s q v) q ≤ nrm v := by
  rw [dist_pi_le_iff (nrm_nonneg v)]
  intro i
  rw [Real.dist_eq]
  unfold hiMove
  rw [add_sub_cancel_left]
  by_cases hk : ∃ j, hiFree s j = i
  · obtain ⟨j, hj⟩ := hk
    rw [← hj, expand_mem _ (hiFree_inj hnd)]
    have := pi_move (0 : Fin (indices s.free.segs).length → ℝ) v
    rw [zero_add, dist_zero_right] at this
    exact le_trans (norm_le_pi_norm v j) this
  · push Not at hk
    rw [expand_notMem _ _ _ _ hk, abs_zero]
    exact nrm_nonneg v

/-- C114. The reduced Jacobian of each level is the derivative of the error that is solved for with respect to the free
variables. -/
theorem C114_derivative (hb : HI.Built El nv h s)
    (hl : ∀ e ∈ h, e.1.fn.space.Lawful (El e.1.fn)) (hv : ∀ e ∈ h, ∀ q, El e.1.fn (e.1.fn.value q))
    (hnd : (indices s.free.segs).Nodup) (hlt : ∀ k ∈ indices s.free.segs, k < nq)
    (heq : ∀ e ∈ h, ∀ t ∈ e.1.comp, t = .equality ∨ t = .equalToZero)
    (q : Fin nq → ℝ) (v : Fin (indices s.free.segs).length → ℝ) (t0 : ℝ)
    (hmov : Moves El h D Vel nq (fun u => coords (hiMove s (hiMove s q (t0 • v)) (u • v)))
      (expand (hiFree s) v fun _ => 0)) {i : Nat} {l : Level ℝ κ} (hi : s.levels[i]? = some l) :
    HasDerivAt (fun t : ℝ => s.dErr D (fun _ _ => 0) (coords (hiMove s q (t • v))) l)
      (s.dJ D (fun _ _ => 0) (coords (hiMove s q (t0 • v))) l *ᵥ v) t0 := by
  have hinj := hiFree_inj hnd
  obtain ⟨hs, hf, R, hR⟩ := hb.inv hl hv
  have ha : Along El h D Vel nq s.free.segs (fun u => coords (hiMove s (hiMove s q (t0 • v)) (u • v)))
      (expand (hiFree s) v fun _ => 0) := by
    refine ⟨hmov, fun k hk => expand_notMem _ _ _ _ fun j hj => hk ?_, hlt, hnd⟩
    rw [← hj]
    unfold hiFree
    rw [List.getD_eq_getElem?_getD, List.getElem?_eq_getElem j.2, Option.getD_some]
    exact List.getElem_mem j.2
  obtain ⟨E, hE, hEe, hder⟩ := C111_reduced_jacobian hb hl hv ha i l hi fun _ _ => 0
  have hz : hiMove s (hiMove s q (t0 • v)) ((0 : ℝ) • v) = hiMove s q (t0 • v) := by
    rw [zero_smul, hiMove_zero hnd]
  simp only [hz] at hE hEe hder
  rw [hasDerivAt_pi]
  intro r
  have hrr : (indices l.rows.segs)[r.1]? = some ((indices l.rows.segs).getD r 0) := by
    have hr2 : r.1 < (indices l.rows.segs).length := r.2
    rw [List.getD_eq_getElem?_getD, List.getElem?_eq_getElem hr2]; rfl
  have hρ : (indices l.rows.segs).getD r 0 ∈ indices l.rows.segs := List.mem_of_getElem? hrr
  have h1 := hder r _ hrr (by
    intro t ht
    have htm : t ∈ l.comp := List.mem_of_getElem? ht
    rw [(hs.level i l hi).comp, List.mem_flatMap] at htm
    obtain ⟨c, hc, htc⟩ := htm
    rcases heq _ (mem_atLevel.1 hc) t htc with rfl | rfl <;> rintro (⟨h, -⟩ | ⟨h, -⟩) <;> cases h)
  have h2 : ∑ c ∈ Finset.range (indices s.free.segs).length,
      E.redJ r c * expand (hiFree s) v (fun _ => 0) ((indices s.free.segs).getD c 0) =
      (s.dJ D (fun _ _ => 0) (coords (hiMove s q (t0 • v))) l *ᵥ v) r := by
    rw [Finset.sum_range]
    refine Finset.sum_congr rfl fun c _ => ?_
    show _ = ((l.evalJac D s.ineqThr s.free.segs (coords (hiMove s q (t0 • v))) fun _ _ => 0).map
      fun E => E.redJ r c).getD 0 * v c
    rw [hE, Option.map_some, Option.getD_some]
    congr 1
    exact expand_mem (hiFree s) hinj v _ c
  rw [h2] at h1
  have h3 : HasDerivAt (fun t : ℝ => ((l.error s.ineqThr
      (coords (hiMove s (hiMove s q (t0 • v)) ((-t0 + t) • v)))).getD []).getD ((indices l.rows.segs).getD r 0) 0)
      ((s.dJ D (fun _ _ => 0) (coords (hiMove s q (t0 • v))) l *ᵥ v) r) t0 := by
    exact HasDerivAt.comp_const_add (-t0) t0 (by rw [neg_add_cancel]; exact h1)
  refine HasDerivAt.congr_of_eventuallyEq h3 ?_
  filter_upwards with t
  rw [← hiMove_add hnd, ← add_smul, add_neg_cancel_left]
  obtain ⟨E', hE', hEe', -⟩ := level_evalJac hs hf hR hi D s.ineqThr s.free.segs (coords (hiMove s q (t • v)))
    fun _ _ => 0
  show ((l.evalJac D s.ineqThr s.free.segs (coords (hiMove s q (t • v))) fun _ _ => 0).map fun E =>
    E.error.getD ((indices l.rows.segs).getD r 0) 0).getD 0 = _
  rw [hE', hEe']
  rfl

/-- The number of rows solved for may replace the number of free variables in the first test of `solve`. -/
theorem solve_dims (hb : HI.Built El nv h s)
    (hl : ∀ e ∈ h, e.1.fn.space.Lawful (El e.1.fn)) (hv : ∀ e ∈ h, ∀ q, El e.1.fn (e.1.fn.value q))
    {A : Type} (conf : A → Nat → ℝ) (o : SvdOps ℝ) (thr dqMin : ℝ) (ht : 0 ≤ thr)
    (ls : S → A → (Fin (indices s.free.segs).length → ℝ) → S × LsOut A (Fin (indices s.free.segs).length → ℝ))
    (maxIter : Nat) (q : A) (m : (Fin (indices s.free.segs).length → ℝ) × S) (byLevel : Bool) :
    solve (newtonOps o byLevel false thr (s.levels.map (s.nLevel D conf)) ls) thr dqMin maxIter s.reducedDim q m =
    solve (newtonOps o byLevel false thr (s.levels.map (s.nLevel D conf)) ls) thr dqMin maxIter
      (indices s.free.segs).length q m := by
  obtain ⟨hs, hf, R, hR⟩ := hb.inv hl hv
  have hn0 : (indices s.free.segs).length = 0 → s.reducedDim = 0 := by
    intro h0
    rw [(C23_reduced_dimension hb hl hv)]
    have hnil := List.length_eq_zero_iff.1 h0
    apply List.sum_eq_zero
    intro x hx
    obtain ⟨e, -, rfl⟩ := List.mem_map.1 hx
    rw [if_neg]
    unfold dependsOnFree
    rw [hnil]
    simp
  by_cases hr0 : s.reducedDim = 0
  · have hz : nSqNorm false (s.levels.map (s.nLevel D conf)) q = 0 := by
      refine nSqNorm_zero false _ q fun l hl' => ?_
      obtain ⟨l, hm, rfl⟩ := List.mem_map.1 hl'
      rw [hs.rdim] at hr0
      have h1 : l.rows.nb = 0 := List.sum_eq_zero_iff.1 hr0 _ (List.mem_map.2 ⟨l, hm, rfl⟩)
      obtain ⟨i, hi⟩ := List.getElem?_of_mem hm
      have h2 : (indices l.rows.segs).length = 0 := by
        have hrows := C23_active_rows hb hl hv i l hi
        rw [h1] at hrows
        rw [List.length_eq_zero_iff, List.eq_nil_iff_forall_not_mem]
        intro ρ hρ
        have h3 := (hrows.1 ρ).1 ((mem_indices _ _).1 hρ)
        exact absurd (List.mem_of_getElem? h3) (List.count_eq_zero.1 hrows.2.2.symm)
      funext r
      exact absurd r.2 (by show ¬ r.1 < (indices l.rows.segs).length; omega)
    have hnlt : ¬ thr < (newtonOps o byLevel false thr (s.levels.map (s.nLevel D conf)) ls).norm q := by
      show ¬ thr < nSqNorm false _ q
      rw [hz]; exact not_lt.2 ht
    unfold solve
    dsimp only
    rw [if_neg fun h => hnlt h.1, if_neg fun h => hnlt h.1]
  · have hn : (indices s.free.segs).length ≠ 0 := fun h => hr0 (hn0 h)
    unfold solve
    dsimp only
    rw [if_neg fun h => hr0 h.2, if_neg fun h => hn h.2]

omit [DecidableEq κ] in
theorem conError_of_equalities {El : Fn ℝ κ → List ℝ → Prop} {h : List (Impl ℝ κ × Nat)} {R : κ → List ℝ} {s : HI ℝ κ}
    (hf : FnsOk El h) (hR : HI.RhsIs El h s R) {e : Impl ℝ κ × Nat} (he : e ∈ h)
    (heq : ∀ t ∈ e.1.comp, t = .equality ∨ t = .equalToZero) (thr : ℝ) (q : Nat → ℝ) :
    conError thr q e.1 (R e.1.fn.key) = maskBy e.1.mask (e.1.fn.space.sub (e.1.fn.value q) (R e.1.fn.key)) := by
  obtain ⟨l1, l2, l3, l4, -⟩ := conSub_length hf he (hR.el _ he) q thr
  unfold conError
  apply List.ext_getElem
  · rw [List.length_zipWith, l3, l4, Nat.min_self]
  · intro k k1 k2
    rw [List.getElem_zipWith]
    rcases heq _ (List.getElem_mem (by rw [l3]; omega : k < e.1.comp.length)) with hc | hc <;> rw [hc] <;> rfl

/-- C114. The hypotheses of local convergence (C94), for the constraints inserted. -/
theorem C114_regular (hb : HI.Built El nv h s)
    (hl : ∀ e ∈ h, e.1.fn.space.Lawful (El e.1.fn)) (hv : ∀ e ∈ h, ∀ q, El e.1.fn (e.1.fn.value q))
    (hnd : (indices s.free.segs).Nodup) (hlt : ∀ k ∈ indices s.free.segs, k < nq)
    (heq : ∀ e ∈ h, ∀ t ∈ e.1.comp, t = .equality ∨ t = .equalToZero)
    (hdep : ∀ e ∈ h, true ∈ e.1.mask → dependsOnFree s.free.segs e.1 = true)
    (hopt : s.lastIsOptional = false)
    (q0 : Fin nq → ℝ) (ρ L β : ℝ) (hL : 0 ≤ L)
    (hmov : ∀ q, dist q q0 ≤ ρ → ∀ v, Moves El h D Vel nq (fun u => coords (hiMove s q (u • v)))
      (expand (hiFree s) v fun _ => 0))
    (hLip : ∀ l ∈ s.levels, ∀ q v, dist q q0 ≤ ρ → dist (hiMove s q v) q0 ≤ ρ → ∀ w,
      nrm ((s.dJ D (fun _ _ => 0) (coords (hiMove s q v)) l - s.dJ D (fun _ _ => 0) (coords q) l) *ᵥ w) ≤
        L * nrm v * nrm w)
    (hlin : ∀ q, dist q q0 ≤ ρ → ∃ v, (∀ l ∈ s.levels, s.dJ D (fun _ _ => 0) (coords q) l *ᵥ v =
      -s.dErr D (fun _ _ => 0) (coords q) l) ∧ nrm v ≤ β * Real.sqrt ((s.sqNorm (coords q)).getD 0)) :
    (∀ q : Fin nq → ℝ, s.sqNorm (coords q) = some (nSqNorm false (s.levels.map (s.nLevel D coords)) q)) ∧
    Regular (hiMove s) (s.levels.map (s.nLevel D coords)) q0 ρ L β := by
  have hk : s.Kept h := fun e he => ⟨fun r hr => hdep e he (List.mem_of_getElem? hr), fun r t _ htc hin => by
    rcases heq e he t (List.mem_of_getElem? htc) with rfl | rfl <;> rcases hin with h | h <;> cases h⟩
  have hnorm : ∀ q : Fin nq → ℝ, s.sqNorm (coords q) =
      some (nSqNorm false (s.levels.map (s.nLevel D coords)) q) := fun q => by
    have := nSqNorm_levels (D := D) hb hl hv hk (fun h => by rw [hopt] at h; cases h) (coords (n := nq)) q
    rwa [hopt] at this
  refine ⟨hnorm, ?_⟩
  refine ⟨fun q v _ => hiMove_dist hnd q v, fun l hl' q v hq hqv => ?_, fun q hq => ?_⟩
  · obtain ⟨l, hml, rfl⟩ := List.mem_map.1 hl'
    obtain ⟨i, hi⟩ := List.getElem?_of_mem hml
    have hseg : ∀ t ∈ Set.Icc (0 : ℝ) 1, dist (hiMove s q (t • v)) q0 ≤ ρ := by
      intro t ht
      have hc := convex_closedBall q0 ρ
      have := hc (Metric.mem_closedBall.2 hq) (Metric.mem_closedBall.2 hqv) (sub_nonneg.2 ht.2) ht.1 (by ring)
      have e : (1 - t) • q + t • hiMove s q v = hiMove s q (t • v) := by
        funext k
        show (1 - t) * q k + t * (q k + expand (hiFree s) v (fun _ => 0) k) = q k + expand (hiFree s) (t • v) (fun _ => 0) k
        have : expand (hiFree s) (t • v) (fun _ => 0) (k : Nat) = t * expand (hiFree s) v (fun _ => 0) k := by
          by_cases hk : ∃ j, hiFree s j = k
          · obtain ⟨j, hj⟩ := hk
            rw [← hj, expand_mem _ (hiFree_inj hnd), expand_mem _ (hiFree_inj hnd)]; rfl
          · push Not at hk
            rw [expand_notMem _ _ _ _ hk, expand_notMem _ _ _ _ hk, mul_zero]
        rw [this]; ring
      rw [e] at this
      exact Metric.mem_closedBall.1 this
    have := taylor_of_line (fun x => (s.nLevel D coords l).err (hiMove s q x))
      (fun x => (s.nLevel D coords l).J (hiMove s q x)) L hL 0 v
      (fun t ht => by
        have h1 := C114_derivative (D := D) hb hl hv hnd hlt heq q v t (hmov _ (hseg t ht) v) hi
        rw [zero_add]
        refine HasDerivAt.congr_of_eventuallyEq h1 ?_
        filter_upwards with u
        rw [zero_add]; rfl)
      (fun t ht => by
        rw [zero_add, hiMove_zero hnd]
        exact hLip l hml q (t • v) hq (hseg t ht) v)
    rw [zero_add, hiMove_zero hnd] at this
    exact this
  · obtain ⟨v, h1, h2⟩ := hlin q hq
    refine ⟨v, fun l hl' => ?_, ?_⟩
    · obtain ⟨l, hml, rfl⟩ := List.mem_map.1 hl'
      exact h1 l hml
    · unfold nErr
      rwa [hnorm q] at h2

/-- C114. Local convergence of the solver, for equality constraints on a vector space of dimension `nq`, with the
error, the reduced Jacobians and the rows that it computes for the constraints inserted.  If, in a ball around the initial
configuration, the Jacobians of the functions are their derivatives, the reduced Jacobians are Lipschitz continuous and bounded and the
linearised constraints have a solution of norm at most `β` times the error, if the initial error is small enough and if enough
iterations are allowed, then `SUCCESS` is returned.  At the configuration returned the squared error computed by the solver
is at most the threshold, as well as the squared error of each constraint, and the variables that are not free have not changed. -/
theorem C114_success (hb : HI.Built El nv h s)
    (hl : ∀ e ∈ h, e.1.fn.space.Lawful (El e.1.fn)) (hv : ∀ e ∈ h, ∀ q, El e.1.fn (e.1.fn.value q))
    (hnd : (indices s.free.segs).Nodup) (hlt : ∀ k ∈ indices s.free.segs, k < nq)
    (heq : ∀ e ∈ h, ∀ t ∈ e.1.comp, t = .equality ∨ t = .equalToZero)
    (hdep : ∀ e ∈ h, true ∈ e.1.mask → dependsOnFree s.free.segs e.1 = true)
    (hopt : s.lastIsOptional = false) (hby : s.byLevel = false)
    (hlv : s.levels.length ≤ 1 ∨ ∃ l ls, s.levels = l :: ls ∧ indices l.rows.segs ≠ [])
    (o : SvdOps ℝ) (ho : o.Exact) (hor : o.Ortho) (dqMin : ℝ) (ht : 0 ≤ s.sqThr)
    (q0 : Fin nq → ℝ) (ρ L β K : ℝ) (hL : 0 ≤ L) (hβ : 0 ≤ β) (hK0 : 0 ≤ K)
    (hmov : ∀ q, dist q q0 ≤ ρ → ∀ v, Moves El h D Vel nq (fun u => coords (hiMove s q (u • v)))
      (expand (hiFree s) v fun _ => 0))
    (hLip : ∀ l ∈ s.levels, ∀ q v, dist q q0 ≤ ρ → dist (hiMove s q v) q0 ≤ ρ → ∀ w,
      nrm ((s.dJ D (fun _ _ => 0) (coords (hiMove s q v)) l - s.dJ D (fun _ _ => 0) (coords q) l) *ᵥ w) ≤
        L * nrm v * nrm w)
    (hlin : ∀ q, dist q q0 ≤ ρ → ∃ v, (∀ l ∈ s.levels, s.dJ D (fun _ _ => 0) (coords q) l *ᵥ v =
      -s.dErr D (fun _ _ => 0) (coords q) l) ∧ nrm v ≤ β * Real.sqrt ((s.sqNorm (coords q)).getD 0))
    (hK : ∀ l ∈ s.levels, ∀ q, dist q q0 ≤ ρ → ∀ v, (s.dJ D (fun _ _ => 0) (coords q) l *ᵥ v) ⬝ᵥ
      (s.dJ D (fun _ _ => 0) (coords q) l *ᵥ v) ≤ K * (v ⬝ᵥ v))
    (ε : ℝ) (hε : s.sqNorm (coords q0) = some (ε ^ 2)) (hε0 : 0 ≤ ε) (hρ : 2 * β * ε ≤ ρ) (hE : L * β ^ 2 * ε ≤ 1 / 2)
    (I : S → Prop) (bmin : ℝ) (hbm : 0 < bmin)
    (ls : S → (Fin nq → ℝ) → (Fin (indices s.free.segs).length → ℝ) →
      S × LsOut (Fin nq → ℝ) (Fin (indices s.free.segs).length → ℝ))
    (hls : StepsIn (hiMove s) I bmin ls) (hm : ((1 - bmin / 2) ^ s.maxIter * ε) ^ 2 ≤ s.sqThr)
    (hdq : K * dqMin ≤ s.sqThr) (J0 : (Fin nq → ℝ) → Jac ℝ) (dq : Fin (indices s.free.segs).length → ℝ) (st : S) (hst : I st) :
    let r := solve (s.ops D o J0 coords ls) s.sqThr dqMin s.maxIter s.reducedDim q0 (dq, st)
    r.status = some .success ∧ dist r.arg q0 ≤ 2 * β * ε ∧
    (∃ x, s.sqNorm (coords r.arg) = some x ∧ x ≤ s.sqThr) ∧
    (∀ e ∈ h, ∃ v b, s.isConstraintSatisfied e.1 (coords r.arg) = some (some (v, b)) ∧ sqSum v ≤ s.sqThr) ∧
    ∀ k : Fin nq, (k : Nat) ∉ indices s.free.segs → r.arg k = q0 k := by
  have hk : s.Kept h := fun e he => ⟨fun r hr => hdep e he (List.mem_of_getElem? hr), fun r t _ htc hin => by
    rcases heq e he t (List.mem_of_getElem? htc) with rfl | rfl <;> rcases hin with h | h <;> cases h⟩
  have hnorm : ∀ q : Fin nq → ℝ, s.sqNorm (coords q) =
      some (nSqNorm false (s.levels.map (s.nLevel D coords)) q) := fun q => by
    have := nSqNorm_levels (D := D) hb hl hv hk (fun h => by rw [hopt] at h; cases h) (coords (n := nq)) q
    rwa [hopt] at this
  have hsteps := C114_same_steps (D := D) hb hl hv hk (fun h => by rw [hopt] at h; cases h) o J0 (coords (n := nq)) ls
  rw [hopt, hby] at hsteps
  have herr : nErr (s.levels.map (s.nLevel D coords)) q0 = ε := by
    unfold nErr
    have h1 := hnorm q0
    rw [hε] at h1
    rw [← Option.some.inj h1, Real.sqrt_sq hε0]
  have hR : Regular (hiMove s) (s.levels.map (s.nLevel D coords)) q0 ρ L β :=
    (C114_regular (D := D) hb hl hv hnd hlt heq hdep hopt q0 ρ L β hL hmov hLip hlin).2
  rw [hsteps, solve_dims (D := D) hb hl hv coords o s.sqThr dqMin ht ls s.maxIter q0 (dq, st) false]
  intro r
  obtain ⟨h1, h2, h3⟩ := C94_success o ho hor s.sqThr dqMin ht (s.levels.map (s.nLevel D coords)) (by
      rcases hlv with h | ⟨l, ls', h, hr⟩
      · exact .inl (by rwa [List.length_map])
      · refine .inr ⟨_, _, by rw [h]; rfl, ?_⟩
        show (indices l.rows.segs).length ≠ 0
        exact fun h => hr (List.length_eq_zero_iff.1 h)) (hiMove s) q0 ρ L β hR hL hβ (by rw [herr]; exact hρ)
    (by rw [herr]; exact hE) I bmin hbm ls hls s.maxIter (by rw [herr]; exact hm) K (by
      intro l hl' q' hq' v
      obtain ⟨l, hml, rfl⟩ := List.mem_map.1 hl'
      exact hK l hml q' hq' v) hK0 hdq dq st hst
  have h4 : nSqNorm false (s.levels.map (s.nLevel D coords)) r.arg ≤ s.sqThr :=
    (C29_statuses (newtonOps o false false s.sqThr (s.levels.map (s.nLevel D coords)) ls) s.sqThr dqMin s.maxIter
      (indices s.free.segs).length q0 (dq, st)).2.1.1 h1 |> fun h => by
      have e := (C29_statuses (newtonOps o false false s.sqThr (s.levels.map (s.nLevel D coords)) ls) s.sqThr dqMin
        s.maxIter (indices s.free.segs).length q0 (dq, st)).1
      rw [show r.arg = _ from e]
      exact h
  refine ⟨h1, by rw [← herr]; exact h2, ⟨_, hnorm _, h4⟩, ?_, ?_⟩
  · intro e he
    obtain ⟨hs, hf, R, hR'⟩ := hb.inv hl hv
    refine ⟨_, _, isConstraintSatisfied_eq hs hf hR' he _, ?_⟩
    have h5 := hnorm r.arg
    rw [solver_sqNorm_eq hs hf hR' (fun h => by rw [hopt] at h; cases h)] at h5
    have h6 := (foldl_max_spec (fun c : Impl ℝ κ => sqSum (conError s.ineqThr (coords r.arg) c (R c.fn.key)))
      ((List.range s.nMandatory).flatMap (atLevel h)) 0).2.1 e.1 (by
        rw [List.mem_flatMap]
        refine ⟨e.2, ?_, mem_atLevel.2 he⟩
        rw [List.mem_range, HI.nMandatory, hopt]
        exact (C23_levels hb hl hv).2.1 e he)
    rw [Option.some.inj h5] at h6
    refine le_trans (le_of_eq ?_) (h6.trans h4)
    rw [conError_of_equalities hf hR' he (heq e he)]
  · have key : ∀ j, I (traj (newtonOps o false false s.sqThr (s.levels.map (s.nLevel D coords)) ls) q0 (dq, st) j).2.2 ∧
        ∀ k : Fin nq, (k : Nat) ∉ indices s.free.segs →
        (traj (newtonOps o false false s.sqThr (s.levels.map (s.nLevel D coords)) ls) q0 (dq, st) j).1 k = q0 k := by
      intro j
      induction j with
      | zero => exact ⟨hst, fun _ _ => rfl⟩
      | succ j ih =>
        obtain ⟨i1, b, -, -, i2⟩ := hls _
          (traj (newtonOps o false false s.sqThr (s.levels.map (s.nLevel D coords)) ls) q0 (dq, st) j).1
          ((newtonOps o false false s.sqThr (s.levels.map (s.nLevel D coords)) ls).dir
            (traj (newtonOps o false false s.sqThr (s.levels.map (s.nLevel D coords)) ls) q0 (dq, st) j).1
            (traj (newtonOps o false false s.sqThr (s.levels.map (s.nLevel D coords)) ls) q0 (dq, st) j).2).1.1 ih.1
        refine ⟨i1, fun k hk => ?_⟩
        refine (congrFun i2 k).trans ?_
        unfold hiMove
        rw [ih.2 k hk, expand_notMem, add_zero]
        intro c hc
        refine hk ?_
        rw [← hc]
        unfold hiFree
        rw [List.getD_eq_getElem?_getD, List.getElem?_eq_getElem c.2, Option.getD_some]
        exact List.getElem_mem c.2
    intro k hk
    rw [show r.arg = _ from (C29_statuses (newtonOps o false false s.sqThr (s.levels.map (s.nLevel D coords)) ls) s.sqThr
      dqMin s.maxIter (indices s.free.segs).length q0 (dq, st)).1]
    exact (key _).2 k hk

/-- C114. A constraint that depends on no free variable and that is not satisfied at the initial configuration prevents success,
whatever the line search, the decomposition and the other constraints: it is not solved for, but it is taken into account in the error. -/
theorem C114_lost_constraint (hb : HI.Built El nv h s)
    (hl : ∀ e ∈ h, e.1.fn.space.Lawful (El e.1.fn)) (hv : ∀ e ∈ h, ∀ q, El e.1.fn (e.1.fn.value q))
    (e : Impl ℝ κ × Nat) (he : e ∈ h) (hman : e.2 < s.nMandatory)
    (heq : ∀ t ∈ e.1.comp, t = .equality ∨ t = .equalToZero)
    (hval : ∀ q q' : Nat → ℝ, (∀ k, k ∉ indices s.free.segs → q k = q' k) → e.1.fn.value q = e.1.fn.value q')
    (o : SvdOps ℝ) (dqMin : ℝ) (q0 : Fin nq → ℝ) (v : List ℝ) (b : Bool)
    (hsat : s.isConstraintSatisfied e.1 (coords q0) = some (some (v, b))) (herr : s.sqThr < sqSum v)
    (ls : S → (Fin nq → ℝ) → (Fin (indices s.free.segs).length → ℝ) →
      S × LsOut (Fin nq → ℝ) (Fin (indices s.free.segs).length → ℝ))
    (hls : ∀ st q u, ∃ w, (ls st q u).2.arg = hiMove s q w)
    (maxIter dim : Nat) (J0 : (Fin nq → ℝ) → Jac ℝ) (m) :
    (solve (s.ops D o J0 coords ls) s.sqThr dqMin maxIter dim q0 m).status ≠ some .success := by
  obtain ⟨hs, hf, R, hR⟩ := hb.inv hl hv
  have key : ∀ j, ∀ k : Nat, k ∉ indices s.free.segs →
      coords (traj (s.ops D o J0 coords ls) q0 m j).1 k = coords q0 k := by
    intro j
    induction j with
    | zero => exact fun _ _ => rfl
    | succ j ih =>
      obtain ⟨w, hw⟩ := hls _ (traj (s.ops D o J0 coords ls) q0 m j).1
        ((s.ops D o J0 coords ls).dir (traj (s.ops D o J0 coords ls) q0 m j).1
          (traj (s.ops D o J0 coords ls) q0 m j).2).1.1
      intro k hk
      rw [← ih k hk]
      have h1 : (traj (s.ops D o J0 coords ls) q0 m (j + 1)).1 =
        hiMove s (traj (s.ops D o J0 coords ls) q0 m j).1 w := hw
      rw [h1]
      unfold coords
      by_cases hkn : k < nq
      · rw [dif_pos hkn, dif_pos hkn]
        unfold hiMove
        rw [expand_notMem, add_zero]
        intro c hc
        refine hk ?_
        rw [show k = hiFree s c from hc.symm]
        unfold hiFree
        rw [List.getD_eq_getElem?_getD, List.getElem?_eq_getElem c.2, Option.getD_some]
        exact List.getElem_mem c.2
      · rw [dif_neg hkn, dif_neg hkn]
  intro hsu
  have hle := (C29_statuses (s.ops D o J0 coords ls) s.sqThr dqMin maxIter dim q0 m).2.1.1 hsu
  generalize (solve (s.ops D o J0 coords ls) s.sqThr dqMin maxIter dim q0 m).iter = j at hle
  have hle' : (s.sqNorm (coords (traj (s.ops D o J0 coords ls) q0 m j).1)).getD 0 ≤ s.sqThr := hle
  rw [solver_sqNorm_eq hs hf hR (fun ho hnil => by
    unfold HI.nMandatory at hman
    rw [hnil] at hman
    split at hman <;> simp at hman), Option.getD_some] at hle'
  have h6 := (foldl_max_spec (fun c : Impl ℝ κ => sqSum (conError s.ineqThr
      (coords (traj (s.ops D o J0 coords ls) q0 m j).1) c (R c.fn.key)))
    ((List.range s.nMandatory).flatMap (atLevel h)) 0).2.1 e.1 (by
      rw [List.mem_flatMap]
      exact ⟨e.2, List.mem_range.2 hman, mem_atLevel.2 he⟩)
  have h7 := h6.trans hle'
  rw [conError_of_equalities hf hR he heq, hval _ (coords q0) (key j)] at h7
  rw [isConstraintSatisfied_eq hs hf hR he] at hsat
  have h8 := (Prod.mk.inj (Option.some.inj (Option.some.inj hsat))).1
  rw [h8] at h7
  exact absurd herr (not_lt.2 h7)

end

end Hpp
