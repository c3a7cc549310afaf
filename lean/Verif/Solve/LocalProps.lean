import Verif.Solve.NewtonProps
import Verif.Solve.ShortestProps
import Mathlib.Analysis.InnerProductSpace.PiL2
import Mathlib.Analysis.Calculus.MeanValue

/-!
# Local convergence of the solver on nonlinear constraints: C94
-/

namespace Hpp

open Matrix

variable {A S : Type}

/-- Euclidean norm -/
noncomputable def nrm {m : Nat} (v : Fin m → ℝ) : ℝ := Real.sqrt (v ⬝ᵥ v)

/-- Error of the mandatory levels as measured by the solver, not squared. -/
noncomputable def nErr {n : Nat} (lv : List (NLevel A ℝ n)) (q : A) : ℝ := Real.sqrt (nSqNorm false lv q)

/-- Specification: in the ball of center `q0` and radius `ρ`, integration moves by at most the norm of the
velocity, the errors are approximated to second order by their linearisation, and the linearised constraints have a
common solution of norm at most `β` times the error. -/
structure Regular [PseudoMetricSpace A] {n : Nat} (integrate : A → (Fin n → ℝ) → A) (lv : List (NLevel A ℝ n))
    (q0 : A) (ρ L β : ℝ) : Prop where
  move : ∀ q v, dist q q0 ≤ ρ → dist (integrate q v) q ≤ nrm v
  taylor : ∀ l ∈ lv, ∀ q v, dist q q0 ≤ ρ → dist (integrate q v) q0 ≤ ρ →
    nrm (l.err (integrate q v) - l.err q - l.J q *ᵥ v) ≤ L * (v ⬝ᵥ v)
  linear : ∀ q, dist q q0 ≤ ρ → ∃ v, (∀ l ∈ lv, l.J q *ᵥ v = -l.err q) ∧ nrm v ≤ β * nErr lv q

section lemmas
variable {n : Nat}

theorem nrm_eq {m : Nat} (v : Fin m → ℝ) : nrm v = ‖(WithLp.toLp 2 v : EuclideanSpace ℝ (Fin m))‖ := by
  rw [EuclideanSpace.norm_eq, nrm]
  congr 1
  refine Finset.sum_congr rfl fun i _ => ?_
  rw [Real.norm_eq_abs, sq_abs, sq]

theorem nrm_nonneg {m : Nat} (v : Fin m → ℝ) : 0 ≤ nrm v := Real.sqrt_nonneg _

theorem nrm_sq {m : Nat} (v : Fin m → ℝ) : nrm v ^ 2 = v ⬝ᵥ v := Real.sq_sqrt (dot_self_nonneg v)

theorem nrm_add_le {m : Nat} (v w : Fin m → ℝ) : nrm (v + w) ≤ nrm v + nrm w := by
  simp only [nrm_eq]
  exact norm_add_le _ _

theorem nrm_smul {m : Nat} (c : ℝ) (v : Fin m → ℝ) : nrm (c • v) = |c| * nrm v := by
  simp only [nrm_eq]
  rw [WithLp.toLp_smul, norm_smul, Real.norm_eq_abs]

/-- Error of one constraint -/
def blkVec (l : NLevel A ℝ n) (k : Fin l.nc) (e : Fin l.m → ℝ) : Fin l.m → ℝ := fun i => if l.blk i = k then e i else 0

theorem blkVec_dot (l : NLevel A ℝ n) (k : Fin l.nc) (e : Fin l.m → ℝ) :
    blkVec l k e ⬝ᵥ blkVec l k e = ∑ i, if l.blk i = k then e i * e i else 0 := by
  refine Finset.sum_congr rfl fun i _ => ?_
  unfold blkVec
  split <;> simp

theorem blkVec_le (l : NLevel A ℝ n) (k : Fin l.nc) (e : Fin l.m → ℝ) : nrm (blkVec l k e) ≤ nrm e := by
  refine Real.sqrt_le_sqrt (Finset.sum_le_sum fun i _ => ?_)
  unfold blkVec
  split
  · exact le_refl _
  · rw [zero_mul]; exact mul_self_nonneg _

theorem nErr_le_iff (lv : List (NLevel A ℝ n)) (q : A) {y : ℝ} (hy : 0 ≤ y) :
    nErr lv q ≤ y ↔ ∀ l ∈ lv, ∀ k, nrm (blkVec l k (l.err q)) ≤ y := by
  unfold nErr
  rw [Real.sqrt_le_left hy]
  unfold nSqNorm
  rw [if_neg (by simp), foldl_max_le]
  constructor
  · rintro ⟨-, h⟩ l hl k
    refine (Real.sqrt_le_left hy).2 ?_
    rw [blkVec_dot]
    exact h _ (List.mem_flatMap.2 ⟨l, hl, List.mem_map.2 ⟨k, List.mem_finRange k, rfl⟩⟩)
  · intro h
    refine ⟨sq_nonneg _, fun z hz => ?_⟩
    obtain ⟨l, hl, hz⟩ := List.mem_flatMap.1 hz
    obtain ⟨k, -, rfl⟩ := List.mem_map.1 hz
    have := (Real.sqrt_le_left hy).1 (h l hl k)
    rwa [blkVec_dot] at this

theorem nErr_nonneg (lv : List (NLevel A ℝ n)) (q : A) : 0 ≤ nErr lv q := Real.sqrt_nonneg _

theorem nErr_sq (lv : List (NLevel A ℝ n)) (q : A) : nErr lv q ^ 2 = nSqNorm false lv q :=
  Real.sq_sqrt (nSqNorm_nonneg _ _ _)

theorem nErr_step (lv : List (NLevel A ℝ n)) (q q' : A) (c δ : ℝ) (hc : 0 ≤ c) (hδ : 0 ≤ δ)
    (h : ∀ l ∈ lv, nrm (l.err q' - c • l.err q) ≤ δ) : nErr lv q' ≤ c * nErr lv q + δ := by
  rw [nErr_le_iff _ _ (add_nonneg (mul_nonneg hc (nErr_nonneg _ _)) hδ)]
  intro l hl k
  have h1 := (nErr_le_iff lv q (nErr_nonneg lv q)).1 le_rfl l hl k
  have e : blkVec l k (l.err q') = c • blkVec l k (l.err q) + blkVec l k (l.err q' - c • l.err q) := by
    funext i
    simp only [blkVec, Pi.add_apply, Pi.smul_apply, Pi.sub_apply, smul_eq_mul]
    split <;> simp
  rw [e]
  refine (nrm_add_le _ _).trans (add_le_add ?_ ((blkVec_le l k _).trans (h l hl)))
  rw [nrm_smul, abs_of_nonneg hc]
  exact mul_le_mul_of_nonneg_left h1 hc

/-- Exact solutions of all linearised levels are lexicographic minimisers. -/
theorem lexOpt_of_zero (ds : List (DLevel ℝ n)) : ∀ (S : Set (Fin n → ℝ)) (v : Fin n → ℝ), v ∈ S →
    (∀ d ∈ ds, d.J *ᵥ v + d.e = 0) → v ∈ lexOpt S ds := by
  induction ds with
  | nil => intro S v hv _; exact hv
  | cons d ds ih =>
    intro S v hv h
    refine ih _ v ⟨hv, fun y _ => ?_⟩ fun d' hd' => h d' (by simp [hd'])
    have : d.cost v = 0 := by unfold DLevel.cost; rw [h d (by simp), zero_dotProduct]
    rw [this]
    exact dot_self_nonneg _

end lemmas

section main
variable [PseudoMetricSpace A] {n : Nat} {o : SvdOps ℝ} (ho : o.Exact) (hor : o.Ortho) {thr : ℝ}
  {lv : List (NLevel A ℝ n)} (hlv : lv.length ≤ 1 ∨ ∃ l ls, lv = l :: ls ∧ l.m ≠ 0)
  {integrate : A → (Fin n → ℝ) → A} {q0 : A} {ρ L β : ℝ} (hR : Regular integrate lv q0 ρ L β)

include ho hor hlv hR

/-- The direction at a point of the ball. -/
theorem local_dir {q : A} (hq : dist q q0 ≤ ρ) (dq : Fin n → ℝ) :
    (∀ l ∈ lv, l.J q *ᵥ ((descend o false thr (lv.map fun l => l.at q) dq).getD 0) = -l.err q) ∧
      nrm ((descend o false thr (lv.map fun l => l.at q) dq).getD 0) ≤ β * nErr lv q := by
  obtain ⟨v, hv, hb⟩ := hR.linear q hq
  have hv' : ∀ d ∈ lv.map (fun l => l.at q), d.J *ᵥ v + d.e = 0 := by
    intro d hd
    obtain ⟨l, hl, rfl⟩ := List.mem_map.1 hd
    show l.J q *ᵥ v + l.err q = 0
    rw [hv l hl, neg_add_cancel]
  cases h : descend o false thr (lv.map fun l => l.at q) dq with
  | none =>
    have : lv = [] := by
      cases lv with
      | nil => rfl
      | cons l lv => cases lv <;> simp [descend] at h
    subst this
    refine ⟨fun l hl => by simp at hl, ?_⟩
    refine le_trans ?_ ((nrm_nonneg v).trans hb)
    simp [nrm]
  | some r =>
    have hlv' : (lv.map fun l => l.at q).length ≤ 1 ∨
        ∃ d ds, (lv.map fun l => l.at q) = d :: ds ∧ d.m ≠ 0 := by
      rcases hlv with h | ⟨l, ls, h1, h2⟩
      · left; simpa using h
      · right; exact ⟨l.at q, ls.map fun l => l.at q, by rw [h1]; rfl, h2⟩
    rw [Option.getD_some]
    refine ⟨fun l hl => ?_, ?_⟩
    · have := lexOpt_zero _ Set.univ v r trivial hv' (C36_lexicographic o ho thr _ dq h) (l.at q)
        (List.mem_map.2 ⟨l, hl, rfl⟩)
      exact eq_neg_of_add_eq_zero_left this
    · refine le_trans (Real.sqrt_le_sqrt ?_) hb
      exact (C93_shortest_partial o ho hor thr _ hlv' dq h v (lexOpt_of_zero _ _ v trivial hv')).1

/-- One iteration. -/
theorem local_step (hL : 0 ≤ L) {q : A} (hq : dist q q0 ≤ ρ) (dq : Fin n → ℝ) {b : ℝ} (hb1 : b ≤ 1)
    (hq' : dist (integrate q (b • (descend o false thr (lv.map fun l => l.at q) dq).getD 0)) q0 ≤ ρ) :
    nErr lv (integrate q (b • (descend o false thr (lv.map fun l => l.at q) dq).getD 0)) ≤
      (1 - b) * nErr lv q + L * b ^ 2 * β ^ 2 * nErr lv q ^ 2 := by
  obtain ⟨h1, h2⟩ := local_dir (thr := thr) ho hor hlv hR hq dq
  set d := (descend o false thr (lv.map fun l => l.at q) dq).getD 0
  have h3 : d ⬝ᵥ d ≤ β ^ 2 * nErr lv q ^ 2 := by
    rw [← nrm_sq, ← mul_pow]
    exact pow_le_pow_left₀ (nrm_nonneg d) h2 2
  refine nErr_step lv q _ (1 - b) _ (by linarith) (by positivity) fun l hl => ?_
  have h4 := hR.taylor l hl q (b • d) hq hq'
  have e : l.err (integrate q (b • d)) - (1 - b) • l.err q =
      l.err (integrate q (b • d)) - l.err q - l.J q *ᵥ (b • d) := by
    rw [mulVec_smul, h1 l hl, smul_neg, sub_smul, one_smul]
    abel
  rw [e]
  refine h4.trans ?_
  rw [smul_dotProduct, dotProduct_smul, smul_eq_mul, smul_eq_mul]
  have : L * (b * (b * (d ⬝ᵥ d))) = L * b ^ 2 * (d ⬝ᵥ d) := by ring
  rw [this, mul_assoc (L * b ^ 2)]
  exact mul_le_mul_of_nonneg_left h3 (by positivity)

variable {I : S → Prop} {bmin : ℝ} {ls : S → A → (Fin n → ℝ) → S × LsOut A (Fin n → ℝ)}
  (hls : StepsIn integrate I bmin ls) (hb : 0 ≤ bmin) (hL : 0 ≤ L) (hβ : 0 ≤ β)
  (hρ : 2 * β * nErr lv q0 ≤ ρ) (hE : L * β ^ 2 * nErr lv q0 ≤ 1 / 2)
include hls hb hL hβ hρ hE

/-- The iterations stay in the ball and the error decreases. -/
theorem local_traj (dq : Fin n → ℝ) {s : S} (hs : I s) : ∀ k,
    dist (traj (newtonOps o false false thr lv ls) q0 (dq, s) k).1 q0 ≤
      2 * β * (nErr lv q0 - nErr lv (traj (newtonOps o false false thr lv ls) q0 (dq, s) k).1) ∧
    nErr lv (traj (newtonOps o false false thr lv ls) q0 (dq, s) k).1 ≤ nErr lv q0 ∧
    I (traj (newtonOps o false false thr lv ls) q0 (dq, s) k).2.2 ∧
    ∃ b, bmin ≤ b ∧ b ≤ 1 ∧
      nErr lv (traj (newtonOps o false false thr lv ls) q0 (dq, s) (k + 1)).1 ≤
        (1 - b) * nErr lv (traj (newtonOps o false false thr lv ls) q0 (dq, s) k).1 +
          L * b ^ 2 * β ^ 2 * nErr lv (traj (newtonOps o false false thr lv ls) q0 (dq, s) k).1 ^ 2 ∧
      dist (traj (newtonOps o false false thr lv ls) q0 (dq, s) (k + 1)).1 q0 ≤
        2 * β * (nErr lv q0 - nErr lv (traj (newtonOps o false false thr lv ls) q0 (dq, s) (k + 1)).1) ∧
      nErr lv (traj (newtonOps o false false thr lv ls) q0 (dq, s) (k + 1)).1 ≤
        (1 - b / 2) * nErr lv (traj (newtonOps o false false thr lv ls) q0 (dq, s) k).1 ∧
      I (traj (newtonOps o false false thr lv ls) q0 (dq, s) (k + 1)).2.2 := by
  set O := newtonOps o false false thr lv ls with hO
  have step : ∀ q : A, ∀ m : (Fin n → ℝ) × S, dist q q0 ≤ 2 * β * (nErr lv q0 - nErr lv q) →
      nErr lv q ≤ nErr lv q0 → I m.2 → ∃ b, bmin ≤ b ∧ b ≤ 1 ∧
      nErr lv (O.search q (O.dir q m).1).1 ≤ (1 - b) * nErr lv q + L * b ^ 2 * β ^ 2 * nErr lv q ^ 2 ∧
      dist (O.search q (O.dir q m).1).1 q0 ≤ 2 * β * (nErr lv q0 - nErr lv (O.search q (O.dir q m).1).1) ∧
      nErr lv (O.search q (O.dir q m).1).1 ≤ (1 - b / 2) * nErr lv q ∧
      I (O.search q (O.dir q m).1).2.2 := by
    intro q m hd hle hI
    have hE0 := nErr_nonneg lv q
    have hdρ : dist q q0 ≤ ρ := by nlinarith
    obtain ⟨-, h2⟩ := local_dir (thr := thr) ho hor hlv hR hdρ m.1
    obtain ⟨g1, b, hb1, hb2, g2⟩ := hls m.2 q ((descend o false thr (lv.map fun l => l.at q) m.1).getD 0) hI
    have g3 : (O.search q (O.dir q m).1).1 =
      integrate q (b • (descend o false thr (lv.map fun l => l.at q) m.1).getD 0) := g2
    have hb0 : 0 ≤ b := hb.trans hb1
    have hmv : dist (O.search q (O.dir q m).1).1 q0 ≤ b * (β * nErr lv q) + dist q q0 := by
      refine (dist_triangle _ q _).trans (add_le_add ?_ le_rfl)
      rw [g3]
      refine (hR.move _ _ hdρ).trans ?_
      rw [nrm_smul, abs_of_nonneg hb0]
      exact mul_le_mul_of_nonneg_left h2 hb0
    have hβE : 0 ≤ β * nErr lv q := mul_nonneg hβ hE0
    have hin : dist (O.search q (O.dir q m).1).1 q0 ≤ ρ := by nlinarith
    have h4 := local_step (thr := thr) ho hor hlv hR hL hdρ m.1 hb2 (by rw [← g3]; exact hin)
    rw [← g3] at h4
    have h5 : L * β ^ 2 * nErr lv q ≤ 1 / 2 := by
      refine le_trans ?_ hE
      exact mul_le_mul_of_nonneg_left hle (by positivity)
    have h6 : L * b ^ 2 * β ^ 2 * nErr lv q ^ 2 ≤ b / 2 * nErr lv q := by
      have e : L * b ^ 2 * β ^ 2 * nErr lv q ^ 2 = (L * β ^ 2 * nErr lv q) * (b ^ 2 * nErr lv q) := by ring
      have e2 : b ^ 2 * nErr lv q ≤ b * nErr lv q := by
        refine mul_le_mul_of_nonneg_right ?_ hE0
        nlinarith
      have e3 : 0 ≤ b ^ 2 * nErr lv q := by positivity
      rw [e]
      nlinarith
    have h7 : nErr lv (O.search q (O.dir q m).1).1 ≤ (1 - b / 2) * nErr lv q := by linarith
    refine ⟨b, hb1, hb2, h4, ?_, h7, g1⟩
    refine hmv.trans ?_
    have h8 : b * nErr lv q ≤ 2 * (nErr lv q - nErr lv (O.search q (O.dir q m).1).1) := by linarith
    have h9 := mul_le_mul_of_nonneg_left h8 hβ
    nlinarith
  intro k
  induction k with
  | zero =>
    have h0 : dist q0 q0 ≤ 2 * β * (nErr lv q0 - nErr lv q0) := by rw [dist_self, sub_self, mul_zero]
    exact ⟨h0, le_rfl, hs, step q0 (dq, s) h0 le_rfl hs⟩
  | succ k ih =>
    obtain ⟨h1, h2, h3, b, b1, b2, -, g1, g2, g3⟩ := ih
    have g4 : nErr lv (traj O q0 (dq, s) (k + 1)).1 ≤ nErr lv q0 := by
      have := nErr_nonneg lv (traj O q0 (dq, s) k).1
      have hb0 : 0 ≤ b := hb.trans b1
      nlinarith
    exact ⟨g1, g4, g3, step _ (traj O q0 (dq, s) (k + 1)).2 g1 g4 g3⟩

theorem local_rate (dq : Fin n → ℝ) {s : S} (hs : I s) (k : Nat) :
    nErr lv (traj (newtonOps o false false thr lv ls) q0 (dq, s) k).1 ≤ (1 - bmin / 2) ^ k * nErr lv q0 := by
  induction k with
  | zero => rw [pow_zero, one_mul]; exact le_rfl
  | succ k ih =>
    obtain ⟨-, -, -, b, b1, b2, -, -, g, -⟩ :=
      local_traj (thr := thr) ho hor hlv hR hls hb hL hβ hρ hE dq hs k
    have hE0 := nErr_nonneg lv (traj (newtonOps o false false thr lv ls) q0 (dq, s) k).1
    have : (1 - b / 2) * nErr lv (traj (newtonOps o false false thr lv ls) q0 (dq, s) k).1 ≤
        (1 - bmin / 2) * nErr lv (traj (newtonOps o false false thr lv ls) q0 (dq, s) k).1 :=
      mul_le_mul_of_nonneg_right (by linarith) hE0
    rw [pow_succ', mul_assoc]
    exact (g.trans this).trans (mul_le_mul_of_nonneg_left ih (by linarith))

end main

/-! ## C94 -/

/-- C94. Nonlinear constraints in any number of levels, any line search with step lengths in [bmin, 1]: if the initial
error is small enough with respect to the curvature and to the conditioning of the constraints around the initial
configuration, the error decreases at a geometric rate and the result is close to the initial configuration.  The
solver returns `SUCCESS`, or the number of iterations is not sufficient for this rate, or the step is smaller than the
smallest step accepted and then the status is `INFEASIBLE`.  `ERROR_INCREASED` is never returned. -/
theorem C94_converges [PseudoMetricSpace A] {n : Nat} (o : SvdOps ℝ) (ho : o.Exact) (hor : o.Ortho)
    (thr dqMin : ℝ) (ht : 0 ≤ thr) (lv : List (NLevel A ℝ n))
    (hlv : lv.length ≤ 1 ∨ ∃ l ls, lv = l :: ls ∧ l.m ≠ 0) (integrate : A → (Fin n → ℝ) → A) (q : A) (ρ L β : ℝ)
    (hR : Regular integrate lv q ρ L β) (hL : 0 ≤ L) (hβ : 0 ≤ β) (hρ : 2 * β * nErr lv q ≤ ρ)
    (hE : L * β ^ 2 * nErr lv q ≤ 1 / 2) (I : S → Prop) (bmin : ℝ) (hb : 0 < bmin)
    (ls : S → A → (Fin n → ℝ) → S × LsOut A (Fin n → ℝ)) (hls : StepsIn integrate I bmin ls)
    (maxIter : Nat) (dq : Fin n → ℝ) (s : S) (hs : I s) :
    let r := solve (newtonOps o false false thr lv ls) thr dqMin maxIter n q (dq, s)
    nErr lv r.arg ≤ (1 - bmin / 2) ^ r.iter * nErr lv q ∧ dist r.arg q ≤ 2 * β * nErr lv q ∧
    (r.status = some .success ∨
      (r.status = some .maxIterationReached ∧ thr < ((1 - bmin / 2) ^ maxIter * nErr lv q) ^ 2) ∨
      (r.status = some .infeasible ∧ ∃ v, (∀ l ∈ lv, l.J r.arg *ᵥ v = -l.err r.arg) ∧ v ⬝ᵥ v < dqMin)) := by
  intro r
  obtain ⟨h1, h2, h3, h4, h5, h6, h7⟩ :=
    C29_statuses (newtonOps o false false thr lv ls) thr dqMin maxIter n q (dq, s)
  have hr : r = solve (newtonOps o false false thr lv ls) thr dqMin maxIter n q (dq, s) := rfl
  rw [← hr] at h1 h2 h3 h4 h5 h6 h7
  have hrate := local_rate (thr := thr) ho hor hlv hR hls hb.le hL hβ hρ hE dq hs
  have htr := local_traj (thr := thr) ho hor hlv hR hls hb.le hL hβ hρ hE dq hs
  have hnorm : ∀ k, (newtonOps o false false thr lv ls).norm
      (traj (newtonOps o false false thr lv ls) q (dq, s) k).1 =
      nErr lv (traj (newtonOps o false false thr lv ls) q (dq, s) k).1 ^ 2 := fun k => (nErr_sq lv _).symm
  refine ⟨by rw [h1]; exact hrate _, ?_, ?_⟩
  · rw [h1]
    have := (htr r.iter).1
    have h0 := mul_nonneg hβ (nErr_nonneg lv (traj (newtonOps o false false thr lv ls) q (dq, s) r.iter).1)
    linarith
  cases hst : r.status with
  | none => exact absurd hst h6
  | some st =>
    cases st with
    | success => exact Or.inl rfl
    | maxIterationReached =>
      obtain ⟨g1, g2, -⟩ := h3.1 hst
      refine Or.inr (Or.inl ⟨rfl, lt_of_lt_of_le g1 ?_⟩)
      show (newtonOps o false false thr lv ls).norm _ ≤ _
      rw [hnorm, g2]
      exact pow_le_pow_left₀ (nErr_nonneg _ _) (hrate _) 2
    | errorIncreased =>
      exfalso
      obtain ⟨g1, g2, -, g3, -, -, g4⟩ := h4.1 hst
      obtain ⟨-, -, -, b, b1, b2, -, -, g5, -⟩ := htr (r.iter - 1)
      rw [show r.iter - 1 + 1 = r.iter by omega] at g5
      have e2 : thr < (newtonOps o false false thr lv ls).norm
        (traj (newtonOps o false false thr lv ls) q (dq, s) (r.iter - 1)).1 := (h7 (r.iter - 1) (by omega)).1
      have g4' : (newtonOps o false false thr lv ls).norm
          (traj (newtonOps o false false thr lv ls) q (dq, s) (r.iter - 1)).1 ≤
        (newtonOps o false false thr lv ls).norm (traj (newtonOps o false false thr lv ls) q (dq, s) r.iter).1 := g4
      rw [hnorm] at e2
      rw [hnorm, hnorm] at g4'
      have e3 := nErr_nonneg lv (traj (newtonOps o false false thr lv ls) q (dq, s) (r.iter - 1)).1
      have e4 := nErr_nonneg lv (traj (newtonOps o false false thr lv ls) q (dq, s) r.iter).1
      have e5 : 0 < nErr lv (traj (newtonOps o false false thr lv ls) q (dq, s) (r.iter - 1)).1 := by
        rcases e3.lt_or_eq with h | h
        · exact h
        · rw [← h] at e2; norm_num at e2; exact absurd ht (not_le.2 e2)
      have e6 : nErr lv (traj (newtonOps o false false thr lv ls) q (dq, s) r.iter).1 <
          nErr lv (traj (newtonOps o false false thr lv ls) q (dq, s) (r.iter - 1)).1 := by nlinarith
      have := pow_lt_pow_left₀ e6 e4 two_ne_zero
      linarith
    | infeasible =>
      right; right
      refine ⟨rfl, ?_⟩
      obtain ⟨g1, g2⟩ := h5.1 hst
      have hin : dist (traj (newtonOps o false false thr lv ls) q (dq, s) r.iter).1 q ≤ ρ := by
        have := (htr r.iter).1
        have h0 := mul_nonneg hβ (nErr_nonneg lv (traj (newtonOps o false false thr lv ls) q (dq, s) r.iter).1)
        linarith
      rw [h1]
      rcases g2 with ⟨g2, g3⟩ | ⟨g2, g3, -⟩
      · exfalso
        obtain ⟨v, hv, -⟩ := hR.linear _ hin
        have hz : ∀ l ∈ lv, l.err (traj (newtonOps o false false thr lv ls) q (dq, s) r.iter).1 = 0 := by
          intro l hl
          have e3 := hv l hl
          have e4 : l.J (traj (newtonOps o false false thr lv ls) q (dq, s) r.iter).1 *ᵥ v = 0 := by
            funext i
            subst g2
            simp [mulVec, dotProduct]
          rw [e4] at e3
          rw [← neg_eq_zero]
          exact e3.symm
        have g1' : thr < nSqNorm false lv (traj (newtonOps o false false thr lv ls) q (dq, s) r.iter).1 := g1
        rw [nSqNorm_zero false lv _ hz] at g1'
        exact absurd ht (not_le.2 g1')
      · exact ⟨_, (local_dir (thr := thr) ho hor hlv hR hin _).1, g3⟩

/-- C94. If moreover the Jacobians are bounded and the smallest step accepted is consistent with the threshold then
`SUCCESS` is returned, provided that enough iterations are allowed: all constraints are satisfied. -/
theorem C94_success [PseudoMetricSpace A] {n : Nat} (o : SvdOps ℝ) (ho : o.Exact) (hor : o.Ortho)
    (thr dqMin : ℝ) (ht : 0 ≤ thr) (lv : List (NLevel A ℝ n))
    (hlv : lv.length ≤ 1 ∨ ∃ l ls, lv = l :: ls ∧ l.m ≠ 0) (integrate : A → (Fin n → ℝ) → A) (q : A) (ρ L β : ℝ)
    (hR : Regular integrate lv q ρ L β) (hL : 0 ≤ L) (hβ : 0 ≤ β) (hρ : 2 * β * nErr lv q ≤ ρ)
    (hE : L * β ^ 2 * nErr lv q ≤ 1 / 2) (I : S → Prop) (bmin : ℝ) (hb : 0 < bmin)
    (ls : S → A → (Fin n → ℝ) → S × LsOut A (Fin n → ℝ)) (hls : StepsIn integrate I bmin ls)
    (maxIter : Nat) (hm : ((1 - bmin / 2) ^ maxIter * nErr lv q) ^ 2 ≤ thr) (K : ℝ)
    (hK : ∀ l ∈ lv, ∀ q', dist q' q ≤ ρ → ∀ v, (l.J q' *ᵥ v) ⬝ᵥ (l.J q' *ᵥ v) ≤ K * (v ⬝ᵥ v)) (hK0 : 0 ≤ K)
    (hdq : K * dqMin ≤ thr) (dq : Fin n → ℝ) (s : S) (hs : I s) :
    let r := solve (newtonOps o false false thr lv ls) thr dqMin maxIter n q (dq, s)
    r.status = some .success ∧ dist r.arg q ≤ 2 * β * nErr lv q ∧ ∀ l ∈ lv, ∀ k : Fin l.nc,
      (∑ i, if l.blk i = k then l.err r.arg i ^ 2 else 0) ≤ thr := by
  intro r
  obtain ⟨-, hd, h⟩ := C94_converges o ho hor thr dqMin ht lv hlv integrate q ρ L β hR hL hβ hρ hE I bmin hb ls hls
    maxIter dq s hs
  have hsu := C91_success o false false thr dqMin ht lv ls maxIter q dq s
  simp only [Bool.false_eq_true, if_false] at hsu
  have hst : r.status = some .success := by
    rcases h with h | ⟨-, h⟩ | ⟨-, v, hv, h⟩
    · exact h
    · exact absurd hm (not_le.2 h)
    · refine hsu.2 fun l hl k => ?_
      have e1 := hK l hl r.arg (hd.trans hρ) v
      have e3 : l.J r.arg *ᵥ v = -l.err r.arg := hv l hl
      rw [e3, neg_dotProduct_neg] at e1
      have e2 : (∑ i, if l.blk i = k then l.err r.arg i ^ 2 else 0) ≤ l.err r.arg ⬝ᵥ l.err r.arg := by
        refine Finset.sum_le_sum fun i _ => ?_
        split
        · rw [sq]
        · exact mul_self_nonneg _
      have e4 := mul_le_mul_of_nonneg_left h.le hK0
      linarith
  exact ⟨hst, hd, hsu.1 hst⟩

/-- C94. With constant steps the convergence is quadratic. -/
theorem C94_quadratic [PseudoMetricSpace A] {n : Nat} (o : SvdOps ℝ) (ho : o.Exact) (hor : o.Ortho)
    (thr dqMin : ℝ) (lv : List (NLevel A ℝ n))
    (hlv : lv.length ≤ 1 ∨ ∃ l ls, lv = l :: ls ∧ l.m ≠ 0) (integrate : A → (Fin n → ℝ) → A) (q : A) (ρ L β : ℝ)
    (hR : Regular integrate lv q ρ L β) (hL : 0 ≤ L) (hβ : 0 ≤ β) (hρ : 2 * β * nErr lv q ≤ ρ)
    (hE : L * β ^ 2 * nErr lv q ≤ 1 / 2) (maxIter : Nat) (dq : Fin n → ℝ) :
    let r := solve (newtonOps o false false thr lv (lsC false lv integrate)) thr dqMin maxIter n q (dq, ())
    L * β ^ 2 * nErr lv r.arg ≤ (L * β ^ 2 * nErr lv q) ^ 2 ^ r.iter := by
  intro r
  have hls : StepsIn integrate (fun _ => True) (1 : ℝ) (lsC false lv integrate) := fun s q u _ =>
    ⟨trivial, 1, le_refl _, le_refl _, by rw [one_smul]; rfl⟩
  have h1 : r.arg = (traj (newtonOps o false false thr lv (lsC false lv integrate)) q (dq, ()) r.iter).1 :=
    (C29_statuses (newtonOps o false false thr lv (lsC false lv integrate)) thr dqMin maxIter n q (dq, ())).1
  rw [h1]
  generalize r.iter = k
  induction k with
  | zero => rw [pow_zero, pow_one]; exact le_rfl
  | succ k ih =>
    obtain ⟨-, -, -, b, b1, b2, g, -⟩ :=
      local_traj (thr := thr) ho hor hlv hR hls zero_le_one hL hβ hρ hE dq (s := ()) trivial k
    rw [le_antisymm b2 b1, sub_self, zero_mul, zero_add, one_pow, mul_one] at g
    have hc : 0 ≤ L * β ^ 2 := by positivity
    rw [pow_succ 2 k, pow_mul]
    refine (mul_le_mul_of_nonneg_left g hc).trans ?_
    have e : ∀ x : ℝ, L * β ^ 2 * (L * β ^ 2 * x ^ 2) = (L * β ^ 2 * x) ^ 2 := fun x => by ring
    rw [e]
    exact pow_le_pow_left₀ (mul_nonneg hc (nErr_nonneg _ _)) ih 2

theorem pi_move {n : Nat} (q v : Fin n → ℝ) : dist (q + v) q ≤ nrm v := by
  rw [dist_eq_norm, add_sub_cancel_left, pi_norm_le_iff_of_nonneg (nrm_nonneg v)]
  intro i
  refine Real.le_sqrt_of_sq_le ?_
  rw [Real.norm_eq_abs, sq_abs, sq]
  exact Finset.single_le_sum (f := fun i => v i * v i) (fun i _ => mul_self_nonneg (v i)) (Finset.mem_univ i)

/-- Second order bound for a function whose derivative along a segment is given by a Lipschitz matrix. -/
theorem taylor_of_line {n m : Nat} (f : (Fin n → ℝ) → Fin m → ℝ) (J : (Fin n → ℝ) → Matrix (Fin m) (Fin n) ℝ)
    (L : ℝ) (hL : 0 ≤ L) (q v : Fin n → ℝ)
    (hd : ∀ t ∈ Set.Icc (0 : ℝ) 1, HasDerivAt (fun t : ℝ => f (q + t • v)) (J (q + t • v) *ᵥ v) t)
    (hLip : ∀ t ∈ Set.Icc (0 : ℝ) 1, nrm ((J (q + t • v) - J q) *ᵥ v) ≤ L * nrm (t • v) * nrm v) :
    nrm (f (q + v) - f q - J q *ᵥ v) ≤ L * (v ⬝ᵥ v) := by
  let T := (PiLp.continuousLinearEquiv 2 ℝ (fun _ : Fin m => ℝ)).symm.toContinuousLinearMap
  have hT : ∀ x, ‖T x‖ = nrm x := fun x => (nrm_eq x).symm
  have hder : ∀ t ∈ Set.Icc (0 : ℝ) 1, HasDerivWithinAt (fun t : ℝ => T (f (q + t • v) - t • (J q *ᵥ v)))
      (T ((J (q + t • v) - J q) *ᵥ v)) (Set.Icc 0 1) t := by
    intro t ht
    have h3 : HasDerivAt (fun t : ℝ => t • (J q *ᵥ v)) (J q *ᵥ v) t := by
      have := (hasDerivAt_id t).smul_const (J q *ᵥ v)
      simpa using this
    have h4 := T.hasFDerivAt.comp_hasDerivAt t ((hd t ht).sub h3)
    refine HasDerivAt.hasDerivWithinAt ?_
    rw [sub_mulVec]
    exact h4
  have hb : ∀ t ∈ Set.Ico (0 : ℝ) 1, ‖T ((J (q + t • v) - J q) *ᵥ v)‖ ≤ L * (v ⬝ᵥ v) := by
    intro t ht
    rw [hT]
    refine (hLip t ⟨ht.1, ht.2.le⟩).trans ?_
    rw [nrm_smul, abs_of_nonneg ht.1, ← nrm_sq]
    have h0 := nrm_nonneg v
    have h1 : t * nrm v ≤ nrm v := by nlinarith [ht.2]
    calc L * (t * nrm v) * nrm v ≤ L * nrm v * nrm v :=
          mul_le_mul_of_nonneg_right (mul_le_mul_of_nonneg_left h1 hL) h0
      _ = L * nrm v ^ 2 := by ring
  have key := norm_image_sub_le_of_norm_deriv_le_segment_01' hder hb
  simp only [one_smul, zero_smul, add_zero, sub_zero] at key
  rw [← map_sub, hT] at key
  convert key using 2
  abel

/-- C94, vector space: the hypothesis `Regular` when the derivatives along lines are given by Lipschitz
Jacobians. -/
theorem regular_of_lines {n : Nat} (lv : List (NLevel (Fin n → ℝ) ℝ n)) (q0 : Fin n → ℝ) (ρ L β : ℝ) (hL : 0 ≤ L)
    (hd : ∀ l ∈ lv, ∀ q v t, dist (q + t • v) q0 ≤ ρ →
      HasDerivAt (fun t : ℝ => l.err (q + t • v)) (l.J (q + t • v) *ᵥ v) t)
    (hLip : ∀ l ∈ lv, ∀ q q', dist q q0 ≤ ρ → dist q' q0 ≤ ρ → ∀ v,
      nrm ((l.J q' - l.J q) *ᵥ v) ≤ L * nrm (q' - q) * nrm v)
    (hl : ∀ q, dist q q0 ≤ ρ → ∃ v, (∀ l ∈ lv, l.J q *ᵥ v = -l.err q) ∧ nrm v ≤ β * nErr lv q) :
    Regular (· + ·) lv q0 ρ L β := by
  refine ⟨fun q v _ => pi_move q v, fun l hlv q v hq hqv => ?_, hl⟩
  have hseg : ∀ t ∈ Set.Icc (0 : ℝ) 1, dist (q + t • v) q0 ≤ ρ := by
    intro t ht
    have hc := convex_closedBall q0 ρ
    have := hc (Metric.mem_closedBall.2 hq) (Metric.mem_closedBall.2 hqv) (sub_nonneg.2 ht.2) ht.1 (by ring)
    have e : (1 - t) • q + t • (q + v) = q + t • v := by
      rw [sub_smul, one_smul, smul_add]; abel
    rw [e] at this
    exact Metric.mem_closedBall.1 this
  refine taylor_of_line l.err l.J L hL q v (fun t ht => hd l hlv q v t (hseg t ht)) fun t ht => ?_
  have := hLip l hlv q _ hq (hseg t ht) v
  rwa [add_sub_cancel_left] at this

/-- C94. In a vector space the hypothesis `Regular` follows from the differentiability of the errors, with Jacobians that
are Lipschitz continuous, if the linearised constraints have solutions. -/
theorem C94_regular {n : Nat} (lv : List (NLevel (Fin n → ℝ) ℝ n)) (q0 : Fin n → ℝ) (ρ L β : ℝ) (hL : 0 ≤ L)
    (hd : ∀ l ∈ lv, ∀ q, dist q q0 ≤ ρ →
      HasFDerivAt l.err (LinearMap.toContinuousLinearMap (l.J q).mulVecLin) q)
    (hLip : ∀ l ∈ lv, ∀ q q', dist q q0 ≤ ρ → dist q' q0 ≤ ρ → ∀ v,
      nrm ((l.J q' - l.J q) *ᵥ v) ≤ L * nrm (q' - q) * nrm v)
    (hl : ∀ q, dist q q0 ≤ ρ → ∃ v, (∀ l ∈ lv, l.J q *ᵥ v = -l.err q) ∧ nrm v ≤ β * nErr lv q) :
    Regular (· + ·) lv q0 ρ L β := by
  refine regular_of_lines lv q0 ρ L β hL (fun l hlv q v t ht => ?_) hLip hl
  have h1 : HasDerivAt (fun t : ℝ => q + t • v) v t := by
    have := ((hasDerivAt_id t).smul_const v).const_add q
    simpa using this
  exact (hd l hlv _ ht).comp_hasDerivAt t h1

/-! ### Cases -/

/-- A scalar constraint of a scalar variable -/
def scalarL (f f' : ℝ → ℝ) : NLevel (Fin 1 → ℝ) ℝ 1 where
  m := 1
  J q := !![f' (q 0)]
  err q := ![f (q 0)]
  nc := 1
  blk := id

theorem nrm_one (x : ℝ) : nrm ![x] = |x| := by
  unfold nrm
  rw [show (![x] : Fin 1 → ℝ) ⬝ᵥ ![x] = x * x by simp [dotProduct], Real.sqrt_mul_self_eq_abs]

theorem scalarL_sqNorm (f f' : ℝ → ℝ) (q : Fin 1 → ℝ) : nSqNorm false [scalarL f f'] q = f (q 0) ^ 2 := by
  have h : (scalarL f f').norms q = [(scalarL f f').err q ⬝ᵥ (scalarL f f').err q] := norms_one (scalarL f f') rfl q
  have e : (scalarL f f').err q ⬝ᵥ (scalarL f f').err q = f (q 0) ^ 2 := by
    show (![f (q 0)] : Fin 1 → ℝ) ⬝ᵥ ![f (q 0)] = _
    simp [dotProduct, sq]
  simp only [nSqNorm, Bool.false_eq_true, if_false, List.flatMap_cons, List.flatMap_nil, List.append_nil, h, e,
    List.foldl_cons, List.foldl_nil]
  exact max_eq_right (sq_nonneg _)

theorem scalarL_nErr (f f' : ℝ → ℝ) (q : Fin 1 → ℝ) : nErr [scalarL f f'] q = |f (q 0)| := by
  unfold nErr
  rw [scalarL_sqNorm, Real.sqrt_sq_eq_abs]

theorem scalar_mulVec (c : ℝ) (v : Fin 1 → ℝ) : (!![c] *ᵥ v : Fin 1 → ℝ) = ![c * v 0] := by
  funext i
  fin_cases i
  simp [mulVec, dotProduct]

theorem vec_one (v : Fin 1 → ℝ) : v = ![v 0] := by
  funext i
  fin_cases i
  rfl

/-- The hypotheses of the theorems above are met by the constraint `x² = 2` around 3/2. -/
theorem sqrt_regular : Regular (· + ·) [scalarL (fun x => x ^ 2 - 2) fun x => 2 * x] ![3 / 2] (1 / 2) 1 (1 / 2) := by
  refine ⟨fun q v _ => pi_move q v, fun l hl q v _ _ => ?_, fun q hq => ?_⟩
  · obtain rfl := List.mem_singleton.1 hl
    have e : (![(q 0 + v 0) ^ 2 - 2] - ![q 0 ^ 2 - 2] - !![2 * q 0] *ᵥ v : Fin 1 → ℝ) = ![v 0 ^ 2] := by
      rw [scalar_mulVec]
      funext i
      fin_cases i
      simp
      ring
    have key : nrm (m := 1) (![(q 0 + v 0) ^ 2 - 2] - ![q 0 ^ 2 - 2] - !![2 * q 0] *ᵥ v) ≤ 1 * (v ⬝ᵥ v) := by
      rw [e, nrm_one, abs_of_nonneg (sq_nonneg _), one_mul]
      simp [dotProduct, sq]
    exact key
  · have h1 : 1 ≤ q 0 := by
      have := (dist_le_pi_dist q ![3 / 2] 0).trans hq
      rw [Real.dist_eq] at this
      have := (abs_le.1 this).1
      simp at this
      linarith
    refine ⟨![-(q 0 ^ 2 - 2) / (2 * q 0)], fun l hl => ?_, ?_⟩
    · obtain rfl := List.mem_singleton.1 hl
      show (!![2 * q 0] *ᵥ ![-(q 0 ^ 2 - 2) / (2 * q 0)] : Fin 1 → ℝ) = -![q 0 ^ 2 - 2]
      rw [scalar_mulVec]
      funext i
      fin_cases i
      simp
      field_simp
    · rw [nrm_one, scalarL_nErr, abs_div, abs_neg, abs_of_pos (show 0 < 2 * q 0 by linarith)]
      rw [div_le_iff₀ (by linarith)]
      have := abs_nonneg (q 0 ^ 2 - 2)
      nlinarith

example : ∃ o : SvdOps ℝ, o.Exact ∧ o.Ortho ∧
    Regular (· + ·) [scalarL (fun x => x ^ 2 - 2) fun x => 2 * x] ![3 / 2] (1 / 2) 1 (1 / 2) ∧
    2 * (1 / 2) * nErr [scalarL (fun x => x ^ 2 - 2) fun x => 2 * x] ![3 / 2] ≤ 1 / 2 ∧
    1 * (1 / 2) ^ 2 * nErr [scalarL (fun x => x ^ 2 - 2) fun x => 2 * x] ![3 / 2] ≤ 1 / 2 := by
  obtain ⟨o, h1, h2⟩ := exists_exact_ortho
  refine ⟨o, h1, h2, sqrt_regular, ?_, ?_⟩ <;> rw [scalarL_nErr] <;>
    · show _ * |((3 : ℝ) / 2) ^ 2 - 2| ≤ _
      rw [abs_of_pos] <;> norm_num

/-- C94. Convergence is only local: for the constraint `x³ - 2 x + 2 = 0`, that has a solution and a Jacobian that does
not vanish along the iterations, the solver with constant steps goes from 0 to 1 and from 1 to 0 until the maximal number
of iterations, whatever it is. -/
theorem C94_global_refuted (o : SvdOps ℝ) (ho : o.Exact) (thr : ℝ) (h1 : thr < 1) (maxIter : Nat)
    (dq : Fin 1 → ℝ) :
    let l := scalarL (fun x => x ^ 3 - 2 * x + 2) fun x => 3 * x ^ 2 - 2
    (∃ q, l.err q = 0) ∧
    (solve (newtonOps o false false thr [l] (lsC false [l] (· + ·))) thr (1 / 10 ^ 12) maxIter 1 ![0] (dq, ())).status =
      some .maxIterationReached := by
  intro l
  constructor
  · have hc : ContinuousOn (fun x : ℝ => x ^ 3 - 2 * x + 2) (Set.Icc (-2) 0) := by fun_prop
    obtain ⟨x, -, hx⟩ := intermediate_value_Icc (show (-2 : ℝ) ≤ 0 by norm_num) hc
      (show (0 : ℝ) ∈ Set.Icc _ _ by constructor <;> norm_num)
    refine ⟨![x], ?_⟩
    show (![x ^ 3 - 2 * x + 2] : Fin 1 → ℝ) = 0
    rw [show x ^ 3 - 2 * x + 2 = 0 from hx]
    simp
  set O := newtonOps o false false thr [l] (lsC false [l] (· + ·)) with hO
  have hsol : ∀ c b : ℝ, c ≠ 0 → o.solve (!![c] : Matrix (Fin 1) (Fin 1) ℝ) ![b] = ![b / c] := by
    intro c b hc
    have h := ho.ls (!![c] : Matrix (Fin 1) (Fin 1) ℝ) ![b] ![b / c]
    set d := o.solve (!![c] : Matrix (Fin 1) (Fin 1) ℝ) ![b]
    rw [scalar_mulVec, scalar_mulVec] at h
    have e : c * (b / c) = b := by field_simp
    simp [dotProduct, e] at h
    rw [vec_one d]
    have : (c * d 0 - b) = 0 := mul_self_eq_zero.1 (le_antisymm h (mul_self_nonneg _))
    congr 1
    rw [eq_div_iff hc]
    linarith
  have hdir : ∀ (x : ℝ) (m : (Fin 1 → ℝ) × Unit), 3 * x ^ 2 - 2 ≠ 0 →
      O.dir ![x] m = ((![-(x ^ 3 - 2 * x + 2) / (3 * x ^ 2 - 2)], ()),
        (-(x ^ 3 - 2 * x + 2) / (3 * x ^ 2 - 2)) ^ 2) := by
    intro x m hx
    have e : (descend o false thr ([l].map fun l => l.at ![x]) m.1).getD 0 =
        ![-(x ^ 3 - 2 * x + 2) / (3 * x ^ 2 - 2)] := by
      show o.solve (!![3 * x ^ 2 - 2] : Matrix (Fin 1) (Fin 1) ℝ) (-![x ^ 3 - 2 * x + 2]) = _
      rw [show (-![x ^ 3 - 2 * x + 2] : Fin 1 → ℝ) = ![-(x ^ 3 - 2 * x + 2)] by simp]
      exact hsol _ _ hx
    show (((descend o false thr ([l].map fun l => l.at ![x]) m.1).getD 0, m.2), _) = _
    simp only [e]
    refine Prod.ext rfl ?_
    simp [dotProduct, sq]
  have hstep : ∀ (x : ℝ) (m : (Fin 1 → ℝ) × Unit), 3 * x ^ 2 - 2 ≠ 0 →
      (O.search ![x] (O.dir ![x] m).1).1 = ![x + -(x ^ 3 - 2 * x + 2) / (3 * x ^ 2 - 2)] := by
    intro x m hx
    rw [hdir x m hx]
    show (![x] + ![-(x ^ 3 - 2 * x + 2) / (3 * x ^ 2 - 2)] : Fin 1 → ℝ) = _
    simp
  have htr : ∀ k, (traj O ![0] (dq, ()) (2 * k)).1 = ![0] ∧ (traj O ![0] (dq, ()) (2 * k + 1)).1 = ![1] := by
    intro k
    have next : (traj O ![0] (dq, ()) (2 * k)).1 = ![0] → (traj O ![0] (dq, ()) (2 * k + 1)).1 = ![1] := by
      intro h
      show (O.search (traj O ![0] (dq, ()) (2 * k)).1 (O.dir (traj O ![0] (dq, ()) (2 * k)).1 _).1).1 = _
      rw [h, hstep 0 _ (by norm_num)]
      norm_num
    induction k with
    | zero => exact ⟨rfl, next rfl⟩
    | succ k ih =>
      have h2 : (traj O ![0] (dq, ()) (2 * (k + 1))).1 = ![0] := by
        show (O.search (traj O ![0] (dq, ()) (2 * k + 1)).1 (O.dir (traj O ![0] (dq, ()) (2 * k + 1)).1 _).1).1 = _
        have e1 := (ih fun h => by
          show (O.search (traj O ![0] (dq, ()) (2 * k)).1 (O.dir (traj O ![0] (dq, ()) (2 * k)).1 _).1).1 = _
          rw [h, hstep 0 _ (by norm_num)]
          norm_num).2
        rw [e1, hstep 1 _ (by norm_num)]
        norm_num
      exact ⟨h2, next h2⟩
  obtain ⟨-, g2, g3, g4, g5, g6, -⟩ := C29_statuses O thr (1 / 10 ^ 12) maxIter 1 ![0] (dq, ())
  set r := solve O thr (1 / 10 ^ 12) maxIter 1 ![0] (dq, ())
  have hn : ∀ x : ℝ, O.norm ![x] = (x ^ 3 - 2 * x + 2) ^ 2 := fun x => scalarL_sqNorm _ _ ![x]
  have he : ∀ k, O.norm (traj O ![0] (dq, ()) (2 * k)).1 = 4 ∧ O.norm (traj O ![0] (dq, ()) (2 * k + 1)).1 = 1 := by
    intro k
    rw [(htr k).1, (htr k).2, hn, hn]
    norm_num
  have hs : ∀ k, (O.dir (traj O ![0] (dq, ()) (2 * k)).1 (traj O ![0] (dq, ()) (2 * k)).2).2 = 1 ∧
      (O.dir (traj O ![0] (dq, ()) (2 * k + 1)).1 (traj O ![0] (dq, ()) (2 * k + 1)).2).2 = 1 := by
    intro k
    rw [(htr k).1, (htr k).2, hdir 0 _ (by norm_num), hdir 1 _ (by norm_num)]
    norm_num
  have hek : ∀ k, 1 ≤ O.norm (traj O ![0] (dq, ()) k).1 := by
    intro k
    rcases Nat.even_or_odd' k with ⟨j, rfl | rfl⟩
    · rw [(he j).1]; norm_num
    · rw [(he j).2]
  cases hst : r.status with
  | none => exact absurd hst g6
  | some st =>
    cases st with
    | success =>
      have := g2.1 hst
      have h := hek r.iter
      linarith
    | maxIterationReached => rfl
    | errorIncreased =>
      exfalso
      obtain ⟨-, -, -, k4, k1, k2, -⟩ := g4.1 hst
      obtain ⟨j, hj⟩ : ∃ j, r.iter = j + 4 := ⟨r.iter - 4, by omega⟩
      rw [hj] at k1 k2
      have k1' : O.norm (traj O ![0] (dq, ()) (j + 1)).1 ≤ O.norm (traj O ![0] (dq, ()) (j + 2)).1 := k1
      have k2' : O.norm (traj O ![0] (dq, ()) (j + 2)).1 ≤ O.norm (traj O ![0] (dq, ()) (j + 3)).1 := k2
      rcases Nat.even_or_odd' j with ⟨i, rfl | rfl⟩
      · rw [show 2 * i + 2 = 2 * (i + 1) by ring, show 2 * i + 3 = 2 * (i + 1) + 1 by ring, (he _).1, (he _).2] at k2'
        norm_num at k2'
      · rw [show 2 * i + 1 + 1 = 2 * (i + 1) by ring, show 2 * i + 1 + 2 = 2 * (i + 1) + 1 by ring, (he _).1,
          (he _).2] at k1'
        norm_num at k1'
    | infeasible =>
      exfalso
      obtain ⟨-, k | ⟨-, k, -⟩⟩ := g5.1 hst
      · exact absurd k.1 one_ne_zero
      · have k' : (O.dir (traj O ![0] (dq, ()) r.iter).1 (traj O ![0] (dq, ()) r.iter).2).2 < 1 / 10 ^ 12 := k
        rcases Nat.even_or_odd' r.iter with ⟨j, hj | hj⟩
        · rw [hj, (hs j).1] at k'; norm_num at k'
        · rw [hj, (hs j).2] at k'; norm_num at k'

end Hpp
