import Verif.BySub.NewtonProps
import Verif.BySub.JacobianProps
import Verif.ECS.Deriv
import Verif.Solve.DescentProps
import Mathlib.Analysis.Calculus.Deriv.Prod

/-!
# The solver by substitution with the explicit constraints and the reduced Jacobian of the code: C95
-/

namespace Hpp

open Matrix

variable {α κ : Type}

/-- Indices of the free variables (`freeVariables_`). -/
def bsFree (s : BS α κ) (j : Fin (indices s.hi.free.segs).length) : Nat := (indices s.hi.free.segs).getD j 0

/-- `HierarchicalIterative::integrate` (hierarchical-iterative.cc:712-719) for a vector space, after `expandDqSmall`
(lines 825-828) and without saturation. -/
def bsMove [Zero α] [Add α] (s : BS α κ) (q : Nat → α) (v : Fin (indices s.hi.free.segs).length → α) : Nat → α :=
  fun i => q i + expand (bsFree s) v (fun _ => 0) i

/-- `explicit_.solve` (by-substitution.hh:281-286), for explicit constraints that are defined everywhere. -/
def bsExpl (s : BS α κ) (q : Nat → α) : (Nat → α) × Bool := (s.ex.solve q, true)

/-- A level of the solver by substitution with the rows `rows`: `F` is the error, `Jf` is `d.jacobian`, the Jacobian is
`d.reducedJ` after `updateJacobian` (by-substitution.cc:170-204).  As in `NLevel` the rows that are not kept are
left out of the error. -/
def bsLevel [Field α] (s : BS α κ) (rows : Segs) (F : (Nat → α) → Nat → α) (Jf : (Nat → α) → Jac α) (nc : Nat)
    (blk : Fin (indices rows).length → Fin nc) : NLevel (Nat → α) α (indices s.hi.free.segs).length where
  m := (indices rows).length
  J q := fun r c => (s.updateJ q rows (Jf q) (s.reducedJ0 rows (Jf q))).getD (fun _ _ => 0) r c
  err q r := F q ((indices rows).getD r 0)
  nc := nc
  blk := blk

/-- Specification: configurations that satisfy the explicit constraints, parametrised by the moves of the free
variables. -/
def bsSub [Zero α] [Add α] (s : BS α κ) (q : Nat → α) (x : Fin (indices s.hi.free.segs).length → α) : Nat → α :=
  s.ex.solve (bsMove s q x)

theorem expand_lin [Field α] {n : Nat} (free : Fin n → Nat) (hinj : Function.Injective free) (x v : Fin n → α) (t : α)
    (i : Nat) : expand free (x + t • v) (fun _ => 0) i =
      expand free x (fun _ => 0) i + t * expand free v (fun _ => 0) i := by
  by_cases h : ∃ j, free j = i
  · obtain ⟨j, rfl⟩ := h
    rw [expand_mem _ hinj, expand_mem _ hinj, expand_mem _ hinj]
    rfl
  · push Not at h
    rw [expand_notMem _ _ _ _ h, expand_notMem _ _ _ _ h, expand_notMem _ _ _ _ h]
    simp

theorem coherent_of_vec {cs : List (ECon α κ)} (hvec : ∀ c ∈ cs, c.inV = c.inQ ∧ c.outV = c.outQ) :
    AllCoherent cs := by
  intro c hc c' hc'
  obtain ⟨h1, h2⟩ := hvec c hc
  obtain ⟨h3, h4⟩ := hvec c' hc'
  refine ⟨?_, ?_, ?_⟩
  · rintro ⟨v, h5, h6⟩
    unfold ReadsV at h5; unfold WritesV at h6; rw [h1] at h5; rw [h4] at h6
    exact ⟨v, h5, h6⟩
  · rintro ⟨v, h5, h6⟩
    unfold Reads at h5; unfold Writes at h6; rw [← h1] at h5; rw [← h4] at h6
    exact ⟨v, h5, h6⟩
  · rintro ⟨v, h5, h6⟩
    unfold WritesV at h5 h6; rw [h2] at h5; rw [h4] at h6
    exact ⟨v, h5, h6⟩

section
variable [Field α] [DecidableEq κ] {E : Space α → List α → Prop} {nq nv : Nat} {h : BHist α κ} {s : BS α κ}

theorem bsFree_inj (hb : BS.Built E nq nv h s) (hsy : s.Synced) : Function.Injective (bsFree s) := by
  obtain ⟨-, h2, -⟩ := hb.parts
  have hI := (Inv.built h2).1
  have hn : (indices s.hi.free.segs).Nodup := by rw [hsy]; exact hI.notOutDersD.indices_nodup
  intro i j hij
  unfold bsFree at hij
  rw [List.getD_eq_getElem?_getD, List.getD_eq_getElem?_getD, List.getElem?_eq_getElem i.2,
    List.getElem?_eq_getElem j.2, Option.getD_some, Option.getD_some] at hij
  exact Fin.ext ((hn.getElem_inj_iff).1 hij)

/-- C95. The explicit constraints of a solver parametrise their solutions by the free variables: after a move of the
free variables and the resolution of the explicit constraints, the configuration depends on the sum of the moves
only. -/
theorem C95_parametrises (hb : BS.Built E nq nv h s) (hsy : s.Synced) (hw : ∀ c ∈ explOf h, WellFormed nq nv c)
    (hcoh : AllCoherent (explOf h)) (hl : ∀ d ∈ s.ex.data, d.OutLen) (q : Nat → α) :
    Parametrises (bsExpl s) (bsMove s) (bsSub s q) (· + ·) ∧ bsExpl s q = (bsSub s q 0, true) ∧
    ∀ x, ∀ d ∈ s.ex.data, d.Holds (bsSub s q x) := by
  obtain ⟨-, h2, h3, -⟩ := hb.parts
  rw [← h3] at hw hcoh
  have hinj := bsFree_inj hb hsy
  have hsol := C13_solve h2 hw hcoh hl
  refine ⟨⟨fun x => ?_, fun x v => ?_⟩, ?_, fun x => ((hsol _ _).1 rfl).1⟩
  · show (s.ex.solve (s.ex.solve _), true) = _
    rw [C13_idempotent h2 hw hcoh hl]
    rfl
  · show (s.ex.solve (bsMove s (bsSub s q x) v), true) = (s.ex.solve (bsMove s q (x + v)), true)
    congr 1
    refine C13_independent_of_outputs h2 hw hcoh hl _ _ fun i hi => ?_
    have e1 := ((hsol (bsMove s q x) _).1 rfl).2 i hi
    have e2 := expand_lin (bsFree s) hinj x v 1 i
    rw [one_smul, one_mul] at e2
    show s.ex.solve (bsMove s q x) i + _ = q i + _
    rw [e1, e2, ← add_assoc]
    rfl
  · show (s.ex.solve q, true) = (s.ex.solve (bsMove s q 0), true)
    have : bsMove s q 0 = q := by
      funext i
      show q i + expand (bsFree s) 0 (fun _ => 0) i = q i
      have e2 : expand (bsFree s) 0 (fun _ => 0) i = (0 : α) := by
        by_cases h : ∃ j, bsFree s j = i
        · obtain ⟨j, rfl⟩ := h
          exact expand_mem _ hinj _ _ j
        · push Not at h
          exact expand_notMem _ _ _ _ h
      rw [e2, add_zero]
    rw [this]

end

/-- Specification: along differentiable curves, the derivative of `F` is given by the matrix `Jf`. -/
def CurveDeriv (nq : Nat) (rows : Segs) (F : (Nat → ℝ) → Nat → ℝ) (Jf : (Nat → ℝ) → Jac ℝ) : Prop :=
  ∀ (u : ℝ → Nat → ℝ) (t0 : ℝ) (w : Nat → ℝ), (∀ k < nq, HasDerivAt (fun t => u t k) (w k) t0) →
    ∀ i ∈ indices rows, HasDerivAt (fun t => F (u t) i) (∑ k ∈ Finset.range nq, Jf (u t0) i k * w k) t0

section
variable [DecidableEq κ] {E : Space ℝ → List ℝ → Prop} {nq : Nat} {h : BHist ℝ κ} {s : BS ℝ κ}

/-- C95. Vector space: the reduced Jacobian computed by the code is the derivative, with respect to the free variables, of
the constraints in which the solution of the explicit constraints is substituted. -/
theorem C95_reduced_derivative (hb : BS.Built E nq nq h s) (hsy : s.Synced)
    (hw : ∀ c ∈ explOf h, WellFormed nq nq c) (hvec : ∀ c ∈ explOf h, c.inV = c.inQ ∧ c.outV = c.outQ)
    (hs : ∀ c ∈ explOf h, c.inQ.Pairwise lexLe) (hl : ∀ d ∈ s.ex.data, d.OutLen)
    (hD : ∀ q, ∀ d ∈ s.ex.data, d.IsDeriv q (d.c.jac (rview q d.c.inQ) d.fval d.rhs))
    (rows : Segs) (F : (Nat → ℝ) → Nat → ℝ) (Jf : (Nat → ℝ) → Jac ℝ) (hF : CurveDeriv nq rows F Jf) (nc : Nat)
    (blk : Fin (indices rows).length → Fin nc) (q : Nat → ℝ) (x v : Fin (indices s.hi.free.segs).length → ℝ) (t0 : ℝ) :
    HasDerivAt (fun t => (bsLevel s rows F Jf nc blk).err (bsSub s q (x + t • v)))
      ((bsLevel s rows F Jf nc blk).J (bsSub s q (x + t0 • v)) *ᵥ v) t0 := by
  obtain ⟨-, h2, h3, -⟩ := hb.parts
  have hinj := bsFree_inj hb hsy
  have hw' := hw
  have hvec' := hvec
  have hs' := hs
  rw [← h3] at hw' hvec' hs'
  have hsV : ∀ c ∈ explOf h, c.inV.Pairwise lexLe := fun c hc => by rw [(hvec c hc).1]; exact hs c hc
  have hcoh : AllCoherent (explOf h) := coherent_of_vec hvec
  set p := bsSub s q (x + t0 • v) with hp
  set v' : Nat → ℝ := expand (bsFree s) v (fun _ => 0) with hv'
  set V : Nat → ℝ := fun k => ∑ l ∈ Finset.range nq, s.ex.jacobian p k l * v' l with hV
  -- velocities of all variables
  have hγ : ∀ k, HasDerivAt (fun t => bsMove s q (x + t • v) k) (v' k) t0 := by
    intro k
    have e : (fun t => bsMove s q (x + t • v) k) =
        fun t : ℝ => q k + (expand (bsFree s) x (fun _ => 0) k + t * v' k) := by
      funext t
      show q k + _ = _
      rw [expand_lin _ hinj]
    rw [e]
    have := (((hasDerivAt_id t0).mul_const (v' k)).const_add (expand (bsFree s) x (fun _ => 0) k)).const_add (q k)
    simpa using this
  have hder := C15_derivative h2 hw' hvec' hs' hl (fun t => bsMove s q (x + t • v)) t0 v' (fun k _ => hγ k)
    (fun d hd => hD _ d hd)
  have hcoh' : AllCoherent s.ex.cons := by rw [h3]; exact hcoh
  have hsV' : ∀ c ∈ s.ex.cons, c.inV.Pairwise lexLe := by rw [h3]; exact hsV
  obtain ⟨j1, -, j3⟩ := C15_jacobian h2 hw' hcoh' hsV' p
  obtain ⟨R, hR, hR2⟩ := C74_reduced hb hsy hw hcoh hsV p rows (Jf p) V (by
    intro d hd m r hm
    simp only [hV]
    simp only [j3 d hd m r _ hm, Finset.sum_mul, Finset.mul_sum]
    rw [Finset.sum_comm]
    refine Finset.sum_congr rfl fun a _ => Finset.sum_congr rfl fun b _ => ?_
    rw [mul_assoc])
  have hVf : ∀ c : Fin (indices s.hi.free.segs).length, V ((indices s.hi.free.segs).getD c 0) = v c := by
    intro c
    have hmem : (indices s.hi.free.segs).getD c 0 ∈ indices s.ex.notOutDers.segs := by
      rw [List.getD_eq_getElem?_getD, List.getElem?_eq_getElem c.2, Option.getD_some, ← hsy]
      exact List.getElem_mem c.2
    rw [mem_indices, (C11_outputs h2).2.2.2.1] at hmem
    have hno : ∀ c' ∈ s.ex.cons, ¬ WritesV c' ((indices s.hi.free.segs).getD c 0) := fun c' hc' hx =>
      hmem.2 ⟨c', hc', hx⟩
    simp only [hV]
    rw [Finset.sum_eq_single ((indices s.hi.free.segs).getD c 0)]
    · rw [j1 _ _ hno, if_pos ⟨rfl, hmem.1⟩, one_mul]
      exact expand_mem _ hinj v _ c
    · intro l _ hne
      rw [j1 _ _ hno, if_neg (fun h => hne h.1.symm), zero_mul]
    · intro hno'
      exact absurd (Finset.mem_range.2 hmem.1) hno'
  rw [hasDerivAt_pi]
  intro r
  have hr : (indices rows).getD r 0 ∈ indices rows := by
    rw [List.getD_eq_getElem?_getD, List.getElem?_eq_getElem r.2, Option.getD_some]
    exact List.getElem_mem r.2
  have := hF (fun t => bsSub s q (x + t • v)) t0 V hder _ hr
  refine this.congr_deriv ?_
  rw [← hR2 r]
  show _ = ∑ c : Fin (indices s.hi.free.segs).length, (s.updateJ p rows (Jf p) (s.reducedJ0 rows (Jf p))).getD (fun _ _ => 0) r c * v c
  rw [hR, Option.getD_some, Finset.sum_range]
  refine Finset.sum_congr rfl fun c _ => ?_
  rw [hVf]

/-- The conditions of C95 for the levels seen as functions of the free variables. -/
theorem bs_regular (hb : BS.Built E nq nq h s) (hsy : s.Synced)
    (hw : ∀ c ∈ explOf h, WellFormed nq nq c) (hvec : ∀ c ∈ explOf h, c.inV = c.inQ ∧ c.outV = c.outQ)
    (hs : ∀ c ∈ explOf h, c.inQ.Pairwise lexLe) (hl : ∀ d ∈ s.ex.data, d.OutLen)
    (hD : ∀ q, ∀ d ∈ s.ex.data, d.IsDeriv q (d.c.jac (rview q d.c.inQ) d.fval d.rhs))
    (lv : List (NLevel (Nat → ℝ) ℝ (indices s.hi.free.segs).length))
    (hF : ∀ l ∈ lv, ∃ rows F Jf nc blk, l = bsLevel s rows F Jf nc blk ∧ CurveDeriv nq rows F Jf)
    (q : Nat → ℝ) (ρ L β : ℝ) (hL : 0 ≤ L)
    (hLip : ∀ l ∈ lv, ∀ x x', dist x 0 ≤ ρ → dist x' 0 ≤ ρ → ∀ v,
      nrm ((l.J (bsSub s q x') - l.J (bsSub s q x)) *ᵥ v) ≤ L * nrm (x' - x) * nrm v)
    (hlin : ∀ x, dist x 0 ≤ ρ → ∃ v, (∀ l ∈ lv, l.J (bsSub s q x) *ᵥ v = -l.err (bsSub s q x)) ∧
      nrm v ≤ β * nErr lv (bsSub s q x)) :
    Regular (· + ·) (lv.map (NLevel.pull (bsSub s q))) 0 ρ L β := by
  have hn : ∀ y, nErr (lv.map (NLevel.pull (bsSub s q))) y = nErr lv (bsSub s q y) := fun y => by
    unfold nErr; rw [nSqNorm_pull]
  refine regular_of_lines _ 0 ρ L β hL ?_ ?_ ?_
  · intro l hl' x v t _
    obtain ⟨l, hm', rfl⟩ := List.mem_map.1 hl'
    obtain ⟨rows, F, Jf, nc, blk, rfl, hc⟩ := hF l hm'
    exact C95_reduced_derivative hb hsy hw hvec hs hl hD rows F Jf hc nc blk q x v t
  · intro l hl' x x' hx hx' v
    obtain ⟨l, hm', rfl⟩ := List.mem_map.1 hl'
    exact hLip l hm' x x' hx hx' v
  · intro x hx
    obtain ⟨v, hv, hv2⟩ := hlin x hx
    refine ⟨v, fun l hl' => ?_, by rw [hn]; exact hv2⟩
    obtain ⟨l, hm', rfl⟩ := List.mem_map.1 hl'
    exact hv l hm'

/-- C95. The solver by substitution on a vector space, with the explicit constraints, the reduced Jacobian and the
resolution of the explicit constraints computed by the code: if the reduced Jacobians are Lipschitz continuous and bounded,
if the linearised constraints have a solution of norm at most `β` times the error, around the initial configuration, and if
the initial error is small enough, then `SUCCESS` is returned.  At the configuration returned all explicit constraints
hold exactly and the error of each implicit constraint is at most the threshold. -/
theorem C95_solver (hb : BS.Built E nq nq h s) (hsy : s.Synced)
    (hw : ∀ c ∈ explOf h, WellFormed nq nq c) (hvec : ∀ c ∈ explOf h, c.inV = c.inQ ∧ c.outV = c.outQ)
    (hs : ∀ c ∈ explOf h, c.inQ.Pairwise lexLe) (hl : ∀ d ∈ s.ex.data, d.OutLen)
    (hD : ∀ q, ∀ d ∈ s.ex.data, d.IsDeriv q (d.c.jac (rview q d.c.inQ) d.fval d.rhs))
    (o : SvdOps ℝ) (ho : o.Exact) (hor : o.Ortho) (thr dqMin : ℝ) (ht : 0 ≤ thr)
    (lv : List (NLevel (Nat → ℝ) ℝ (indices s.hi.free.segs).length))
    (hlv : lv.length ≤ 1 ∨ ∃ l ls, lv = l :: ls ∧ l.m ≠ 0)
    (hF : ∀ l ∈ lv, ∃ rows F Jf nc blk, l = bsLevel s rows F Jf nc blk ∧ CurveDeriv nq rows F Jf)
    (q : Nat → ℝ) (ρ L β K : ℝ) (hL : 0 ≤ L) (hβ : 0 ≤ β) (hK0 : 0 ≤ K)
    (hLip : ∀ l ∈ lv, ∀ x x', dist x 0 ≤ ρ → dist x' 0 ≤ ρ → ∀ v,
      nrm ((l.J (bsSub s q x') - l.J (bsSub s q x)) *ᵥ v) ≤ L * nrm (x' - x) * nrm v)
    (hlin : ∀ x, dist x 0 ≤ ρ → ∃ v, (∀ l ∈ lv, l.J (bsSub s q x) *ᵥ v = -l.err (bsSub s q x)) ∧
      nrm v ≤ β * nErr lv (bsSub s q x))
    (hK : ∀ l ∈ lv, ∀ x, dist x 0 ≤ ρ → ∀ v,
      (l.J (bsSub s q x) *ᵥ v) ⬝ᵥ (l.J (bsSub s q x) *ᵥ v) ≤ K * (v ⬝ᵥ v))
    (hρ : 2 * β * nErr lv (s.ex.solve q) ≤ ρ) (hE : L * β ^ 2 * nErr lv (s.ex.solve q) ≤ 1 / 2)
    {S : Type} (I : S → Prop) (bmin : ℝ) (hbm : 0 < bmin) (hb1 : bmin ≤ 1)
    (ls : S → (Nat → ℝ) → (Fin (indices s.hi.free.segs).length → ℝ) →
      (S × LsOut (Nat → ℝ) (Fin (indices s.hi.free.segs).length → ℝ)) × Bool)
    (hls : BsStepsIn (bsMove s) (bsExpl s) I bmin ls)
    (maxIter : Nat) (hm : ((1 - bmin / 2) ^ maxIter * nErr lv (s.ex.solve q)) ^ 2 ≤ 1 / 4 * thr)
    (hdq : K * dqMin ≤ 1 / 4 * thr)
    (w l : Bool) (hwl : (w && l) = false) (dq u : Fin (indices s.hi.free.segs).length → ℝ) (st : S) (hst : I st) :
    let r := bsSolve (bsNewtonOps o false false thr lv (bsExpl s) ls) thr dqMin maxIter
      (indices s.hi.free.segs).length w l q (dq, u, st)
    r.status = .success ∧ (∀ d ∈ s.ex.data, d.Holds r.arg) ∧ ∀ l ∈ lv, ∀ k : Fin l.nc,
      (∑ i, if l.blk i = k then l.err r.arg i ^ 2 else 0) ≤ thr := by
  intro r
  have hcoh : AllCoherent (explOf h) := coherent_of_vec hvec
  obtain ⟨hP, hq0, -⟩ := C95_parametrises hb hsy hw hcoh hl q
  have e0 : bsSub s q 0 = s.ex.solve q := (Prod.mk.inj hq0).1.symm
  have hR := bs_regular hb hsy hw hvec hs hl hD lv hF q ρ L β hL hLip hlin
  rw [← e0] at hρ hE hm
  obtain ⟨g1, g2, g3⟩ := C95_success o ho hor thr dqMin ht lv hlv (bsExpl s) (bsMove s) (bsSub s q) (· + ·) hP q 0 hq0 ρ L β
    hR hL hβ hρ hE I bmin hbm hb1 ls hls maxIter hm K hK hK0 hdq w l hwl dq u st hst
  refine ⟨g1, ?_, g3⟩
  obtain ⟨-, h2, h3, -⟩ := hb.parts
  rw [← h3] at hw hcoh
  exact ((C13_solve h2 hw hcoh hl _ _).1 (Prod.mk.inj g2).1).1

end

end Hpp
