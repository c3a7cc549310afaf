import Verif.HI.OrderProps
import Verif.Solve.Redundant

/-!
# C133. Priorities do not matter as long as the linearised constraints are compatible

Sources: `/repo/include/hpp/constraints/solver/impl/hierarchical-iterative.hh`, lines 39-181 and
`/repo/src/solver/hierarchical-iterative.cc`, lines 623-672, 694-719 and 744-828.

The solvers are built by insertion (`HI.Built`) and the iterations are those of `HI.fullOps`, without saturation.
-/

namespace Hpp

open Matrix

variable {κ A S : Type}

/-- Specification: a velocity of the free variables cancels the linearisations of all constraints, on the rows that are solved for. -/
def LinSolves (free : Segs) (thr : ℝ) (D : Space ℝ → List ℝ → List ℝ → Nat → Nat → ℝ) (R : κ → List ℝ) (cs : List (Impl ℝ κ))
    (q : Nat → ℝ) (x : Fin (indices free).length → ℝ) : Prop :=
  ∀ c ∈ cs, dependsOnFree free c = true → ∀ r, c.mask[r]? = some true →
    ∑ j : Fin (indices free).length, conRow thr D q c (R c.fn.key) r ((indices free).getD j 0) * x j +
      (conError thr q c (R c.fn.key)).getD r 0 = 0

/-- Specification: some constraint of priority 0 has a row to be solved for (see `C93_empty_first_refuted`). -/
def TopRows (free : Segs) (h : List (Impl ℝ κ × Nat)) : Prop :=
  ∃ e ∈ h, e.2 = 0 ∧ dependsOnFree free e.1 = true ∧ true ∈ e.1.mask

/-- The end of the body of the loop of `solve` (impl/hierarchical-iterative.hh:157-171). -/
def solveNext {M α : Type} [LT α] [DecidableLT α] (o : Ops A M α) (thr dqMin : α) (left iter dec : Nat) (prev : Option α)
    (st : Option Status) (p : A × M) (n' : α) : SolveOut A M :=
  let decreased : Bool := match prev with
    | none => true
    | some p => decide (n' < p)
  solveLoop o thr dqMin left (iter + 1) (if decreased then 3 else dec - 1) (some n') p.1 p.2 n'
    (if decreased then st else some .errorIncreased)

theorem solveLoop_succ {M α : Type} [LT α] [DecidableLT α] (o : Ops A M α) (thr dqMin : α) (left iter dec : Nat) (prev : Option α)
    (a : A) (m : M) (n : α) (st : Option Status) : solveLoop o thr dqMin (left + 1) iter dec prev a m n st =
      if thr < n ∧ dec ≠ 0 then
        if (o.dir a m).2 < dqMin then ⟨a, (o.dir a m).1, iter, solveEnd thr n (left + 1) (some .infeasible)⟩
        else solveNext o thr dqMin left iter dec prev st (o.search a (o.dir a m).1) (o.norm (o.search a (o.dir a m).1).1)
      else ⟨a, m, iter, solveEnd thr n (left + 1) st⟩ := rfl

/-- Two sequences of steps that agree on the configurations visited by the first one give the same result. -/
theorem solve_congr_traj {M α : Type} [LinearOrder α] {o o' : Ops A M α} (a : A) (m : M) (hn : ∀ a, o.norm a = o'.norm a)
    (hs : ∀ a m, o.search a m = o'.search a m)
    (hd : ∀ k, o.dir (traj o a m k).1 (traj o a m k).2 = o'.dir (traj o a m k).1 (traj o a m k).2)
    (thr dqMin : α) (maxIter rd : Nat) : solve o thr dqMin maxIter rd a m = solve o' thr dqMin maxIter rd a m := by
  have key : ∀ (left iter dec : Nat) (prev : Option α) (n : α) (st : Option Status) (k : Nat),
      solveLoop o thr dqMin left iter dec prev (traj o a m k).1 (traj o a m k).2 n st =
      solveLoop o' thr dqMin left iter dec prev (traj o a m k).1 (traj o a m k).2 n st := by
    intro left
    induction left with
    | zero => intros; rfl
    | succ left ih =>
      intro iter dec prev n st k
      have h1 : o.search (traj o a m k).1 (o.dir (traj o a m k).1 (traj o a m k).2).1 = traj o a m (k + 1) := rfl
      rw [solveLoop_succ, solveLoop_succ, ← hd k, ← hs, h1, ← hn]
      unfold solveNext
      rw [ih]
  unfold solve
  rw [← hn]
  have := key maxIter 0 3 none (o.norm a) none 0
  simp only [traj] at this
  dsimp only
  rw [this]

theorem levels_perm {h : List (Impl ℝ κ × Nat)} {n : Nat} (hlt : ∀ e ∈ h, e.2 < n) :
    ((List.range n).flatMap (atLevel h)).Perm (h.map Prod.fst) := by
  have key : ∀ n, ((List.range n).flatMap (atLevel h)).Perm ((h.filter fun e => decide (e.2 < n)).map Prod.fst) := by
    intro n
    induction n with
    | zero => simp
    | succ n ih =>
      rw [List.range_succ, List.flatMap_append, List.flatMap_singleton]
      refine (ih.append_right _).trans ?_
      unfold atLevel
      rw [← List.map_append]
      refine List.Perm.map _ ?_
      have := List.filter_append_perm (fun e : Impl ℝ κ × Nat => decide (e.2 < n)) (h.filter fun e => decide (e.2 < n + 1))
      rw [List.filter_filter, List.filter_filter] at this
      refine List.Perm.trans (.of_eq ?_) this
      congr 1
      · refine List.filter_congr fun e _ => ?_
        rw [Bool.eq_iff_iff]
        simp
        omega
      · refine List.filter_congr fun e _ => ?_
        rw [Bool.eq_iff_iff]
        simp
        omega
  refine (key n).trans (.of_eq ?_)
  rw [List.filter_eq_self.2]
  intro e he
  simpa using hlt e he

theorem slope_of_cost {n : Nat} (L : List (DLevel ℝ n)) (u : Fin n → ℝ) :
    localSlope L u = ((L.map fun d => d.cost u).sum - (L.map fun d => d.cost (-u)).sum) / 4 := by
  have key : ∀ (L : List (DLevel ℝ n)) (a : ℝ), L.foldl (fun s d => s + (d.J *ᵥ u) ⬝ᵥ d.e) a =
      a + ((L.map fun d => d.cost u).sum - (L.map fun d => d.cost (-u)).sum) / 4 := by
    intro L
    induction L with
    | nil => intro a; simp
    | cons d L ih =>
      intro a
      rw [List.foldl_cons, ih, List.map_cons, List.map_cons, List.sum_cons, List.sum_cons, cost_expand, cost_expand, mulVec_neg,
        neg_dotProduct, neg_dotProduct, dotProduct_neg]
      ring
  unfold localSlope
  rw [key, zero_add]

section
variable [DecidableEq κ] {El : Fn ℝ κ → List ℝ → Prop}
  {D : Space ℝ → List ℝ → List ℝ → Nat → Nat → ℝ}
  {h : List (Impl ℝ κ × Nat)} {s : HI ℝ κ} {nv : Nat} {R : κ → List ℝ}

omit [DecidableEq κ] in
theorem sum_zero_iff {l : List ℝ} (h : ∀ y ∈ l, 0 ≤ y) : l.sum = 0 ↔ ∀ y ∈ l, y = 0 := by
  induction l with
  | nil => simp
  | cons a l ih =>
    have h0 := h a (by simp)
    have h1 : 0 ≤ l.sum := List.sum_nonneg fun y hy => h y (by simp [hy])
    rw [List.sum_cons, List.forall_mem_cons, ← ih fun y hy => h y (by simp [hy])]
    constructor
    · intro h; constructor <;> linarith
    · rintro ⟨h2, h3⟩; linarith

omit [DecidableEq κ] in
theorem dLevels_noSat (s : HI ℝ κ) (J0 : A → Jac ℝ) (conf : A → Nat → ℝ) (q : A) :
    s.dLevels D J0 conf (fun _ _ => 0) q = s.levels.map (s.dLevel D (J0 q) (conf q)) := by
  refine List.map_congr_left fun l _ => ?_
  unfold satLevel
  simp

omit [DecidableEq κ] in
theorem conCost_nonneg (free : Segs) (thr : ℝ) (q : Nat → ℝ) (x : Fin (indices free).length → ℝ) (rhs : List ℝ) (c : Impl ℝ κ)
    (r : Nat) : 0 ≤ conCost free thr D q x rhs c r := by
  unfold conCost
  split
  · exact mul_self_nonneg _
  · exact le_refl _

/-- The levels are cancelled by the velocities that cancel the linearised constraints. -/
theorem cancels_iff (hb : HI.Built El nv h s)
    (hl : ∀ e ∈ h, e.1.fn.space.Lawful (El e.1.fn)) (hv : ∀ e ∈ h, ∀ q, El e.1.fn (e.1.fn.value q))
    (hR : HI.RhsIs El h s R) (J0 : A → Jac ℝ) (conf : A → Nat → ℝ) (q : A) (x : Fin (indices s.free.segs).length → ℝ) :
    Cancels (s.dLevels D J0 conf (fun _ _ => 0) q) x ↔ LinSolves s.free.segs s.ineqThr D R (h.map Prod.fst) (conf q) x := by
  obtain ⟨hs, hf, -⟩ := hb.inv hl hv
  have hcost : ∀ {i : Nat} {l : Level ℝ κ}, s.levels[i]? = some l →
      ((s.dLevel D (J0 q) (conf q) l).J *ᵥ x + (s.dLevel D (J0 q) (conf q) l).e = 0 ↔ ∀ c ∈ atLevel h i, ∀ r < c.fn.space.nv,
        conCost s.free.segs s.ineqThr D (conf q) x (R c.fn.key) c r = 0) := by
    intro i l hi
    have e := dLevel_cost (D := D) hb hl hv hR hi (J0 q) (conf q) x
    have h1 : (s.dLevel D (J0 q) (conf q) l).J *ᵥ x + (s.dLevel D (J0 q) (conf q) l).e = 0 ↔
        (s.dLevel D (J0 q) (conf q) l).cost x = 0 := by
      unfold DLevel.cost
      exact ⟨fun h => by rw [h, dotProduct_zero], dot_self_zero⟩
    rw [h1, e, sum_zero_iff]
    · simp only [List.mem_map, forall_exists_index, and_imp, forall_apply_eq_imp_iff₂]
      refine forall₂_congr fun c _ => ?_
      rw [Finset.sum_eq_zero_iff_of_nonneg fun r _ => conCost_nonneg _ _ _ _ _ _ _]
      simp only [Finset.mem_range]
    · intro y hy
      obtain ⟨c, -, rfl⟩ := List.mem_map.1 hy
      exact Finset.sum_nonneg fun r _ => conCost_nonneg _ _ _ _ _ _ _
  have hmask : ∀ e ∈ h, e.1.mask.length = e.1.fn.space.nv := fun e he =>
    (conSub_length hf he (hR.el _ he) (conf q) s.ineqThr).2.1
  rw [dLevels_noSat]
  unfold Cancels LinSolves
  constructor
  · intro H c hc hdep r hr
    obtain ⟨e, he, rfl⟩ := List.mem_map.1 hc
    obtain ⟨l, hi⟩ : ∃ l, s.levels[e.2]? = some l := ⟨_, List.getElem?_eq_getElem (hs.nlev e he)⟩
    have h1 := (hcost hi).1 (H _ (List.mem_map_of_mem (List.mem_of_getElem? hi))) e.1 (mem_atLevel.2 he) r
      (by rw [← hmask e he]; exact lt_of_getElem?_some hr)
    unfold conCost at h1
    rw [if_pos ⟨hdep, hr⟩] at h1
    exact mul_self_eq_zero.1 h1
  · intro H d hd
    obtain ⟨l, hl1, rfl⟩ := List.mem_map.1 hd
    obtain ⟨i, hi⟩ := List.getElem?_of_mem hl1
    refine (hcost hi).2 fun c hc r hr => ?_
    unfold conCost
    split
    · rename_i hc2
      rw [H c (List.mem_map.2 ⟨_, mem_atLevel.1 hc, rfl⟩) hc2.1 r hc2.2, mul_zero]
    · rfl

theorem total_cost (hb : HI.Built El nv h s)
    (hl : ∀ e ∈ h, e.1.fn.space.Lawful (El e.1.fn)) (hv : ∀ e ∈ h, ∀ q, El e.1.fn (e.1.fn.value q))
    (hR : HI.RhsIs El h s R) (J0 : A → Jac ℝ) (conf : A → Nat → ℝ) (q : A) (x : Fin (indices s.free.segs).length → ℝ) :
    ((s.dLevels D J0 conf (fun _ _ => 0) q).map fun d => d.cost x).sum = ((h.map Prod.fst).map fun c =>
      ∑ r ∈ Finset.range c.fn.space.nv, conCost s.free.segs s.ineqThr D (conf q) x (R c.fn.key) c r).sum := by
  obtain ⟨hs, -, -⟩ := hb.inv hl hv
  rw [← ((levels_perm hs.nlev).map _).sum_eq, dLevels_noSat, List.map_flatMap, List.flatMap_def, List.sum_flatten, List.map_map,
    List.map_map]
  congr 1
  refine List.ext_getElem? fun i => ?_
  rw [List.getElem?_map, List.getElem?_map]
  by_cases hi : i < s.levels.length
  · rw [List.getElem?_eq_getElem hi, List.getElem?_range hi]
    exact congrArg some (dLevel_cost hb hl hv hR (List.getElem?_eq_getElem hi) _ _ x)
  · rw [List.getElem?_eq_none (by omega), List.getElem?_eq_none (by rw [List.length_range]; omega)]
    rfl

theorem firstLevel_of_top (hb : HI.Built El nv h s)
    (hl : ∀ e ∈ h, e.1.fn.space.Lawful (El e.1.fn)) (hv : ∀ e ∈ h, ∀ q, El e.1.fn (e.1.fn.value q))
    (ht : TopRows s.free.segs h) (J0 : A → Jac ℝ) (conf : A → Nat → ℝ) (q : A) :
    FirstLevel (s.dLevels D J0 conf (fun _ _ => 0) q) := by
  obtain ⟨hs, -, -⟩ := hb.inv hl hv
  obtain ⟨e, he, e0, hd, hm⟩ := ht
  have hlen := hs.nlev e he
  rw [dLevels_noSat]
  obtain ⟨l, ls, hls⟩ : ∃ l ls, s.levels = l :: ls := by
    cases h1 : s.levels with
    | nil => rw [h1] at hlen; simp at hlen
    | cons l ls => exact ⟨l, ls, rfl⟩
  refine ⟨_, _, by rw [hls, List.map_cons], Or.inr fun h0 => ?_⟩
  have hi : s.levels[0]? = some l := by rw [hls]; rfl
  exact (dLevel_empty hb hl hv hi (J0 q) (conf q)).1 h0 e.1 (mem_atLevel.2 (by rw [← e0]; exact he)) hd hm

end

/-- C133. Two solvers without optional level and without limit on the singular values of the levels into which the same constraints
have been inserted with different priorities.  As long as the linearised constraints have a common solution at the configurations that are
visited, both visit the same configurations and return the same configuration and the same status after the same number of iterations:
with any line search. -/
theorem C133_priorities [DecidableEq κ] {El : Fn ℝ κ → List ℝ → Prop} {nv nv' : Nat} {h h' : List (Impl ℝ κ × Nat)} {s s' : HI ℝ κ}
    (hb : HI.Built El nv h s) (hb' : HI.Built El nv' h' s') (hp : (h.map Prod.fst).Perm (h'.map Prod.fst))
    (hl : ∀ e ∈ h, e.1.fn.space.Lawful (El e.1.fn)) (hv : ∀ e ∈ h, ∀ q, El e.1.fn (e.1.fn.value q))
    (hopt : s.SameOptions s') (hlast : s.lastIsOptional = false) (hby : s.byLevel = false)
    {R : κ → List ℝ} (hR : HI.RhsIs El h s R) (hR' : HI.RhsIs El h' s' R)
    (ht : TopRows s.free.segs h) (ht' : TopRows s.free.segs h') (D : Space ℝ → List ℝ → List ℝ → Nat → Nat → ℝ) {o o' : SvdOps ℝ}
    (ho : o.Exact) (hor : o.Ortho) (ho' : o'.Exact) (hor' : o'.Ortho) (J0 J0' : A → Jac ℝ) (conf : A → Nat → ℝ)
    (move : A → (Nat → ℝ) → A) (ls : LineSearch A S) (dqMin : ℝ) (q : A) (dq : Nat → ℝ) (st : S)
    (hc : ∀ k, ∃ x, LinSolves s.free.segs s.ineqThr D R (h.map Prod.fst)
      (conf (traj (s.fullOps D o J0 conf (fun _ _ => 0) move ls) q (fun j => dq (hiFree s j), st) k).1) x) :
    let r := solve (s.fullOps D o J0 conf (fun _ _ => 0) move ls) s.sqThr dqMin s.maxIter s.reducedDim q (fun j => dq (hiFree s j), st)
    let r' := solve (s'.fullOps D o' J0' conf (fun _ _ => 0) move ls) s'.sqThr dqMin s'.maxIter s'.reducedDim q
      (fun j => dq (hiFree s' j), st)
    r'.arg = r.arg ∧ r'.status = r.status ∧ r'.iter = r.iter := by
  have hmem : ∀ e ∈ h', ∃ e' ∈ h, e'.1 = e.1 := fun e he => by
    have : e.1 ∈ h.map Prod.fst := hp.mem_iff.2 (List.mem_map_of_mem he)
    obtain ⟨e', h1, h2⟩ := List.mem_map.1 this
    exact ⟨e', h1, h2⟩
  have hl' : ∀ e ∈ h', e.1.fn.space.Lawful (El e.1.fn) := fun e he => by
    obtain ⟨e', h1, h2⟩ := hmem e he
    rw [← h2]; exact hl e' h1
  have hv' : ∀ e ∈ h', ∀ q, El e.1.fn (e.1.fn.value q) := fun e he => by
    obtain ⟨e', h1, h2⟩ := hmem e he
    rw [← h2]; exact hv e' h1
  obtain ⟨hs, hf, -⟩ := hb.inv hl hv
  obtain ⟨hs', hf', -⟩ := hb'.inv hl' hv'
  obtain ⟨hfree, h1, h2, h3, h4, h5⟩ := hopt
  obtain ⟨s'', rfl⟩ : ∃ s'', s' = { s'' with free := s.free } := ⟨s', by rw [← hfree]⟩
  have h1' : s''.sqThr = s.sqThr := h1
  have h2' : s''.ineqThr = s.ineqThr := h2
  have h3' : s''.maxIter = s.maxIter := h3
  have h4' : s''.lastIsOptional = false := h4.trans hlast
  have h5' : s''.byLevel = false := h5.trans hby
  have hnorm : ∀ q, s.sqNorm q = HI.sqNorm { s'' with free := s.free } q := by
    intro q
    rw [solver_sqNorm_eq hs hf hR (by rw [hlast]; intro h; cases h), solver_sqNorm_eq hs' hf' hR' (fun h => by
      have : s''.lastIsOptional = true := h
      rw [h4'] at this; cases this)]
    have n1 : s.nMandatory = s.levels.length := by unfold HI.nMandatory; rw [hlast]; rfl
    have n2 : HI.nMandatory { s'' with free := s.free } = s''.levels.length := by
      unfold HI.nMandatory
      show (if s''.lastIsOptional = true then _ else _) = _
      rw [h4']; rfl
    rw [n1, n2, h2]
    congr 1
    have : RightCommutative fun (m : ℝ) (c : Impl ℝ κ) => max m (sqSum (conError s.ineqThr q c (R c.fn.key))) :=
      ⟨fun a b c => max_right_comm _ _ _⟩
    exact (((levels_perm hs.nlev).trans hp).trans (levels_perm hs'.nlev).symm).foldl_eq 0
  have hdim : s.reducedDim = (HI.reducedDim { s'' with free := s.free }) := by
    rw [C23_reduced_dimension hb hl hv, C23_reduced_dimension hb' hl' hv']
    have := (hp.map fun c : Impl ℝ κ => if dependsOnFree s.free.segs c then c.mask.count true else 0).sum_eq
    rw [List.map_map, List.map_map] at this
    exact this
  have hslope : ∀ q u, localSlope (s.dLevels D J0 conf (fun _ _ => 0) q) u =
      localSlope (HI.dLevels { s'' with free := s.free } D J0' conf (fun _ _ => 0) q) u := by
    have key : ∀ q u, ((s.dLevels D J0 conf (fun _ _ => 0) q).map fun d => d.cost u).sum =
        ((HI.dLevels { s'' with free := s.free } D J0' conf (fun _ _ => 0) q).map fun d => d.cost u).sum := by
      intro q u
      refine (total_cost hb hl hv hR J0 conf q u).trans (Eq.trans ?_ (total_cost hb' hl' hv' hR' J0' conf q u).symm)
      show _ = ((h'.map Prod.fst).map fun c =>
        ∑ r ∈ Finset.range c.fn.space.nv, conCost s.free.segs s''.ineqThr D (conf q) u (R c.fn.key) c r).sum
      rw [h2']
      exact (hp.map _).sum_eq
    intro q u
    refine (slope_of_cost _ _).trans (Eq.trans ?_ (slope_of_cost _ _).symm)
    rw [key q u, key q (-u)]
  have hlin : ∀ q x, Cancels (s.dLevels D J0 conf (fun _ _ => 0) q) x ↔
      Cancels (HI.dLevels { s'' with free := s.free } D J0' conf (fun _ _ => 0) q) x := by
    intro q x
    refine (cancels_iff hb hl hv hR J0 conf q x).trans (Iff.trans ?_ (cancels_iff hb' hl' hv' hR' J0' conf q x).symm)
    show _ ↔ LinSolves s.free.segs s''.ineqThr D R _ _ _
    rw [h2']
    exact ⟨fun H c hc => H c (hp.mem_iff.2 hc), fun H c hc => H c (hp.mem_iff.1 hc)⟩
  have henv : s.lsEnv conf move = HI.lsEnv { s'' with free := s.free } conf move := by
    unfold HI.lsEnv
    simp only [hnorm]
    rfl
  have hsol := solve_congr_traj (o := s.fullOps D o J0 conf (fun _ _ => 0) move ls)
    (o' := HI.fullOps { s'' with free := s.free } D o' J0' conf (fun _ _ => 0) move ls) q (fun j => dq (hiFree s j), st)
    (fun a => by show (s.sqNorm _).getD 0 = _; rw [hnorm]; rfl)
    (fun a m => by
      have hsl : (fun q u => localSlope (s.dLevels D J0 conf (fun _ _ => 0) q) u) =
        fun q u => localSlope (HI.dLevels { s'' with free := s.free } D J0' conf (fun _ _ => 0) q) u := by
        funext q u; exact hslope q u
      unfold HI.fullOps
      simp only [hsl, henv])
    (fun k => by
      set p := traj (s.fullOps D o J0 conf (fun _ _ => 0) move ls) q (fun j => dq (hiFree s j), st) k with hpk
      obtain ⟨x, hx⟩ := hc k
      have hd := (C132_solutions o o' ho hor ho' hor' s.sqThr s''.sqThr _ _ (firstLevel_of_top hb hl hv ht J0 conf p.1)
        (firstLevel_of_top hb' hl' hv' ht' J0' conf p.1) ⟨x, (cancels_iff hb hl hv hR J0 conf p.1 x).2 hx⟩ (hlin p.1)
        p.2.1 p.2.1).1
      unfold HI.fullOps
      simp only [hby]
      rw [hd, ← h5'])
    s''.sqThr dqMin s''.maxIter (HI.reducedDim { s'' with free := s.free })
  intro r r'
  have : r' = r := by
    show solve (HI.fullOps { s'' with free := s.free } D o' J0' conf (fun _ _ => 0) move ls) s''.sqThr dqMin s''.maxIter
      (HI.reducedDim { s'' with free := s.free }) q (fun j => dq (hiFree s j), st) = r
    refine hsol.symm.trans ?_
    rw [h1', h3', ← hdim]
  rw [this]
  exact ⟨rfl, rfl, rfl⟩

/-! ### A case -/

namespace PriorityEx
open HINewtonEx

/-- `q ↦ q₁ - 1` -/
noncomputable def fn3 : Fn ℝ Nat where
  key := 1
  inputSize := 2
  inputDer := 2
  spaceId := 1
  space := vectorSpace ℝ 1
  value q := [q 1 - 1]
  jac _ := fun _ k => if k = 1 then 1 else 0
  activeQ := [false, true]
  active := [false, true]

/-- `q₁ = 1` -/
noncomputable def con3 : Impl ℝ Nat := (Impl.create fn3 [.equality] []).get rfl

/-- `q₁² = q₀`, then `q₁ = 1` -/
noncomputable def sol1 : HI ℝ Nat :=
  { (((HI.init ℝ Nat 2).add con 0).1.add con3 1).1.setFreeIndices (Blocks.empty.add 0 2) with
    sqThr := 1 / 10 ^ 8, ineqThr := 0, maxIter := 20, lastIsOptional := false, byLevel := false }

/-- `q₁ = 1`, then `q₁² = q₀` -/
noncomputable def sol2 : HI ℝ Nat :=
  { (((HI.init ℝ Nat 2).add con 1).1.add con3 0).1.setFreeIndices (Blocks.empty.add 0 2) with
    sqThr := 1 / 10 ^ 8, ineqThr := 0, maxIter := 20, lastIsOptional := false, byLevel := false }

theorem built1 : HI.Built El 2 [(con, 0), (con3, 1)] sol1 :=
  .params _ _ _ _ _ (.free (.add (h := [(con, 0)]) (.add (h := []) .init
    ⟨fn, [], [.equality], .create _ _ (Option.some_get _).symm⟩ (Prod.ext rfl rfl))
    ⟨fn3, [], [.equality], .create _ _ (Option.some_get _).symm⟩ (Prod.ext rfl rfl)))

theorem built2 : HI.Built El 2 [(con, 1), (con3, 0)] sol2 :=
  .params _ _ _ _ _ (.free (.add (h := [(con, 1)]) (.add (h := []) .init
    ⟨fn, [], [.equality], .create _ _ (Option.some_get _).symm⟩ (Prod.ext rfl rfl))
    ⟨fn3, [], [.equality], .create _ _ (Option.some_get _).symm⟩ (Prod.ext rfl rfl)))

theorem rhs1 : HI.RhsIs El [(con, 0), (con3, 1)] sol1 fun _ => [0] where
  el := by
    intro e he
    simp only [List.mem_cons, List.not_mem_nil, or_false] at he
    rcases he with rfl | rfl <;> rfl
  eq := by
    intro i l hi
    have h0 : i < 2 := lt_of_getElem?_some (l := sol1.levels) hi
    obtain rfl | rfl : i = 0 ∨ i = 1 := by omega
    · obtain rfl : (sol1.levels[0]?).get rfl = l := Option.some.inj ((Option.some_get _).trans hi)
      rfl
    · obtain rfl : (sol1.levels[1]?).get rfl = l := Option.some.inj ((Option.some_get _).trans hi)
      rfl

theorem rhs2 : HI.RhsIs El [(con, 1), (con3, 0)] sol2 fun _ => [0] where
  el := by
    intro e he
    simp only [List.mem_cons, List.not_mem_nil, or_false] at he
    rcases he with rfl | rfl <;> rfl
  eq := by
    intro i l hi
    have h0 : i < 2 := lt_of_getElem?_some (l := sol2.levels) hi
    obtain rfl | rfl : i = 0 ∨ i = 1 := by omega
    · obtain rfl : (sol2.levels[0]?).get rfl = l := Option.some.inj ((Option.some_get _).trans hi)
      rfl
    · obtain rfl : (sol2.levels[1]?).get rfl = l := Option.some.inj ((Option.some_get _).trans hi)
      rfl

/-- The linearised constraints have a common solution everywhere. -/
theorem compatible (q : Nat → ℝ) : ∃ x, LinSolves sol1.free.segs sol1.ineqThr D (fun _ => [0]) [con, con3] q x := by
  have h1 : ∀ k, conRow 0 D q con [0] 0 k = if k = 0 then -1 else if k = 1 then 2 * q 1 else 0 := by
    intro k
    unfold conRow
    rw [if_neg (by rintro (⟨h, -⟩ | ⟨h, -⟩) <;> cases h)]
    show ∑ j ∈ Finset.range 1, (if 0 = j then (1 : ℝ) else 0) * (if k = 0 then -1 else if k = 1 then 2 * q 1 else 0) = _
    simp
  have h2 : ∀ k, conRow 0 D q con3 [0] 0 k = if k = 1 then 1 else 0 := by
    intro k
    unfold conRow
    rw [if_neg (by rintro (⟨h, -⟩ | ⟨h, -⟩) <;> cases h)]
    show ∑ j ∈ Finset.range 1, (if 0 = j then (1 : ℝ) else 0) * (if k = 1 then 1 else 0) = _
    simp
  have sum2 : ∀ f : Fin (indices sol1.free.segs).length → ℝ, ∑ j, f j = f ⟨0, Nat.two_pos⟩ + f ⟨1, Nat.one_lt_two⟩ :=
    fun f => Fin.sum_univ_two f
  refine ⟨fun j => if j.1 = 0 then q 1 ^ 2 - q 0 + 2 * q 1 * (1 - q 1) else 1 - q 1, fun c hc _ r hr => ?_⟩
  simp only [List.mem_cons, List.not_mem_nil, or_false] at hc
  rcases hc with rfl | rfl
  · have hr0 : r < 1 := lt_of_getElem?_some (l := con.mask) hr
    obtain rfl : r = 0 := by omega
    rw [sum2]
    show conRow 0 D q con [0] 0 0 * (q 1 ^ 2 - q 0 + 2 * q 1 * (1 - q 1)) + conRow 0 D q con [0] 0 1 * (1 - q 1) +
      (q 1 ^ 2 - q 0 - 0) = 0
    rw [h1, h1]
    simp
  · have hr0 : r < 1 := lt_of_getElem?_some (l := con3.mask) hr
    obtain rfl : r = 0 := by omega
    rw [sum2]
    show conRow 0 D q con3 [0] 0 0 * (q 1 ^ 2 - q 0 + 2 * q 1 * (1 - q 1)) + conRow 0 D q con3 [0] 0 1 * (1 - q 1) +
      (q 1 - 1 - 0) = 0
    rw [h2, h2]
    simp

/-- Both priorities give the same result with backtracking, from any configuration of a vector space. -/
example (o o' : SvdOps ℝ) (ho : o.Exact) (hor : o.Ortho) (ho' : o'.Exact) (hor' : o'.Ortho) (J0 J0' : (Nat → ℝ) → Jac ℝ)
    (q : Nat → ℝ) :
    (solve (sol2.fullOps D o' J0' id (fun _ _ => 0) (fun q v i => q i + v i) lineBacktracking) sol2.sqThr (1 / 10 ^ 12)
      sol2.maxIter sol2.reducedDim q (fun _ => 0, ())).arg =
    (solve (sol1.fullOps D o J0 id (fun _ _ => 0) (fun q v i => q i + v i) lineBacktracking) sol1.sqThr (1 / 10 ^ 12)
      sol1.maxIter sol1.reducedDim q (fun _ => 0, ())).arg :=
  (C133_priorities built1 built2 (.refl _)
    (by intro e he
        simp only [List.mem_cons, List.not_mem_nil, or_false] at he
        rcases he with rfl | rfl <;> exact vectorSpace_lawful 1)
    (by intro e he q
        simp only [List.mem_cons, List.not_mem_nil, or_false] at he
        rcases he with rfl | rfl <;> rfl)
    ⟨rfl, rfl, rfl, rfl, rfl, rfl⟩ rfl rfl rhs1 rhs2 ⟨(con, 0), by simp, rfl, rfl, by decide +revert⟩ ⟨(con3, 0), by simp, rfl, rfl, by decide +revert⟩
    D ho hor ho' hor' J0 J0' id (fun q v i => q i + v i) lineBacktracking (1 / 10 ^ 12) q (fun _ => 0) ()
    fun _ => compatible _).1

end PriorityEx

end Hpp
