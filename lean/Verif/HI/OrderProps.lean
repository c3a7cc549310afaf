import Verif.HI.NewtonLink
import Verif.HI.NewtonLinkEx
import Verif.Solve.OrderProps

/-!
# C128. The order in which constraints of the same priority are inserted does not matter

Sources: `/repo/include/hpp/constraints/solver/impl/hierarchical-iterative.hh`, lines 39-181 and
`/repo/src/solver/hierarchical-iterative.cc`, lines 623-672, 694-719 and 744-828.

Here the iterations are complete: the saturation of the configuration and the line searches are included.
-/

namespace Hpp

open Matrix

variable {κ A S : Type}

/-- What `computeDescentDirection` reads of the levels, after `computeValue<true>(q); computeError();
computeSaturation(q);` (hierarchical-iterative.cc:623-672).  `sat q` is `saturation_` if `saturate` returns true, zero
otherwise. -/
noncomputable def HI.dLevels (s : HI ℝ κ) (D : Space ℝ → List ℝ → List ℝ → Nat → Nat → ℝ) (J0 : A → Jac ℝ)
    (conf : A → Nat → ℝ) (sat : A → Nat → ℝ) (q : A) : List (DLevel ℝ (indices s.free.segs).length) :=
  s.levels.map fun l => satLevel (fun j => sat q (hiFree s j)) (s.dLevel D (J0 q) (conf q) l)

/-- The solver as it is seen by the line searches (hierarchical-iterative.cc:694-719 and 825-828).  `move` is the integration
of a velocity of all the variables, followed by saturation. -/
noncomputable def HI.lsEnv (s : HI ℝ κ) (conf : A → Nat → ℝ) (move : A → (Nat → ℝ) → A) :
    LsEnv A (Fin (indices s.free.segs).length → ℝ) ℝ where
  integrate q v := move q (expand (hiFree s) v fun _ => 0)
  smul c v := c • v
  err q := (s.sqNorm (conf q)).getD 0

/-- A line search that uses the solver by `integrate`, `residualError` and `computeLocalSlope` only
(impl/hierarchical-iterative.hh:39-126). -/
abbrev LineSearch (A S : Type) :=
  (V : Type) → LsEnv A V ℝ → (slope : A → V → ℝ) → S → A → V → S × LsOut A V

/-- The steps of `solve` (impl/hierarchical-iterative.hh:142-171). -/
noncomputable def HI.fullOps (s : HI ℝ κ) (D : Space ℝ → List ℝ → List ℝ → Nat → Nat → ℝ) (o : SvdOps ℝ)
    (J0 : A → Jac ℝ) (conf : A → Nat → ℝ) (sat : A → Nat → ℝ) (move : A → (Nat → ℝ) → A) (ls : LineSearch A S) :
    Ops A ((Fin (indices s.free.segs).length → ℝ) × S) ℝ where
  norm q := (s.sqNorm (conf q)).getD 0
  dir q m :=
    let d := (descend o s.byLevel s.sqThr (s.dLevels D J0 conf sat q) m.1).getD 0
    ((d, m.2), d ⬝ᵥ d)
  search q m :=
    let r := ls _ (s.lsEnv conf move) (fun q u => localSlope (s.dLevels D J0 conf sat q) u) m.2 q m.1
    (r.2.arg, (m.1, r.1))

/-- `lineSearch::Constant` -/
def lineConstant : LineSearch A Unit := fun _ env _ _ q u => ((), lsConstant env q u)

/-- `lineSearch::Backtracking` with the default parameters -/
noncomputable def lineBacktracking : LineSearch A Unit := fun _ env slope _ q u =>
  ((), (backtracking env (.default ℝ) 5 (slope q u) (env.err q) q u).getD ⟨q, u, false, 0⟩)

/-- `lineSearch::FixedSequence` -/
noncomputable def lineFixedSequence : LineSearch A (FixedSeq ℝ) := fun _ env _ f q u => f.call env q u

/-- `lineSearch::ErrorNormBased` -/
noncomputable def lineErrorNormBased (thr : ℝ) : LineSearch A ErrNormBased := fun _ env _ e q u =>
  (e, e.call env (env.err q) thr q u)

/-- Without saturation these are the steps of `HI/NewtonLink.lean`. -/
theorem fullOps_noSat (s : HI ℝ κ) (D : Space ℝ → List ℝ → List ℝ → Nat → Nat → ℝ) (o : SvdOps ℝ)
    (J0 : A → Jac ℝ) (conf : A → Nat → ℝ) (move : A → (Nat → ℝ) → A) (ls : LineSearch A S) :
    s.fullOps D o J0 conf (fun _ _ => 0) move ls = s.ops D o J0 conf fun st q u =>
      ls _ (s.lsEnv conf move) (fun q u => localSlope (s.levels.map (s.dLevel D (J0 q) (conf q))) u) st q u := by
  have h : ∀ q, s.dLevels D J0 conf (fun _ _ => 0) q = s.levels.map (s.dLevel D (J0 q) (conf q)) := by
    intro q
    refine List.map_congr_left fun l _ => ?_
    unfold satLevel
    simp
  unfold HI.fullOps HI.ops
  simp only [h]

/-! ## The error of a level, by constraint -/

/-- Row of the Jacobian of a constraint after `computeValue<true>` -/
noncomputable def conRow (thr : ℝ) (D : Space ℝ → List ℝ → List ℝ → Nat → Nat → ℝ) (q : Nat → ℝ) (c : Impl ℝ κ) (rhs : List ℝ)
    (r k : Nat) : ℝ :=
  open Classical in if InsideLimit (c.comp.getD r .equality) thr ((c.fn.space.sub (c.fn.value q) rhs).getD r 0) then 0 else
    ∑ j ∈ Finset.range c.fn.space.nv, D c.fn.space rhs (c.fn.value q) r j * c.fn.jac q j k

/-- Squared norm of the linearised error of a constraint, over the rows that are solved for -/
noncomputable def conCost (free : Segs) (thr : ℝ) (D : Space ℝ → List ℝ → List ℝ → Nat → Nat → ℝ) (q : Nat → ℝ)
    (x : Fin (indices free).length → ℝ) (rhs : List ℝ) (c : Impl ℝ κ) (r : Nat) : ℝ :=
  if dependsOnFree free c = true ∧ c.mask[r]? = some true then
    (∑ j : Fin (indices free).length, conRow thr D q c rhs r ((indices free).getD j 0) * x j + (conError thr q c rhs).getD r 0) *
    (∑ j : Fin (indices free).length, conRow thr D q c rhs r ((indices free).getD j 0) * x j + (conError thr q c rhs).getD r 0) else 0

theorem sum_blocks {β : Type} (n : β → Nat) (g : β → Nat → ℝ) (cs : List β) (G : Nat → ℝ)
    (h : ∀ pre c post, cs = pre ++ c :: post → ∀ r, r < n c → G ((pre.map n).sum + r) = g c r) :
    ∑ ρ ∈ Finset.range (cs.map n).sum, G ρ = (cs.map fun c => ∑ r ∈ Finset.range (n c), g c r).sum := by
  induction cs generalizing G with
  | nil => simp
  | cons c cs ih =>
    rw [List.map_cons, List.sum_cons, List.map_cons, List.sum_cons, Finset.sum_range_add]
    congr 1
    · refine Finset.sum_congr rfl fun r hr => ?_
      have := h [] c cs rfl r (Finset.mem_range.1 hr)
      simpa using this
    · refine ih _ fun pre d post hsplit r hr => ?_
      have := h (c :: pre) d post (by rw [hsplit]; rfl) r hr
      rw [List.map_cons, List.sum_cons, Nat.add_assoc] at this
      exact this

theorem forall₂_of_index {β γ : Type} {P : β → γ → Prop} (l : List β) (l' : List γ) (hlen : l.length = l'.length)
    (h : ∀ (i : Nat) (a : β) (b : γ), l[i]? = some a → l'[i]? = some b → P a b) : List.Forall₂ P l l' := by
  induction l generalizing l' with
  | nil => cases l' with
    | nil => exact .nil
    | cons b l' => simp at hlen
  | cons a l ih => cases l' with
    | nil => simp at hlen
    | cons b l' =>
      refine .cons (h 0 a b rfl rfl) (ih l' (by simpa using hlen) fun i a b ha hb => h (i + 1) a b ?_ ?_)
      · simpa using ha
      · simpa using hb

theorem atLevel_perm {h h' : List (Impl ℝ κ × Nat)} (hp : h.Perm h') (i : Nat) : (atLevel h i).Perm (atLevel h' i) :=
  (hp.filter _).map _

section
variable [DecidableEq κ] {El : Fn ℝ κ → List ℝ → Prop}
  {D : Space ℝ → List ℝ → List ℝ → Nat → Nat → ℝ}
  {h : List (Impl ℝ κ × Nat)} {s : HI ℝ κ} {nv : Nat} {R : κ → List ℝ}

theorem dLevel_cost (hb : HI.Built El nv h s)
    (hl : ∀ e ∈ h, e.1.fn.space.Lawful (El e.1.fn)) (hv : ∀ e ∈ h, ∀ q, El e.1.fn (e.1.fn.value q))
    (hR : HI.RhsIs El h s R) {i : Nat} {l : Level ℝ κ} (hi : s.levels[i]? = some l) (J0 : Jac ℝ) (q : Nat → ℝ)
    (x : Fin (indices s.free.segs).length → ℝ) :
    (s.dLevel D J0 q l).cost x = ((atLevel h i).map fun c =>
      ∑ r ∈ Finset.range c.fn.space.nv, conCost s.free.segs s.ineqThr D q x (R c.fn.key) c r).sum := by
  obtain ⟨hs, hf, -⟩ := hb.inv hl hv
  obtain ⟨E, hE, -, -, -, he, hr, hJ⟩ := level_evalJac hs hf hR hi D s.ineqThr s.free.segs q J0
  have hrows := C23_active_rows hb hl hv i l hi
  set F : Nat → ℝ := fun ρ => ∑ j : Fin (indices s.free.segs).length, E.jac ρ ((indices s.free.segs).getD j 0) * x j +
    E.error.getD ρ 0 with hF
  have h1 : (s.dLevel D J0 q l).cost x = ∑ r ∈ Finset.range (indices l.rows.segs).length,
      (fun ρ => if ρ ∈ indices l.rows.segs then F ρ * F ρ else 0) ((indices l.rows.segs).getD r 0) := by
    rw [Finset.sum_range]
    unfold DLevel.cost dotProduct
    refine Finset.sum_congr rfl fun r _ => ?_
    have hr2 : r.1 < (indices l.rows.segs).length := r.2
    have hm : (indices l.rows.segs).getD r 0 ∈ indices l.rows.segs := by
      rw [List.getD_eq_getElem?_getD, List.getElem?_eq_getElem hr2, Option.getD_some]
      exact List.getElem_mem hr2
    dsimp only
    rw [if_pos hm]
    have : ((s.dLevel D J0 q l).J *ᵥ x + (s.dLevel D J0 q l).e) r = F ((indices l.rows.segs).getD r 0) := by
      show ∑ j, s.dJ D J0 q l r j * x j + s.dErr D J0 q l r = _
      unfold HI.dJ HI.dErr
      simp only [hE, Option.map_some, Option.getD_some, hr]
      rfl
    rw [this]
  rw [h1, sum_over_indices (indices l.rows.segs) hrows.2.1.disjoint.indices_nodup _ (rows_lt hb hl hv hi)
    (fun ρ => if ρ ∈ indices l.rows.segs then F ρ * F ρ else 0) (fun k _ hk => if_neg hk)]
  refine sum_blocks (fun c : Impl ℝ κ => c.fn.space.nv) _ _ _ fun pre c post hsplit r hrr => ?_
  have hmem : c ∈ atLevel h i := by rw [hsplit]; simp
  have hpre : ∀ y ∈ pre, y ∈ atLevel h i := fun y hy => by rw [hsplit]; simp [hy]
  have hlens : ∀ c ∈ atLevel h i, (c.fn.space.sub (c.fn.value q) (R c.fn.key)).length = c.fn.space.nv ∧
      c.mask.length = c.fn.space.nv ∧ c.comp.length = c.fn.space.nv ∧
      (maskBy c.mask (c.fn.space.sub (c.fn.value q) (R c.fn.key))).length = c.fn.space.nv ∧
      (conError s.ineqThr q c (R c.fn.key)).length = c.fn.space.nv := fun c hc =>
    conSub_length hf (mem_atLevel.1 hc) (hR.el _ (mem_atLevel.1 hc)) q s.ineqThr
  obtain ⟨l1, l2, l3, -, l5⟩ := hlens c hmem
  have hin : (pre.map (fun c : Impl ℝ κ => c.fn.space.nv)).sum + r ∈ indices l.rows.segs ↔
      dependsOnFree s.free.segs c = true ∧ c.mask[r]? = some true := by
    rw [mem_indices, hrows.1]
    unfold rowMask
    rw [hsplit, flatMap_getElem?_mid _ _ _ _ (fun c : Impl ℝ κ => c.fn.space.nv)]
    · by_cases hd : dependsOnFree s.free.segs c = true
      · rw [if_pos hd]; simp [hd]
      · rw [if_neg hd, List.getElem?_replicate]
        split <;> simp [hd]
    · intro y hy
      have := (hlens y (hpre y hy)).2.1
      split <;> simp [this]
    · split
      · omega
      · rw [List.length_replicate]; omega
  unfold conCost
  by_cases hc : dependsOnFree s.free.segs c = true ∧ c.mask[r]? = some true
  · rw [if_pos hc, if_pos (hin.2 hc)]
    have herr : E.error.getD ((pre.map (fun c : Impl ℝ κ => c.fn.space.nv)).sum + r) 0 =
        (conError s.ineqThr q c (R c.fn.key)).getD r 0 := by
      rw [he, hsplit, List.getD_eq_getElem?_getD,
        flatMap_getElem?_mid _ _ _ _ (·.fn.space.nv) (fun y hy => (hlens y (hpre y hy)).2.2.2.2) _ (by rw [l5]; exact hrr),
        ← List.getD_eq_getElem?_getD]
    have hrow : ∀ k, E.jac ((pre.map (fun c : Impl ℝ κ => c.fn.space.nv)).sum + r) k =
        conRow s.ineqThr D q c (R c.fn.key) r k := by
      intro k
      have ht : c.comp[r]? = some (c.comp.getD r .equality) := by
        rw [List.getD_eq_getElem?_getD, List.getElem?_eq_getElem (by omega)]; rfl
      have hx : (c.fn.space.sub (c.fn.value q) (R c.fn.key))[r]? =
          some ((c.fn.space.sub (c.fn.value q) (R c.fn.key)).getD r 0) := by
        rw [List.getD_eq_getElem?_getD, List.getElem?_eq_getElem (by omega)]; rfl
      rw [hJ pre c post hsplit r hrr _ _ _ ht hc.2 hx k]
      rfl
    rw [hF]
    simp only [herr, hrow]
  · rw [if_neg hc, if_neg fun h => hc (hin.1 h)]

theorem dLevel_empty (hb : HI.Built El nv h s)
    (hl : ∀ e ∈ h, e.1.fn.space.Lawful (El e.1.fn)) (hv : ∀ e ∈ h, ∀ q, El e.1.fn (e.1.fn.value q))
    {i : Nat} {l : Level ℝ κ} (hi : s.levels[i]? = some l) (J0 : Jac ℝ) (q : Nat → ℝ) :
    (s.dLevel D J0 q l).m = 0 ↔ ∀ c ∈ atLevel h i, dependsOnFree s.free.segs c = true → true ∉ c.mask := by
  have hrows := C23_active_rows hb hl hv i l hi
  have h1 : (s.dLevel D J0 q l).m = 0 ↔ true ∉ rowMask s.free.segs (atLevel h i) := by
    show (indices l.rows.segs).length = 0 ↔ _
    rw [List.length_eq_zero_iff, List.eq_nil_iff_forall_not_mem]
    constructor
    · intro hn ht
      obtain ⟨ρ, hρ⟩ := List.getElem?_of_mem ht
      exact hn ρ ((mem_indices _ _).2 ((hrows.1 ρ).2 hρ))
    · intro hn ρ hρ
      exact hn (List.mem_of_getElem? ((hrows.1 ρ).1 ((mem_indices _ _).1 hρ)))
  rw [h1]
  unfold rowMask
  rw [List.mem_flatMap]
  constructor
  · intro hn c hc hd hm
    exact hn ⟨c, hc, by rw [if_pos hd]; exact hm⟩
  · rintro hn ⟨c, hc, hm⟩
    by_cases hd : dependsOnFree s.free.segs c = true
    · rw [if_pos hd] at hm; exact hn c hc hd hm
    · rw [if_neg hd] at hm
      have := List.eq_of_mem_replicate hm
      cases this

theorem levels_length {h h' : List (Impl ℝ κ × Nat)} {s s' : HI ℝ κ} (hs : HI.Inv h s) (hs' : HI.Inv h' s') (hp : h.Perm h') :
    s.levels.length = s'.levels.length := by
  have key : ∀ {h h' : List (Impl ℝ κ × Nat)} {s s' : HI ℝ κ}, HI.Inv h s → HI.Inv h' s' → h.Perm h' →
      s.levels.length ≤ s'.levels.length := by
    intro h h' s s' hs hs' hp
    rcases hs.nlev_min with h0 | ⟨e, he, hee⟩
    · omega
    · have := hs'.nlev e (hp.mem_iff.1 he)
      omega
  exact Nat.le_antisymm (key hs hs' hp) (key hs' hs hp.symm)

theorem sqNorm_perm {h' : List (Impl ℝ κ × Nat)} {s' : HI ℝ κ} (hs : HI.Inv h s) (hf : FnsOk El h) (hR : HI.RhsIs El h s R)
    (hs' : HI.Inv h' s') (hf' : FnsOk El h') (hR' : HI.RhsIs El h' s' R) (hp : h.Perm h')
    (hne : s.lastIsOptional = true → s.levels ≠ []) (hi : s'.ineqThr = s.ineqThr) (ho : s'.lastIsOptional = s.lastIsOptional)
    (q : Nat → ℝ) : s.sqNorm q = s'.sqNorm q := by
  have hlen := levels_length hs hs' hp
  have hne' : s'.lastIsOptional = true → s'.levels ≠ [] := by
    rw [ho]
    intro h1 h2
    apply hne h1
    rw [h2] at hlen
    exact List.length_eq_zero_iff.1 hlen
  rw [solver_sqNorm_eq hs hf hR hne, solver_sqNorm_eq hs' hf' hR' hne', hi]
  have hn : s'.nMandatory = s.nMandatory := by
    unfold HI.nMandatory
    rw [ho, hlen]
  rw [hn]
  congr 1
  have : RightCommutative fun (m : ℝ) (c : Impl ℝ κ) => max m (sqSum (conError s.ineqThr q c (R c.fn.key))) :=
    ⟨fun a b c => max_right_comm _ _ _⟩
  exact (List.Perm.flatMap_left _ fun i _ => atLevel_perm hp i).foldl_eq 0

end

/-- Specification: two solvers with the same parameters. -/
structure HI.SameOptions (s s' : HI ℝ κ) : Prop where
  free : s'.free = s.free
  sqThr : s'.sqThr = s.sqThr
  ineqThr : s'.ineqThr = s.ineqThr
  maxIter : s'.maxIter = s.maxIter
  lastIsOptional : s'.lastIsOptional = s.lastIsOptional
  byLevel : s'.byLevel = s.byLevel

/-- C128. Two solvers that have the same parameters and into which the same constraints have been inserted with the same
priorities, in two orders, and with the same right hand sides, return the same configuration and the same status after the same
number of iterations: with any line search, with or without saturation, with or without optional level, and whatever
the matrices of the levels held. -/
theorem C128_order [DecidableEq κ] {El : Fn ℝ κ → List ℝ → Prop} {nv nv' : Nat} {h h' : List (Impl ℝ κ × Nat)} {s s' : HI ℝ κ}
    (hb : HI.Built El nv h s) (hb' : HI.Built El nv' h' s') (hp : h.Perm h')
    (hl : ∀ e ∈ h, e.1.fn.space.Lawful (El e.1.fn)) (hv : ∀ e ∈ h, ∀ q, El e.1.fn (e.1.fn.value q))
    (hopt : s.SameOptions s') {R : κ → List ℝ} (hR : HI.RhsIs El h s R) (hR' : HI.RhsIs El h' s' R)
    (hne : s.lastIsOptional = true → s.levels ≠ []) (D : Space ℝ → List ℝ → List ℝ → Nat → Nat → ℝ) {o o' : SvdOps ℝ}
    (ho : o.Exact) (hor : o.Ortho) (ho' : o'.Exact) (hor' : o'.Ortho) (J0 J0' : A → Jac ℝ) (conf : A → Nat → ℝ)
    (sat : A → Nat → ℝ) (move : A → (Nat → ℝ) → A) (ls : LineSearch A S) (dqMin : ℝ) (q : A) (dq : Nat → ℝ) (st : S) :
    let r := solve (s.fullOps D o J0 conf sat move ls) s.sqThr dqMin s.maxIter s.reducedDim q (fun j => dq (hiFree s j), st)
    let r' := solve (s'.fullOps D o' J0' conf sat move ls) s'.sqThr dqMin s'.maxIter s'.reducedDim q
      (fun j => dq (hiFree s' j), st)
    r'.arg = r.arg ∧ r'.status = r.status ∧ r'.iter = r.iter := by
  have hl' : ∀ e ∈ h', e.1.fn.space.Lawful (El e.1.fn) := fun e he => hl e (hp.mem_iff.2 he)
  have hv' : ∀ e ∈ h', ∀ q, El e.1.fn (e.1.fn.value q) := fun e he => hv e (hp.mem_iff.2 he)
  obtain ⟨hs, hf, -⟩ := hb.inv hl hv
  obtain ⟨hs', hf', -⟩ := hb'.inv hl' hv'
  have hlen := levels_length hs hs' hp
  obtain ⟨hfree, h1, h2, h3, h4, h5⟩ := hopt
  obtain ⟨s'', rfl⟩ : ∃ s'', s' = { s'' with free := s.free } := ⟨s', by rw [← hfree]⟩
  have hnorm : ∀ q, s.sqNorm q = HI.sqNorm { s'' with free := s.free } q :=
    fun q => sqNorm_perm hs hf hR hs' hf' hR' hp hne h2 h4 q
  have hdim : s.reducedDim = (HI.reducedDim { s'' with free := s.free }) := by
    rw [C23_reduced_dimension hb hl hv, C23_reduced_dimension hb' hl' hv']
    exact (hp.map _).sum_eq
  have hlev : ∀ q, List.Forall₂ DLevel.Same (s.dLevels D J0 conf sat q)
      (HI.dLevels { s'' with free := s.free } D J0' conf sat q) := by
    intro q
    refine forall₂_of_index _ _ ?_ ?_
    · unfold HI.dLevels
      rw [List.length_map, List.length_map]
      exact hlen
    · intro i a b ha hb1
      unfold HI.dLevels at ha hb1
      rw [List.getElem?_map] at ha hb1
      obtain ⟨l, hl1, rfl⟩ := Option.map_eq_some_iff.1 ha
      obtain ⟨l', hl2, rfl⟩ := Option.map_eq_some_iff.1 hb1
      refine C128_saturation ⟨?_, fun x => ?_⟩ _
      · refine (dLevel_empty hb hl hv hl1 _ _).trans (Iff.trans ?_ (dLevel_empty hb' hl' hv' hl2 (J0' q) (conf q)).symm)
        constructor
        · exact fun H c hc => H c ((atLevel_perm hp i).mem_iff.2 hc)
        · exact fun H c hc => H c ((atLevel_perm hp i).mem_iff.1 hc)
      · refine (dLevel_cost hb hl hv hR hl1 _ _ x).trans (Eq.trans ?_ (dLevel_cost hb' hl' hv' hR' hl2 (J0' q) (conf q) x).symm)
        have h2' : s''.ineqThr = s.ineqThr := h2
        simp only [h2']
        exact ((atLevel_perm hp i).map _).sum_eq
  have hops : s.fullOps D o J0 conf sat move ls = HI.fullOps { s'' with free := s.free } D o' J0' conf sat move ls := by
    have h1' : s''.sqThr = s.sqThr := h1
    have h5' : s''.byLevel = s.byLevel := h5
    have hd : ∀ q (v : Fin (indices s.free.segs).length → ℝ), descend o s.byLevel s.sqThr (s.dLevels D J0 conf sat q) v =
        descend o' s''.byLevel s''.sqThr (HI.dLevels { s'' with free := s.free } D J0' conf sat q) v := by
      intro q v
      rw [h1', h5']
      exact C128_direction ho hor ho' hor' s.byLevel s.sqThr (hlev q) v
    have hslope : (fun q u => localSlope (s.dLevels D J0 conf sat q) u) =
        fun q u => localSlope (HI.dLevels { s'' with free := s.free } D J0' conf sat q) u := by
      funext q u
      exact C128_slope (hlev q) u
    have henv : s.lsEnv conf move = HI.lsEnv { s'' with free := s.free } conf move := by
      unfold HI.lsEnv
      simp only [hnorm]
      rfl
    unfold HI.fullOps
    simp only [hnorm, hd, hslope, henv]
  have h1' : s''.sqThr = s.sqThr := h1
  have h3' : s''.maxIter = s.maxIter := h3
  intro r r'
  have : r' = r := by
    show solve (HI.fullOps { s'' with free := s.free } D o' J0' conf sat move ls) s''.sqThr dqMin s''.maxIter
      (HI.reducedDim { s'' with free := s.free }) q (fun j => dq (hiFree s j), st) = r
    rw [← hops, ← hdim, h1', h3']
  rw [this]
  exact ⟨rfl, rfl, rfl⟩

namespace OrderEx
open HINewtonEx

/-- `q ↦ q₀ + q₁` -/
noncomputable def fn2 : Fn ℝ Nat where
  key := 1
  inputSize := 2
  inputDer := 2
  spaceId := 1
  space := vectorSpace ℝ 1
  value q := [q 0 + q 1]
  jac _ := fun _ k => if k < 2 then 1 else 0
  activeQ := [true, true]
  active := [true, true]

/-- `q₀ + q₁ ≤ 0` -/
noncomputable def con2 : Impl ℝ Nat := (Impl.create fn2 [.inferior] []).get rfl

/-- The constraints `q₁² = q₀` and `q₀ + q₁ ≤ 0` at the same level -/
noncomputable def sol1 : HI ℝ Nat :=
  { (((HI.init ℝ Nat 2).add con 0).1.add con2 0).1.setFreeIndices (Blocks.empty.add 0 2) with
    sqThr := 1 / 10 ^ 8, ineqThr := 0, maxIter := 20, lastIsOptional := false, byLevel := false }

/-- in the other order -/
noncomputable def sol2 : HI ℝ Nat :=
  { (((HI.init ℝ Nat 2).add con2 0).1.add con 0).1.setFreeIndices (Blocks.empty.add 0 2) with
    sqThr := 1 / 10 ^ 8, ineqThr := 0, maxIter := 20, lastIsOptional := false, byLevel := false }

theorem built1 : HI.Built El 2 [(con, 0), (con2, 0)] sol1 :=
  .params _ _ _ _ _ (.free (.add (h := [(con, 0)]) (.add (h := []) .init
    ⟨fn, [], [.equality], .create _ _ (Option.some_get _).symm⟩ (Prod.ext rfl rfl))
    ⟨fn2, [], [.inferior], .create _ _ (Option.some_get _).symm⟩ (Prod.ext rfl rfl)))

theorem built2 : HI.Built El 2 [(con2, 0), (con, 0)] sol2 :=
  .params _ _ _ _ _ (.free (.add (h := [(con2, 0)]) (.add (h := []) .init
    ⟨fn2, [], [.inferior], .create _ _ (Option.some_get _).symm⟩ (Prod.ext rfl rfl))
    ⟨fn, [], [.equality], .create _ _ (Option.some_get _).symm⟩ (Prod.ext rfl rfl)))

theorem rhs1 : HI.RhsIs El [(con, 0), (con2, 0)] sol1 fun _ => [0] where
  el := by
    intro e he
    simp only [List.mem_cons, List.not_mem_nil, or_false] at he
    rcases he with rfl | rfl <;> rfl
  eq := by
    intro i l hi
    have h0 : i < 1 := lt_of_getElem?_some (l := sol1.levels) hi
    obtain rfl : i = 0 := by omega
    obtain rfl : (sol1.levels[0]?).get rfl = l := Option.some.inj ((Option.some_get _).trans hi)
    rfl

theorem rhs2 : HI.RhsIs El [(con2, 0), (con, 0)] sol2 fun _ => [0] where
  el := by
    intro e he
    simp only [List.mem_cons, List.not_mem_nil, or_false] at he
    rcases he with rfl | rfl <;> rfl
  eq := by
    intro i l hi
    have h0 : i < 1 := lt_of_getElem?_some (l := sol2.levels) hi
    obtain rfl : i = 0 := by omega
    obtain rfl : (sol2.levels[0]?).get rfl = l := Option.some.inj ((Option.some_get _).trans hi)
    rfl

/-- Both orders give the same result with backtracking, from any configuration of a vector space. -/
example (o o' : SvdOps ℝ) (ho : o.Exact) (hor : o.Ortho) (ho' : o'.Exact) (hor' : o'.Ortho) (J0 J0' : (Nat → ℝ) → Jac ℝ)
    (q : Nat → ℝ) :
    (solve (sol2.fullOps D o' J0' id (fun _ _ => 0) (fun q v i => q i + v i) lineBacktracking) sol2.sqThr (1 / 10 ^ 12)
      sol2.maxIter sol2.reducedDim q (fun _ => 0, ())).arg =
    (solve (sol1.fullOps D o J0 id (fun _ _ => 0) (fun q v i => q i + v i) lineBacktracking) sol1.sqThr (1 / 10 ^ 12)
      sol1.maxIter sol1.reducedDim q (fun _ => 0, ())).arg :=
  (C128_order built1 built2 (.swap _ _ _)
    (by intro e he
        simp only [List.mem_cons, List.not_mem_nil, or_false] at he
        rcases he with rfl | rfl <;> exact vectorSpace_lawful 1)
    (by intro e he q
        simp only [List.mem_cons, List.not_mem_nil, or_false] at he
        rcases he with rfl | rfl <;> rfl)
    ⟨rfl, rfl, rfl, rfl, rfl, rfl⟩ rhs1 rhs2 (fun h => by cases h) D ho hor ho' hor' J0 J0' id (fun _ _ => 0)
    (fun q v i => q i + v i) lineBacktracking (1 / 10 ^ 12) q (fun _ => 0) ()).1

end OrderEx

end Hpp
