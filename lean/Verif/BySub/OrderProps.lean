import Verif.HI.OrderProps
import Verif.BySub.NewtonLinkEx

/-!
# C128. The order of insertion of the constraints in a solver by substitution

Sources: `/repo/include/hpp/constraints/solver/impl/by-substitution.hh`, lines 38-167,
`/repo/include/hpp/constraints/solver/by-substitution.hh`, lines 276-281,
`/repo/src/solver/by-substitution.cc`, lines 166-256, and
`/repo/src/solver/hierarchical-iterative.cc`, lines 623-672 and 744-828.
-/

namespace Hpp

open Matrix

variable {κ S : Type}

/-- What `computeDescentDirection` reads of the levels, after `updateJacobian(q); computeSaturation(q);`
(by-substitution.cc:166-204, hierarchical-iterative.cc:653-672).  `sat q` is `saturation_` if `saturate` returns true, zero
otherwise. -/
noncomputable def BS.dLevels (s : BS ℝ κ) (D : Space ℝ → List ℝ → List ℝ → Nat → Nat → ℝ) (J0 : (Nat → ℝ) → Jac ℝ)
    (sat : (Nat → ℝ) → Nat → ℝ) (q : Nat → ℝ) : List (DLevel ℝ (indices s.hi.free.segs).length) :=
  s.hi.levels.map fun l => satLevel (fun j => sat q (hiFree s.hi j)) (s.dLevel D (J0 q) q l)

/-- The solver as it is seen by the line searches (by-substitution.hh:276-281).  `move` is the integration of a velocity of all the
variables, followed by saturation. -/
noncomputable def BS.lsEnv (s : BS ℝ κ) (move : (Nat → ℝ) → (Nat → ℝ) → Nat → ℝ) :
    LsEnv (Nat → ℝ) (Fin (indices s.hi.free.segs).length → ℝ) ℝ where
  integrate q v := s.ex.solve (move q (expand (hiFree s.hi) v fun _ => 0))
  smul c v := c • v
  err q := (s.hi.sqNorm q).getD 0

/-- A line search that uses the solver by `integrate`, `residualError` and `computeLocalSlope` only
(impl/hierarchical-iterative.hh:39-126).  The boolean tells that no explicit function was evaluated outside of its domain
(exception, impl/by-substitution.hh:111-114). -/
abbrev BsLineSearch (S : Type) :=
  (V : Type) → LsEnv (Nat → ℝ) V ℝ → (slope : (Nat → ℝ) → V → ℝ) → S → (Nat → ℝ) → V → (S × LsOut (Nat → ℝ) V) × Bool

/-- The steps of `impl_solve` (impl/by-substitution.hh:38-167).  `dom` tells whether the explicit constraints are defined
at a configuration; simplification: when they are not, the output of the other ones is computed nevertheless. -/
noncomputable def BS.fullOps (s : BS ℝ κ) (D : Space ℝ → List ℝ → List ℝ → Nat → Nat → ℝ) (o : SvdOps ℝ)
    (J0 : (Nat → ℝ) → Jac ℝ) (dom : (Nat → ℝ) → Bool) (sat : (Nat → ℝ) → Nat → ℝ)
    (move : (Nat → ℝ) → (Nat → ℝ) → Nat → ℝ) (ls : BsLineSearch S) :
    BsOps (Nat → ℝ) ((Fin (indices s.hi.free.segs).length → ℝ) × (Fin (indices s.hi.free.segs).length → ℝ) × S) ℝ where
  expl q := (s.ex.solve q, dom q)
  norm q := (s.hi.sqNorm q).getD 0
  cost q := match s.hi.levels.getLast? with
    | some l => sqSum ((l.error s.hi.ineqThr q).getD [])
    | none => 0
  dir q m :=
    let d := (descend o s.hi.byLevel s.hi.sqThr (s.dLevels D J0 sat q) m.1).getD 0
    (d, d, m.2.2)
  scale c m := (m.1, c • m.2.1, m.2.2)
  unscale c m := (m.1, c⁻¹ • m.2.1, m.2.2)
  dqNorm m := m.2.1 ⬝ᵥ m.2.1
  search q m :=
    let r := ls _ (s.lsEnv move) (fun q u => localSlope (s.dLevels D J0 sat q) u) m.2.2 q m.2.1
    (r.1.2.arg, (m.1, r.1.2.step, r.1.1), r.2)

/-- Without saturation and with explicit constraints defined everywhere these are the steps of `BySub/NewtonLink.lean`. -/
theorem bs_fullOps_noSat (s : BS ℝ κ) (D : Space ℝ → List ℝ → List ℝ → Nat → Nat → ℝ) (o : SvdOps ℝ)
    (J0 : (Nat → ℝ) → Jac ℝ) (move : (Nat → ℝ) → (Nat → ℝ) → Nat → ℝ) (ls : BsLineSearch S) :
    s.fullOps D o J0 (fun _ => true) (fun _ _ => 0) move ls = s.ops D o J0 fun st q u =>
      ls _ (s.lsEnv move) (fun q u => localSlope (s.hi.levels.map (s.dLevel D (J0 q) q)) u) st q u := by
  have h : ∀ q, s.dLevels D J0 (fun _ _ => 0) q = s.hi.levels.map (s.dLevel D (J0 q) q) := by
    intro q
    refine List.map_congr_left fun l _ => ?_
    unfold satLevel
    simp
  unfold BS.fullOps BS.ops
  simp only [h]
  rfl

/-- A row of `d.reducedJ` after `updateJacobian` as a function of the row of `d.jacobian` -/
noncomputable def BS.redRow (s : BS ℝ κ) (q : Nat → ℝ) (row : Nat → ℝ) (c : Nat) : ℝ :=
  if s.ex.inDers.nb = 0 then row ((indices s.hi.free.segs).getD c 0)
  else if s.hi.free.nb = s.ex.notOutDers.nb then
    row ((indices s.hi.free.segs).getD c 0) + ((indices s.ex.outDers.segs).map fun v =>
      row v * s.ex.jacobian q v ((indices s.ex.notOutDers.segs).getD c 0)).sum
  else 0

/-- Squared norm of the linearised error of a constraint, over the rows that are solved for -/
noncomputable def BS.conCost (s : BS ℝ κ) (D : Space ℝ → List ℝ → List ℝ → Nat → Nat → ℝ) (q : Nat → ℝ)
    (x : Fin (indices s.hi.free.segs).length → ℝ) (rhs : List ℝ) (c : Impl ℝ κ) (r : Nat) : ℝ :=
  if s.rowActive c = true ∧ c.mask[r]? = some true then
    (∑ j : Fin (indices s.hi.free.segs).length, s.redRow q (conRow s.hi.ineqThr D q c rhs r) j * x j +
      (conError s.hi.ineqThr q c rhs).getD r 0) *
    (∑ j : Fin (indices s.hi.free.segs).length, s.redRow q (conRow s.hi.ineqThr D q c rhs r) j * x j +
      (conError s.hi.ineqThr q c rhs).getD r 0) else 0

section
variable [DecidableEq κ] {El : Space ℝ → List ℝ → Prop}
  {D : Space ℝ → List ℝ → List ℝ → Nat → Nat → ℝ}
  {h : BHist ℝ κ} {s : BS ℝ κ} {nq nv : Nat} {R : κ → List ℝ}

theorem bs_dLevel_cost (hb : BS.Built El nq nv h s) (hl : BHist.Lawful El h)
    (hR : HI.RhsIs (fun f => El f.space) (implOf h) s.hi R) {i : Nat} {l : Level ℝ κ} (hi : s.hi.levels[i]? = some l)
    (J0 : Jac ℝ) (q : Nat → ℝ) (x : Fin (indices s.hi.free.segs).length → ℝ) :
    (s.dLevel D J0 q l).cost x = ((atLevel (implOf h) i).map fun c =>
      ∑ r ∈ Finset.range c.fn.space.nv, s.conCost D q x (R c.fn.key) c r).sum := by
  obtain ⟨l1', l2'⟩ := hl.impl
  obtain ⟨hs, hf, -⟩ := hb.parts.1.inv l1' l2'
  obtain ⟨E, hE, -, -, -, he, -, hJ⟩ := level_evalJac hs hf hR hi D s.hi.ineqThr s.hi.free.segs q J0
  obtain ⟨k1, k2, -, -⟩ := bs_rows hb hl hi
  set F : Nat → ℝ := fun ρ => ∑ j : Fin (indices s.hi.free.segs).length, s.redRow q (E.jac ρ) j * x j +
    E.error.getD ρ 0 with hF
  have h1 : (s.dLevel D J0 q l).cost x = ∑ r ∈ Finset.range (indices (s.rows l).segs).length,
      (fun ρ => if ρ ∈ indices (s.rows l).segs then F ρ * F ρ else 0) ((indices (s.rows l).segs).getD r 0) := by
    rw [Finset.sum_range]
    unfold DLevel.cost dotProduct
    refine Finset.sum_congr rfl fun r _ => ?_
    have hr2 : r.1 < (indices (s.rows l).segs).length := r.2
    have hm : (indices (s.rows l).segs).getD r 0 ∈ indices (s.rows l).segs := by
      rw [List.getD_eq_getElem?_getD, List.getElem?_eq_getElem hr2, Option.getD_some]
      exact List.getElem_mem hr2
    dsimp only
    rw [if_pos hm]
    have hjac : s.lJac D J0 q l = E.jac := by
      funext a b
      unfold BS.lJac
      rw [hE]; rfl
    have : ((s.dLevel D J0 q l).J *ᵥ x + (s.dLevel D J0 q l).e) r = F ((indices (s.rows l).segs).getD r 0) := by
      show ∑ j, s.dJ D J0 q l r j * x j + s.lErr D J0 q l ((indices (s.rows l).segs).getD r 0) = _
      rw [hF]
      congr 1
      · refine Finset.sum_congr rfl fun j _ => ?_
        congr 1
        unfold BS.dJ BS.updateJ BS.reducedJ0 BS.redRow
        rw [hjac]
        split
        · rfl
        · split <;> rfl
      · unfold BS.lErr
        rw [hE]; rfl
    rw [this]
  rw [h1, sum_over_indices (indices (s.rows l).segs) k2 _ (bs_rows_lt hb hl hi)
    (fun ρ => if ρ ∈ indices (s.rows l).segs then F ρ * F ρ else 0) (fun k _ hk => if_neg hk)]
  refine sum_blocks (fun c : Impl ℝ κ => c.fn.space.nv) _ _ _ fun pre c post hsplit r hrr => ?_
  have hmem : c ∈ atLevel (implOf h) i := by rw [hsplit]; simp
  have hpre : ∀ y ∈ pre, y ∈ atLevel (implOf h) i := fun y hy => by rw [hsplit]; simp [hy]
  have hlens : ∀ c ∈ atLevel (implOf h) i, (c.fn.space.sub (c.fn.value q) (R c.fn.key)).length = c.fn.space.nv ∧
      c.mask.length = c.fn.space.nv ∧ c.comp.length = c.fn.space.nv ∧
      (maskBy c.mask (c.fn.space.sub (c.fn.value q) (R c.fn.key))).length = c.fn.space.nv ∧
      (conError s.hi.ineqThr q c (R c.fn.key)).length = c.fn.space.nv := fun c hc =>
    conSub_length hf (mem_atLevel.1 hc) (hR.el _ (mem_atLevel.1 hc)) q s.hi.ineqThr
  obtain ⟨l1, l2, l3, -, l5⟩ := hlens c hmem
  have hin : (pre.map (fun c : Impl ℝ κ => c.fn.space.nv)).sum + r ∈ indices (s.rows l).segs ↔
      s.rowActive c = true ∧ c.mask[r]? = some true := by
    rw [k1]
    unfold rowMaskBy
    rw [hsplit, flatMap_getElem?_mid _ _ _ _ (fun c : Impl ℝ κ => c.fn.space.nv)]
    · by_cases hd : s.rowActive c = true
      · rw [if_pos hd]; simp [hd]
      · rw [if_neg hd, List.getElem?_replicate]
        split <;> simp [hd]
    · intro y hy
      have := (hlens y (hpre y hy)).2.1
      split <;> simp [this]
    · split
      · omega
      · rw [List.length_replicate]; omega
  unfold BS.conCost
  by_cases hc : s.rowActive c = true ∧ c.mask[r]? = some true
  · rw [if_pos hc, if_pos (hin.2 hc)]
    have herr : E.error.getD ((pre.map (fun c : Impl ℝ κ => c.fn.space.nv)).sum + r) 0 =
        (conError s.hi.ineqThr q c (R c.fn.key)).getD r 0 := by
      rw [he, hsplit, List.getD_eq_getElem?_getD,
        flatMap_getElem?_mid _ _ _ _ (·.fn.space.nv) (fun y hy => (hlens y (hpre y hy)).2.2.2.2) _ (by rw [l5]; exact hrr),
        ← List.getD_eq_getElem?_getD]
    have hrow : E.jac ((pre.map (fun c : Impl ℝ κ => c.fn.space.nv)).sum + r) =
        conRow s.hi.ineqThr D q c (R c.fn.key) r := by
      funext k
      have ht : c.comp[r]? = some (c.comp.getD r .equality) := by
        rw [List.getD_eq_getElem?_getD, List.getElem?_eq_getElem (by omega)]; rfl
      have hx : (c.fn.space.sub (c.fn.value q) (R c.fn.key))[r]? =
          some ((c.fn.space.sub (c.fn.value q) (R c.fn.key)).getD r 0) := by
        rw [List.getD_eq_getElem?_getD, List.getElem?_eq_getElem (by omega)]; rfl
      rw [hJ pre c post hsplit r hrr _ _ _ ht hc.2 hx k]
      rfl
    rw [hF]
    simp only [herr, hrow]
  · rw [if_neg hc, if_neg fun h => hc (hin.1 h)]

theorem bs_dLevel_empty (hb : BS.Built El nq nv h s) (hl : BHist.Lawful El h)
    {i : Nat} {l : Level ℝ κ} (hi : s.hi.levels[i]? = some l) (J0 : Jac ℝ) (q : Nat → ℝ) :
    (s.dLevel D J0 q l).m = 0 ↔ ∀ c ∈ atLevel (implOf h) i, s.rowActive c = true → true ∉ c.mask := by
  obtain ⟨k1, -, -, -⟩ := bs_rows hb hl hi
  have h1 : (s.dLevel D J0 q l).m = 0 ↔ true ∉ rowMaskBy s.rowActive (atLevel (implOf h) i) := by
    show (indices (s.rows l).segs).length = 0 ↔ _
    rw [List.length_eq_zero_iff, List.eq_nil_iff_forall_not_mem]
    constructor
    · intro hn ht
      obtain ⟨ρ, hρ⟩ := List.getElem?_of_mem ht
      exact hn ρ ((k1 ρ).2 hρ)
    · intro hn ρ hρ
      exact hn (List.mem_of_getElem? ((k1 ρ).1 hρ))
  rw [h1]
  unfold rowMaskBy
  rw [List.mem_flatMap]
  constructor
  · intro hn c hc hd hm
    exact hn ⟨c, hc, by rw [if_pos hd]; exact hm⟩
  · rintro hn ⟨c, hc, hm⟩
    by_cases hd : s.rowActive c = true
    · rw [if_pos hd] at hm; exact hn c hc hd hm
    · rw [if_neg hd] at hm
      have := List.eq_of_mem_replicate hm
      cases this

theorem bs_level_cost (hin : HI.Inv (implOf h) s.hi)
    (hf : FnsOk (fun f => El f.space) (implOf h)) (hR : HI.RhsIs (fun f => El f.space) (implOf h) s.hi R)
    {i : Nat} {l : Level ℝ κ} (hi : s.hi.levels[i]? = some l) (q : Nat → ℝ) :
    sqSum ((l.error s.hi.ineqThr q).getD []) =
      ((atLevel (implOf h) i).map fun c => ((conError s.hi.ineqThr q c (R c.fn.key)).map fun x => x * x).sum).sum := by
  obtain ⟨E, -, he, -, -, hEe, -, -⟩ := level_evalJac hin hf hR hi (fun _ _ _ _ _ => 0) s.hi.ineqThr s.hi.free.segs q
    fun _ _ => 0
  rw [he, Option.getD_some, hEe]
  have key : ∀ (v : List ℝ) (a : ℝ), v.foldl (fun s x => s + x * x) a = a + (v.map fun x => x * x).sum := by
    intro v
    induction v with
    | nil => intro a; simp
    | cons x v ih => intro a; rw [List.foldl_cons, ih, List.map_cons, List.sum_cons, add_assoc]
  unfold sqSum
  rw [key, zero_add, List.map_flatMap, List.flatMap_def, List.sum_flatten, List.map_map]
  rfl

end

/-- What the iterations read of the explicit constraints. -/
structure BS.SameExplicit (s s' : BS ℝ κ) : Prop where
  solve : ∀ q, s'.ex.solve q = s.ex.solve q
  act : s'.rowActive = s.rowActive
  row : ∀ q row c, s'.redRow q row c = s.redRow q row c

theorem bs_solve_same [DecidableEq κ] {El : Space ℝ → List ℝ → Prop} {nq nv nq' nv' : Nat} {h h' : BHist ℝ κ} {s s' : BS ℝ κ}
    (hb : BS.Built El nq nv h s) (hb' : BS.Built El nq' nv' h' s') (hp : (implOf h).Perm (implOf h'))
    (hl : BHist.Lawful El h) (hl' : BHist.Lawful El h') (hsame : s.SameExplicit s') (hopt : s.hi.SameOptions s'.hi) {R : κ → List ℝ}
    (hR : HI.RhsIs (fun f => El f.space) (implOf h) s.hi R) (hR' : HI.RhsIs (fun f => El f.space) (implOf h') s'.hi R)
    (hne : s.hi.lastIsOptional = true → s.hi.levels ≠ []) (D : Space ℝ → List ℝ → List ℝ → Nat → Nat → ℝ) {o o' : SvdOps ℝ}
    (ho : o.Exact) (hor : o.Ortho) (ho' : o'.Exact) (hor' : o'.Ortho) (J0 J0' : (Nat → ℝ) → Jac ℝ)
    (dom : (Nat → ℝ) → Bool) (sat : (Nat → ℝ) → Nat → ℝ) (move : (Nat → ℝ) → (Nat → ℝ) → Nat → ℝ) (ls : BsLineSearch S)
    (dqMin : ℝ) (optimize : Bool) (q : Nat → ℝ) (dq dq' : Nat → ℝ) (st : S) :
    let r := bsSolve (s.fullOps D o J0 dom sat move ls) s.hi.sqThr dqMin s.hi.maxIter s.reducedDim optimize s.hi.lastIsOptional q
      (fun j => dq (hiFree s.hi j), fun j => dq' (hiFree s.hi j), st)
    let r' := bsSolve (s'.fullOps D o' J0' dom sat move ls) s'.hi.sqThr dqMin s'.hi.maxIter s'.reducedDim optimize
      s'.hi.lastIsOptional q (fun j => dq (hiFree s'.hi j), fun j => dq' (hiFree s'.hi j), st)
    r'.arg = r.arg ∧ r'.status = r.status ∧ r'.iter = r.iter := by
  obtain ⟨i1, i2⟩ := hl.impl
  obtain ⟨i1', i2'⟩ := hl'.impl
  obtain ⟨hs, hf, -⟩ := hb.parts.1.inv i1 i2
  obtain ⟨hs', hf', -⟩ := hb'.parts.1.inv i1' i2'
  have hlen := levels_length hs hs' hp
  obtain ⟨hfree, h1, h2, h3, h4, h5⟩ := hopt
  obtain ⟨s'', rfl⟩ : ∃ s'' : BS ℝ κ, s' = { s'' with hi := { s''.hi with free := s.hi.free } } :=
    ⟨s', by rw [← hfree]⟩
  set t : BS ℝ κ := { s'' with hi := { s''.hi with free := s.hi.free } } with ht
  have hnorm : ∀ q, s.hi.sqNorm q = t.hi.sqNorm q :=
    fun q => sqNorm_perm hs hf hR hs' hf' hR' hp hne h2 h4 q
  have hact : t.rowActive = s.rowActive := hsame.act
  have hdim : s.reducedDim = t.reducedDim := by
    unfold BS.reducedDim
    rw [map_by_index s.hi.levels _ (fun i => (rowMaskBy s.rowActive (atLevel (implOf h) i)).count true)
        (fun i l hi => (bs_rows hb hl hi).2.2.1),
      map_by_index t.hi.levels _ (fun i => (rowMaskBy t.rowActive (atLevel (implOf h') i)).count true)
        (fun i l hi => (bs_rows hb' hl' hi).2.2.1), hlen, hact]
    congr 1
    refine List.map_congr_left fun i _ => List.Perm.count_eq ?_ _
    exact List.Perm.flatMap_right _ (atLevel_perm hp i)
  have hlev : ∀ q, List.Forall₂ DLevel.Same (s.dLevels D J0 sat q) (t.dLevels D J0' sat q) := by
    intro q
    refine forall₂_of_index _ _ ?_ ?_
    · unfold BS.dLevels
      rw [List.length_map, List.length_map]
      exact hlen
    · intro i a b ha hb1
      unfold BS.dLevels at ha hb1
      rw [List.getElem?_map] at ha hb1
      obtain ⟨l, hl1, rfl⟩ := Option.map_eq_some_iff.1 ha
      obtain ⟨l', hl2, rfl⟩ := Option.map_eq_some_iff.1 hb1
      refine C128_saturation ⟨?_, fun x => ?_⟩ _
      · refine (bs_dLevel_empty hb hl hl1 _ _).trans (Iff.trans ?_ (bs_dLevel_empty hb' hl' hl2 (J0' q) q).symm)
        rw [hact]
        constructor
        · exact fun H c hc => H c ((atLevel_perm hp i).mem_iff.2 hc)
        · exact fun H c hc => H c ((atLevel_perm hp i).mem_iff.1 hc)
      · refine (bs_dLevel_cost hb hl hR hl1 _ _ x).trans (Eq.trans ?_ (bs_dLevel_cost hb' hl' hR' hl2 (J0' q) q x).symm)
        have hc : ∀ r c i, t.conCost D q x r c i = s.conCost D q x r c i := by
          intro r c i
          unfold BS.conCost
          have h2' : t.hi.ineqThr = s.hi.ineqThr := h2
          rw [h2', hact]
          simp only [hsame.row]
          rfl
        have hmap : (List.map (fun c => ∑ r ∈ Finset.range c.fn.space.nv, t.conCost D q x (R c.fn.key) c r)
            (atLevel (implOf h') i)) = (List.map (fun c => ∑ r ∈ Finset.range c.fn.space.nv, s.conCost D q x (R c.fn.key) c r)
            (atLevel (implOf h') i)) :=
          List.map_congr_left fun c _ => Finset.sum_congr rfl fun r _ => hc _ _ _
        exact (((atLevel_perm hp i).map _).sum_eq).trans (congrArg List.sum hmap).symm
  have hcost : ∀ q, (match s.hi.levels.getLast? with
      | some l => sqSum ((l.error s.hi.ineqThr q).getD [])
      | none => (0 : ℝ)) = match t.hi.levels.getLast? with
      | some l => sqSum ((l.error t.hi.ineqThr q).getD [])
      | none => 0 := by
    intro q
    rw [List.getLast?_eq_getElem?, List.getLast?_eq_getElem?]
    cases ha : s.hi.levels[s.hi.levels.length - 1]? with
    | none =>
      have : t.hi.levels[t.hi.levels.length - 1]? = none := by
        rw [List.getElem?_eq_none_iff] at ha ⊢
        have hlen' : s.hi.levels.length = t.hi.levels.length := hlen
        omega
      rw [this]
    | some l =>
      cases hc : t.hi.levels[t.hi.levels.length - 1]? with
      | none =>
        rw [List.getElem?_eq_none_iff] at hc
        have := lt_of_getElem?_some ha
        have hlen' : s.hi.levels.length = t.hi.levels.length := hlen
        omega
      | some l' =>
        show sqSum ((l.error s.hi.ineqThr q).getD []) = sqSum ((l'.error t.hi.ineqThr q).getD [])
        rw [bs_level_cost hs hf hR ha, bs_level_cost hs' hf' hR' hc]
        have h2' : t.hi.ineqThr = s.hi.ineqThr := h2
        have hlen' : s.hi.levels.length = t.hi.levels.length := hlen
        rw [h2', hlen']
        exact ((atLevel_perm hp _).map _).sum_eq
  have hops : s.fullOps D o J0 dom sat move ls = t.fullOps D o' J0' dom sat move ls := by
    have h1' : t.hi.sqThr = s.hi.sqThr := h1
    have h5' : t.hi.byLevel = s.hi.byLevel := h5
    have hd : ∀ q (v : Fin (indices s.hi.free.segs).length → ℝ), descend o s.hi.byLevel s.hi.sqThr (s.dLevels D J0 sat q) v =
        descend o' t.hi.byLevel t.hi.sqThr (t.dLevels D J0' sat q) v := by
      intro q v
      rw [h1', h5']
      exact C128_direction ho hor ho' hor' s.hi.byLevel s.hi.sqThr (hlev q) v
    have hslope : (fun q u => localSlope (s.dLevels D J0 sat q) u) =
        fun q u => localSlope (t.dLevels D J0' sat q) u := by
      funext q u
      exact C128_slope (hlev q) u
    have henv : s.lsEnv move = t.lsEnv move := by
      unfold BS.lsEnv
      simp only [hnorm, hsame.solve]
      rfl
    unfold BS.fullOps
    simp only [hnorm, hd, hslope, henv, hcost, hsame.solve]
    rfl
  have h1' : t.hi.sqThr = s.hi.sqThr := h1
  have h3' : t.hi.maxIter = s.hi.maxIter := h3
  have h4' : t.hi.lastIsOptional = s.hi.lastIsOptional := h4
  intro r r'
  have : r' = r := by
    show bsSolve (t.fullOps D o' J0' dom sat move ls) t.hi.sqThr dqMin t.hi.maxIter t.reducedDim optimize
      t.hi.lastIsOptional q (fun j => dq (hiFree s.hi j), fun j => dq' (hiFree s.hi j), st) = r
    rw [← hops, ← hdim, h1', h3', h4']
  rw [this]
  exact ⟨rfl, rfl, rfl⟩

/-! ## The explicit constraints -/

section
variable {α : Type}

theorem depends_perm {cs cs' : List (ECon α κ)} (hp : ∀ c, c ∈ cs ↔ c ∈ cs') {i j : Nat}
    (hij : Relation.ReflTransGen (DependsIdx cs) i j) {ci cj : ECon α κ} (hi : cs[i]? = some ci) (hj : cs[j]? = some cj)
    {i' : Nat} (hi' : cs'[i']? = some ci) :
    ∃ j', Relation.ReflTransGen (DependsIdx cs') i' j' ∧ cs'[j']? = some cj := by
  induction hij generalizing cj with
  | refl => exact ⟨i', .refl, by rw [hi', ← hi, hj]⟩
  | tail _ hstep ih =>
    obtain ⟨c, c', h1, h2, h3⟩ := hstep
    obtain ⟨k', h4, h5⟩ := ih h1
    obtain rfl : c' = cj := Option.some.inj (h2.symm.trans hj)
    obtain ⟨j', hj'⟩ := List.getElem?_of_mem ((hp c').1 (List.mem_of_getElem? h2))
    exact ⟨j', h4.tail ⟨c, c', h5, hj', h3⟩, hj'⟩

theorem throughExplicit_perm {cs cs' : List (ECon α κ)} (hp : ∀ c, c ∈ cs ↔ c ∈ cs') (c : Impl α κ) (k : Nat)
    (ht : ThroughExplicit cs c k) : ThroughExplicit cs' c k := by
  obtain ⟨v, i, j, ci, cj, h1, h2, h3, h4, h5, h6⟩ := ht
  obtain ⟨i', hi'⟩ := List.getElem?_of_mem ((hp ci).1 (List.mem_of_getElem? h2))
  obtain ⟨j', h7, h8⟩ := depends_perm hp h4 h2 h5 hi'
  exact ⟨v, i', j', ci, cj, h1, hi', h3, h7, h8, h6⟩

theorem indices_unique {l l' : Segs} (h : Disjoint' l) (h' : Disjoint' l') (hc : ∀ i, Covers l i ↔ Covers l' i) :
    indices l = indices l' := by
  refine List.Perm.eq_of_pairwise (le := (· < ·)) ?_ h.indices_sorted h'.indices_sorted ?_
  · intro a b _ _ h1 h2; omega
  · rw [List.perm_ext_iff_of_nodup h.indices_nodup h'.indices_nodup]
    intro i
    rw [mem_indices, mem_indices, hc]

end

/-- Two sets of the same explicit constraints, with the same right hand sides, inserted in two orders -/
theorem bs_same_explicit [DecidableEq κ] {El : Space ℝ → List ℝ → Prop} {nq nv : Nat} {h h' : BHist ℝ κ} {s s' : BS ℝ κ}
    (hb : BS.Built El nq nv h s) (hb' : BS.Built El nq nv h' s') (hp : s.ex.data.Perm s'.ex.data)
    (hw : ∀ c ∈ explOf h, WellFormed nq nv c) (hcoh : AllCoherent (explOf h))
    (hs : ∀ c ∈ explOf h, c.inV.Pairwise lexLe) (hl : ∀ d ∈ s.ex.data, d.OutLen) (hfree : s'.hi.free = s.hi.free) :
    s.SameExplicit s' := by
  obtain ⟨-, hE, hcons, -⟩ := hb.parts
  obtain ⟨-, hE', hcons', -⟩ := hb'.parts
  have hpc : s.ex.cons.Perm s'.ex.cons := hp.map _
  have hmem : ∀ c, c ∈ explOf h ↔ c ∈ explOf h' := fun c => by rw [← hcons, ← hcons']; exact hpc.mem_iff
  have hw' : ∀ c ∈ explOf h', WellFormed nq nv c := fun c hc => hw c ((hmem c).2 hc)
  have hcoh' : AllCoherent (explOf h') := fun c hc c' hc' => hcoh c ((hmem c).2 hc) c' ((hmem c').2 hc')
  have hs' : ∀ c ∈ explOf h', c.inV.Pairwise lexLe := fun c hc => hs c ((hmem c).2 hc)
  obtain ⟨hI, hnq, hnv⟩ := Inv.built hE
  obtain ⟨hI', hnq', hnv'⟩ := Inv.built hE'
  have hex : ∀ P : ECon ℝ κ → Prop, (∃ c ∈ s.ex.cons, P c) ↔ ∃ c ∈ s'.ex.cons, P c := fun P =>
    ⟨fun ⟨c, a, b⟩ => ⟨c, hpc.mem_iff.1 a, b⟩, fun ⟨c, a, b⟩ => ⟨c, hpc.mem_iff.2 a, b⟩⟩
  have hout : indices s'.ex.outDers.segs = indices s.ex.outDers.segs :=
    indices_unique hI'.outDersC.disjoint hI.outDersC.disjoint fun i => by rw [hI'.outDers, hI.outDers, hex]
  have hnot : indices s'.ex.notOutDers.segs = indices s.ex.notOutDers.segs :=
    indices_unique hI'.notOutDersD hI.notOutDersD fun i => by rw [hI'.notOutDers, hI.notOutDers, hex, hnv, hnv']
  have hin : indices s'.ex.inDers.segs = indices s.ex.inDers.segs :=
    indices_unique hI'.inDersC.disjoint hI.inDersC.disjoint fun i => by
      rw [(C11_inputs hE').2.1 (by rw [hcons']; exact hs'), (C11_inputs hE).2.1 (by rw [hcons]; exact hs), hex, hex]
  have hinN : s'.ex.inDers.nb = s.ex.inDers.nb := by
    rw [hI'.inDersN, hI.inDersN, cardinal_eq_length, cardinal_eq_length, hin]
  have hnotN : s'.ex.notOutDers.nb = s.ex.notOutDers.nb := by
    rw [hI'.notOutDersN, hI.notOutDersN, cardinal_eq_length, cardinal_eq_length, hnot]
  have hjac : ∀ q, s'.ex.jacobian q = s.ex.jacobian q := by
    intro q
    obtain ⟨g1, -, g3⟩ := C15_jacobian hE' (by rw [hcons']; exact hw') (by rw [hcons']; exact hcoh')
      (by rw [hcons']; exact hs') q
    exact C15_jacobian_unique hE (by rw [hcons]; exact hw) (by rw [hcons]; exact hcoh) (by rw [hcons]; exact hs) q _
      (fun r k hr => g1 r k fun c hc => hr c (hpc.mem_iff.2 hc)) fun d hd => g3 d (hp.mem_iff.1 hd)
  refine ⟨fun q => ?_, ?_, fun q row c => ?_⟩
  · exact (C14_insertion_order hE hE' (by rw [hcons]; exact hw) (by rw [hcons]; exact hcoh) hl (hp.map _) q).symm
  · funext c
    rw [Bool.eq_iff_iff, C73_test hb' hw' hcoh' hs' c, C73_test hb hw hcoh hs c, hfree]
    refine or_congr_right (exists_congr fun k => and_congr (not_congr ?_) ?_)
    · exact ⟨fun ⟨c, a, b⟩ => ⟨c, (hmem c).2 a, b⟩, fun ⟨c, a, b⟩ => ⟨c, (hmem c).1 a, b⟩⟩
    · exact ⟨throughExplicit_perm (fun c => (hmem c).symm) c k, throughExplicit_perm hmem c k⟩
  · unfold BS.redRow
    rw [hinN, hnotN, hfree, hout, hnot, hjac]

/-- C128. Two solvers by substitution that have the same parameters and free variables, and into which the same constraints, explicit
and implicit, have been inserted with the same priorities, in two orders, and with the same right hand sides, return the same
configuration and the same status after the same number of iterations, with or without optimization.  The explicit constraints are
defined everywhere, read their inputs in increasing order, and return vectors of the size of their outputs. -/
theorem C128_substitution [DecidableEq κ] {El : Space ℝ → List ℝ → Prop} {nq nv : Nat} {h h' : BHist ℝ κ} {s s' : BS ℝ κ}
    (hb : BS.Built El nq nv h s) (hb' : BS.Built El nq nv h' s') (hp : (implOf h).Perm (implOf h'))
    (hpe : s.ex.data.Perm s'.ex.data) (hw : ∀ c ∈ explOf h, WellFormed nq nv c) (hcoh : AllCoherent (explOf h))
    (hs : ∀ c ∈ explOf h, c.inV.Pairwise lexLe) (hlen : ∀ d ∈ s.ex.data, d.OutLen)
    (hl : BHist.Lawful El h) (hl' : BHist.Lawful El h') (hopt : s.hi.SameOptions s'.hi) {R : κ → List ℝ}
    (hR : HI.RhsIs (fun f => El f.space) (implOf h) s.hi R) (hR' : HI.RhsIs (fun f => El f.space) (implOf h') s'.hi R)
    (hne : s.hi.lastIsOptional = true → s.hi.levels ≠ []) (D : Space ℝ → List ℝ → List ℝ → Nat → Nat → ℝ) {o o' : SvdOps ℝ}
    (ho : o.Exact) (hor : o.Ortho) (ho' : o'.Exact) (hor' : o'.Ortho) (J0 J0' : (Nat → ℝ) → Jac ℝ)
    (sat : (Nat → ℝ) → Nat → ℝ) (move : (Nat → ℝ) → (Nat → ℝ) → Nat → ℝ) (ls : BsLineSearch S)
    (dqMin : ℝ) (optimize : Bool) (q : Nat → ℝ) (dq dq' : Nat → ℝ) (st : S) :
    let r := bsSolve (s.fullOps D o J0 (fun _ => true) sat move ls) s.hi.sqThr dqMin s.hi.maxIter s.reducedDim optimize
      s.hi.lastIsOptional q (fun j => dq (hiFree s.hi j), fun j => dq' (hiFree s.hi j), st)
    let r' := bsSolve (s'.fullOps D o' J0' (fun _ => true) sat move ls) s'.hi.sqThr dqMin s'.hi.maxIter s'.reducedDim optimize
      s'.hi.lastIsOptional q (fun j => dq (hiFree s'.hi j), fun j => dq' (hiFree s'.hi j), st)
    r'.arg = r.arg ∧ r'.status = r.status ∧ r'.iter = r.iter :=
  bs_solve_same hb hb' hp hl hl' (bs_same_explicit hb hb' hpe hw hcoh hs hlen hopt.free) hopt hR hR' hne D ho hor ho' hor' J0 J0'
    (fun _ => true) sat move ls dqMin optimize q dq dq' st

/-- C128. When explicit constraints may be undefined, the same holds for solvers into which the explicit constraints have been
inserted in the same order. -/
theorem C128_implicit [DecidableEq κ] {El : Space ℝ → List ℝ → Prop} {nq nv : Nat} {h h' : BHist ℝ κ} {s s' : BS ℝ κ}
    (hb : BS.Built El nq nv h s) (hb' : BS.Built El nq nv h' s') (hp : (implOf h).Perm (implOf h')) (hex : s'.ex = s.ex)
    (hl : BHist.Lawful El h) (hl' : BHist.Lawful El h') (hopt : s.hi.SameOptions s'.hi) {R : κ → List ℝ}
    (hR : HI.RhsIs (fun f => El f.space) (implOf h) s.hi R) (hR' : HI.RhsIs (fun f => El f.space) (implOf h') s'.hi R)
    (hne : s.hi.lastIsOptional = true → s.hi.levels ≠ []) (D : Space ℝ → List ℝ → List ℝ → Nat → Nat → ℝ) {o o' : SvdOps ℝ}
    (ho : o.Exact) (hor : o.Ortho) (ho' : o'.Exact) (hor' : o'.Ortho) (J0 J0' : (Nat → ℝ) → Jac ℝ)
    (dom : (Nat → ℝ) → Bool) (sat : (Nat → ℝ) → Nat → ℝ) (move : (Nat → ℝ) → (Nat → ℝ) → Nat → ℝ) (ls : BsLineSearch S)
    (dqMin : ℝ) (optimize : Bool) (q : Nat → ℝ) (dq dq' : Nat → ℝ) (st : S) :
    let r := bsSolve (s.fullOps D o J0 dom sat move ls) s.hi.sqThr dqMin s.hi.maxIter s.reducedDim optimize
      s.hi.lastIsOptional q (fun j => dq (hiFree s.hi j), fun j => dq' (hiFree s.hi j), st)
    let r' := bsSolve (s'.fullOps D o' J0' dom sat move ls) s'.hi.sqThr dqMin s'.hi.maxIter s'.reducedDim optimize
      s'.hi.lastIsOptional q (fun j => dq (hiFree s'.hi j), fun j => dq' (hiFree s'.hi j), st)
    r'.arg = r.arg ∧ r'.status = r.status ∧ r'.iter = r.iter := by
  refine bs_solve_same hb hb' hp hl hl' ⟨fun q => by rw [hex], ?_, fun q row c => ?_⟩ hopt hR hR' hne D ho hor ho' hor' J0 J0'
    dom sat move ls dqMin optimize q dq dq' st
  · funext c
    unfold BS.rowActive
    rw [hex, hopt.free]
  · unfold BS.redRow
    rw [hex, hopt.free]

namespace BsOrderEx
open BsR (E cE)
open BsLinkEx (cI iI iI_built)

/-- `q ↦ q₀ + q₁` -/
noncomputable def fJ : Fn ℝ Nat where
  key := 12
  inputSize := 2
  inputDer := 2
  spaceId := 1
  space := vectorSpace ℝ 1
  value q := [q 0 + q 1]
  jac _ := fun _ k => if k < 2 then 1 else 0
  activeQ := [true, true]
  active := [true, true]

/-- `q₀ + q₁ ≤ 0` -/
noncomputable def iJ : Impl ℝ Nat := (Impl.create fJ [.inferior] []).get rfl
theorem iJ_built : Impl.Built fJ [] [.inferior] iJ := .create _ _ (Option.some_get _).symm

noncomputable def cJ : BCon ℝ Nat := ⟨iJ, none⟩

/-- The explicit constraint `q₁ = q₀²`, then `q₁ = 2` and `q₀ + q₁ ≤ 0` -/
noncomputable def s1 : BS ℝ Nat := ((BsR.s.add 20 cI 0).1.add 20 cJ 0).1

/-- in the other order -/
noncomputable def s2 : BS ℝ Nat := ((BsR.s.add 20 cJ 0).1.add 20 cI 0).1

noncomputable def hist1 : BHist ℝ Nat := [(cE, 0, true), (cI, 0, false), (cJ, 0, false)]
noncomputable def hist2 : BHist ℝ Nat := [(cE, 0, true), (cJ, 0, false), (cI, 0, false)]

theorem built1 : BS.Built E 2 2 hist1 s1 :=
  .add (h := [(cE, 0, true), (cI, 0, false)]) (s := (BsR.s.add 20 cI 0).1) (c := cJ) (p := 0) (fuel := 20) (junk := [])
    (.add (h := [(cE, 0, true)]) (s := BsR.s) (c := cI) (p := 0) (fuel := 20) (junk := [])
      BsR.s_built ⟨_, _, _, iI_built⟩ (Prod.ext rfl rfl)) ⟨_, _, _, iJ_built⟩ (Prod.ext rfl rfl)

theorem built2 : BS.Built E 2 2 hist2 s2 :=
  .add (h := [(cE, 0, true), (cJ, 0, false)]) (s := (BsR.s.add 20 cJ 0).1) (c := cI) (p := 0) (fuel := 20) (junk := [])
    (.add (h := [(cE, 0, true)]) (s := BsR.s) (c := cJ) (p := 0) (fuel := 20) (junk := [])
      BsR.s_built ⟨_, _, _, iJ_built⟩ (Prod.ext rfl rfl)) ⟨_, _, _, iI_built⟩ (Prod.ext rfl rfl)

theorem lawful1 : BHist.Lawful E hist1 where
  law := by
    intro e he
    simp only [hist1, List.mem_cons, List.not_mem_nil, or_false] at he
    rcases he with rfl | rfl | rfl <;> exact vectorSpace_lawful 1
  val := by
    intro e he q
    simp only [hist1, List.mem_cons, List.not_mem_nil, or_false] at he
    rcases he with rfl | rfl | rfl <;> rfl

theorem lawful2 : BHist.Lawful E hist2 where
  law := by
    intro e he
    simp only [hist2, List.mem_cons, List.not_mem_nil, or_false] at he
    rcases he with rfl | rfl | rfl <;> exact vectorSpace_lawful 1
  val := by
    intro e he q
    simp only [hist2, List.mem_cons, List.not_mem_nil, or_false] at he
    rcases he with rfl | rfl | rfl <;> rfl

theorem impl1 : implOf hist1 = [(iI, 0), (iJ, 0)] := rfl
theorem impl2 : implOf hist2 = [(iJ, 0), (iI, 0)] := rfl

theorem rhs1 : HI.RhsIs (fun f => E f.space) (implOf hist1) s1.hi fun _ => [0] where
  el := by
    intro e he
    simp only [impl1, List.mem_cons, List.not_mem_nil, or_false] at he
    rcases he with rfl | rfl <;> rfl
  eq := by
    intro i l hi
    have h0 : i < 1 := lt_of_getElem?_some (l := s1.hi.levels) hi
    obtain rfl : i = 0 := by omega
    obtain rfl : (s1.hi.levels[0]?).get rfl = l := Option.some.inj ((Option.some_get _).trans hi)
    rfl

theorem rhs2 : HI.RhsIs (fun f => E f.space) (implOf hist2) s2.hi fun _ => [0] where
  el := by
    intro e he
    simp only [impl2, List.mem_cons, List.not_mem_nil, or_false] at he
    rcases he with rfl | rfl <;> rfl
  eq := by
    intro i l hi
    have h0 : i < 1 := lt_of_getElem?_some (l := s2.hi.levels) hi
    obtain rfl : i = 0 := by omega
    obtain rfl : (s2.hi.levels[0]?).get rfl = l := Option.some.inj ((Option.some_get _).trans hi)
    rfl

/-- Both orders give the same result. -/
example (o o' : SvdOps ℝ) (ho : o.Exact) (hor : o.Ortho) (ho' : o'.Exact) (hor' : o'.Ortho) (J0 J0' : (Nat → ℝ) → Jac ℝ)
    (D : Space ℝ → List ℝ → List ℝ → Nat → Nat → ℝ) (ls : BsLineSearch Unit) (move) (q : Nat → ℝ) :
    (bsSolve (s2.fullOps D o' J0' (fun _ => true) (fun _ _ => 0) move ls) s2.hi.sqThr (1 / 10 ^ 12)
      s2.hi.maxIter s2.reducedDim false s2.hi.lastIsOptional q (fun _ => 0, fun _ => 0, ())).status =
    (bsSolve (s1.fullOps D o J0 (fun _ => true) (fun _ _ => 0) move ls) s1.hi.sqThr (1 / 10 ^ 12)
      s1.hi.maxIter s1.reducedDim false s1.hi.lastIsOptional q (fun _ => 0, fun _ => 0, ())).status :=
  (C128_implicit built1 built2 (.swap _ _ _) rfl lawful1 lawful2 ⟨rfl, rfl, rfl, rfl, rfl, rfl⟩ rhs1 rhs2
    (fun h => by cases h) D ho hor ho' hor' J0 J0' (fun _ => true) (fun _ _ => 0) move ls (1 / 10 ^ 12) false q (fun _ => 0)
    (fun _ => 0) ()).2.1

/-! ### Two explicit constraints, one of which reads the output of the other -/

/-- `q ↦ q_b - q_a` -/
noncomputable def fD (key a b : Nat) (act : List Bool) : Fn ℝ Nat where
  key := key
  inputSize := 3
  inputDer := 3
  spaceId := 1
  space := vectorSpace ℝ 1
  value q := [q b - q a]
  jac _ := fun _ k => if k = b then 1 else if k = a then -1 else 0
  activeQ := act
  active := act

noncomputable def iA : Impl ℝ Nat := (Impl.create (fD 20 0 1 [true, true, false]) [.equalToZero] []).get rfl
noncomputable def iB : Impl ℝ Nat := (Impl.create (fD 21 1 2 [false, true, true]) [.equalToZero] []).get rfl
noncomputable def iC : Impl ℝ Nat := (Impl.create (fD 22 0 2 [true, false, true]) [.equalToZero] []).get rfl
theorem iA_built : Impl.Built (fD 20 0 1 [true, true, false]) [] [.equalToZero] iA := .create _ _ (Option.some_get _).symm
theorem iB_built : Impl.Built (fD 21 1 2 [false, true, true]) [] [.equalToZero] iB := .create _ _ (Option.some_get _).symm
theorem iC_built : Impl.Built (fD 22 0 2 [true, false, true]) [] [.equalToZero] iC := .create _ _ (Option.some_get _).symm

/-- `q₁ = q₀ + rhs` -/
noncomputable def pA : EPart ℝ :=
  ⟨30, [⟨0, 1⟩], [⟨1, 1⟩], [⟨0, 1⟩], [⟨1, 1⟩], fun x r => [x.getD 0 0 + r.getD 0 0], fun _ _ _ _ _ => 1⟩
/-- `q₂ = q₁ + rhs` -/
noncomputable def pB : EPart ℝ :=
  ⟨31, [⟨1, 1⟩], [⟨2, 1⟩], [⟨1, 1⟩], [⟨2, 1⟩], fun x r => [x.getD 0 0 + r.getD 0 0], fun _ _ _ _ _ => 1⟩

noncomputable def cA : BCon ℝ Nat := ⟨iA, some pA⟩
noncomputable def cB : BCon ℝ Nat := ⟨iB, some pB⟩
noncomputable def cC : BCon ℝ Nat := ⟨iC, none⟩

noncomputable def z : BS ℝ Nat := BS.init ℝ Nat 3 3 1
noncomputable def sAB : BS ℝ Nat := (((z.add 20 cA 0).1.add 20 cB 0).1.add 20 cC 0).1
noncomputable def sBA : BS ℝ Nat := (((z.add 20 cB 0).1.add 20 cC 0).1.add 20 cA 0).1
noncomputable def hAB : BHist ℝ Nat := [(cA, 0, true), (cB, 0, true), (cC, 0, false)]
noncomputable def hBA : BHist ℝ Nat := [(cB, 0, true), (cC, 0, false), (cA, 0, true)]

theorem builtAB : BS.Built E 3 3 hAB sAB :=
  .add (h := [(cA, 0, true), (cB, 0, true)]) (s := ((z.add 20 cA 0).1.add 20 cB 0).1) (c := cC) (p := 0) (fuel := 20) (junk := [])
    (.add (h := [(cA, 0, true)]) (s := (z.add 20 cA 0).1) (c := cB) (p := 0) (fuel := 20) (junk := [])
      (.add (h := []) (s := z) (c := cA) (p := 0) (fuel := 20) (junk := []) (.init 1) ⟨_, _, _, iA_built⟩ (Prod.ext rfl rfl))
      ⟨_, _, _, iB_built⟩ (Prod.ext rfl rfl)) ⟨_, _, _, iC_built⟩ (Prod.ext rfl rfl)

theorem builtBA : BS.Built E 3 3 hBA sBA :=
  .add (h := [(cB, 0, true), (cC, 0, false)]) (s := ((z.add 20 cB 0).1.add 20 cC 0).1) (c := cA) (p := 0) (fuel := 20) (junk := [])
    (.add (h := [(cB, 0, true)]) (s := (z.add 20 cB 0).1) (c := cC) (p := 0) (fuel := 20) (junk := [])
      (.add (h := []) (s := z) (c := cB) (p := 0) (fuel := 20) (junk := []) (.init 1) ⟨_, _, _, iB_built⟩ (Prod.ext rfl rfl))
      ⟨_, _, _, iC_built⟩ (Prod.ext rfl rfl)) ⟨_, _, _, iA_built⟩ (Prod.ext rfl rfl)

theorem lawfulAB : BHist.Lawful E hAB where
  law := by
    intro e he
    simp only [hAB, List.mem_cons, List.not_mem_nil, or_false] at he
    rcases he with rfl | rfl | rfl <;> exact vectorSpace_lawful 1
  val := by
    intro e he q
    simp only [hAB, List.mem_cons, List.not_mem_nil, or_false] at he
    rcases he with rfl | rfl | rfl <;> rfl

theorem lawfulBA : BHist.Lawful E hBA where
  law := by
    intro e he
    simp only [hBA, List.mem_cons, List.not_mem_nil, or_false] at he
    rcases he with rfl | rfl | rfl <;> exact vectorSpace_lawful 1
  val := by
    intro e he q
    simp only [hBA, List.mem_cons, List.not_mem_nil, or_false] at he
    rcases he with rfl | rfl | rfl <;> rfl

theorem implAB : implOf hAB = [(iC, 0)] := rfl
theorem implBA : implOf hBA = [(iC, 0)] := rfl
theorem explAB : explOf hAB = [pA.econ iA, pB.econ iB] := rfl
theorem dataAB : sAB.ex.data = [EData.new (pA.econ iA) [], EData.new (pB.econ iB) []] := rfl
theorem dataBA : sBA.ex.data = [EData.new (pB.econ iB) [], EData.new (pA.econ iA) []] := rfl

theorem rhsAB : HI.RhsIs (fun f => E f.space) (implOf hAB) sAB.hi fun _ => [0] where
  el := by
    intro e he
    simp only [implAB, List.mem_singleton] at he
    subst he; rfl
  eq := by
    intro i l hi
    have h0 : i < 1 := lt_of_getElem?_some (l := sAB.hi.levels) hi
    obtain rfl : i = 0 := by omega
    obtain rfl : (sAB.hi.levels[0]?).get rfl = l := Option.some.inj ((Option.some_get _).trans hi)
    rfl

theorem rhsBA : HI.RhsIs (fun f => E f.space) (implOf hBA) sBA.hi fun _ => [0] where
  el := by
    intro e he
    simp only [implBA, List.mem_singleton] at he
    subst he; rfl
  eq := by
    intro i l hi
    have h0 : i < 1 := lt_of_getElem?_some (l := sBA.hi.levels) hi
    obtain rfl : i = 0 := by omega
    obtain rfl : (sBA.hi.levels[0]?).get rfl = l := Option.some.inj ((Option.some_get _).trans hi)
    rfl

theorem wfAB : ∀ c ∈ explOf hAB, WellFormed 3 3 c := by
  rw [explAB]
  intro c hc
  simp only [List.mem_cons, List.not_mem_nil, or_false] at hc
  rcases hc with rfl | rfl
  · refine ⟨⟨⟨1, 1⟩, rfl, by decide⟩, ⟨⟨1, 1⟩, rfl, by decide⟩, ?_, ?_⟩ <;> intro i h <;>
      simp [Reads, ReadsV, EPart.econ, pA, Seg.Has] at h <;> omega
  · refine ⟨⟨⟨2, 1⟩, rfl, by decide⟩, ⟨⟨2, 1⟩, rfl, by decide⟩, ?_, ?_⟩ <;> intro i h <;>
      simp [Reads, ReadsV, EPart.econ, pB, Seg.Has] at h <;> omega

theorem vecAB : ∀ c ∈ explOf hAB, c.inV = c.inQ ∧ c.outV = c.outQ := by
  rw [explAB]
  intro c hc
  simp only [List.mem_cons, List.not_mem_nil, or_false] at hc
  rcases hc with rfl | rfl <;> exact ⟨rfl, rfl⟩

theorem sortedAB : ∀ c ∈ explOf hAB, c.inV.Pairwise lexLe := by
  rw [explAB]
  intro c hc
  simp only [List.mem_cons, List.not_mem_nil, or_false] at hc
  rcases hc with rfl | rfl <;> exact List.pairwise_singleton _ _

theorem lenAB : ∀ d ∈ sAB.ex.data, d.OutLen := by
  rw [dataAB]
  intro d hd
  simp only [List.mem_cons, List.not_mem_nil, or_false] at hd
  rcases hd with rfl | rfl <;> exact fun x => rfl

/-- The explicit constraint that reads the output of the other is inserted before or after it. -/
example (o o' : SvdOps ℝ) (ho : o.Exact) (hor : o.Ortho) (ho' : o'.Exact) (hor' : o'.Ortho) (J0 J0' : (Nat → ℝ) → Jac ℝ)
    (D : Space ℝ → List ℝ → List ℝ → Nat → Nat → ℝ) (ls : BsLineSearch Unit) (move) (q : Nat → ℝ) :
    (bsSolve (sBA.fullOps D o' J0' (fun _ => true) (fun _ _ => 0) move ls) sBA.hi.sqThr (1 / 10 ^ 12)
      sBA.hi.maxIter sBA.reducedDim false sBA.hi.lastIsOptional q (fun _ => 0, fun _ => 0, ())).status =
    (bsSolve (sAB.fullOps D o J0 (fun _ => true) (fun _ _ => 0) move ls) sAB.hi.sqThr (1 / 10 ^ 12)
      sAB.hi.maxIter sAB.reducedDim false sAB.hi.lastIsOptional q (fun _ => 0, fun _ => 0, ())).status :=
  (C128_substitution builtAB builtBA (.refl _) (by rw [dataAB, dataBA]; exact .swap _ _ _) wfAB (coherent_of_vec vecAB) sortedAB
    lenAB lawfulAB lawfulBA ⟨rfl, rfl, rfl, rfl, rfl, rfl⟩ rhsAB rhsBA (fun h => by cases h) D ho hor ho' hor' J0 J0'
    (fun _ _ => 0) move ls (1 / 10 ^ 12) false q (fun _ => 0) (fun _ => 0) ()).2.1

end BsOrderEx

end Hpp
