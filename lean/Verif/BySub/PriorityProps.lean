import Verif.HI.PriorityProps
import Verif.BySub.OrderProps

/-!
# C133. Priorities in the solver by substitution

Sources: `/repo/include/hpp/constraints/solver/impl/by-substitution.hh`, lines 38-167,
`/repo/src/solver/by-substitution.cc`, lines 166-256, and
`/repo/src/solver/hierarchical-iterative.cc`, lines 623-672 and 744-828.
-/

namespace Hpp

open Matrix

variable {κ S : Type}

/-- Specification: a velocity of the free variables cancels the linearisations of all implicit constraints along the explicit
constraints, on the rows that are solved for. -/
def BS.LinSolves (s : BS ℝ κ) (D : Space ℝ → List ℝ → List ℝ → Nat → Nat → ℝ) (R : κ → List ℝ) (cs : List (Impl ℝ κ))
    (q : Nat → ℝ) (x : Fin (indices s.hi.free.segs).length → ℝ) : Prop :=
  ∀ c ∈ cs, s.rowActive c = true → ∀ r, c.mask[r]? = some true →
    ∑ j : Fin (indices s.hi.free.segs).length, s.redRow q (conRow s.hi.ineqThr D q c (R c.fn.key) r) j * x j +
      (conError s.hi.ineqThr q c (R c.fn.key)).getD r 0 = 0

/-- Specification: some implicit constraint of priority 0 has a row to be solved for. -/
def BS.TopRows (s : BS ℝ κ) (h : List (Impl ℝ κ × Nat)) : Prop :=
  ∃ e ∈ h, e.2 = 0 ∧ s.rowActive e.1 = true ∧ true ∈ e.1.mask

/-- Two sequences of steps that agree on a set of configurations that the first one does not leave give the same result. -/
theorem bsSolve_congr {A M α : Type} [Field α] [LinearOrder α] {o o' : BsOps A M α} (G : A → Prop) (a : A) (m : M)
    (he : ∀ a, o.expl a = o'.expl a) (hn : ∀ a, o.norm a = o'.norm a) (hq : ∀ m, o.dqNorm m = o'.dqNorm m)
    (hs : ∀ a m, o.search a m = o'.search a m) (hd : ∀ a m, G a → o.dir a m = o'.dir a m)
    (h0 : G (o.expl a).1) (hG : ∀ a m, G a → G (o.expl (o.search a m).1).1) (thr dqMin : α) (maxIter rd : Nat) (w : Bool) :
    bsSolve o thr dqMin maxIter rd w false a m = bsSolve o' thr dqMin maxIter rd w false a m := by
  have hstep : ∀ (s : BsSt A M α) prev m, bsStep o thr false s prev m = bsStep o' thr false s prev m := by
    intro s prev m
    unfold bsStep
    simp only [← he, ← hn, ← hs]
    rfl
  have hpres : ∀ (s s' : BsSt A M α) prev m, G s.arg → bsStep o thr false s prev m = .inl s' → G s'.arg := by
    intro s s' prev m hg h
    have := hG s.arg m hg
    unfold bsStep at h
    rcases h1 : o.search s.arg m with ⟨a1, m1, _ | _⟩
    · rw [h1] at h; cases h
    · rw [h1] at h this
      dsimp only at h
      rcases h2 : o.expl a1 with ⟨a2, _ | _⟩
      · rw [h2] at h; cases h
      · rw [h2] at h this
        cases h
        exact this
  have key : ∀ (init : Option (A × α)) (left : Nat) (s : BsSt A M α), G s.arg →
      bsLoop o thr dqMin false init left s = bsLoop o' thr dqMin false init left s := by
    intro init left
    induction left with
    | zero => intros; rfl
    | succ left ih =>
      intro s hg
      unfold bsLoop
      simp only [hd s.arg s.mem hg, hq, ← hstep, Bool.false_eq_true, if_false, false_or]
      generalize (if s.only = true then s.mem else o'.dir s.arg s.mem) = m
      generalize (if s.only = true then s.prev else s.n) = prev
      split
      · split
        · rfl
        · rcases h1 : bsStep o thr false s prev m with s' | ⟨a1, m1⟩
          · exact ih s' (hpres s s' prev m hg h1)
          · rfl
      · rfl
  unfold bsSolve
  rw [Bool.and_false, ← he]
  rcases h1 : o.expl a with ⟨a0, _ | _⟩
  · rfl
  · rw [h1] at h0
    dsimp only
    rw [← hn]
    split
    · rfl
    · have hi : bsInit o' thr false a0 m = bsInit o thr false a0 m := by
        unfold bsInit
        simp [hn]
      rw [hi]
      exact key _ _ _ h0

section
variable [DecidableEq κ] {El : Space ℝ → List ℝ → Prop}
  {D : Space ℝ → List ℝ → List ℝ → Nat → Nat → ℝ}
  {h : BHist ℝ κ} {s : BS ℝ κ} {nq nv : Nat} {R : κ → List ℝ}

omit [DecidableEq κ] in
theorem bs_dLevels_noSat (s : BS ℝ κ) (J0 : (Nat → ℝ) → Jac ℝ) (q : Nat → ℝ) :
    s.dLevels D J0 (fun _ _ => 0) q = s.hi.levels.map (s.dLevel D (J0 q) q) := by
  refine List.map_congr_left fun l _ => ?_
  unfold satLevel
  simp

omit [DecidableEq κ] in
theorem bs_conCost_nonneg (s : BS ℝ κ) (q : Nat → ℝ) (x : Fin (indices s.hi.free.segs).length → ℝ) (rhs : List ℝ) (c : Impl ℝ κ)
    (r : Nat) : 0 ≤ s.conCost D q x rhs c r := by
  unfold BS.conCost
  split
  · exact mul_self_nonneg _
  · exact le_refl _

theorem bs_cancels_iff (hb : BS.Built El nq nv h s) (hl : BHist.Lawful El h)
    (hR : HI.RhsIs (fun f => El f.space) (implOf h) s.hi R) (J0 : (Nat → ℝ) → Jac ℝ) (q : Nat → ℝ)
    (x : Fin (indices s.hi.free.segs).length → ℝ) :
    Cancels (s.dLevels D J0 (fun _ _ => 0) q) x ↔ s.LinSolves D R ((implOf h).map Prod.fst) q x := by
  obtain ⟨i1, i2⟩ := hl.impl
  obtain ⟨hs, hf, -⟩ := hb.parts.1.inv i1 i2
  have hcost : ∀ {i : Nat} {l : Level ℝ κ}, s.hi.levels[i]? = some l →
      ((s.dLevel D (J0 q) q l).J *ᵥ x + (s.dLevel D (J0 q) q l).e = 0 ↔ ∀ c ∈ atLevel (implOf h) i, ∀ r < c.fn.space.nv,
        s.conCost D q x (R c.fn.key) c r = 0) := by
    intro i l hi
    have e := bs_dLevel_cost (D := D) hb hl hR hi (J0 q) q x
    have h1 : (s.dLevel D (J0 q) q l).J *ᵥ x + (s.dLevel D (J0 q) q l).e = 0 ↔ (s.dLevel D (J0 q) q l).cost x = 0 := by
      unfold DLevel.cost
      exact ⟨fun h => by rw [h, dotProduct_zero], dot_self_zero⟩
    rw [h1, e, sum_zero_iff]
    · simp only [List.mem_map, forall_exists_index, and_imp, forall_apply_eq_imp_iff₂]
      refine forall₂_congr fun c _ => ?_
      rw [Finset.sum_eq_zero_iff_of_nonneg fun r _ => bs_conCost_nonneg _ _ _ _ _ _]
      simp only [Finset.mem_range]
    · intro y hy
      obtain ⟨c, -, rfl⟩ := List.mem_map.1 hy
      exact Finset.sum_nonneg fun r _ => bs_conCost_nonneg _ _ _ _ _ _
  have hmask : ∀ e ∈ implOf h, e.1.mask.length = e.1.fn.space.nv := fun e he =>
    (conSub_length hf he (hR.el _ he) q s.hi.ineqThr).2.1
  rw [bs_dLevels_noSat]
  unfold Cancels BS.LinSolves
  constructor
  · intro H c hc hdep r hr
    obtain ⟨e, he, rfl⟩ := List.mem_map.1 hc
    obtain ⟨l, hi⟩ : ∃ l, s.hi.levels[e.2]? = some l := ⟨_, List.getElem?_eq_getElem (hs.nlev e he)⟩
    have h1 := (hcost hi).1 (H _ (List.mem_map_of_mem (List.mem_of_getElem? hi))) e.1 (mem_atLevel.2 he) r
      (by rw [← hmask e he]; exact lt_of_getElem?_some hr)
    unfold BS.conCost at h1
    rw [if_pos ⟨hdep, hr⟩] at h1
    exact mul_self_eq_zero.1 h1
  · intro H d hd
    obtain ⟨l, hl1, rfl⟩ := List.mem_map.1 hd
    obtain ⟨i, hi⟩ := List.getElem?_of_mem hl1
    refine (hcost hi).2 fun c hc r hr => ?_
    unfold BS.conCost
    split
    · rename_i hc2
      rw [H c (List.mem_map.2 ⟨_, mem_atLevel.1 hc, rfl⟩) hc2.1 r hc2.2, mul_zero]
    · rfl

theorem bs_total_cost (hb : BS.Built El nq nv h s) (hl : BHist.Lawful El h)
    (hR : HI.RhsIs (fun f => El f.space) (implOf h) s.hi R) (J0 : (Nat → ℝ) → Jac ℝ) (q : Nat → ℝ)
    (x : Fin (indices s.hi.free.segs).length → ℝ) :
    ((s.dLevels D J0 (fun _ _ => 0) q).map fun d => d.cost x).sum = (((implOf h).map Prod.fst).map fun c =>
      ∑ r ∈ Finset.range c.fn.space.nv, s.conCost D q x (R c.fn.key) c r).sum := by
  obtain ⟨i1, i2⟩ := hl.impl
  obtain ⟨hs, -, -⟩ := hb.parts.1.inv i1 i2
  rw [← ((levels_perm hs.nlev).map _).sum_eq, bs_dLevels_noSat, List.map_flatMap, List.flatMap_def, List.sum_flatten, List.map_map,
    List.map_map]
  congr 1
  exact map_by_index s.hi.levels _ _ fun i l hi => bs_dLevel_cost hb hl hR hi _ _ x

theorem bs_firstLevel_of_top (hb : BS.Built El nq nv h s) (hl : BHist.Lawful El h) (ht : s.TopRows (implOf h))
    (J0 : (Nat → ℝ) → Jac ℝ) (q : Nat → ℝ) : FirstLevel (s.dLevels D J0 (fun _ _ => 0) q) := by
  obtain ⟨i1, i2⟩ := hl.impl
  obtain ⟨hs, -, -⟩ := hb.parts.1.inv i1 i2
  obtain ⟨e, he, e0, hd, hm⟩ := ht
  have hlen := hs.nlev e he
  rw [bs_dLevels_noSat]
  obtain ⟨l, ls, hls⟩ : ∃ l ls, s.hi.levels = l :: ls := by
    cases h1 : s.hi.levels with
    | nil => rw [h1] at hlen; simp at hlen
    | cons l ls => exact ⟨l, ls, rfl⟩
  refine ⟨_, _, by rw [hls, List.map_cons], Or.inr fun h0 => ?_⟩
  have hi : s.hi.levels[0]? = some l := by rw [hls]; rfl
  exact (bs_dLevel_empty hb hl hi (J0 q) q).1 h0 e.1 (mem_atLevel.2 (by rw [← e0]; exact he)) hd hm

theorem bs_reducedDim (hb : BS.Built El nq nv h s) (hl : BHist.Lawful El h) :
    s.reducedDim = (rowMaskBy s.rowActive ((implOf h).map Prod.fst)).count true := by
  obtain ⟨i1, i2⟩ := hl.impl
  obtain ⟨hs, -, -⟩ := hb.parts.1.inv i1 i2
  unfold BS.reducedDim
  rw [map_by_index s.hi.levels _ (fun i => (rowMaskBy s.rowActive (atLevel (implOf h) i)).count true)
    (fun i l hi => (bs_rows hb hl hi).2.2.1)]
  have h1 : (rowMaskBy s.rowActive ((List.range s.hi.levels.length).flatMap (atLevel (implOf h)))).Perm
      (rowMaskBy s.rowActive ((implOf h).map Prod.fst)) := List.Perm.flatMap_right _ (levels_perm hs.nlev)
  rw [← h1.count_eq]
  unfold rowMaskBy
  rw [List.flatMap_assoc, List.count_flatMap]
  rfl

end

/-- Two solvers by substitution with explicit constraints that have the same effects -/
theorem bs_priorities_same [DecidableEq κ] {El : Space ℝ → List ℝ → Prop} {nq nv nq' nv' : Nat} {h h' : BHist ℝ κ} {s s' : BS ℝ κ}
    (hb : BS.Built El nq nv h s) (hb' : BS.Built El nq' nv' h' s')
    (hp : ((implOf h).map Prod.fst).Perm ((implOf h').map Prod.fst))
    (hl : BHist.Lawful El h) (hl' : BHist.Lawful El h') (hsame : s.SameExplicit s') (hopt : s.hi.SameOptions s'.hi)
    (hlast : s.hi.lastIsOptional = false) (hby : s.hi.byLevel = false) {R : κ → List ℝ}
    (hR : HI.RhsIs (fun f => El f.space) (implOf h) s.hi R) (hR' : HI.RhsIs (fun f => El f.space) (implOf h') s'.hi R)
    (ht : s.TopRows (implOf h)) (ht' : s.TopRows (implOf h')) (D : Space ℝ → List ℝ → List ℝ → Nat → Nat → ℝ) {o o' : SvdOps ℝ}
    (ho : o.Exact) (hor : o.Ortho) (ho' : o'.Exact) (hor' : o'.Ortho) (J0 J0' : (Nat → ℝ) → Jac ℝ)
    (dom : (Nat → ℝ) → Bool) (move : (Nat → ℝ) → (Nat → ℝ) → Nat → ℝ) (ls : BsLineSearch S)
    (dqMin : ℝ) (optimize : Bool) (q : Nat → ℝ) (dq dq' : Nat → ℝ) (st : S) (G : (Nat → ℝ) → Prop) (h0 : G (s.ex.solve q))
    (hG : ∀ q m, G q → G (s.ex.solve ((s.fullOps D o J0 dom (fun _ _ => 0) move ls).search q m).1))
    (hc : ∀ q, G q → ∃ x, s.LinSolves D R ((implOf h).map Prod.fst) q x) :
    let r := bsSolve (s.fullOps D o J0 dom (fun _ _ => 0) move ls) s.hi.sqThr dqMin s.hi.maxIter s.reducedDim optimize
      s.hi.lastIsOptional q (fun j => dq (hiFree s.hi j), fun j => dq' (hiFree s.hi j), st)
    let r' := bsSolve (s'.fullOps D o' J0' dom (fun _ _ => 0) move ls) s'.hi.sqThr dqMin s'.hi.maxIter s'.reducedDim optimize
      s'.hi.lastIsOptional q (fun j => dq (hiFree s'.hi j), fun j => dq' (hiFree s'.hi j), st)
    r'.arg = r.arg ∧ r'.status = r.status ∧ r'.iter = r.iter := by
  obtain ⟨i1, i2⟩ := hl.impl
  obtain ⟨i1', i2'⟩ := hl'.impl
  obtain ⟨hs, hf, -⟩ := hb.parts.1.inv i1 i2
  obtain ⟨hs', hf', -⟩ := hb'.parts.1.inv i1' i2'
  obtain ⟨hfree, h1, h2, h3, h4, h5⟩ := hopt
  obtain ⟨s'', rfl⟩ : ∃ s'' : BS ℝ κ, s' = { s'' with hi := { s''.hi with free := s.hi.free } } :=
    ⟨s', by rw [← hfree]⟩
  set t : BS ℝ κ := { s'' with hi := { s''.hi with free := s.hi.free } } with htdef
  have h1' : t.hi.sqThr = s.hi.sqThr := h1
  have h2' : t.hi.ineqThr = s.hi.ineqThr := h2
  have h3' : t.hi.maxIter = s.hi.maxIter := h3
  have h4' : t.hi.lastIsOptional = s.hi.lastIsOptional := h4
  have h5' : t.hi.byLevel = false := h5.trans hby
  have hact : t.rowActive = s.rowActive := hsame.act
  have hnorm : ∀ q, s.hi.sqNorm q = t.hi.sqNorm q := by
    intro q
    rw [solver_sqNorm_eq hs hf hR (by rw [hlast]; intro h; cases h), solver_sqNorm_eq hs' hf' hR' (by
      rw [h4', hlast]; intro h; cases h)]
    have n1 : s.hi.nMandatory = s.hi.levels.length := by unfold HI.nMandatory; rw [hlast]; rfl
    have n2 : t.hi.nMandatory = t.hi.levels.length := by unfold HI.nMandatory; rw [h4', hlast]; rfl
    rw [n1, n2, h2']
    congr 1
    have : RightCommutative fun (m : ℝ) (c : Impl ℝ κ) => max m (sqSum (conError s.hi.ineqThr q c (R c.fn.key))) :=
      ⟨fun a b c => max_right_comm _ _ _⟩
    exact (((levels_perm hs.nlev).trans hp).trans (levels_perm hs'.nlev).symm).foldl_eq 0
  have hdim : s.reducedDim = t.reducedDim := by
    rw [bs_reducedDim hb hl, bs_reducedDim hb' hl', hact]
    exact (List.Perm.flatMap_right _ hp).count_eq _
  have hslope : ∀ q u, localSlope (s.dLevels D J0 (fun _ _ => 0) q) u = localSlope (t.dLevels D J0' (fun _ _ => 0) q) u := by
    have key : ∀ q u, ((s.dLevels D J0 (fun _ _ => 0) q).map fun d => d.cost u).sum =
        ((t.dLevels D J0' (fun _ _ => 0) q).map fun d => d.cost u).sum := by
      intro q u
      refine (bs_total_cost hb hl hR J0 q u).trans (Eq.trans ?_ (bs_total_cost hb' hl' hR' J0' q u).symm)
      have hc : ∀ r c i, t.conCost D q u r c i = s.conCost D q u r c i := by
        intro r c i
        unfold BS.conCost
        rw [h2', hact]
        simp only [hsame.row]
        rfl
      have hmap : (List.map (fun c => ∑ r ∈ Finset.range c.fn.space.nv, t.conCost D q u (R c.fn.key) c r)
          ((implOf h').map Prod.fst)) = (List.map (fun c => ∑ r ∈ Finset.range c.fn.space.nv, s.conCost D q u (R c.fn.key) c r)
          ((implOf h').map Prod.fst)) :=
        List.map_congr_left fun c _ => Finset.sum_congr rfl fun r _ => hc _ _ _
      exact ((hp.map _).sum_eq).trans (congrArg List.sum hmap).symm
    intro q u
    refine (slope_of_cost _ _).trans (Eq.trans ?_ (slope_of_cost _ _).symm)
    rw [key q u]
    congr 2
    exact key q (-u)
  have hlin : ∀ q x, Cancels (s.dLevels D J0 (fun _ _ => 0) q) x ↔ Cancels (t.dLevels D J0' (fun _ _ => 0) q) x := by
    intro q x
    refine (bs_cancels_iff hb hl hR J0 q x).trans (Iff.trans ?_ (bs_cancels_iff hb' hl' hR' J0' q x).symm)
    have hc : t.LinSolves D R ((implOf h').map Prod.fst) q x ↔ s.LinSolves D R ((implOf h').map Prod.fst) q x := by
      unfold BS.LinSolves
      rw [h2', hact]
      simp only [hsame.row]
      rfl
    refine Iff.trans ?_ hc.symm
    exact ⟨fun H c hc => H c (hp.mem_iff.2 hc), fun H c hc => H c (hp.mem_iff.1 hc)⟩
  have henv : s.lsEnv move = t.lsEnv move := by
    unfold BS.lsEnv
    simp only [hnorm, hsame.solve]
    rfl
  have htop : t.TopRows (implOf h') := by
    obtain ⟨e, a, b, c, d⟩ := ht'
    exact ⟨e, a, b, by rw [hact]; exact c, d⟩
  have hsol := bsSolve_congr (o := s.fullOps D o J0 dom (fun _ _ => 0) move ls)
    (o' := t.fullOps D o' J0' dom (fun _ _ => 0) move ls) G q
    (fun j => dq (hiFree s.hi j), fun j => dq' (hiFree s.hi j), st)
    (fun a => by show (s.ex.solve a, dom a) = (t.ex.solve a, dom a); rw [hsame.solve])
    (fun a => by show (s.hi.sqNorm _).getD 0 = (t.hi.sqNorm _).getD 0; rw [hnorm])
    (fun m => rfl)
    (fun a m => by
      have hsl : (fun q u => localSlope (s.dLevels D J0 (fun _ _ => 0) q) u) =
        fun q u => localSlope (t.dLevels D J0' (fun _ _ => 0) q) u := by
        funext q u; exact hslope q u
      unfold BS.fullOps
      simp only [hsl, henv]
      rfl)
    (fun a m hg => by
      obtain ⟨x, hx⟩ := hc a hg
      have hd := (C132_solutions o o' ho hor ho' hor' s.hi.sqThr t.hi.sqThr _ _ (bs_firstLevel_of_top hb hl ht J0 a)
        (bs_firstLevel_of_top hb' hl' htop J0' a) ⟨x, (bs_cancels_iff hb hl hR J0 a x).2 hx⟩ (hlin a) m.1 m.1).1
      unfold BS.fullOps
      simp only [hby, h5']
      exact Prod.ext (congrArg (Option.getD · 0) hd) (Prod.ext (congrArg (Option.getD · 0) hd) rfl))
    h0 hG t.hi.sqThr dqMin t.hi.maxIter t.reducedDim optimize
  intro r r'
  have : r' = r := by
    show bsSolve (t.fullOps D o' J0' dom (fun _ _ => 0) move ls) t.hi.sqThr dqMin t.hi.maxIter t.reducedDim optimize
      t.hi.lastIsOptional q (fun j => dq (hiFree s.hi j), fun j => dq' (hiFree s.hi j), st) = r
    rw [h4', hlast]
    refine hsol.symm.trans ?_
    rw [h1', h3', ← hdim]
    show _ = bsSolve _ _ _ _ _ _ s.hi.lastIsOptional _ _
    rw [hlast]
  rw [this]
  exact ⟨rfl, rfl, rfl⟩

/-- C133. Two solvers by substitution, without optional level, into which the same explicit constraints and the same implicit
constraints have been inserted, in any order and with different priorities.  As long as the implicit constraints, linearised along the explicit
ones, have a common solution, both return the same configuration and the same status after the same number of iterations, with any line
search.  `G` is a set of configurations that the iterations do not leave. -/
theorem C133_substitution [DecidableEq κ] {El : Space ℝ → List ℝ → Prop} {nq nv : Nat} {h h' : BHist ℝ κ} {s s' : BS ℝ κ}
    (hb : BS.Built El nq nv h s) (hb' : BS.Built El nq nv h' s')
    (hp : ((implOf h).map Prod.fst).Perm ((implOf h').map Prod.fst))
    (hpe : s.ex.data.Perm s'.ex.data) (hw : ∀ c ∈ explOf h, WellFormed nq nv c) (hcoh : AllCoherent (explOf h))
    (hs : ∀ c ∈ explOf h, c.inV.Pairwise lexLe) (hlen : ∀ d ∈ s.ex.data, d.OutLen)
    (hl : BHist.Lawful El h) (hl' : BHist.Lawful El h') (hopt : s.hi.SameOptions s'.hi)
    (hlast : s.hi.lastIsOptional = false) (hby : s.hi.byLevel = false) {R : κ → List ℝ}
    (hR : HI.RhsIs (fun f => El f.space) (implOf h) s.hi R) (hR' : HI.RhsIs (fun f => El f.space) (implOf h') s'.hi R)
    (ht : s.TopRows (implOf h)) (ht' : s.TopRows (implOf h')) (D : Space ℝ → List ℝ → List ℝ → Nat → Nat → ℝ) {o o' : SvdOps ℝ}
    (ho : o.Exact) (hor : o.Ortho) (ho' : o'.Exact) (hor' : o'.Ortho) (J0 J0' : (Nat → ℝ) → Jac ℝ)
    (move : (Nat → ℝ) → (Nat → ℝ) → Nat → ℝ) (ls : BsLineSearch S)
    (dqMin : ℝ) (optimize : Bool) (q : Nat → ℝ) (dq dq' : Nat → ℝ) (st : S) (G : (Nat → ℝ) → Prop) (h0 : G (s.ex.solve q))
    (hG : ∀ q m, G q → G (s.ex.solve ((s.fullOps D o J0 (fun _ => true) (fun _ _ => 0) move ls).search q m).1))
    (hc : ∀ q, G q → ∃ x, s.LinSolves D R ((implOf h).map Prod.fst) q x) :
    let r := bsSolve (s.fullOps D o J0 (fun _ => true) (fun _ _ => 0) move ls) s.hi.sqThr dqMin s.hi.maxIter s.reducedDim optimize
      s.hi.lastIsOptional q (fun j => dq (hiFree s.hi j), fun j => dq' (hiFree s.hi j), st)
    let r' := bsSolve (s'.fullOps D o' J0' (fun _ => true) (fun _ _ => 0) move ls) s'.hi.sqThr dqMin s'.hi.maxIter s'.reducedDim
      optimize s'.hi.lastIsOptional q (fun j => dq (hiFree s'.hi j), fun j => dq' (hiFree s'.hi j), st)
    r'.arg = r.arg ∧ r'.status = r.status ∧ r'.iter = r.iter :=
  bs_priorities_same hb hb' hp hl hl' (bs_same_explicit hb hb' hpe hw hcoh hs hlen hopt.free) hopt hlast hby hR hR' ht ht' D
    ho hor ho' hor' J0 J0' (fun _ => true) move ls dqMin optimize q dq dq' st G h0 hG hc

namespace BsPriorityEx
open BsR (E)
open BsOrderEx (fD iA iA_built pA cA z iB iB_built)

/-- `q ↦ q₀ - 1` -/
noncomputable def fT : Fn ℝ Nat where
  key := 23
  inputSize := 3
  inputDer := 3
  spaceId := 1
  space := vectorSpace ℝ 1
  value q := [q 0 - 1]
  jac _ := fun _ k => if k = 0 then 1 else 0
  activeQ := [true, false, false]
  active := [true, false, false]

/-- `q₀ = 1` -/
noncomputable def iT : Impl ℝ Nat := (Impl.create fT [.equality] []).get rfl
theorem iT_built : Impl.Built fT [] [.equality] iT := .create _ _ (Option.some_get _).symm
noncomputable def cT : BCon ℝ Nat := ⟨iT, none⟩
/-- `q₂ = q₁`, implicit -/
noncomputable def cU : BCon ℝ Nat := ⟨iB, none⟩

/-- The explicit constraint `q₁ = q₀`, then `q₀ = 1`, then `q₂ = q₁` -/
noncomputable def s1 : BS ℝ Nat := (((z.add 20 cA 0).1.add 20 cT 0).1.add 20 cU 1).1
/-- The same with `q₂ = q₁` before `q₀ = 1` -/
noncomputable def s2 : BS ℝ Nat := (((z.add 20 cA 0).1.add 20 cT 1).1.add 20 cU 0).1
noncomputable def h1 : BHist ℝ Nat := [(cA, 0, true), (cT, 0, false), (cU, 1, false)]
noncomputable def h2 : BHist ℝ Nat := [(cA, 0, true), (cT, 1, false), (cU, 0, false)]

theorem built1 : BS.Built E 3 3 h1 s1 :=
  .add (h := [(cA, 0, true), (cT, 0, false)]) (s := ((z.add 20 cA 0).1.add 20 cT 0).1) (c := cU) (p := 1) (fuel := 20) (junk := [])
    (.add (h := [(cA, 0, true)]) (s := (z.add 20 cA 0).1) (c := cT) (p := 0) (fuel := 20) (junk := [])
      (.add (h := []) (s := z) (c := cA) (p := 0) (fuel := 20) (junk := []) (.init 1) ⟨_, _, _, iA_built⟩ (Prod.ext rfl rfl))
      ⟨_, _, _, iT_built⟩ (Prod.ext rfl rfl)) ⟨_, _, _, iB_built⟩ (Prod.ext rfl rfl)

theorem built2 : BS.Built E 3 3 h2 s2 :=
  .add (h := [(cA, 0, true), (cT, 1, false)]) (s := ((z.add 20 cA 0).1.add 20 cT 1).1) (c := cU) (p := 0) (fuel := 20) (junk := [])
    (.add (h := [(cA, 0, true)]) (s := (z.add 20 cA 0).1) (c := cT) (p := 1) (fuel := 20) (junk := [])
      (.add (h := []) (s := z) (c := cA) (p := 0) (fuel := 20) (junk := []) (.init 1) ⟨_, _, _, iA_built⟩ (Prod.ext rfl rfl))
      ⟨_, _, _, iT_built⟩ (Prod.ext rfl rfl)) ⟨_, _, _, iB_built⟩ (Prod.ext rfl rfl)

theorem lawful1 : BHist.Lawful E h1 where
  law := by
    intro e he
    simp only [h1, List.mem_cons, List.not_mem_nil, or_false] at he
    rcases he with rfl | rfl | rfl <;> exact vectorSpace_lawful 1
  val := by
    intro e he q
    simp only [h1, List.mem_cons, List.not_mem_nil, or_false] at he
    rcases he with rfl | rfl | rfl <;> rfl

theorem lawful2 : BHist.Lawful E h2 where
  law := by
    intro e he
    simp only [h2, List.mem_cons, List.not_mem_nil, or_false] at he
    rcases he with rfl | rfl | rfl <;> exact vectorSpace_lawful 1
  val := by
    intro e he q
    simp only [h2, List.mem_cons, List.not_mem_nil, or_false] at he
    rcases he with rfl | rfl | rfl <;> rfl

theorem impl1 : implOf h1 = [(iT, 0), (iB, 1)] := rfl
theorem impl2 : implOf h2 = [(iT, 1), (iB, 0)] := rfl
theorem expl1 : explOf h1 = [pA.econ iA] := rfl
theorem data1 : s1.ex.data = [EData.new (pA.econ iA) []] := rfl
theorem data2 : s2.ex.data = [EData.new (pA.econ iA) []] := rfl

theorem rhs1 : HI.RhsIs (fun f => E f.space) (implOf h1) s1.hi fun _ => [0] where
  el := by
    intro e he
    simp only [impl1, List.mem_cons, List.not_mem_nil, or_false] at he
    rcases he with rfl | rfl <;> rfl
  eq := by
    intro i l hi
    have h0 : i < 2 := lt_of_getElem?_some (l := s1.hi.levels) hi
    obtain rfl | rfl : i = 0 ∨ i = 1 := by omega
    · obtain rfl : (s1.hi.levels[0]?).get rfl = l := Option.some.inj ((Option.some_get _).trans hi)
      rfl
    · obtain rfl : (s1.hi.levels[1]?).get rfl = l := Option.some.inj ((Option.some_get _).trans hi)
      rfl

theorem rhs2 : HI.RhsIs (fun f => E f.space) (implOf h2) s2.hi fun _ => [0] where
  el := by
    intro e he
    simp only [impl2, List.mem_cons, List.not_mem_nil, or_false] at he
    rcases he with rfl | rfl <;> rfl
  eq := by
    intro i l hi
    have h0 : i < 2 := lt_of_getElem?_some (l := s2.hi.levels) hi
    obtain rfl | rfl : i = 0 ∨ i = 1 := by omega
    · obtain rfl : (s2.hi.levels[0]?).get rfl = l := Option.some.inj ((Option.some_get _).trans hi)
      rfl
    · obtain rfl : (s2.hi.levels[1]?).get rfl = l := Option.some.inj ((Option.some_get _).trans hi)
      rfl

theorem wf1 : ∀ c ∈ explOf h1, WellFormed 3 3 c := by
  rw [expl1]
  intro c hc
  obtain rfl := List.mem_singleton.1 hc
  refine ⟨⟨⟨1, 1⟩, rfl, by decide⟩, ⟨⟨1, 1⟩, rfl, by decide⟩, ?_, ?_⟩ <;> intro i h <;>
    simp [Reads, ReadsV, EPart.econ, pA, Seg.Has] at h <;> omega

theorem vec1 : ∀ c ∈ explOf h1, c.inV = c.inQ ∧ c.outV = c.outQ := by
  rw [expl1]
  intro c hc
  obtain rfl := List.mem_singleton.1 hc
  exact ⟨rfl, rfl⟩

theorem sorted1 : ∀ c ∈ explOf h1, c.inV.Pairwise lexLe := by
  rw [expl1]
  intro c hc
  obtain rfl := List.mem_singleton.1 hc
  exact List.pairwise_singleton _ _

theorem len1 : ∀ d ∈ s1.ex.data, d.OutLen := by
  rw [data1]
  intro d hd
  obtain rfl := List.mem_singleton.1 hd
  exact fun x => rfl

theorem top1 : s1.TopRows (implOf h1) := ⟨(iT, 0), by rw [impl1]; simp, rfl, rfl, List.mem_singleton.2 rfl⟩
theorem top2 : s1.TopRows (implOf h2) := ⟨(iB, 0), by rw [impl2]; simp, rfl, rfl, List.mem_singleton.2 rfl⟩

theorem cons1 : s1.ex.cons = [pA.econ iA] := rfl

/-- The derivative of `q₁` with respect to the free variables -/
theorem jac1 (q : Nat → ℝ) (k : Nat) : s1.ex.jacobian q 1 k = if k = 0 then 1 else 0 := by
  have h2 := built1.parts.2.1
  obtain ⟨j1, -, j3⟩ := C15_jacobian h2 (by rw [cons1, ← expl1]; exact wf1)
    (by rw [cons1, ← expl1]; exact coherent_of_vec vec1)
    (by rw [cons1, ← expl1]; exact sorted1) q
  have h0 : s1.ex.jacobian q 0 k = if k = 0 then 1 else 0 := by
    rw [j1 0 k (by
      rw [cons1]
      intro c hc
      obtain rfl := List.mem_singleton.1 hc
      simp [WritesV, EPart.econ, pA, Seg.Has])]
    rcases Nat.eq_zero_or_pos k with rfl | hk
    · simp
    · rw [if_neg (by omega), if_neg (by omega)]
  have h1 : s1.ex.jacobian q 1 k = ∑ j ∈ Finset.range 1, 1 * s1.ex.jacobian q ([0].getD j 0) k :=
    j3 (EData.new (pA.econ iA) []) (by rw [data1]; simp) 0 1 k rfl
  rw [h1]
  simp [h0]

theorem red1 (q : Nat → ℝ) (row : Nat → ℝ) (c : Nat) :
    s1.redRow q row c = row ([0, 2].getD c 0) + row 1 * if [0, 2].getD c 0 = 0 then 1 else 0 := by
  have e : s1.redRow q row c = row ([0, 2].getD c 0) + (row 1 * s1.ex.jacobian q 1 ([0, 2].getD c 0) + 0) := rfl
  rw [e, jac1, add_zero]

/-- The constraints linearised along the explicit constraint have a common solution everywhere. -/
theorem compatible (D : Space ℝ → List ℝ → List ℝ → Nat → Nat → ℝ) (q : Nat → ℝ)
    (hD : ∀ r v i j, D (vectorSpace ℝ 1) r v i j = if i = j then 1 else 0) :
    ∃ x, s1.LinSolves D (fun _ => [0]) ((implOf h1).map Prod.fst) q x := by
  have e1 : ∀ k, conRow 0 D q iT [0] 0 k = if k = 0 then 1 else 0 := by
    intro k
    unfold conRow
    rw [if_neg (by rintro (⟨h, -⟩ | ⟨h, -⟩) <;> cases h)]
    show ∑ j ∈ Finset.range 1, D (vectorSpace ℝ 1) _ _ 0 j * (if k = 0 then 1 else 0) = _
    simp [hD]
  have e2 : ∀ k, conRow 0 D q iB [0] 0 k = if k = 2 then 1 else if k = 1 then -1 else 0 := by
    intro k
    unfold conRow
    rw [if_neg (by rintro (⟨h, -⟩ | ⟨h, -⟩) <;> cases h)]
    show ∑ j ∈ Finset.range 1, D (vectorSpace ℝ 1) _ _ 0 j * (if k = 2 then 1 else if k = 1 then -1 else 0) = _
    simp [hD]
  have sum2 : ∀ f : Fin (indices s1.hi.free.segs).length → ℝ, ∑ j, f j = f ⟨0, Nat.two_pos⟩ + f ⟨1, Nat.one_lt_two⟩ :=
    fun f => Fin.sum_univ_two f
  refine ⟨fun j => if j.1 = 0 then 1 - q 0 else 1 - q 0 - (q 2 - q 1), fun c hc _ r hr => ?_⟩
  rw [impl1] at hc
  simp only [List.map_cons, List.map_nil, List.mem_cons, List.not_mem_nil, or_false] at hc
  rcases hc with rfl | rfl
  · have hr0 : r < 1 := lt_of_getElem?_some (l := iT.mask) hr
    obtain rfl : r = 0 := by omega
    rw [sum2, red1, red1]
    show (conRow 0 D q iT [0] 0 0 + conRow 0 D q iT [0] 0 1 * 1) * (1 - q 0) +
      (conRow 0 D q iT [0] 0 2 + conRow 0 D q iT [0] 0 1 * 0) * (1 - q 0 - (q 2 - q 1)) + (q 0 - 1 - 0) = 0
    rw [e1, e1, e1]
    simp
  · have hr0 : r < 1 := lt_of_getElem?_some (l := iB.mask) hr
    obtain rfl : r = 0 := by omega
    rw [sum2, red1, red1]
    show (conRow 0 D q iB [0] 0 0 + conRow 0 D q iB [0] 0 1 * 1) * (1 - q 0) +
      (conRow 0 D q iB [0] 0 2 + conRow 0 D q iB [0] 0 1 * 0) * (1 - q 0 - (q 2 - q 1)) + (q 2 - q 1 - 0) = 0
    rw [e2, e2, e2]
    simp
    ring

/-- Both priorities give the same result with backtracking from any configuration of a vector space. -/
example (o o' : SvdOps ℝ) (ho : o.Exact) (hor : o.Ortho) (ho' : o'.Exact) (hor' : o'.Ortho) (J0 J0' : (Nat → ℝ) → Jac ℝ)
    (ls : BsLineSearch Unit) (q : Nat → ℝ) :
    (bsSolve (s2.fullOps HINewtonEx.D o' J0' (fun _ => true) (fun _ _ => 0) (fun q v i => q i + v i) ls) s2.hi.sqThr (1 / 10 ^ 12)
      s2.hi.maxIter s2.reducedDim true s2.hi.lastIsOptional q (fun _ => 0, fun _ => 0, ())).arg =
    (bsSolve (s1.fullOps HINewtonEx.D o J0 (fun _ => true) (fun _ _ => 0) (fun q v i => q i + v i) ls) s1.hi.sqThr (1 / 10 ^ 12)
      s1.hi.maxIter s1.reducedDim true s1.hi.lastIsOptional q (fun _ => 0, fun _ => 0, ())).arg :=
  (C133_substitution built1 built2 (.refl _) (by rw [data1, data2]) wf1 (coherent_of_vec vec1) sorted1
    len1 lawful1 lawful2 ⟨rfl, rfl, rfl, rfl, rfl, rfl⟩ rfl rfl rhs1 rhs2 top1 top2 HINewtonEx.D ho hor ho' hor' J0 J0'
    (fun q v i => q i + v i) ls (1 / 10 ^ 12) true q (fun _ => 0) (fun _ => 0) () (fun _ => True) trivial (fun _ _ _ => trivial)
    (fun q _ => compatible _ q fun _ _ _ _ => rfl)).1

end BsPriorityEx

end Hpp
