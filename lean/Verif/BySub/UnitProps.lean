import Verif.HI.UnitProps
import Verif.BySub.OrderProps

/-!
# C135. Change of unit, for the solver by substitution

Sources: `/repo/include/hpp/constraints/solver/impl/by-substitution.hh`, lines 38-167 and
`/repo/src/solver/by-substitution.cc`, lines 166-204.
-/

namespace Hpp

open Matrix

/-! ## The iterations -/

section
variable {A M α : Type} [Field α] [LinearOrder α] [IsStrictOrderedRing α]

/-- Specification: the steps in another unit: errors and costs are multiplied, configurations and steps are the same. -/
structure BsOps.InUnit (c : α) (o o' : BsOps A M α) : Prop where
  expl : o'.expl = o.expl
  norm : ∀ a, o'.norm a = c * o.norm a
  cost : ∀ a, o'.cost a = c * o.cost a
  dir : o'.dir = o.dir
  scale : o'.scale = o.scale
  unscale : o'.unscale = o.unscale
  dqNorm : o'.dqNorm = o.dqNorm
  search : o'.search = o.search

/-- The local variables in the other unit -/
def BsSt.inUnit (c : α) (s : BsSt A M α) : BsSt A M α := { s with n := c * s.n, prev := c * s.prev, prevCost := c * s.prevCost }

theorem quarter_unit {c : α} (hc : 0 < c) (thr n : α) : 1 / 4 * (c * thr) < c * n ↔ 1 / 4 * thr < n := by
  rw [mul_left_comm]
  exact mul_lt_mul_iff_right₀ hc

theorem bsStep_unit {c : α} (hc : 0 < c) {o o' : BsOps A M α} (h : o.InUnit c o') (thr : α) (optimize : Bool) (s : BsSt A M α) (prev : α)
    (m : M) : bsStep o' (c * thr) optimize (s.inUnit c) (c * prev) m =
      (bsStep o thr optimize s prev m).map (BsSt.inUnit c) id := by
  unfold bsStep
  rw [h.search, h.expl]
  rcases h1 : o.search s.arg m with ⟨a1, m1, _ | _⟩
  · rw [show (s.inUnit c).arg = s.arg from rfl, h1]
    rfl
  · rw [show (s.inUnit c).arg = s.arg from rfl, h1]
    dsimp only
    rcases h2 : o.expl a1 with ⟨a2, _ | _⟩
    · rfl
    · dsimp only
      have e2 : ∀ p, decide (c * o.norm a2 < c * p) = decide (o.norm a2 < p) := by
        intro p; simp only [mul_lt_mul_iff_right₀ hc]
      have e3 : decide (1 / 4 * (c * thr) < c * o.norm a2) = decide (1 / 4 * thr < o.norm a2) := by
        simp only [quarter_unit hc]
      have e4 : c * o.cost a2 < (s.inUnit c).prevCost ↔ o.cost a2 < s.prevCost := by
        show c * o.cost a2 < c * s.prevCost ↔ _
        exact mul_lt_mul_iff_right₀ hc
      simp only [h.norm, h.cost, h.unscale, e2, e3, e4]
      rw [Sum.map_inl]
      congr 1
      cases optimize with
      | false => rfl
      | true =>
        simp only [if_true]
        by_cases ha : decide (1 / 4 * thr < o.norm a2) = true
        · rw [if_pos ha, if_pos ha]; rfl
        · rw [if_neg ha, if_neg ha]
          by_cases hb : o.cost a2 < s.prevCost
          · rw [if_pos hb, if_pos hb]; rfl
          · rw [if_neg hb, if_neg hb]; rfl

omit [IsStrictOrderedRing α] in
theorem bsEnd_unit {c : α} (hlt : ∀ x y : α, c * x < c * y ↔ x < y) (optimize : Bool) (init : Option (A × α)) (s : BsSt A M α) :
    bsEnd optimize (init.map fun p => (p.1, c * p.2)) (s.inUnit c) = bsEnd optimize init s := by
  cases optimize with
  | true => rfl
  | false =>
    cases init with
    | none => rfl
    | some p =>
      show BsOut.mk (if c * p.2 < c * s.n then p.1 else s.arg) s.mem s.iter .success false = _
      simp only [hlt]
      rfl

theorem bsLoop_unit {c : α} (hc : 0 < c) {o o' : BsOps A M α} (h : o.InUnit c o') (thr dqMin : α) (optimize : Bool)
    (init : Option (A × α)) : ∀ (left : Nat) (s : BsSt A M α),
    bsLoop o' (c * thr) dqMin optimize (init.map fun p => (p.1, c * p.2)) left (s.inUnit c) = bsLoop o thr dqMin optimize init left s := by
  have hlt : ∀ x y : α, c * x < c * y ↔ x < y := fun x y => mul_lt_mul_iff_right₀ hc
  intro left
  induction left with
  | zero =>
    intro s
    unfold bsLoop
    have h1 := bsEnd_unit hlt optimize init { s with status := .maxIterationReached }
    have h2 := bsEnd_unit hlt optimize init s
    exact if_congr Iff.rfl h1 h2
  | succ left ih =>
    intro s
    unfold bsLoop
    refine if_congr Iff.rfl ?_ (bsEnd_unit hlt optimize init s)
    dsimp only
    have hm : (if (s.inUnit c).only = true then (s.inUnit c).mem else o'.dir (s.inUnit c).arg (s.inUnit c).mem) =
        if s.only = true then s.mem else o.dir s.arg s.mem := by rw [h.dir]; rfl
    have hp : (if (s.inUnit c).only = true then (s.inUnit c).prev else (s.inUnit c).n) =
        c * if s.only = true then s.prev else s.n := by rw [mul_ite]; rfl
    have hsc : (s.inUnit c).scaling = s.scaling := rfl
    rw [hm, hp, h.scale, h.dqNorm, hsc]
    generalize (if s.only = true then s.mem else o.dir s.arg s.mem) = m0
    generalize (if optimize = true then o.scale s.scaling m0 else m0) = m
    refine if_congr Iff.rfl (bsEnd_unit hlt optimize init { s with mem := m, status := .infeasible }) ?_
    rw [bsStep_unit hc h]
    rcases bsStep o thr optimize s (if s.only = true then s.prev else s.n) m with s' | ⟨a, m'⟩
    · exact ih s'
    · rfl

/-- C135. The iterations of the solver by substitution are the same if the errors and their threshold are multiplied by the same
number, whether the solver optimizes or not. -/
theorem C135_substitution_iterations {c : α} (hc : 0 < c) {o o' : BsOps A M α} (h : o.InUnit c o') (thr dqMin : α) (maxIter rd : Nat)
    (optimize last : Bool) (a : A) (m : M) :
    bsSolve o' (c * thr) dqMin maxIter rd optimize last a m = bsSolve o thr dqMin maxIter rd optimize last a m := by
  unfold bsSolve
  rw [h.expl]
  rcases o.expl a with ⟨a0, _ | _⟩
  · rfl
  · dsimp only
    simp only [h.norm, quarter_unit hc, mul_lt_mul_iff_right₀ hc]
    refine if_congr Iff.rfl rfl ?_
    have hinit : bsInit o' (c * thr) (optimize && last) a0 m = (bsInit o thr (optimize && last) a0 m).inUnit c := by
      unfold bsInit BsSt.inUnit
      simp only [h.norm, h.cost, quarter_unit hc, mul_ite, mul_zero]
    rw [hinit, ← bsLoop_unit hc h]
    congr 1
    by_cases hb : decide (o.norm a0 < thr) = true
    · rw [if_pos hb, if_pos hb]; rfl
    · rw [if_neg hb, if_neg hb]; rfl

end

variable {κ S : Type}

/-- Specification: two line searches choose the same step, in two units. -/
def BsLineSearch.SameUpTo (c : ℝ) (ls ls' : BsLineSearch S) : Prop :=
  ∀ (V : Type) (env : LsEnv (Nat → ℝ) V ℝ) (slope : (Nat → ℝ) → V → ℝ) (st : S) (q : Nat → ℝ) (u : V),
    ls' V { env with err := fun q => c * env.err q } (fun q u => c * slope q u) st q u = ls V env slope st q u

theorem redRow_unit (s : BS ℝ κ) (q : Nat → ℝ) (row : Nat → ℝ) (c : ℝ) (j : Nat) :
    s.redRow q (fun k => c * row k) j = c * s.redRow q row j := by
  unfold BS.redRow
  rw [mul_ite, mul_ite, mul_zero, mul_add, ← List.sum_map_mul_left]
  simp only [mul_assoc]

/-- C135. The same for the solver by substitution: the implicit constraints are expressed in another unit, the explicit constraints,
whose unit is that of the configuration, are the same.  When the solver optimizes or not. -/
theorem C135_substitution [DecidableEq κ] {c : ℝ} (hc : 0 < c) {El : Space ℝ → List ℝ → Prop} {nq nv nq' nv' : Nat} {h h' : BHist ℝ κ}
    {s s' : BS ℝ κ} (hb : BS.Built El nq nv h s) (hb' : BS.Built El nq' nv' h' s')
    (hp : implOf h' = (implOf h).map fun e => (e.1.inUnit c, e.2)) (hex : s'.ex = { s.ex with threshold := s'.ex.threshold })
    (hl : BHist.Lawful El h) (hl' : BHist.Lawful El h') (hvec : ∀ e ∈ implOf h, e.1.fn.VectorValued)
    (hopt : s.hi.OptionsInUnit c s'.hi) {R : κ → List ℝ}
    (hR : HI.RhsIs (fun f => El f.space) (implOf h) s.hi R)
    (hR' : HI.RhsIs (fun f => El f.space) (implOf h') s'.hi fun k => (R k).map (c * ·))
    (hne : s.hi.lastIsOptional = true → s.hi.levels ≠ []) {D : Space ℝ → List ℝ → List ℝ → Nat → Nat → ℝ}
    (hD : ∀ n r v i j, D (vectorSpace ℝ n) r v i j = if i = j then 1 else 0) {o o' : SvdOps ℝ}
    (ho : o.Exact) (hor : o.Ortho) (ho' : o'.Exact) (hor' : o'.Ortho) (J0 J0' : (Nat → ℝ) → Jac ℝ)
    (dom : (Nat → ℝ) → Bool) (sat : (Nat → ℝ) → Nat → ℝ) (move : (Nat → ℝ) → (Nat → ℝ) → Nat → ℝ) {ls ls' : BsLineSearch S}
    (hls : ls.SameUpTo (c * c) ls') (dqMin : ℝ) (optimize : Bool) (q : Nat → ℝ) (dq dq' : Nat → ℝ) (st : S) :
    let r := bsSolve (s.fullOps D o J0 dom sat move ls) s.hi.sqThr dqMin s.hi.maxIter s.reducedDim optimize s.hi.lastIsOptional q
      (fun j => dq (hiFree s.hi j), fun j => dq' (hiFree s.hi j), st)
    let r' := bsSolve (s'.fullOps D o' J0' dom sat move ls') s'.hi.sqThr dqMin s'.hi.maxIter s'.reducedDim optimize
      s'.hi.lastIsOptional q (fun j => dq (hiFree s'.hi j), fun j => dq' (hiFree s'.hi j), st)
    r'.arg = r.arg ∧ r'.status = r.status ∧ r'.iter = r.iter := by
  obtain ⟨i1, i2⟩ := hl.impl
  obtain ⟨i1', i2'⟩ := hl'.impl
  obtain ⟨hs, hf, -⟩ := hb.parts.1.inv i1 i2
  obtain ⟨hs', hf', -⟩ := hb'.parts.1.inv i1' i2'
  have hs0 := hs'
  have hf0 := hf'
  rw [hp] at hs' hf'
  have hR2 := hR'
  rw [hp] at hR2
  have hlen := levels_length_unit hs hs'
  obtain ⟨hfree, h1, h2, h3, h4, h5⟩ := hopt
  obtain ⟨s'', τ, rfl⟩ : ∃ (s'' : BS ℝ κ) (τ : ℝ), s' =
      { s'' with hi := { s''.hi with free := s.hi.free }, ex := { s.ex with threshold := τ } } :=
    ⟨s', s'.ex.threshold, by rw [← hfree, ← hex]⟩
  clear hex
  set t : BS ℝ κ := { s'' with hi := { s''.hi with free := s.hi.free }, ex := { s.ex with threshold := τ } } with ht
  have hnorm : ∀ q, (t.hi.sqNorm q).getD 0 = c * c * (s.hi.sqNorm q).getD 0 :=
    fun q => sqNorm_unit hc hs hf hR hs' hf' hR2 hvec hlen hne h2 h4 q
  have hact : ∀ k : Impl ℝ κ, t.rowActive (k.inUnit c) = s.rowActive k := fun k => rfl
  have hlen' : t.hi.levels.length = s.hi.levels.length := hlen
  have h2' : t.hi.ineqThr = c * s.hi.ineqThr := h2
  have hdim : t.reducedDim = s.reducedDim := by
    unfold BS.reducedDim
    rw [map_by_index s.hi.levels _ (fun i => (rowMaskBy s.rowActive (atLevel (implOf h) i)).count true)
        (fun i l hi => (bs_rows hb hl hi).2.2.1),
      map_by_index t.hi.levels _ (fun i => (rowMaskBy t.rowActive (atLevel (implOf h') i)).count true)
        (fun i l hi => (bs_rows hb' hl' hi).2.2.1), hlen', hp]
    congr 1
    refine List.map_congr_left fun i _ => ?_
    rw [atLevel_unit]
    unfold rowMaskBy
    rw [List.flatMap_map]
    rfl
  have hlev : ∀ q, List.Forall₂ (DLevel.SameUpTo c) (s.dLevels D J0 sat q) (t.dLevels D J0' sat q) := by
    intro q
    refine forall₂_of_index _ _ ?_ ?_
    · unfold BS.dLevels
      rw [List.length_map, List.length_map]
      exact hlen.symm
    · intro i a b ha hb1
      unfold BS.dLevels at ha hb1
      rw [List.getElem?_map] at ha hb1
      obtain ⟨l, hl1, rfl⟩ := Option.map_eq_some_iff.1 ha
      obtain ⟨l', hl2, rfl⟩ := Option.map_eq_some_iff.1 hb1
      refine C135_saturation hc ⟨?_, fun x => ?_⟩ _
      · refine (bs_dLevel_empty hb hl hl1 _ _).trans (Iff.trans ?_ (bs_dLevel_empty hb' hl' hl2 (J0' q) q).symm)
        rw [hp, atLevel_unit, List.forall_mem_map]
        rfl
      · refine (bs_dLevel_cost hb' hl' hR' hl2 (J0' q) q x).trans ?_
        rw [bs_dLevel_cost hb hl hR hl1 (J0 q) q x, hp, atLevel_unit, List.map_map, ← List.sum_map_mul_left]
        congr 1
        refine List.map_congr_left fun k hk => ?_
        rw [Finset.mul_sum]
        refine Finset.sum_congr rfl fun r _ => ?_
        have hv := hvec _ (mem_atLevel.1 hk)
        show t.conCost D q x ((R k.fn.key).map (c * ·)) (k.inUnit c) r = _
        unfold BS.conCost
        rw [h2', conError_unit hc hv, getD_unit]
        have hrow : conRow (c * s.hi.ineqThr) D q (k.inUnit c) ((R k.fn.key).map (c * ·)) r =
            fun j => c * conRow s.hi.ineqThr D q k (R k.fn.key) r j := by
          funext j
          exact conRow_unit hc hD hv _ _ _ _ _
        have hred : ∀ j, t.redRow q (fun j => c * conRow s.hi.ineqThr D q k (R k.fn.key) r j) j =
            c * s.redRow q (conRow s.hi.ineqThr D q k (R k.fn.key) r) j := fun j => redRow_unit s q _ c j
        rw [hrow]
        simp only [hred]
        have hsum : ∑ j : Fin (indices s.hi.free.segs).length, c * s.redRow q (conRow s.hi.ineqThr D q k (R k.fn.key) r) j * x j =
            c * ∑ j : Fin (indices s.hi.free.segs).length, s.redRow q (conRow s.hi.ineqThr D q k (R k.fn.key) r) j * x j := by
          rw [Finset.mul_sum]
          exact Finset.sum_congr rfl fun j _ => mul_assoc _ _ _
        have hsum' : ∑ j : Fin (indices t.hi.free.segs).length, c * s.redRow q (conRow s.hi.ineqThr D q k (R k.fn.key) r) j * x j =
            c * ∑ j : Fin (indices s.hi.free.segs).length, s.redRow q (conRow s.hi.ineqThr D q k (R k.fn.key) r) j * x j := hsum
        rw [hsum', mul_ite, mul_zero]
        refine if_congr Iff.rfl ?_ rfl
        ring
  have hcost : ∀ q, (match t.hi.levels.getLast? with
      | some l => sqSum ((l.error t.hi.ineqThr q).getD [])
      | none => 0) = c * c * (match s.hi.levels.getLast? with
      | some l => sqSum ((l.error s.hi.ineqThr q).getD [])
      | none => (0 : ℝ)) := by
    intro q
    rw [List.getLast?_eq_getElem?, List.getLast?_eq_getElem?]
    cases ha : s.hi.levels[s.hi.levels.length - 1]? with
    | none =>
      have : t.hi.levels[t.hi.levels.length - 1]? = none := by
        rw [List.getElem?_eq_none_iff] at ha ⊢
        omega
      rw [this]
      exact (mul_zero _).symm
    | some l =>
      cases hcl : t.hi.levels[t.hi.levels.length - 1]? with
      | none =>
        rw [List.getElem?_eq_none_iff] at hcl
        have := lt_of_getElem?_some ha
        omega
      | some l' =>
        show sqSum ((l'.error t.hi.ineqThr q).getD []) = c * c * sqSum ((l.error s.hi.ineqThr q).getD [])
        have hsq : ∀ k ∈ atLevel (implOf h) (s.hi.levels.length - 1),
            ((conError t.hi.ineqThr q (k.inUnit c) ((R k.fn.key).map (c * ·))).map fun x => x * x).sum =
              c * c * ((conError s.hi.ineqThr q k (R k.fn.key)).map fun x => x * x).sum := by
          intro k hk
          rw [h2', conError_unit hc (hvec _ (mem_atLevel.1 hk)), List.map_map, ← List.sum_map_mul_left]
          congr 1
          refine List.map_congr_left fun x _ => ?_
          show c * x * (c * x) = _
          ring
        have e1 := bs_level_cost hs hf hR ha q
        have e2 := bs_level_cost (s := t) hs0 hf0 hR' hcl q
        rw [e1, e2, hp, atLevel_unit, hlen', List.map_map, ← List.sum_map_mul_left]
        congr 1
        exact List.map_congr_left hsq
  have h1' : t.hi.sqThr = c * c * s.hi.sqThr := h1
  have h3' : t.hi.maxIter = s.hi.maxIter := h3
  have h4' : t.hi.lastIsOptional = s.hi.lastIsOptional := h4
  have h5' : t.hi.byLevel = s.hi.byLevel := h5
  have hd : ∀ q (v : Fin (indices s.hi.free.segs).length → ℝ),
      descend o' t.hi.byLevel t.hi.sqThr (t.dLevels D J0' sat q) v = descend o s.hi.byLevel s.hi.sqThr (s.dLevels D J0 sat q) v := by
    intro q v
    rw [h1', h5']
    exact (C135_direction ho hor ho' hor' s.hi.byLevel hc s.hi.sqThr (hlev q) v).symm
  have henv : t.lsEnv move = { s.lsEnv move with err := fun q => c * c * (s.lsEnv move).err q } := by
    unfold BS.lsEnv
    simp only [hnorm]
    rfl
  have hslope : (fun q u => localSlope (t.dLevels D J0' sat q) u) = fun q u => c * c * localSlope (s.dLevels D J0 sat q) u := by
    funext q u
    exact C135_slope hc (hlev q) u
  have hops : (s.fullOps D o J0 dom sat move ls).InUnit (c * c) (t.fullOps D o' J0' dom sat move ls') := by
    refine ⟨rfl, fun a => hnorm a, fun a => hcost a, ?_, rfl, rfl, rfl, ?_⟩
    · funext a m
      show (_, _, _) = (_, _, _)
      exact Prod.ext (congrArg (Option.getD · 0) (hd a m.1)) (Prod.ext (congrArg (Option.getD · 0) (hd a m.1)) rfl)
    · funext a m
      have := hls _ (s.lsEnv move) (fun q u => localSlope (s.dLevels D J0 sat q) u) m.2.2 a m.2.1
      rw [← henv, ← hslope] at this
      unfold BS.fullOps
      dsimp only
      rw [← this]
  have hpar : ∀ (ops : BsOps (Nat → ℝ) ((Fin (indices s.hi.free.segs).length → ℝ) × (Fin (indices s.hi.free.segs).length → ℝ) × S) ℝ) m,
      bsSolve ops t.hi.sqThr dqMin t.hi.maxIter t.reducedDim optimize t.hi.lastIsOptional q m =
      bsSolve ops (c * c * s.hi.sqThr) dqMin s.hi.maxIter s.reducedDim optimize s.hi.lastIsOptional q m := by
    intro ops m
    rw [hdim, h1', h3', h4']
  intro r r'
  have : r' = r := (hpar _ _).trans (C135_substitution_iterations (mul_pos hc hc) hops _ _ _ _ _ _ _ _)
  rw [this]
  exact ⟨rfl, rfl, rfl⟩

namespace BsUnitEx
open BsR (E cE)
open BsLinkEx (cI iI fI iI_built)
open BsOrderEx

/-- `q₁ = 2` and `q₀ + q₁ ≤ 0` in another unit -/
noncomputable def cI' : BCon ℝ Nat := ⟨iI.inUnit 1000, none⟩
noncomputable def cJ' : BCon ℝ Nat := ⟨iJ.inUnit 1000, none⟩

/-- with the explicit constraint `q₁ = q₀²` -/
noncomputable def s1' : BS ℝ Nat := ((BsR.s.add 20 cI' 0).1.add 20 cJ' 0).1

noncomputable def t1 : BS ℝ Nat := { s1 with
  hi := { s1.hi with sqThr := 1 / 10 ^ 8, ineqThr := 1 / 10 ^ 4, maxIter := 20, lastIsOptional := false, byLevel := false }
  ex := { s1.ex with threshold := 1 / 10 ^ 4 } }

noncomputable def t1' : BS ℝ Nat := { s1' with
  hi := { s1'.hi with sqThr := 1000 * 1000 * (1 / 10 ^ 8), ineqThr := 1000 * (1 / 10 ^ 4), maxIter := 20, lastIsOptional := false, byLevel := false }
  ex := { s1'.ex with threshold := 1 / 10 } }

noncomputable def hist1' : BHist ℝ Nat := [(cE, 0, true), (cI', 0, false), (cJ', 0, false)]

theorem built1' : BS.Built E 2 2 hist1' s1' :=
  .add (h := [(cE, 0, true), (cI', 0, false)]) (s := (BsR.s.add 20 cI' 0).1) (c := cJ') (p := 0) (fuel := 20) (junk := [])
    (.add (h := [(cE, 0, true)]) (s := BsR.s) (c := cI') (p := 0) (fuel := 20) (junk := [])
      BsR.s_built ⟨fI.inUnit 1000, [], [.equalToZero], .create _ _ rfl⟩ (Prod.ext rfl rfl))
      ⟨fJ.inUnit 1000, [], [.inferior], .create _ _ rfl⟩ (Prod.ext rfl rfl)

theorem lawful1' : BHist.Lawful E hist1' where
  law := by
    intro e he
    simp only [hist1', List.mem_cons, List.not_mem_nil, or_false] at he
    rcases he with rfl | rfl | rfl <;> exact vectorSpace_lawful 1
  val := by
    intro e he q
    simp only [hist1', List.mem_cons, List.not_mem_nil, or_false] at he
    rcases he with rfl | rfl | rfl <;> rfl

theorem rhsT : HI.RhsIs (fun f => E f.space) (implOf hist1) t1.hi fun _ => [0] := ⟨rhs1.el, rhs1.eq⟩

theorem rhsT' : HI.RhsIs (fun f => E f.space) (implOf hist1') t1'.hi fun k => ((fun _ => [0]) k : List ℝ).map (1000 * ·) where
  el := by
    intro e he
    simp only [show implOf hist1' = [(iI.inUnit 1000, 0), (iJ.inUnit 1000, 0)] from rfl, List.mem_cons, List.not_mem_nil, or_false] at he
    rcases he with rfl | rfl <;> rfl
  eq := by
    intro i l hi
    have h0 : i < 1 := lt_of_getElem?_some (l := t1'.hi.levels) hi
    obtain rfl : i = 0 := by omega
    obtain rfl : (t1'.hi.levels[0]?).get rfl = l := Option.some.inj ((Option.some_get _).trans hi)
    show [(0 : ℝ), 0] = [1000 * 0, 1000 * 0]
    rw [mul_zero]

/-- The hypotheses are met and the result is the same with the line search `Constant`. -/
example (o o' : SvdOps ℝ) (ho : o.Exact) (hor : o.Ortho) (ho' : o'.Exact) (hor' : o'.Ortho) (J0 J0' : (Nat → ℝ) → Jac ℝ) (move)
    (q : Nat → ℝ) :
    (bsSolve (t1'.fullOps HINewtonEx.D o' J0' (fun _ => true) (fun _ _ => 0) move fun V env slope st q u =>
      (lineConstant V env slope st q u, true)) t1'.hi.sqThr (1 / 10 ^ 12) t1'.hi.maxIter t1'.reducedDim false t1'.hi.lastIsOptional q
      (fun _ => 0, fun _ => 0, ())).arg =
    (bsSolve (t1.fullOps HINewtonEx.D o J0 (fun _ => true) (fun _ _ => 0) move fun V env slope st q u =>
      (lineConstant V env slope st q u, true)) t1.hi.sqThr (1 / 10 ^ 12) t1.hi.maxIter t1.reducedDim false t1.hi.lastIsOptional q
      (fun _ => 0, fun _ => 0, ())).arg :=
  (C135_substitution (c := 1000) (by norm_num) (.params (h := hist1) _ _ _ _ _ _ built1) (.params (h := hist1') _ _ _ _ _ _ built1') rfl rfl
    lawful1 lawful1'
    (by
      intro e he
      simp only [impl1, List.mem_cons, List.not_mem_nil, or_false] at he
      rcases he with rfl | rfl <;> exact ⟨rfl, fun q => rfl⟩)
    ⟨rfl, rfl, rfl, rfl, rfl, rfl⟩ rhsT rhsT' (fun h => by cases h) (fun _ _ _ _ _ => rfl) ho hor ho' hor' J0 J0' (fun _ => true)
    (fun _ _ => 0) move (fun V env slope st q u => rfl) (1 / 10 ^ 12) false q (fun _ => 0) (fun _ => 0) ()).1

end BsUnitEx

end Hpp
