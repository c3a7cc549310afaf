import Verif.HI.NumberProps
import Verif.BySub.OrderProps
import Verif.BySub.UnitProps

/-!
# C139. Symmetries, for the solver by substitution

Sources: `/repo/include/hpp/constraints/solver/impl/by-substitution.hh`, lines 38-167 and
`/repo/src/solver/by-substitution.cc`, lines 166-204.
-/

namespace Hpp

open Matrix

/-! ## The iterations -/

section
variable {A M α : Type} [Field α] [LinearOrder α]

/-- Specification: the steps commute with a transformation of the configurations; errors, costs and the other variables do not change. -/
structure BsOps.Symmetric (φ : A → A) (o : BsOps A M α) : Prop where
  expl : ∀ a, o.expl (φ a) = (φ (o.expl a).1, (o.expl a).2)
  norm : ∀ a, o.norm (φ a) = o.norm a
  cost : ∀ a, o.cost (φ a) = o.cost a
  dir : ∀ a m, o.dir (φ a) m = o.dir a m
  search : ∀ a m, o.search (φ a) m = (φ (o.search a m).1, (o.search a m).2)

/-- The local variables after transformation of the configurations -/
def BsSt.moved (φ : A → A) (s : BsSt A M α) : BsSt A M α := { s with arg := φ s.arg, qopt := s.qopt.map φ }

/-- The result after transformation of the configuration -/
def BsOut.moved (φ : A → A) (r : BsOut A M) : BsOut A M := { r with arg := φ r.arg }

variable {φ : A → A} {o : BsOps A M α}

theorem bsStep_moved (h : o.Symmetric φ) (thr : α) (optimize : Bool) (s : BsSt A M α) (prev : α) (m : M) :
    bsStep o thr optimize (s.moved φ) prev m =
      (bsStep o thr optimize s prev m).map (BsSt.moved φ) (fun p => (φ p.1, p.2)) := by
  unfold bsStep
  rw [show (s.moved φ).arg = φ s.arg from rfl, h.search]
  rcases h1 : o.search s.arg m with ⟨a1, m1, _ | _⟩
  · rfl
  · dsimp only
    rw [h.expl]
    rcases h2 : o.expl a1 with ⟨a2, _ | _⟩
    · rfl
    · dsimp only
      simp only [h.norm, h.cost]
      rw [Sum.map_inl]
      congr 1
      cases optimize with
      | false => rfl
      | true =>
        simp only [if_true]
        by_cases ha : decide (1 / 4 * thr < o.norm a2) = true
        · rw [if_pos ha, if_pos ha]
          have : (s.moved φ).qopt.getD (φ a2) = φ (s.qopt.getD a2) := by
            show (s.qopt.map φ).getD _ = _
            cases s.qopt <;> rfl
          unfold BsSt.moved at this ⊢
          dsimp only at this ⊢
          rw [this]
        · rw [if_neg ha, if_neg ha, show (s.moved φ).prevCost = s.prevCost from rfl]
          by_cases hb : o.cost a2 < s.prevCost
          · rw [if_pos hb, if_pos hb]; rfl
          · rw [if_neg hb, if_neg hb]; rfl

theorem bsEnd_moved (φ : A → A) (optimize : Bool) (init : Option (A × α)) (s : BsSt A M α) :
    bsEnd optimize (init.map fun p => (φ p.1, p.2)) (s.moved φ) = (bsEnd optimize init s).moved φ := by
  cases optimize with
  | true =>
    show BsOut.mk ((s.qopt.map φ).getD (φ s.arg)) _ _ _ _ = BsOut.mk (φ (s.qopt.getD s.arg)) _ _ _ _
    cases s.qopt <;> rfl
  | false =>
    cases init with
    | none => rfl
    | some p =>
      show BsOut.mk (if p.2 < s.n then φ p.1 else φ s.arg) _ _ _ _ = BsOut.mk (φ (if p.2 < s.n then p.1 else s.arg)) _ _ _ _
      rw [apply_ite φ]
      rfl

theorem bsLoop_moved (h : o.Symmetric φ) (thr dqMin : α) (optimize : Bool) (init : Option (A × α)) : ∀ (left : Nat) (s : BsSt A M α),
    bsLoop o thr dqMin optimize (init.map fun p => (φ p.1, p.2)) left (s.moved φ) = (bsLoop o thr dqMin optimize init left s).moved φ := by
  intro left
  induction left with
  | zero =>
    intro s
    unfold bsLoop
    rw [apply_ite (BsOut.moved φ)]
    have h1 := bsEnd_moved φ optimize init { s with status := .maxIterationReached }
    have h2 := bsEnd_moved φ optimize init s
    exact if_congr Iff.rfl h1 h2
  | succ left ih =>
    intro s
    unfold bsLoop
    rw [apply_ite (BsOut.moved φ)]
    refine if_congr Iff.rfl ?_ (bsEnd_moved φ optimize init s)
    dsimp only
    have hm : (if (s.moved φ).only = true then (s.moved φ).mem else o.dir (s.moved φ).arg (s.moved φ).mem) =
        if s.only = true then s.mem else o.dir s.arg s.mem := by
      rw [show (s.moved φ).arg = φ s.arg from rfl, h.dir]
      rfl
    have hp : (if (s.moved φ).only = true then (s.moved φ).prev else (s.moved φ).n) =
        if s.only = true then s.prev else s.n := rfl
    have hsc : (s.moved φ).scaling = s.scaling := rfl
    rw [hm, hp, hsc]
    generalize (if s.only = true then s.mem else o.dir s.arg s.mem) = m0
    generalize (if optimize = true then o.scale s.scaling m0 else m0) = m
    rw [apply_ite (BsOut.moved φ)]
    refine if_congr Iff.rfl (bsEnd_moved φ optimize init { s with mem := m, status := .infeasible }) ?_
    rw [bsStep_moved h]
    rcases bsStep o thr optimize s (if s.only = true then s.prev else s.n) m with s' | ⟨a, m'⟩
    · exact ih s'
    · rfl

/-- C139. The iterations of the solver by substitution commute with the transformation, whether the solver optimizes or not. -/
theorem C139_substitution_iterations (h : o.Symmetric φ) (thr dqMin : α) (maxIter rd : Nat) (optimize last : Bool) (a : A) (m : M) :
    bsSolve o thr dqMin maxIter rd optimize last (φ a) m = (bsSolve o thr dqMin maxIter rd optimize last a m).moved φ := by
  unfold bsSolve
  rw [h.expl]
  rcases o.expl a with ⟨a0, _ | _⟩
  · rfl
  · dsimp only
    rw [h.norm, apply_ite (BsOut.moved φ)]
    refine if_congr Iff.rfl rfl ?_
    have hinit : bsInit o thr (optimize && last) (φ a0) m = (bsInit o thr (optimize && last) a0 m).moved φ := by
      unfold bsInit BsSt.moved
      simp only [h.norm, h.cost]
      by_cases hq : (optimize && last) = true ∧ ¬ 1 / 4 * thr < o.norm a0
      · rw [if_pos hq, if_pos hq]; rfl
      · rw [if_neg hq, if_neg hq]; rfl
    rw [hinit, ← bsLoop_moved h]
    congr 1
    by_cases hb : decide (o.norm a0 < thr) = true
    · rw [if_pos hb, if_pos hb]; rfl
    · rw [if_neg hb, if_neg hb]; rfl

end

/-! ## Explicit constraints -/

/-- C139. The computation of the explicit constraints commutes with a transformation that keeps them satisfied and that does not mix
the outputs with the other variables; so does its Jacobian if those of the explicit functions are unchanged. -/
theorem C139_explicit {α κ : Type} [CommSemiring α] [DecidableEq κ] {nq nv : Nat} {s : ECS α κ} (h : ECS.Built nq nv s)
    (hw : ∀ c ∈ s.cons, WellFormed nq nv c) (hcoh : AllCoherent s.cons) (hs : ∀ c ∈ s.cons, c.inV.Pairwise lexLe)
    (hl : ∀ d ∈ s.data, d.OutLen) {φ : (Nat → α) → Nat → α} (hout : ∀ q q' : Nat → α,
      (∀ i, (∀ c ∈ s.cons, ¬ Writes c i) → q' i = q i) → ∀ i, (∀ c ∈ s.cons, ¬ Writes c i) → φ q' i = φ q i)
    (hval : ∀ d ∈ s.data, ∀ q, d.Holds q → d.Holds (φ q))
    (hjac : ∀ d ∈ s.data, ∀ q, d.c.jac (rview (φ q) d.c.inQ) d.fval d.rhs = d.c.jac (rview q d.c.inQ) d.fval d.rhs) (q : Nat → α) :
    s.solve (φ q) = φ (s.solve q) ∧ s.jacobian (φ q) = s.jacobian q := by
  obtain ⟨h1, h2⟩ := (C13_solve h hw hcoh hl q _).1 rfl
  refine ⟨(C13_solve h hw hcoh hl _ _).2 ⟨fun d hd => hval d hd _ (h1 d hd), fun i hi => hout q _ h2 i hi⟩, ?_⟩
  obtain ⟨g1, -, g3⟩ := C15_jacobian h hw hcoh hs (φ q)
  refine C15_jacobian_unique h hw hcoh hs q _ g1 fun d hd => ?_
  rw [← hjac d hd]
  exact g3 d hd

/-! ## Line searches -/

/-- Specification: the line search commutes with a transformation of the configurations if the solver does. -/
def BsLineSearch.Symmetric {S : Type} (φ : (Nat → ℝ) → Nat → ℝ) (ls : BsLineSearch S) : Prop :=
  ∀ (V : Type) (env : LsEnv (Nat → ℝ) V ℝ) (slope : (Nat → ℝ) → V → ℝ), (∀ q v, env.integrate (φ q) v = φ (env.integrate q v)) →
    (∀ q, env.err (φ q) = env.err q) → (∀ q v, slope (φ q) v = slope q v) → ∀ (st : S) (q : Nat → ℝ) (u : V),
    (ls V env slope st (φ q) u).1.1 = (ls V env slope st q u).1.1 ∧
    (ls V env slope st (φ q) u).1.2.arg = φ (ls V env slope st q u).1.2.arg ∧
    (ls V env slope st (φ q) u).1.2.step = (ls V env slope st q u).1.2.step ∧
    (ls V env slope st (φ q) u).2 = (ls V env slope st q u).2

theorem btLoop_step {V : Type} (φ : (Nat → ℝ) → Nat → ℝ) (env : LsEnv (Nat → ℝ) V ℝ) (h1 : ∀ q v, env.integrate (φ q) v = φ (env.integrate q v))
    (h3 : ∀ q, env.err (φ q) = env.err q) (p : BtParam ℝ) (q : Nat → ℝ) (u : V) (f0 t : ℝ) : ∀ (fuel : Nat) (a : ℝ) (n : Nat),
    btLoop env p (φ q) u f0 t fuel a n = (btLoop env p q u f0 t fuel a n).map fun r => { r with arg := φ r.arg } := by
  intro fuel
  have hfb : ∀ n, btFallback env p (φ q) u n = { btFallback env p q u n with arg := φ (btFallback env p q u n).arg } := by
    intro n
    unfold btFallback
    simp only [h1]
  induction fuel with
  | zero =>
    intro a n
    unfold btLoop
    rw [hfb]
    split <;> rfl
  | succ fuel ih =>
    intro a n
    unfold btLoop
    simp only [h1, h3, ih, hfb]
    split
    · split <;> rfl
    · rfl

/-- C139. The line searches of the library, with explicit constraints that are defined everywhere or on a set that the transformation
does not change -/
theorem C139_line_searches (φ : (Nat → ℝ) → Nat → ℝ) (thr : ℝ) (dom : (Nat → ℝ) → Bool) (hdom : ∀ q, dom (φ q) = dom q) :
    BsLineSearch.Symmetric φ (fun V env slope st q u => (lineConstant V env slope st q u, dom (lineConstant V env slope st q u).2.arg)) ∧
    BsLineSearch.Symmetric φ (fun V env slope st q u =>
      (lineBacktracking V env slope st q u, dom (lineBacktracking V env slope st q u).2.arg)) ∧
    BsLineSearch.Symmetric φ (fun V env slope st q u =>
      (lineFixedSequence V env slope st q u, dom (lineFixedSequence V env slope st q u).2.arg)) ∧
    BsLineSearch.Symmetric φ (fun V env slope st q u =>
      (lineErrorNormBased thr V env slope st q u, dom (lineErrorNormBased thr V env slope st q u).2.arg)) := by
  obtain ⟨a1, a2, a3, a4⟩ := C137_line_searches φ thr
  refine ⟨?_, ?_, ?_, ?_⟩ <;> intro V env slope h1 h3 h4 st q u
  · obtain ⟨b1, b2⟩ := a1 V V id env env slope slope h1 (fun _ _ => rfl) h3 h4 st q u
    exact ⟨b1, b2, rfl, (congrArg dom b2).trans (hdom _)⟩
  · obtain ⟨b1, b2⟩ := a2 V V id env env slope slope h1 (fun _ _ => rfl) h3 h4 st q u
    refine ⟨b1, b2, ?_, (congrArg dom b2).trans (hdom _)⟩
    show ((backtracking env (.default ℝ) 5 (slope (φ q) u) (env.err (φ q)) (φ q) u).getD _).step =
      ((backtracking env (.default ℝ) 5 (slope q u) (env.err q) q u).getD _).step
    unfold backtracking
    dsimp only
    rw [h3, h4, btLoop_step φ env h1 h3]
    split
    · rfl
    · cases btLoop env (.default ℝ) q u (env.err q) (2 * (BtParam.default ℝ).c * slope q u) 5 1 0 <;> rfl
  · obtain ⟨b1, b2⟩ := a3 V V id env env slope slope h1 (fun _ _ => rfl) h3 h4 st q u
    exact ⟨b1, b2, rfl, (congrArg dom b2).trans (hdom _)⟩
  · obtain ⟨b1, b2⟩ := a4 V V id env env slope slope h1 (fun _ _ => rfl) h3 h4 st q u
    refine ⟨b1, b2, ?_, (congrArg dom b2).trans (hdom _)⟩
    show (st.call env (env.err (φ q)) thr (φ q) u).step = (st.call env (env.err q) thr q u).step
    rw [h3]
    rfl

/-! ## The solver -/

variable {κ S : Type}

/-- C139. The same for the solver by substitution: a transformation that changes neither the values nor the Jacobians of the implicit
constraints, and that commutes with the explicit constraints (see `C139_explicit`) and with the integration of velocities, commutes with
`solve`.  When the solver optimizes or not. -/
theorem C139_substitution [DecidableEq κ] {El : Space ℝ → List ℝ → Prop} {nq nv : Nat} {h : BHist ℝ κ}
    {s : BS ℝ κ} (hb : BS.Built El nq nv h s) (hl : BHist.Lawful El h) {R : κ → List ℝ}
    (hR : HI.RhsIs (fun f => El f.space) (implOf h) s.hi R) (hne : s.hi.lastIsOptional = true → s.hi.levels ≠ [])
    (D : Space ℝ → List ℝ → List ℝ → Nat → Nat → ℝ) {o : SvdOps ℝ} (ho : o.Exact) (hor : o.Ortho) (J0 : (Nat → ℝ) → Jac ℝ)
    {φ : (Nat → ℝ) → Nat → ℝ} (hval : ∀ e ∈ implOf h, ∀ q, e.1.fn.value (φ q) = e.1.fn.value q)
    (hjac : ∀ e ∈ implOf h, ∀ q, e.1.fn.jac (φ q) = e.1.fn.jac q)
    (hex : ∀ q, s.ex.solve (φ q) = φ (s.ex.solve q) ∧ s.ex.jacobian (φ q) = s.ex.jacobian q)
    {dom : (Nat → ℝ) → Bool} (hdom : ∀ q, dom (φ q) = dom q) {sat : (Nat → ℝ) → Nat → ℝ} (hsat : ∀ q, sat (φ q) = sat q)
    {move : (Nat → ℝ) → (Nat → ℝ) → Nat → ℝ} (hmove : ∀ q v, move (φ q) v = φ (move q v)) {ls : BsLineSearch S} (hls : ls.Symmetric φ)
    (dqMin : ℝ) (optimize : Bool) (q : Nat → ℝ) (dq dq' : Nat → ℝ) (st : S) :
    let solveFrom := fun q => bsSolve (s.fullOps D o J0 dom sat move ls) s.hi.sqThr dqMin s.hi.maxIter s.reducedDim optimize
      s.hi.lastIsOptional q (fun j => dq (hiFree s.hi j), fun j => dq' (hiFree s.hi j), st)
    (solveFrom (φ q)).arg = φ (solveFrom q).arg ∧ (solveFrom (φ q)).status = (solveFrom q).status ∧
      (solveFrom (φ q)).iter = (solveFrom q).iter := by
  obtain ⟨i1, i2⟩ := hl.impl
  obtain ⟨hs, hf, -⟩ := hb.parts.1.inv i1 i2
  have hc : SameCons (Impl.Converted (fun c c' => c' = φ c) (Equiv.refl Nat)) (implOf h) (implOf h) := by
    refine List.forall₂_same.2 fun e he => ⟨⟨⟨rfl, rfl, ?_, ?_, fun _ => Iff.rfl⟩, rfl, rfl⟩, rfl⟩
    · rintro q _ rfl
      exact hval e he q
    · rintro q _ rfl i k
      exact congrFun (congrFun (hjac e he q) i) k
  have hnorm : ∀ q, s.hi.sqNorm (φ q) = s.hi.sqNorm q := fun q => sqNorm_converted hs hf hR hs hf hR hc hne rfl rfl
    fun c c' hcc => ⟨hcc.fn.key, conError_converted _ hcc rfl⟩
  have herr : ∀ e ∈ implOf h, ∀ q r, conError s.hi.ineqThr (φ q) e.1 r = conError s.hi.ineqThr q e.1 r := by
    intro e he q r
    unfold conError
    rw [hval e he]
  have hlev : ∀ q, List.Forall₂ DLevel.Same (s.dLevels D J0 sat (φ q)) (s.dLevels D J0 sat q) := by
    intro q
    refine forall₂_of_index _ _ ?_ ?_
    · unfold BS.dLevels
      rw [List.length_map, List.length_map]
    · intro i a b ha hb1
      unfold BS.dLevels at ha hb1
      rw [List.getElem?_map] at ha hb1
      obtain ⟨l, hl1, rfl⟩ := Option.map_eq_some_iff.1 ha
      obtain ⟨l', hl2, rfl⟩ := Option.map_eq_some_iff.1 hb1
      obtain rfl : l = l' := Option.some.inj (hl1.symm.trans hl2)
      rw [hsat]
      refine C128_saturation ⟨(bs_dLevel_empty hb hl hl1 _ _).trans (bs_dLevel_empty hb hl hl1 _ _).symm, fun x => ?_⟩ _
      refine (bs_dLevel_cost hb hl hR hl1 _ _ x).trans (Eq.trans ?_ (bs_dLevel_cost hb hl hR hl1 _ _ x).symm)
      congr 1
      refine List.map_congr_left fun c hc' => ?_
      have hm := mem_atLevel.1 hc'
      refine Finset.sum_congr rfl fun r _ => ?_
      have hrow : conRow s.hi.ineqThr D (φ q) c (R c.fn.key) r = conRow s.hi.ineqThr D q c (R c.fn.key) r := by
        funext k
        unfold conRow
        rw [hval _ hm, hjac _ hm]
      have hred : ∀ row j, s.redRow (φ q) row j = s.redRow q row j := by
        intro row j
        unfold BS.redRow
        rw [(hex q).2]
      unfold BS.conCost
      rw [herr _ hm, hrow]
      simp only [hred]
  have hcost : ∀ q, (match s.hi.levels.getLast? with
      | some l => sqSum ((l.error s.hi.ineqThr (φ q)).getD [])
      | none => (0 : ℝ)) = match s.hi.levels.getLast? with
      | some l => sqSum ((l.error s.hi.ineqThr q).getD [])
      | none => 0 := by
    intro q
    rw [List.getLast?_eq_getElem?]
    cases ha : s.hi.levels[s.hi.levels.length - 1]? with
    | none => rfl
    | some l =>
      show sqSum ((l.error s.hi.ineqThr (φ q)).getD []) = sqSum ((l.error s.hi.ineqThr q).getD [])
      rw [bs_level_cost hs hf hR ha, bs_level_cost hs hf hR ha]
      congr 1
      refine List.map_congr_left fun c hc' => ?_
      rw [herr _ (mem_atLevel.1 hc')]
  have hops : (s.fullOps D o J0 dom sat move ls).Symmetric φ := by
    refine ⟨fun a => ?_, fun a => ?_, hcost, fun a m => ?_, fun a m => ?_⟩
    · show (s.ex.solve (φ a), dom (φ a)) = (φ (s.ex.solve a), dom a)
      rw [(hex a).1, hdom]
    · show (s.hi.sqNorm _).getD 0 = (s.hi.sqNorm _).getD 0
      rw [hnorm]
    · have := C128_direction ho hor ho hor s.hi.byLevel s.hi.sqThr (hlev a) m.1
      show (_, _, _) = (_, _, _)
      exact Prod.ext (congrArg (Option.getD · 0) this) (Prod.ext (congrArg (Option.getD · 0) this) rfl)
    · obtain ⟨l1, l2, l3, l4⟩ := hls _ (s.lsEnv move) (fun q u => localSlope (s.dLevels D J0 sat q) u)
        (fun q v => by
          show s.ex.solve (move (φ q) _) = φ (s.ex.solve (move q _))
          rw [hmove, (hex _).1])
        (fun q => by
          show (s.hi.sqNorm _).getD 0 = (s.hi.sqNorm _).getD 0
          rw [hnorm])
        (fun q v => C128_slope (hlev q) v) m.2.2 a m.2.1
      exact Prod.ext l2 (Prod.ext (Prod.ext rfl (Prod.ext l3 l1)) l4)
  intro solveFrom
  have key : solveFrom (φ q) = (solveFrom q).moved φ := C139_substitution_iterations hops _ _ _ _ _ _ _ _
  rw [key]
  exact ⟨rfl, rfl, rfl⟩

/-! ## A robot that holds an object -/

namespace BsSymEx

open BsR (E)

/-- `q₁ - (q₀ + q₂²)`: the object, at `q₁`, is in the gripper of the arm `q₂` of the robot, at `q₀` -/
noncomputable def fE : Fn ℝ Nat where
  key := 10
  inputSize := 3
  inputDer := 3
  spaceId := 1
  space := vectorSpace ℝ 1
  value q := [q 1 - (q 0 + q 2 ^ 2)]
  jac _ := fun _ _ => 0
  activeQ := [true, true, true]
  active := [true, true, true]

noncomputable def iE : Impl ℝ Nat := (Impl.create fE [.equalToZero] []).get rfl

noncomputable def part : EPart ℝ :=
  ⟨7, [⟨0, 1⟩, ⟨2, 1⟩], [⟨1, 1⟩], [⟨0, 1⟩, ⟨2, 1⟩], [⟨1, 1⟩], fun x r => [x.getD 0 0 + x.getD 1 0 ^ 2 + r.getD 0 0],
    fun x _ _ _ p => if p = 0 then 1 else 2 * x.getD 1 0⟩

noncomputable def cE : BCon ℝ Nat := ⟨iE, some part⟩

/-- `q₁ - q₀ - 4`: the object is at a distance 4 of the base of the robot. -/
noncomputable def fI : Fn ℝ Nat where
  key := 11
  inputSize := 3
  inputDer := 3
  spaceId := 1
  space := vectorSpace ℝ 1
  value q := [q 1 - q 0 - 4]
  jac _ := fun _ k => if k = 1 then 1 else if k = 0 then -1 else 0
  activeQ := [true, true, false]
  active := [true, true, false]

noncomputable def iI : Impl ℝ Nat := (Impl.create fI [.equalToZero] []).get rfl
noncomputable def cI : BCon ℝ Nat := ⟨iI, none⟩

noncomputable def s0 : BS ℝ Nat := (((BS.init ℝ Nat 3 3 1).add 20 cE 0).1.add 20 cI 0).1

noncomputable def s : BS ℝ Nat := { s0 with
  hi := { s0.hi with sqThr := 1 / 10 ^ 8, ineqThr := 0, maxIter := 20, lastIsOptional := false, byLevel := false }
  ex := { s0.ex with threshold := 1 / 10 ^ 4 } }

noncomputable def hist : BHist ℝ Nat := [(cE, 0, true), (cI, 0, false)]

theorem s_built : BS.Built E 3 3 hist s :=
  .params _ _ _ _ _ _ (.add (h := [(cE, 0, true)]) (s := ((BS.init ℝ Nat 3 3 1).add 20 cE 0).1) (c := cI) (p := 0) (fuel := 20) (junk := [])
    (.add (h := []) (s := BS.init ℝ Nat 3 3 1) (c := cE) (p := 0) (fuel := 20) (junk := []) (.init 1)
      ⟨fE, [], [.equalToZero], .create _ _ rfl⟩ (Prod.ext rfl rfl))
    ⟨fI, [], [.equalToZero], .create _ _ rfl⟩ (Prod.ext rfl rfl))

theorem s_lawful : BHist.Lawful E hist where
  law := by
    intro e he
    simp only [hist, List.mem_cons, List.not_mem_nil, or_false] at he
    rcases he with rfl | rfl <;> exact vectorSpace_lawful 1
  val := by
    intro e he q
    simp only [hist, List.mem_cons, List.not_mem_nil, or_false] at he
    rcases he with rfl | rfl <;> rfl

theorem s_impl : implOf hist = [(iI, 0)] := rfl

theorem s_rhs : HI.RhsIs (fun f => E f.space) (implOf hist) s.hi fun _ => [0] where
  el := by
    intro e he
    simp only [s_impl, List.mem_cons, List.not_mem_nil, or_false] at he
    rcases he with rfl
    rfl
  eq := by
    intro i l hi
    have h0 : i < 1 := lt_of_getElem?_some (l := s.hi.levels) hi
    obtain rfl : i = 0 := by omega
    obtain rfl : (s.hi.levels[0]?).get rfl = l := Option.some.inj ((Option.some_get _).trans hi)
    rfl

theorem s_data : s.ex.data = [EData.new (part.econ iE) []] := rfl
theorem s_cons : s.ex.cons = [part.econ iE] := rfl

theorem s_wf : ∀ c ∈ s.ex.cons, WellFormed 3 3 c := by
  rw [s_cons]
  intro c hc
  obtain rfl := List.mem_singleton.1 hc
  refine ⟨⟨⟨1, 1⟩, rfl, by decide⟩, ⟨⟨1, 1⟩, rfl, by decide⟩, ?_, ?_⟩ <;> intro i h <;>
    simp [Reads, ReadsV, EPart.econ, part, Seg.Has] at h <;> omega

theorem s_vec : ∀ c ∈ s.ex.cons, c.inV = c.inQ ∧ c.outV = c.outQ := by
  rw [s_cons]
  intro c hc
  obtain rfl := List.mem_singleton.1 hc
  exact ⟨rfl, rfl⟩

/-- The robot and the object are moved by `a`. -/
noncomputable def shift (a : ℝ) (q : Nat → ℝ) : Nat → ℝ := fun k => q k + if k ≤ 1 then a else 0

theorem s_explicit (a : ℝ) (q : Nat → ℝ) :
    s.ex.solve (shift a q) = shift a (s.ex.solve q) ∧ s.ex.jacobian (shift a q) = s.ex.jacobian q := by
  refine C139_explicit s_built.parts.2.1 s_wf (coherent_of_vec s_vec) ?_ ?_ ?_ ?_ ?_ q
  · rw [s_cons]
    intro c hc
    obtain rfl := List.mem_singleton.1 hc
    exact (by decide : [(⟨0, 1⟩ : Seg), ⟨2, 1⟩].Pairwise lexLe)
  · rw [s_data]
    intro d hd
    obtain rfl := List.mem_singleton.1 hd
    intro x
    rfl
  · intro q q' h i hi
    unfold shift
    rw [h i hi]
  · rw [s_data]
    intro d hd q h
    obtain rfl := List.mem_singleton.1 hd
    have h' : [q 1] = [q 0 + q 2 ^ 2 + 0] := h
    have h1 : q 1 = q 0 + q 2 ^ 2 + 0 := List.head_eq_of_cons_eq h'
    show [shift a q 1] = [shift a q 0 + shift a q 2 ^ 2 + 0]
    simp only [shift]
    norm_num
    rw [h1]
    ring
  · rw [s_data]
    intro d hd q
    obtain rfl := List.mem_singleton.1 hd
    funext _ p
    show (if p = 0 then 1 else 2 * shift a q 2) = if p = 0 then 1 else 2 * q 2
    simp [shift]

/-- From a configuration with the robot and the object moved by `a` the solver returns the result moved by `a`. -/
example (o : SvdOps ℝ) (ho : o.Exact) (hor : o.Ortho) (J0 : (Nat → ℝ) → Jac ℝ) (q : Nat → ℝ) (a : ℝ) (optimize : Bool) :
    let solveFrom := fun q => bsSolve (s.fullOps HINewtonEx.D o J0 (fun _ => true) (fun _ _ => 0) (fun q v i => q i + v i)
      fun V env slope st q u => (lineBacktracking V env slope st q u, true)) s.hi.sqThr (1 / 10 ^ 12) s.hi.maxIter s.reducedDim
      optimize s.hi.lastIsOptional q (fun _ => 0, fun _ => 0, ())
    (solveFrom (shift a q)).arg = shift a (solveFrom q).arg :=
  (C139_substitution s_built s_lawful s_rhs (fun h => by cases h) HINewtonEx.D ho hor J0 (φ := shift a)
    (fun e he q => by
      simp only [s_impl, List.mem_cons, List.not_mem_nil, or_false] at he
      obtain rfl := he
      show [shift a q 1 - shift a q 0 - 4] = [q 1 - q 0 - 4]
      simp [shift])
    (fun e he q => by
      simp only [s_impl, List.mem_cons, List.not_mem_nil, or_false] at he
      obtain rfl := he
      rfl)
    (s_explicit a) (dom := fun _ => true) (fun _ => rfl) (sat := fun _ _ => 0) (fun _ => rfl) (move := fun q v i => q i + v i)
    (fun q v => by funext k; exact add_right_comm _ _ _) (C139_line_searches (shift a) 1 (fun _ => true) fun _ => rfl).2.1
    (1 / 10 ^ 12) optimize q (fun _ => 0) (fun _ => 0) ()).1

end BsSymEx

end Hpp
