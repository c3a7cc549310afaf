import Verif.Solve.VarUnits
import Verif.HI.NumberProps
import Verif.HI.BudgetEx

/-!
# C140. The unit of the configuration variables: solver

Sources: `/repo/include/hpp/constraints/solver/impl/hierarchical-iterative.hh`, lines 39-181 and
`/repo/src/solver/hierarchical-iterative.cc`, lines 364-407, 623-672, 694-719 and 744-828.
-/

namespace Hpp

open Matrix

variable {κ A A' S : Type}

/-- Specification: the same function of configurations the variables of which are given in other units: `Q` relates the descriptions of
the same configuration, the velocity `v` of variable `k` in the first description is `c k * v` in the second one. -/
structure Fn.InUnits (Q : (Nat → ℝ) → (Nat → ℝ) → Prop) (c : Nat → ℝ) (f f' : Fn ℝ κ) : Prop where
  key : f'.key = f.key
  space : f'.space = f.space
  value : ∀ q q' : Nat → ℝ, Q q q' → f'.value q' = f.value q
  jac : ∀ q q' : Nat → ℝ, Q q q' → ∀ i k, f'.jac q' i k * c k = f.jac q i k
  active : f'.active = f.active

/-- Specification: the same constraint on that function -/
structure Impl.InUnits (Q : (Nat → ℝ) → (Nat → ℝ) → Prop) (c : Nat → ℝ) (i i' : Impl ℝ κ) : Prop where
  fn : i.fn.InUnits Q c i'.fn
  comp : i'.comp = i.comp
  mask : i'.mask = i.mask

section
variable {Q : (Nat → ℝ) → (Nat → ℝ) → Prop} {c : Nat → ℝ}

theorem dependsOnFree_units (l : Segs) {i i' : Impl ℝ κ} (hi : i.InUnits Q c i') : dependsOnFree l i' = dependsOnFree l i := by
  unfold dependsOnFree
  rw [hi.fn.active]

theorem conError_units (thr : ℝ) {i i' : Impl ℝ κ} (hi : i.InUnits Q c i') {q q' : Nat → ℝ} (hq : Q q q')
    (r : List ℝ) : conError thr q' i' r = conError thr q i r := by
  unfold conError
  rw [hi.comp, hi.mask, hi.fn.space, hi.fn.value q q' hq]

variable {D : Space ℝ → List ℝ → List ℝ → Nat → Nat → ℝ}

theorem conRow_units (thr : ℝ) {i i' : Impl ℝ κ} (hi : i.InUnits Q c i') {q q' : Nat → ℝ} (hq : Q q q')
    (rhs : List ℝ) (r k : Nat) : conRow thr D q' i' rhs r k * c k = conRow thr D q i rhs r k := by
  unfold conRow
  rw [hi.comp, hi.fn.space, hi.fn.value q q' hq]
  split
  · rw [zero_mul]
  · rw [Finset.sum_mul]
    refine Finset.sum_congr rfl fun j _ => ?_
    rw [mul_assoc, hi.fn.jac q q' hq]

theorem conCost_units (l : Segs) (thr : ℝ) {i i' : Impl ℝ κ} (hi : i.InUnits Q c i') {q q' : Nat → ℝ} (hq : Q q q') (rhs : List ℝ) (r : Nat)
    (x : Fin (indices l).length → ℝ) :
    conCost l thr D q' (fun j => c ((indices l).getD j 0) * x j) rhs i' r = conCost l thr D q x rhs i r := by
  unfold conCost
  rw [dependsOnFree_units l hi, hi.mask, conError_units thr hi hq]
  have : ∑ j : Fin (indices l).length, conRow thr D q' i' rhs r ((indices l).getD j 0) * (c ((indices l).getD j 0) * x j) =
      ∑ j : Fin (indices l).length, conRow thr D q i rhs r ((indices l).getD j 0) * x j := by
    refine Finset.sum_congr rfl fun j _ => ?_
    rw [← mul_assoc, conRow_units thr hi hq]
  rw [this]

end

/-- C140. Two solvers into which the same constraints have been inserted with the same priorities, with the variables in two systems of
units (`φ` converts the configurations, `c k` the velocities) and the same parameters and right hand sides: if at all
configurations the linearised constraints determine the velocities of the variables that they read, and if no run ends because the
squared norm of a step is below `dqMin`, then the results are the same configuration, with the same status after the same number of iterations.
With saturation and optional level, whatever the matrices of the levels held, and with the line searches of `C137_line_searches`. -/
theorem C140_units_partial [DecidableEq κ] {El : Fn ℝ κ → List ℝ → Prop} {Q : (Nat → ℝ) → (Nat → ℝ) → Prop} {c : Nat → ℝ} (hpos : ∀ k, 0 < c k)
    {nv nv' : Nat} {h h' : List (Impl ℝ κ × Nat)} {s s' : HI ℝ κ} (hb : HI.Built El nv h s) (hb' : HI.Built El nv' h' s')
    (hc : SameCons (Impl.InUnits Q c) h h')
    (hl : ∀ e ∈ h, e.1.fn.space.Lawful (El e.1.fn)) (hv : ∀ e ∈ h, ∀ q, El e.1.fn (e.1.fn.value q))
    (hl' : ∀ e ∈ h', e.1.fn.space.Lawful (El e.1.fn)) (hv' : ∀ e ∈ h', ∀ q, El e.1.fn (e.1.fn.value q))
    (hopt : s.SameOptions s') (hfree : (indices s.free.segs).Nodup) (hby : s.byLevel = false)
    {R : κ → List ℝ} (hR : HI.RhsIs El h s R) (hR' : HI.RhsIs El h' s' R)
    (hne : s.lastIsOptional = true → s.levels ≠ []) (D : Space ℝ → List ℝ → List ℝ → Nat → Nat → ℝ) {o o' : SvdOps ℝ}
    (ho : o.Exact) (hor : o.Ortho) (ho' : o'.Exact) (hor' : o'.Ortho) {φ : A → A'} (J0 : A → Jac ℝ) (J0' : A' → Jac ℝ)
    {conf : A → Nat → ℝ} {conf' : A' → Nat → ℝ} (hconf : ∀ q, Q (conf q) (conf' (φ q)))
    {sat : A → Nat → ℝ} {sat' : A' → Nat → ℝ} (hsat : ∀ q, sat' (φ q) = sat q)
    {move : A → (Nat → ℝ) → A} {move' : A' → (Nat → ℝ) → A'} (hmove : ∀ q v, move' (φ q) (fun k => c k * v k) = φ (move q v))
    (hfst : ∀ q, FirstLevel (s.dLevels D J0 conf sat q)) (hdet : ∀ q, Determined (s.dLevels D J0 conf sat q))
    {ls : LineSearch A S} {ls' : LineSearch A' S} (hls : LineSearch.SameFor φ ls ls') (dqMin dqMin' : ℝ) (q : A) (dq : Nat → ℝ) (st : S) :
    let r := solve (s.fullOps D o J0 conf sat move ls) s.sqThr dqMin s.maxIter s.reducedDim q (fun j => dq (hiFree s j), st)
    let r' := solve (s'.fullOps D o' J0' conf' sat' move' ls') s'.sqThr dqMin' s'.maxIter s'.reducedDim (φ q)
      (fun j => c (hiFree s' j) * dq (hiFree s' j), st)
    r.status ≠ some .infeasible → r'.status ≠ some .infeasible →
    r'.arg = φ r.arg ∧ r'.status = r.status ∧ r'.iter = r.iter := by
  obtain ⟨hs, hf, -⟩ := hb.inv hl hv
  obtain ⟨hs', hf', -⟩ := hb'.inv hl' hv'
  have hlen := levels_length_converted hs hs' hc
  obtain ⟨h0, h1, h2, h3, h4, h5⟩ := hopt
  have hnorm : ∀ q, s'.sqNorm (conf' (φ q)) = s.sqNorm (conf q) :=
    fun q => sqNorm_converted hs hf hR hs' hf' hR' hc hne h2 h4
      fun c c' hcc => ⟨hcc.fn.key, conError_units _ hcc (hconf q)⟩
  have hdim : s'.reducedDim = s.reducedDim := by
    rw [C23_reduced_dimension hb hl hv, C23_reduced_dimension hb' hl' hv', h0]
    clear hb hb' hR hR' hs hs' hf hf' hl hl' hv hv' hfst hdet
    induction hc with
    | nil => rfl
    | cons hab _ ih =>
      rw [List.map_cons, List.map_cons, List.sum_cons, List.sum_cons, ih, dependsOnFree_units _ hab.1, hab.1.mask]
  obtain ⟨s'', rfl⟩ : ∃ s'', s' = { s'' with free := s.free } := ⟨s', by rw [← h0]⟩
  have hcn : ∀ j : Fin (indices s.free.segs).length, c (hiFree s j) ≠ 0 := fun j => (hpos _).ne'
  have hlev : ∀ q, List.Forall₂ (DLevel.InUnits (n := (indices s.free.segs).length) fun j => c (hiFree s j)) (s.dLevels D J0 conf sat q)
      (HI.dLevels { s'' with free := s.free } D J0' conf' sat' (φ q)) := by
    intro q
    refine forall₂_of_index _ _ ?_ ?_
    · unfold HI.dLevels
      rw [List.length_map, List.length_map]
      exact hlen.symm
    · intro i a b ha hb1
      unfold HI.dLevels at ha hb1
      rw [List.getElem?_map] at ha hb1
      obtain ⟨l, hl1, rfl⟩ := Option.map_eq_some_iff.1 ha
      obtain ⟨l', hl2, rfl⟩ := Option.map_eq_some_iff.1 hb1
      have hat := atLevel_converted hc i
      rw [hsat]
      refine C140_saturation (fun j => hpos _) ⟨?_, fun x => ?_⟩ _
      · refine (dLevel_empty hb hl hv hl1 _ _).trans (Iff.trans ?_ (dLevel_empty hb' hl' hv' hl2 _ _).symm)
        clear hl1 hl2 ha hb1
        generalize atLevel h i = k at hat
        generalize atLevel h' i = k' at hat
        induction hat with
        | nil => simp
        | cons hab _ ih =>
          rw [List.forall_mem_cons, List.forall_mem_cons, ih, dependsOnFree_units _ hab, hab.mask]
      · refine (dLevel_cost hb' hl' hv' hR' hl2 _ _ _).trans (Eq.trans ?_ (dLevel_cost hb hl hv hR hl1 _ _ x).symm)
        refine sum_forall₂ (P := Impl.InUnits Q c) (fun k k' hcc => ?_) hat
        rw [hcc.fn.space, hcc.fn.key, h2]
        exact Finset.sum_congr rfl fun r _ => conCost_units _ _ hcc (hconf q) _ _ _
  have hinj : Function.Injective (hiFree s) := by
    intro j j' hjj
    unfold hiFree at hjj
    rw [List.getD_eq_getElem?_getD, List.getElem?_eq_getElem j.2, List.getD_eq_getElem?_getD, List.getElem?_eq_getElem j'.2] at hjj
    exact Fin.ext ((List.Nodup.getElem_inj_iff hfree).1 hjj)
  have hexp : ∀ (v : Fin (indices s.free.segs).length → ℝ) k,
      expand (hiFree s) (fun j => c (hiFree s j) * v j) (fun _ => 0) k = c k * expand (hiFree s) v (fun _ => 0) k := by
    intro v k
    by_cases hk : ∃ j, hiFree s j = k
    · obtain ⟨j, rfl⟩ := hk
      rw [expand_mem _ hinj, expand_mem _ hinj]
    · push Not at hk
      rw [expand_notMem _ _ _ _ hk, expand_notMem _ _ _ _ hk, mul_zero]
  intro r r' g g'
  have key : r' = (fun r => ⟨φ r.arg, (fun j => c (hiFree s j) * r.mem.1 j, r.mem.2), r.iter, r.status⟩ :
      SolveOut A ((Fin (indices s.free.segs).length → ℝ) × S) → SolveOut A' ((Fin (indices s.free.segs).length → ℝ) × S)) r := by
    dsimp only at h1 h3 hdim
    have e : r' = solve (HI.fullOps { s'' with free := s.free } D o' J0' conf' sat' move' ls') s.sqThr dqMin' s.maxIter s.reducedDim (φ q)
      ((fun m : (Fin (indices s.free.segs).length → ℝ) × S => (fun j => c (hiFree s j) * m.1 j, m.2)) (fun j => dq (hiFree s j), st)) := by
      show solve _ s''.sqThr dqMin' s''.maxIter s''.reducedDim _ _ = _
      rw [h1, h3, hdim]
      rfl
    rw [e] at g' ⊢
    refine C140_iterations φ (fun m : (Fin (indices s.free.segs).length → ℝ) × S => (fun j => c (hiFree s j) * m.1 j, m.2)) ?_ ?_ ?_ _ _ _ _ _ _ _ g g'
    · intro a
      show (HI.sqNorm _ _).getD 0 = (s.sqNorm _).getD 0
      rw [hnorm]
    · intro a m
      have hdd : (descend o' s''.byLevel s''.sqThr (HI.dLevels { s'' with free := s.free } D J0' conf' sat' (φ a)) fun j => c (hiFree s j) * m.1 j).getD 0 =
          fun j => c (hiFree s j) * (descend o s.byLevel s.sqThr (s.dLevels D J0 conf sat a) m.1).getD 0 j := by
        dsimp only at h5
        rw [h5, hby]
        refine (congrArg (fun d : Option (Fin (indices s.free.segs).length → ℝ) => d.getD 0)
          (C140_direction (n := (indices s.free.segs).length) ho hor ho' hor' s.sqThr s''.sqThr hcn (hfst a) (hdet a) (hlev a) m.1 _)).trans ?_
        cases descend o false s.sqThr (s.dLevels D J0 conf sat a) m.1
        · funext j; exact (mul_zero _).symm
        · rfl
      exact Prod.ext hdd rfl
    · intro a m
      obtain ⟨l1, l2⟩ := hls _ _ (fun (v : Fin (indices s.free.segs).length → ℝ) j => c (hiFree s j) * v j) (s.lsEnv conf move)
        (HI.lsEnv { s'' with free := s.free } conf' move')
        (fun q u => localSlope (s.dLevels D J0 conf sat q) u) (fun q u => localSlope (HI.dLevels { s'' with free := s.free } D J0' conf' sat' q) u)
        (fun q v => by
          show move' (φ q) (expand (hiFree s) (fun j => c (hiFree s j) * v j) fun _ => 0) = φ (move q (expand (hiFree s) v fun _ => 0))
          rw [← hmove]
          congr 1
          funext k
          exact hexp v k)
        (fun a v => by
          funext j
          show a * (c (hiFree s j) * v j) = c (hiFree s j) * (a * v j)
          ring)
        (fun q => by
          show (HI.sqNorm _ _).getD 0 = (s.sqNorm _).getD 0
          rw [hnorm])
        (fun q v => C140_slope (hlev q) v) m.2 a m.1
      exact Prod.ext l2 (Prod.ext rfl l1)
  rw [key]
  exact ⟨rfl, rfl, rfl⟩

namespace UnitsEx
open HINewtonEx (El D)
open ByLevelEx (con1 con2 hist sol_lawful sol_values err1 err2 row_eq)

/-- `q₀ / a - 1`: `q₀` is in a unit that is `a` times smaller. -/
noncomputable def fn1 (a : ℝ) : Fn ℝ Nat where
  key := 0
  inputSize := 2
  inputDer := 2
  spaceId := 1
  space := vectorSpace ℝ 1
  value q := [q 0 / a - 1]
  jac _ := fun _ k => if k = 0 then 1 / a else 0
  activeQ := [true, false]
  active := [true, false]

/-- `q₁ - 3 (1 - q₀ / a)²` -/
noncomputable def fn2 (a : ℝ) : Fn ℝ Nat where
  key := 1
  inputSize := 2
  inputDer := 2
  spaceId := 1
  space := vectorSpace ℝ 1
  value q := [q 1 - 3 * (1 - q 0 / a) ^ 2]
  jac q := fun _ k => if k = 0 then 6 * (1 - q 0 / a) / a else if k = 1 then 1 else 0
  activeQ := [true, true]
  active := [true, true]

noncomputable def con1' (a : ℝ) : Impl ℝ Nat := (Impl.create (fn1 a) [.equalToZero] []).get rfl
noncomputable def con2' (a : ℝ) : Impl ℝ Nat := (Impl.create (fn2 a) [.equalToZero] []).get rfl

/-- The solver of `ByLevelEx`, with 20 iterations and not level by level -/
noncomputable def sol0 : HI ℝ Nat :=
  { (((HI.init ℝ Nat 2).add con1 0).1.add con2 1).1.setFreeIndices (Blocks.empty.add 0 2) with
    sqThr := 1 / 10 ^ 8, ineqThr := 0, maxIter := 20, lastIsOptional := false, byLevel := false }

noncomputable def sol (a : ℝ) : HI ℝ Nat :=
  { (((HI.init ℝ Nat 2).add (con1' a) 0).1.add (con2' a) 1).1.setFreeIndices (Blocks.empty.add 0 2) with
    sqThr := 1 / 10 ^ 8, ineqThr := 0, maxIter := 20, lastIsOptional := false, byLevel := false }

noncomputable def hist' (a : ℝ) : List (Impl ℝ Nat × Nat) := [(con1' a, 0), (con2' a, 1)]

theorem built0 : HI.Built El 2 hist sol0 :=
  .params _ _ _ _ _ (.free (.add (h := [(con1, 0)]) (.add (h := []) .init
    ⟨ByLevelEx.fn1, [], [.equalToZero], .create _ _ (Option.some_get _).symm⟩ (Prod.ext rfl rfl))
    ⟨ByLevelEx.fn2, [], [.equalToZero], .create _ _ (Option.some_get _).symm⟩ (Prod.ext rfl rfl)))

theorem built (a : ℝ) : HI.Built El 2 (hist' a) (sol a) :=
  .params _ _ _ _ _ (.free (.add (h := [(con1' a, 0)]) (.add (h := []) .init
    ⟨fn1 a, [], [.equalToZero], .create _ _ (Option.some_get _).symm⟩ (Prod.ext rfl rfl))
    ⟨fn2 a, [], [.equalToZero], .create _ _ (Option.some_get _).symm⟩ (Prod.ext rfl rfl)))

theorem law' (a : ℝ) {e : Impl ℝ Nat × Nat} (he : e ∈ hist' a) : e.1.fn.space.Lawful (El e.1.fn) ∧ ∀ q, El e.1.fn (e.1.fn.value q) := by
  simp only [hist', List.mem_cons, List.not_mem_nil, or_false] at he
  rcases he with rfl | rfl <;> exact ⟨vectorSpace_lawful 1, fun _ => rfl⟩

theorem rhs0 : HI.RhsIs El hist sol0 fun _ => [0] where
  el := (ByLevelEx.sol_rhs 0).el
  eq := by
    intro i l hi
    have h0 : i < 2 := lt_of_getElem?_some (l := sol0.levels) hi
    interval_cases i
    · obtain rfl : (sol0.levels[0]?).get rfl = l := Option.some.inj ((Option.some_get _).trans hi)
      rfl
    · obtain rfl : (sol0.levels[1]?).get rfl = l := Option.some.inj ((Option.some_get _).trans hi)
      rfl

theorem rhs' (a : ℝ) : HI.RhsIs El (hist' a) (sol a) fun _ => [0] where
  el := by
    intro e he
    simp only [hist', List.mem_cons, List.not_mem_nil, or_false] at he
    rcases he with rfl | rfl <;> rfl
  eq := by
    intro i l hi
    have h0 : i < 2 := lt_of_getElem?_some (l := (sol a).levels) hi
    interval_cases i
    · obtain rfl : ((sol a).levels[0]?).get rfl = l := Option.some.inj ((Option.some_get _).trans hi)
      rfl
    · obtain rfl : ((sol a).levels[1]?).get rfl = l := Option.some.inj ((Option.some_get _).trans hi)
      rfl

theorem cost1 (J0 : Jac ℝ) (q : Nat → ℝ) {l : Level ℝ Nat} (hl : sol0.levels[0]? = some l) (x : Fin 2 → ℝ) :
    (sol0.dLevel D J0 q l).cost x = (x 0 + (q 0 - 1)) * (x 0 + (q 0 - 1)) := by
  refine (dLevel_cost built0 sol_lawful sol_values rhs0 hl _ _ _).trans ?_
  have e : atLevel hist 0 = [con1] := rfl
  rw [e, List.map_singleton, List.sum_singleton]
  show ∑ r ∈ Finset.range 1, conCost sol0.free.segs 0 D q x [0] con1 r = _
  rw [Finset.sum_range_one]
  unfold conCost
  rw [if_pos ⟨rfl, rfl⟩]
  simp only [row_eq (Or.inl rfl), err1]
  have h2 : ∀ f : Fin 2 → ℝ, ∑ j : Fin (indices sol0.free.segs).length, f j = f 0 + f 1 := fun f => Fin.sum_univ_two f
  rw [h2 fun j => con1.fn.jac q 0 ((indices sol0.free.segs).getD j 0) * x j]
  show (1 * x 0 + 0 * x 1 + (q 0 - 1)) * (1 * x 0 + 0 * x 1 + (q 0 - 1)) = _
  ring

theorem cost2 (J0 : Jac ℝ) (q : Nat → ℝ) {l : Level ℝ Nat} (hl : sol0.levels[1]? = some l) (x : Fin 2 → ℝ) :
    (sol0.dLevel D J0 q l).cost x = (6 * (1 - q 0) * x 0 + x 1 + (q 1 - 3 * (1 - q 0) ^ 2)) * (6 * (1 - q 0) * x 0 + x 1 + (q 1 - 3 * (1 - q 0) ^ 2)) := by
  refine (dLevel_cost built0 sol_lawful sol_values rhs0 hl _ _ _).trans ?_
  have e : atLevel hist 1 = [con2] := rfl
  rw [e, List.map_singleton, List.sum_singleton]
  show ∑ r ∈ Finset.range 1, conCost sol0.free.segs 0 D q x [0] con2 r = _
  rw [Finset.sum_range_one]
  unfold conCost
  rw [if_pos ⟨rfl, rfl⟩]
  simp only [row_eq (Or.inr rfl), err2]
  have h2 : ∀ f : Fin 2 → ℝ, ∑ j : Fin (indices sol0.free.segs).length, f j = f 0 + f 1 := fun f => Fin.sum_univ_two f
  rw [h2 fun j => con2.fn.jac q 0 ((indices sol0.free.segs).getD j 0) * x j]
  show (6 * (1 - q 0) * x 0 + 1 * x 1 + (q 1 - 3 * (1 - q 0) ^ 2)) * (6 * (1 - q 0) * x 0 + 1 * x 1 + (q 1 - 3 * (1 - q 0) ^ 2)) = _
  ring

/-- The linearised constraints determine both velocities, at all configurations. -/
theorem det0 (J0 : (Nat → ℝ) → Jac ℝ) (q : Nat → ℝ) : Determined (sol0.dLevels D J0 id (fun _ _ => 0) q) := by
  intro (v : Fin 2 → ℝ) hv
  have hz : ∀ d : DLevel ℝ (indices sol0.free.segs).length, satLevel (fun _ => 0) d = d := fun d => by
    unfold satLevel
    simp
  have hc : ∀ (i : Nat) (l : Level ℝ Nat), sol0.levels[i]? = some l → ∀ x : Fin 2 → ℝ,
      (sol0.dLevel D (J0 q) q l).cost (x + v) = (sol0.dLevel D (J0 q) q l).cost x := by
    intro i l hl x
    have h1 := hv (sol0.dLevel D (J0 q) q l) (by
      unfold HI.dLevels
      refine List.mem_map.2 ⟨l, List.mem_of_getElem? hl, ?_⟩
      exact hz _)
    unfold DLevel.cost
    refine (congrArg (fun w => (w + _) ⬝ᵥ (w + _)) ?_)
    refine (mulVec_add _ _ _).trans ?_
    rw [h1, add_zero]
  have h0 : v (0 : Fin 2) = 0 := by
    obtain ⟨l, hl⟩ : ∃ l, sol0.levels[0]? = some l := ⟨_, rfl⟩
    have e1 := (cost1 (J0 q) q hl (0 + v)).symm.trans ((hc 0 l hl 0).trans (cost1 (J0 q) q hl 0))
    have e2 := (cost1 (J0 q) q hl (1 + v)).symm.trans ((hc 0 l hl 1).trans (cost1 (J0 q) q hl 1))
    have e1' : (0 + v (0 : Fin 2) + (q 0 - 1)) * (0 + v (0 : Fin 2) + (q 0 - 1)) = (0 + (q 0 - 1)) * (0 + (q 0 - 1)) := e1
    have e2' : (1 + v (0 : Fin 2) + (q 0 - 1)) * (1 + v (0 : Fin 2) + (q 0 - 1)) = (1 + (q 0 - 1)) * (1 + (q 0 - 1)) := e2
    linarith
  have h1 : v (1 : Fin 2) = 0 := by
    obtain ⟨l, hl⟩ : ∃ l, sol0.levels[1]? = some l := ⟨_, rfl⟩
    have e1 := (cost2 (J0 q) q hl (0 + v)).symm.trans ((hc 1 l hl 0).trans (cost2 (J0 q) q hl 0))
    have e2 := (cost2 (J0 q) q hl (![0, 1] + v)).symm.trans ((hc 1 l hl ![0, 1]).trans (cost2 (J0 q) q hl ![0, 1]))
    generalize q 1 - 3 * (1 - q 0) ^ 2 = t at e1 e2
    have e1' : (6 * (1 - q 0) * (0 + v (0 : Fin 2)) + (0 + v (1 : Fin 2)) + t) * (6 * (1 - q 0) * (0 + v (0 : Fin 2)) + (0 + v (1 : Fin 2)) + t) =
        (6 * (1 - q 0) * 0 + 0 + t) * (6 * (1 - q 0) * 0 + 0 + t) := e1
    have e2' : (6 * (1 - q 0) * (0 + v (0 : Fin 2)) + (1 + v (1 : Fin 2)) + t) * (6 * (1 - q 0) * (0 + v (0 : Fin 2)) + (1 + v (1 : Fin 2)) + t) =
        (6 * (1 - q 0) * 0 + 1 + t) * (6 * (1 - q 0) * 0 + 1 + t) := e2
    rw [h0] at e1' e2'
    linarith
  intro j hj
  exfalso
  apply hj
  have : ∀ j : Fin 2, v j = 0 := by
    intro j
    fin_cases j
    · exact h0
    · exact h1
  exact this j

theorem first0 (J0 : (Nat → ℝ) → Jac ℝ) (q : Nat → ℝ) : FirstLevel (sol0.dLevels D J0 id (fun _ _ => 0) q) := by
  obtain ⟨l, hl⟩ : ∃ l, sol0.levels[0]? = some l := ⟨_, rfl⟩
  refine ⟨_, _, rfl, Or.inr ?_⟩
  have := dLevel_empty (D := D) built0 sol_lawful sol_values hl (J0 q) q
  intro h
  obtain rfl : _ = l := Option.some.inj hl
  exact absurd (this.1 h con1 (List.mem_singleton.2 rfl) rfl) fun h => h (List.mem_singleton.2 rfl)

/-- Unit of the velocities -/
noncomputable def cv (a : ℝ) (k : Nat) : ℝ := if k = 0 then a else 1

theorem conUnits {a : ℝ} (ha : 0 < a) : SameCons (Impl.InUnits (fun q q' => q' = fun k => cv a k * q k) (cv a)) hist (hist' a) := by
  refine .cons ⟨⟨⟨rfl, rfl, ?_, ?_, rfl⟩, rfl, rfl⟩, rfl⟩ (.cons ⟨⟨⟨rfl, rfl, ?_, ?_, rfl⟩, rfl, rfl⟩, rfl⟩ .nil)
  · rintro q _ rfl
    show [(if (0 : Nat) = 0 then a else 1) * q 0 / a - 1] = [q 0 - 1]
    rw [if_pos rfl, mul_div_cancel_left₀ _ ha.ne']
  · rintro q _ rfl i k
    show (if k = 0 then 1 / a else 0) * (if k = 0 then a else 1) = if k = 0 then (1 : ℝ) else 0
    split
    · rw [one_div_mul_cancel ha.ne']
    · rw [zero_mul]
  · rintro q _ rfl
    show [(if (1 : Nat) = 0 then a else 1) * q 1 - 3 * (1 - (if (0 : Nat) = 0 then a else 1) * q 0 / a) ^ 2] = [q 1 - 3 * (1 - q 0) ^ 2]
    rw [if_pos rfl, if_neg one_ne_zero, mul_div_cancel_left₀ _ ha.ne', one_mul]
  · rintro q _ rfl i k
    show (if k = 0 then 6 * (1 - (if (0 : Nat) = 0 then a else 1) * q 0 / a) / a else if k = 1 then 1 else 0) * (if k = 0 then a else 1) =
      if k = 0 then 6 * (1 - q 0) else if k = 1 then (1 : ℝ) else 0
    rw [if_pos rfl, mul_div_cancel_left₀ _ ha.ne']
    split
    · rw [div_mul_cancel₀ _ ha.ne']
    · rw [mul_one]

/-- The unit of `q₀` does not matter, with backtracking, from any configuration. -/
example {a : ℝ} (ha : 0 < a) (o o' : SvdOps ℝ) (ho : o.Exact) (hor : o.Ortho) (ho' : o'.Exact) (hor' : o'.Ortho) (J0 J0' : (Nat → ℝ) → Jac ℝ)
    (q : Nat → ℝ) :
    let r := solve (sol0.fullOps D o J0 id (fun _ _ => 0) (fun q v i => q i + v i) lineBacktracking) sol0.sqThr (1 / 10 ^ 12)
      sol0.maxIter sol0.reducedDim q (fun _ => 0, ())
    let r' := solve ((sol a).fullOps D o' J0' id (fun _ _ => 0) (fun q v i => q i + v i) lineBacktracking) (sol a).sqThr (1 / 10 ^ 12)
      (sol a).maxIter (sol a).reducedDim (fun k => cv a k * q k) (fun j => cv a (hiFree (sol a) j) * 0, ())
    r.status ≠ some .infeasible → r'.status ≠ some .infeasible → r'.arg = fun k => cv a k * r.arg k := fun h h' =>
  (C140_units_partial (φ := fun (q : Nat → ℝ) k => cv a k * q k) (c := cv a) (fun k => by unfold cv; split <;> [exact ha; exact one_pos])
    built0 (built a) (conUnits ha) sol_lawful sol_values (fun e he => (law' a he).1) (fun e he => (law' a he).2)
    ⟨rfl, rfl, rfl, rfl, rfl, rfl⟩ (by decide : [0, 1].Nodup) rfl rhs0 (rhs' a) (fun h => by cases h) D ho hor ho' hor' J0 J0'
    (conf := id) (conf' := id) (fun q => rfl) (sat := fun _ _ => 0) (sat' := fun _ _ => 0) (fun _ => rfl)
    (move := fun q v i => q i + v i) (move' := fun q v i => q i + v i) (fun q v => by funext k; exact (mul_add _ _ _).symm)
    (first0 J0) (det0 J0) (C137_line_searches _ 1).2.1 (1 / 10 ^ 12) (1 / 10 ^ 12) q (fun _ => 0) () h h').1

/-! ## Short steps -/

/-- `q₀ / a = 1` only, at most 5 iterations -/
noncomputable def solS (a : ℝ) : HI ℝ Nat :=
  { ((HI.init ℝ Nat 2).add (con1' a) 0).1.setFreeIndices (Blocks.empty.add 0 1) with
    sqThr := 1 / 10 ^ 8, ineqThr := 0, maxIter := 5, lastIsOptional := false, byLevel := false }

theorem builtS (a : ℝ) : HI.Built El 2 [(con1' a, 0)] (solS a) :=
  .params _ _ _ _ _ (.free (.add (h := []) .init
    ⟨fn1 a, [], [.equalToZero], .create _ _ (Option.some_get _).symm⟩ (Prod.ext rfl rfl)))

theorem lawS (a : ℝ) {e : Impl ℝ Nat × Nat} (he : e ∈ [(con1' a, 0)]) : e.1.fn.space.Lawful (El e.1.fn) ∧ ∀ q, El e.1.fn (e.1.fn.value q) := by
  obtain rfl := List.mem_singleton.1 he
  exact ⟨vectorSpace_lawful 1, fun _ => rfl⟩

theorem rhsS (a : ℝ) : HI.RhsIs El [(con1' a, 0)] (solS a) fun _ => [0] where
  el := by
    intro e he
    obtain rfl := List.mem_singleton.1 he
    rfl
  eq := by
    intro i l hi
    have h0 : i < 1 := lt_of_getElem?_some (l := (solS a).levels) hi
    obtain rfl : i = 0 := by omega
    obtain rfl : ((solS a).levels[0]?).get rfl = l := Option.some.inj ((Option.some_get _).trans hi)
    rfl

theorem errS (a : ℝ) (q : Nat → ℝ) : conError 0 q (con1' a) [0] = [q 0 / a - 1] := by
  show [q 0 / a - 1 - 0] = _
  rw [sub_zero]

theorem normS (a : ℝ) (q : Nat → ℝ) : (solS a).sqNorm q = some (max 0 ((q 0 / a - 1) * (q 0 / a - 1))) := by
  obtain ⟨hs, hf, -⟩ := (builtS a).inv (fun e he => (lawS a he).1) fun e he => (lawS a he).2
  rw [solver_sqNorm_eq hs hf (rhsS a) (fun h => by cases h)]
  have e : ((List.range (solS a).nMandatory).flatMap (atLevel [(con1' a, 0)])) = [con1' a] := rfl
  rw [e]
  show some (max 0 (sqSum (conError 0 q (con1' a) [0]))) = _
  rw [errS]
  simp [sqSum]

/-- The level at the configuration 0 -/
noncomputable def levS (a : ℝ) : DLevel ℝ 1 := ⟨1, fun _ _ => 1 / a, fun _ => -1⟩

theorem levS_apply (a : ℝ) (x : Fin 1 → ℝ) : (levS a).J *ᵥ x + (levS a).e = (fun _ => x 0 / a - 1 : Fin 1 → ℝ) := by
  funext i
  show (∑ j : Fin 1, 1 / a * x j) + -1 = x 0 / a - 1
  rw [Fin.sum_univ_one]
  ring

theorem sameS (a : ℝ) (J0 : Jac ℝ) {l : Level ℝ Nat} (hl : (solS a).levels[0]? = some l) :
    DLevel.Same ((solS a).dLevel D J0 (fun _ => 0) l) (levS a) := by
  have h1 : ∀ e ∈ [(con1' a, 0)], e.1.fn.space.Lawful (El e.1.fn) := fun e he => (lawS a he).1
  have h2 : ∀ e ∈ [(con1' a, 0)], ∀ q, El e.1.fn (e.1.fn.value q) := fun e he => (lawS a he).2
  refine ⟨(dLevel_empty (builtS a) h1 h2 hl _ _).trans ?_, fun (x : Fin 1 → ℝ) => ?_⟩
  · refine ⟨fun h => absurd (h (con1' a) (by exact List.mem_singleton.2 rfl) rfl) ?_, fun h => by cases h⟩
    exact fun h => h (List.mem_singleton.2 rfl)
  · refine (dLevel_cost (builtS a) h1 h2 (rhsS a) hl _ _ _).trans ?_
    have e : atLevel [(con1' a, 0)] 0 = [con1' a] := rfl
    rw [e, List.map_singleton, List.sum_singleton]
    show ∑ r ∈ Finset.range 1, conCost (solS a).free.segs 0 D (fun _ => 0) x [0] (con1' a) r = _
    rw [Finset.sum_range_one]
    unfold conCost
    have hrow : ∀ k, conRow 0 D (fun _ => 0) (con1' a) [0] 0 k = if k = 0 then 1 / a else 0 := by
      intro k
      unfold conRow
      rw [if_neg (by
        show ¬ InsideLimit .equalToZero _ _
        intro hx
        simp [InsideLimit] at hx)]
      show ∑ j ∈ Finset.range 1, (if 0 = j then (1 : ℝ) else 0) * (if k = 0 then 1 / a else 0) = _
      simp
    rw [if_pos ⟨rfl, rfl⟩]
    simp only [hrow, errS]
    have h3 : ∀ f : Fin 1 → ℝ, ∑ j : Fin (indices (solS a).free.segs).length, f j = f 0 := fun f => Fin.sum_univ_one f
    rw [h3 fun j => (if (indices (solS a).free.segs).getD j 0 = 0 then 1 / a else 0) * x j]
    have h4 : (levS a).cost x = (x 0 / a - 1) * (x 0 / a - 1) := by
      unfold DLevel.cost
      rw [levS_apply]
      exact Fin.sum_univ_one fun _ => (x 0 / a - 1) * (x 0 / a - 1)
    refine Eq.trans ?_ h4.symm
    show (1 / a * x 0 + (0 / a - 1)) * (1 / a * x 0 + (0 / a - 1)) = _
    ring

/-- The first direction -/
theorem dirS {o : SvdOps ℝ} (ho : o.Exact) (hor : o.Ortho) {a : ℝ} (ha : 0 < a) (J0 : (Nat → ℝ) → Jac ℝ) (dq : Fin 1 → ℝ) :
    ((solS a).fullOps D o J0 id (fun _ _ => 0) (fun q v i => q i + v i) lineConstant).dir (fun _ => 0) (dq, ()) = ((fun _ => a, ()), a * a) := by
  have hd : descend o false (1 / 10 ^ 8) ((solS a).dLevels D J0 id (fun _ _ => 0) fun _ => 0) dq = descend o false (1 / 10 ^ 8) [levS a] dq := by
    have hf : List.Forall₂ (DLevel.Same (n := (indices (solS a).free.segs).length))
        ((solS a).dLevels D J0 id (fun _ _ => 0) fun _ => 0) ([levS a] : List (DLevel ℝ 1)) := ?_
    · exact C128_direction (n := 1) ho hor ho hor false _ hf dq
    refine forall₂_of_index _ _ rfl ?_
    intro i u b hu hb
    unfold HI.dLevels at hu
    rw [List.getElem?_map] at hu
    obtain ⟨l, hl, rfl⟩ := Option.map_eq_some_iff.1 hu
    have hi : i < 1 := lt_of_getElem?_some hb
    have hz : ∀ d : DLevel ℝ (indices (solS a).free.segs).length, satLevel (fun _ => 0) d = d := fun d => by
      unfold satLevel
      simp
    rw [hz]
    obtain rfl : i = 0 := by omega
    obtain rfl := Option.some.inj hb
    exact sameS a _ hl
  have hcan : ∀ x : Fin 1 → ℝ, Cancels [levS a] x ↔ x = fun _ => a := by
    intro x
    unfold Cancels
    rw [List.forall_mem_singleton, levS_apply]
    constructor
    · intro h
      have h1 : x 0 / a - 1 = 0 := congrFun (β := fun _ : Fin 1 => ℝ) h 0
      have h2 : x 0 = a := by
        rw [sub_eq_zero, div_eq_one_iff_eq ha.ne'] at h1
        exact h1
      funext i
      rw [Subsingleton.elim i 0, h2]
    · rintro rfl
      funext i
      show a / a - 1 = 0
      rw [div_self ha.ne', sub_self]
  have hdir : descend o false (1 / 10 ^ 8) [levS a] dq = some fun _ => a := by
    obtain ⟨-, r, hr, h1, -⟩ := C132_solutions o o ho hor ho hor (1 / 10 ^ 8) (1 / 10 ^ 8) [levS a] [levS a] ⟨_, _, rfl, Or.inl rfl⟩
      ⟨_, _, rfl, Or.inl rfl⟩ ⟨_, (hcan _).2 rfl⟩ (fun _ => Iff.rfl) dq dq
    rw [hr, (hcan r).1 h1]
  rw [hdir] at hd
  refine (congrArg (fun d : Option (Fin 1 → ℝ) => ((d.getD 0, ()), d.getD 0 ⬝ᵥ d.getD 0)) hd).trans ?_
  refine Prod.ext rfl ?_
  exact Fin.sum_univ_one fun _ : Fin 1 => a * a

end UnitsEx

open UnitsEx in
/-- C140. The test on the norm of the step depends on the units: `q₀ = 1` is solved in one iteration from 0; with `q₀` in a unit that is
10000000 times larger the constraint is not satisfied and the solver reports that it is not feasible. -/
theorem C140_status_refuted (o : SvdOps ℝ) (ho : o.Exact) (hor : o.Ortho) (J0 : (Nat → ℝ) → Jac ℝ) (dq : Fin 1 → ℝ) :
    let run := fun a => solve ((solS a).fullOps HINewtonEx.D o J0 id (fun _ _ => 0) (fun q v i => q i + v i) lineConstant)
      (solS a).sqThr (1 / 10 ^ 12) (solS a).maxIter (solS a).reducedDim (fun _ => 0) (dq, ())
    (run 1).status = some .success ∧ (run 1).iter = 1 ∧ (run (1 / 10 ^ 7)).status = some .infeasible ∧ (run (1 / 10 ^ 7)).iter = 0 := by
  intro run
  have h0 : ∀ a, ((solS a).fullOps HINewtonEx.D o J0 id (fun _ _ => 0) (fun q v i => q i + v i) lineConstant).norm (fun _ => 0) = 1 := by
    intro a
    show ((solS a).sqNorm fun _ => 0).getD 0 = 1
    rw [normS, Option.getD_some]
    norm_num
  have hrun : ∀ a, run a = solveLoop ((solS a).fullOps HINewtonEx.D o J0 id (fun _ _ => 0) (fun q v i => q i + v i) lineConstant)
      (1 / 10 ^ 8) (1 / 10 ^ 12) 5 0 3 none (fun _ => 0) (dq, ()) 1 none := by
    intro a
    show solve _ (1 / 10 ^ 8) _ 5 1 _ _ = _
    unfold solve
    rw [h0 a]
    dsimp only
    rw [if_neg (by simp)]
  have h1 : run 1 = ⟨fun i => 0 + expand (hiFree (solS 1)) (fun _ => (1 : ℝ)) (fun _ => 0) i, (fun _ => 1, ()), 1, some .success⟩ := by
    rw [hrun]
    unfold solveLoop
    rw [if_pos ⟨by norm_num, by decide⟩, dirS ho hor one_pos]
    dsimp only
    rw [if_neg (by norm_num)]
    have hn : ((solS 1).fullOps HINewtonEx.D o J0 id (fun _ _ => 0) (fun q v i => q i + v i) lineConstant).norm
        (((solS 1).fullOps HINewtonEx.D o J0 id (fun _ _ => 0) (fun q v i => q i + v i) lineConstant).search (fun _ => 0)
          (fun _ => (1 : ℝ), ())).1 = 0 := by
      show ((solS 1).sqNorm fun i => 0 + expand (hiFree (solS 1)) (fun _ => (1 : ℝ)) (fun _ => 0) i).getD 0 = 0
      rw [normS, Option.getD_some]
      have : expand (hiFree (solS 1)) (fun _ => (1 : ℝ)) (fun _ => 0) 0 = 1 := rfl
      rw [this]
      norm_num
    rw [hn]
    unfold solveLoop
    rw [if_neg (by norm_num)]
    have he : solveEnd (1 / 10 ^ 8 : ℝ) 0 (4 : Nat) none = some .success := by
      unfold solveEnd
      norm_num
    show (⟨_, _, 1, solveEnd (1 / 10 ^ 8 : ℝ) 0 4 none⟩ : SolveOut _ _) = _
    rw [he]
    rfl
  have h2 : run (1 / 10 ^ 7) = ⟨fun _ => 0, (fun _ => 1 / 10 ^ 7, ()), 0, some .infeasible⟩ := by
    rw [hrun]
    unfold solveLoop
    rw [if_pos ⟨by norm_num, by decide⟩, dirS ho hor (by norm_num)]
    dsimp only
    rw [if_pos (by norm_num)]
    have he : solveEnd (1 / 10 ^ 8 : ℝ) 1 5 (some .infeasible) = some .infeasible := by
      unfold solveEnd
      norm_num
    rw [he]
  rw [h1, h2]
  exact ⟨rfl, rfl, rfl, rfl⟩

end Hpp
