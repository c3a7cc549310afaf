import Verif.Solve.UnitProps

/-!
# C135. Change of unit

Sources: `/repo/include/hpp/constraints/solver/impl/hierarchical-iterative.hh`, lines 39-181 and
`/repo/src/solver/hierarchical-iterative.cc`, lines 623-672, 694-719 and 744-828.
-/

namespace Hpp

open Matrix

variable {κ A S : Type}

/-- Specification: the function whose values are expressed in another unit: values and Jacobian multiplied by `c`. -/
noncomputable def Fn.inUnit (c : ℝ) (f : Fn ℝ κ) : Fn ℝ κ :=
  { f with value := fun q => (f.value q).map (c * ·), jac := fun q i k => c * f.jac q i k }

/-- Specification: the same constraint on that function: same comparison types, same mask. -/
noncomputable def Impl.inUnit (c : ℝ) (k : Impl ℝ κ) : Impl ℝ κ := { k with fn := k.fn.inUnit c }

/-- Specification: the values of the function are vectors. -/
structure Fn.VectorValued (f : Fn ℝ κ) : Prop where
  space : f.space = vectorSpace ℝ f.space.nv
  value : ∀ q, (f.value q).length = f.space.nv

/-- Specification: the second solver has the parameters of the first one, with thresholds converted. -/
structure HI.OptionsInUnit (c : ℝ) (s s' : HI ℝ κ) : Prop where
  free : s'.free = s.free
  sqThr : s'.sqThr = c * c * s.sqThr
  ineqThr : s'.ineqThr = c * s.ineqThr
  maxIter : s'.maxIter = s.maxIter
  lastIsOptional : s'.lastIsOptional = s.lastIsOptional
  byLevel : s'.byLevel = s.byLevel

/-- Values that belong to the space -/
def vecEl (f : Fn ℝ κ) (v : List ℝ) : Prop := v.length = f.space.nv

theorem Fn.VectorValued.lawful {f : Fn ℝ κ} (h : f.VectorValued) : f.space.Lawful (vecEl f) := by
  have := vectorSpace_lawful (α := ℝ) f.space.nv
  rw [← h.space] at this
  exact this

theorem Fn.VectorValued.inUnit {f : Fn ℝ κ} (h : f.VectorValued) (c : ℝ) : (f.inUnit c).VectorValued :=
  ⟨h.space, fun q => (List.length_map ..).trans (h.value q)⟩

section
variable {c : ℝ} (hc : 0 < c)

theorem sub_unit {f : Fn ℝ κ} (h : f.VectorValued) (q : Nat → ℝ) (r : List ℝ) :
    (f.inUnit c).space.sub ((f.inUnit c).value q) (r.map (c * ·)) = (f.space.sub (f.value q) r).map (c * ·) := by
  show f.space.sub ((f.value q).map (c * ·)) _ = _
  rw [h.space]
  show List.zipWith _ _ _ = (List.zipWith _ _ _).map _
  rw [List.zipWith_map_left, List.zipWith_map_right, List.map_zipWith]
  congr 1
  funext a b
  exact (mul_sub c a b).symm

theorem getD_unit (l : List ℝ) (r : Nat) : (l.map (c * ·)).getD r 0 = c * l.getD r 0 := by
  rw [List.getD_eq_getElem?_getD, List.getD_eq_getElem?_getD, List.getElem?_map]
  cases l[r]? with
  | none => exact (mul_zero c).symm
  | some x => rfl

include hc in
theorem comparedError_unit (t : Comp) (thr x : ℝ) : comparedError t (c * thr) (c * x) = c * comparedError t thr x := by
  unfold comparedError
  cases t with
  | superior => simp only [mul_le_mul_iff_right₀ hc, ← mul_sub, mul_ite, mul_zero]
  | inferior => simp only [← mul_neg, mul_le_mul_iff_right₀ hc, ← mul_add, mul_ite, mul_zero]
  | equality => rfl
  | equalToZero => rfl

include hc in
theorem insideLimit_unit (t : Comp) (thr x : ℝ) : InsideLimit t (c * thr) (c * x) ↔ InsideLimit t thr x := by
  unfold InsideLimit
  rw [← mul_neg, mul_le_mul_iff_right₀ hc, mul_le_mul_iff_right₀ hc]

include hc in
theorem conError_unit {k : Impl ℝ κ} (h : k.fn.VectorValued) (thr : ℝ) (q : Nat → ℝ) (r : List ℝ) :
    conError (c * thr) q (k.inUnit c) (r.map (c * ·)) = (conError thr q k r).map (c * ·) := by
  unfold conError
  show List.zipWith (fun t x => comparedError t (c * thr) x) k.comp
    (maskBy k.mask ((k.fn.inUnit c).space.sub ((k.fn.inUnit c).value q) (r.map (c * ·)))) = _
  rw [sub_unit h]
  generalize k.fn.space.sub (k.fn.value q) r = e
  have hm : maskBy k.mask (e.map (c * ·)) = (maskBy k.mask e).map (c * ·) := by
    unfold maskBy
    rw [List.zipWith_map_right, List.map_zipWith]
    congr 1
    funext b x
    simp only [mul_ite, mul_zero]
  rw [hm, List.zipWith_map_right, List.map_zipWith]
  congr 1
  funext t x
  exact comparedError_unit hc t thr x

variable {D : Space ℝ → List ℝ → List ℝ → Nat → Nat → ℝ}

include hc in
theorem conRow_unit (hD : ∀ n r v i j, D (vectorSpace ℝ n) r v i j = if i = j then 1 else 0) {k : Impl ℝ κ} (h : k.fn.VectorValued)
    (thr : ℝ) (q : Nat → ℝ) (rhs : List ℝ) (r j : Nat) :
    conRow (c * thr) D q (k.inUnit c) (rhs.map (c * ·)) r j = c * conRow thr D q k rhs r j := by
  unfold conRow
  have hD' : ∀ r v i j, D k.fn.space r v i j = if i = j then 1 else 0 := by
    intro r v i j
    rw [h.space]
    exact hD _ _ _ _ _
  have h1 : InsideLimit ((k.inUnit c).comp.getD r .equality) (c * thr)
      (((k.inUnit c).fn.space.sub ((k.inUnit c).fn.value q) (rhs.map (c * ·))).getD r 0) ↔
      InsideLimit (k.comp.getD r .equality) thr ((k.fn.space.sub (k.fn.value q) rhs).getD r 0) := by
    show InsideLimit (k.comp.getD r .equality) (c * thr)
      (((k.fn.inUnit c).space.sub ((k.fn.inUnit c).value q) (rhs.map (c * ·))).getD r 0) ↔ _
    rw [sub_unit h, getD_unit]
    exact insideLimit_unit hc _ _ _
  by_cases h2 : InsideLimit (k.comp.getD r .equality) thr ((k.fn.space.sub (k.fn.value q) rhs).getD r 0)
  · rw [if_pos h2, if_pos (h1.2 h2), mul_zero]
  · rw [if_neg h2, if_neg (mt h1.1 h2), Finset.mul_sum]
    refine Finset.sum_congr rfl fun i _ => ?_
    show D k.fn.space _ _ r i * (c * k.fn.jac q i j) = _
    rw [hD', hD']
    ring

include hc in
theorem conCost_unit (hD : ∀ n r v i j, D (vectorSpace ℝ n) r v i j = if i = j then 1 else 0) {k : Impl ℝ κ} (h : k.fn.VectorValued)
    (free : Segs) (thr : ℝ) (q : Nat → ℝ) (x : Fin (indices free).length → ℝ) (rhs : List ℝ) (r : Nat) :
    conCost free (c * thr) D q x (rhs.map (c * ·)) (k.inUnit c) r = c * c * conCost free thr D q x rhs k r := by
  unfold conCost
  simp only [conRow_unit hc hD h, conError_unit hc h, getD_unit]
  have hs : ∑ j : Fin (indices free).length, c * conRow thr D q k rhs r ((indices free).getD j 0) * x j =
      c * ∑ j : Fin (indices free).length, conRow thr D q k rhs r ((indices free).getD j 0) * x j := by
    rw [Finset.mul_sum]
    exact Finset.sum_congr rfl fun j _ => mul_assoc _ _ _
  rw [hs, mul_ite, mul_zero]
  refine if_congr Iff.rfl ?_ rfl
  ring

theorem sqSum_unit (l : List ℝ) : sqSum (l.map (c * ·)) = c * c * sqSum l := by
  unfold sqSum
  rw [List.foldl_map]
  have key : ∀ (l : List ℝ) (a : ℝ), l.foldl (fun s x => s + c * x * (c * x)) (c * c * a) =
      c * c * l.foldl (fun s x => s + x * x) a := by
    intro l
    induction l with
    | nil => intro a; rfl
    | cons x l ih =>
      intro a
      rw [List.foldl_cons, List.foldl_cons, ← ih]
      congr 1
      ring
  have := key l 0
  rwa [mul_zero] at this

theorem atLevel_unit (h : List (Impl ℝ κ × Nat)) (i : Nat) :
    atLevel (h.map fun e => (e.1.inUnit c, e.2)) i = (atLevel h i).map (Impl.inUnit c) := by
  unfold atLevel
  rw [List.filter_map, List.map_map, List.map_map]
  rfl

include hc in
theorem sqNorm_unit [DecidableEq κ] {El : Fn ℝ κ → List ℝ → Prop} {h : List (Impl ℝ κ × Nat)} {s s' : HI ℝ κ} {R : κ → List ℝ} (hs : HI.Inv h s)
    (hf : FnsOk El h) (hR : HI.RhsIs El h s R) (hs' : HI.Inv (h.map fun e => (e.1.inUnit c, e.2)) s')
    (hf' : FnsOk El (h.map fun e => (e.1.inUnit c, e.2)))
    (hR' : HI.RhsIs El (h.map fun e => (e.1.inUnit c, e.2)) s' fun k => (R k).map (c * ·))
    (hv : ∀ e ∈ h, e.1.fn.VectorValued) (hlen : s'.levels.length = s.levels.length)
    (hne : s.lastIsOptional = true → s.levels ≠ []) (hi : s'.ineqThr = c * s.ineqThr)
    (ho : s'.lastIsOptional = s.lastIsOptional) (q : Nat → ℝ) :
    (s'.sqNorm q).getD 0 = c * c * (s.sqNorm q).getD 0 := by
  have hne' : s'.lastIsOptional = true → s'.levels ≠ [] := by
    rw [ho]
    intro h1 h2
    apply hne h1
    rw [h2] at hlen
    exact List.length_eq_zero_iff.1 hlen.symm
  rw [solver_sqNorm_eq hs hf hR hne, solver_sqNorm_eq hs' hf' hR' hne', Option.getD_some, Option.getD_some]
  have hn : s'.nMandatory = s.nMandatory := by
    unfold HI.nMandatory
    rw [ho, hlen]
  rw [hn]
  have hfl : (List.range s.nMandatory).flatMap (atLevel (h.map fun e => (e.1.inUnit c, e.2))) =
      ((List.range s.nMandatory).flatMap (atLevel h)).map (Impl.inUnit c) := by
    rw [List.map_flatMap]
    congr 1
    funext i
    exact atLevel_unit h i
  rw [hfl, List.foldl_map, hi]
  have hmem : ∀ k ∈ (List.range s.nMandatory).flatMap (atLevel h), k.fn.VectorValued := by
    intro k hk
    obtain ⟨i, -, hk⟩ := List.mem_flatMap.1 hk
    exact hv _ (mem_atLevel.1 hk)
  generalize (List.range s.nMandatory).flatMap (atLevel h) = L at hmem
  have key : ∀ (L : List (Impl ℝ κ)) (a : ℝ), (∀ k ∈ L, k.fn.VectorValued) →
      L.foldl (fun m k => max m (sqSum (conError (c * s.ineqThr) q (k.inUnit c) ((R (k.inUnit c).fn.key).map (c * ·))))) (c * c * a) =
      c * c * L.foldl (fun m k => max m (sqSum (conError s.ineqThr q k (R k.fn.key)))) a := by
    intro L
    induction L with
    | nil => intro a _; rfl
    | cons k L ih =>
      intro a hk
      rw [List.foldl_cons, List.foldl_cons, ← ih _ fun k hk' => hk k (List.mem_cons_of_mem _ hk')]
      congr 1
      show max _ (sqSum (conError _ q _ ((R k.fn.key).map (c * ·)))) = _
      rw [conError_unit hc (hk k List.mem_cons_self), sqSum_unit, mul_max_of_nonneg _ _ (mul_pos hc hc).le]
  have := key L 0 hmem
  rwa [mul_zero] at this

theorem levels_length_unit [DecidableEq κ] {h : List (Impl ℝ κ × Nat)} {s s' : HI ℝ κ} (hs : HI.Inv h s)
    (hs' : HI.Inv (h.map fun e => (e.1.inUnit c, e.2)) s') : s'.levels.length = s.levels.length := by
  refine Nat.le_antisymm ?_ ?_
  · rcases hs'.nlev_min with h0 | ⟨e, he, hee⟩
    · omega
    · obtain ⟨e0, he0, rfl⟩ := List.mem_map.1 he
      have := hs.nlev e0 he0
      dsimp only at hee
      omega
  · rcases hs.nlev_min with h0 | ⟨e, he, hee⟩
    · omega
    · have := hs'.nlev _ (List.mem_map_of_mem he)
      dsimp only at this
      omega

end

/-- C135. Two solvers into which the same constraints have been inserted, expressed in two units, with the same priorities and the same
right hand sides: if the error threshold and the inequality threshold of the second one are expressed in its unit, both
return the same configuration and the same status after the same number of iterations.  With saturation, optional level and
`solveLevelByLevel` or not, whatever the matrices of the levels held, and with line searches that agree up to the unit (see
`C135_line_searches`). -/
theorem C135_unit [DecidableEq κ] {c : ℝ} (hc : 0 < c) {nv nv' : Nat} {h : List (Impl ℝ κ × Nat)} {s s' : HI ℝ κ}
    (hb : HI.Built vecEl nv h s) (hb' : HI.Built vecEl nv' (h.map fun e => (e.1.inUnit c, e.2)) s')
    (hvec : ∀ e ∈ h, e.1.fn.VectorValued) (hopt : s.OptionsInUnit c s') {R : κ → List ℝ} (hR : HI.RhsIs vecEl h s R)
    (hR' : HI.RhsIs vecEl (h.map fun e => (e.1.inUnit c, e.2)) s' fun k => (R k).map (c * ·))
    (hne : s.lastIsOptional = true → s.levels ≠ []) {D : Space ℝ → List ℝ → List ℝ → Nat → Nat → ℝ}
    (hD : ∀ n r v i j, D (vectorSpace ℝ n) r v i j = if i = j then 1 else 0) {o o' : SvdOps ℝ}
    (ho : o.Exact) (hor : o.Ortho) (ho' : o'.Exact) (hor' : o'.Ortho) (J0 J0' : A → Jac ℝ) (conf : A → Nat → ℝ)
    (sat : A → Nat → ℝ) (move : A → (Nat → ℝ) → A) {ls ls' : LineSearch A S} (hls : ls.SameUpTo (c * c) ls') (dqMin : ℝ)
    (q : A) (dq : Nat → ℝ) (st : S) :
    let r := solve (s.fullOps D o J0 conf sat move ls) s.sqThr dqMin s.maxIter s.reducedDim q (fun j => dq (hiFree s j), st)
    let r' := solve (s'.fullOps D o' J0' conf sat move ls') s'.sqThr dqMin s'.maxIter s'.reducedDim q
      (fun j => dq (hiFree s' j), st)
    r'.arg = r.arg ∧ r'.status = r.status ∧ r'.iter = r.iter := by
  have hl : ∀ e ∈ h, e.1.fn.space.Lawful (vecEl e.1.fn) := fun e he => (hvec e he).lawful
  have hv : ∀ e ∈ h, ∀ q, vecEl e.1.fn (e.1.fn.value q) := fun e he => (hvec e he).value
  have hvec' : ∀ e ∈ h.map (fun e => (e.1.inUnit c, e.2)), e.1.fn.VectorValued := by
    intro e he
    obtain ⟨e0, he0, rfl⟩ := List.mem_map.1 he
    exact (hvec e0 he0).inUnit c
  have hl' : ∀ e ∈ h.map (fun e => (e.1.inUnit c, e.2)), e.1.fn.space.Lawful (vecEl e.1.fn) := fun e he => (hvec' e he).lawful
  have hv' : ∀ e ∈ h.map (fun e => (e.1.inUnit c, e.2)), ∀ q, vecEl e.1.fn (e.1.fn.value q) := fun e he => (hvec' e he).value
  obtain ⟨hs, hf, -⟩ := hb.inv hl hv
  obtain ⟨hs', hf', -⟩ := hb'.inv hl' hv'
  have hlen := levels_length_unit hs hs'
  obtain ⟨hfree, h1, h2, h3, h4, h5⟩ := hopt
  obtain ⟨s'', rfl⟩ : ∃ s'', s' = { s'' with free := s.free } := ⟨s', by rw [← hfree]⟩
  have hnorm : ∀ q, (HI.sqNorm { s'' with free := s.free } q).getD 0 = c * c * (s.sqNorm q).getD 0 :=
    fun q => sqNorm_unit hc hs hf hR hs' hf' hR' hvec hlen hne h2 h4 q
  have hdim : (HI.reducedDim { s'' with free := s.free }) = s.reducedDim := by
    rw [C23_reduced_dimension hb hl hv, C23_reduced_dimension hb' hl' hv', List.map_map]
    rfl
  have hlev : ∀ q, List.Forall₂ (DLevel.SameUpTo c) (s.dLevels D J0 conf sat q)
      (HI.dLevels { s'' with free := s.free } D J0' conf sat q) := by
    intro q
    refine forall₂_of_index _ _ ?_ ?_
    · unfold HI.dLevels
      rw [List.length_map, List.length_map]
      exact hlen.symm
    · intro i a b ha hb1
      unfold HI.dLevels at ha hb1
      rw [List.getElem?_map] at ha hb1
      obtain ⟨l, hl1, rfl⟩ := Option.map_eq_some_iff.1 ha
      obtain ⟨l', hl2, rfl⟩ := Option.map_eq_some_iff.1 hb1
      refine C135_saturation hc ⟨?_, fun x => ?_⟩ _
      · refine (dLevel_empty hb hl hv hl1 _ _).trans (Iff.trans ?_ (dLevel_empty hb' hl' hv' hl2 (J0' q) (conf q)).symm)
        rw [atLevel_unit, List.forall_mem_map]
        rfl
      · refine (dLevel_cost hb' hl' hv' hR' hl2 (J0' q) (conf q) x).trans ?_
        rw [dLevel_cost hb hl hv hR hl1 (J0 q) (conf q) x]
        have h2' : s''.ineqThr = c * s.ineqThr := h2
        rw [atLevel_unit, List.map_map, ← List.sum_map_mul_left]
        congr 1
        refine List.map_congr_left fun k hk => ?_
        rw [Finset.mul_sum]
        refine Finset.sum_congr rfl fun r _ => ?_
        show conCost s.free.segs s''.ineqThr D (conf q) x ((R k.fn.key).map (c * ·)) (k.inUnit c) r = _
        rw [h2']
        exact conCost_unit hc hD (hvec _ (mem_atLevel.1 hk)) _ _ _ _ _ _
  have h1' : s''.sqThr = c * c * s.sqThr := h1
  have h3' : s''.maxIter = s.maxIter := h3
  have h5' : s''.byLevel = s.byLevel := h5
  have hd : ∀ q (v : Fin (indices s.free.segs).length → ℝ),
      descend o' s''.byLevel s''.sqThr (HI.dLevels { s'' with free := s.free } D J0' conf sat q) v =
      descend o s.byLevel s.sqThr (s.dLevels D J0 conf sat q) v := by
    intro q v
    rw [h1', h5']
    exact (C135_direction ho hor ho' hor' s.byLevel hc s.sqThr (hlev q) v).symm
  have hpar : ∀ (ops : Ops A ((Fin (indices s.free.segs).length → ℝ) × S) ℝ) m, solve ops s''.sqThr dqMin s''.maxIter s''.reducedDim q m =
      solve ops (c * c * s.sqThr) dqMin s.maxIter s.reducedDim q m := by
    intro ops m
    rw [show s''.reducedDim = s.reducedDim from hdim, h1', h3']
  intro r r'
  have : r' = r := by
    show solve (HI.fullOps { s'' with free := s.free } D o' J0' conf sat move ls') s''.sqThr dqMin s''.maxIter
      (HI.reducedDim { s'' with free := s.free }) q (fun j => dq (hiFree s j), st) = r
    refine (hpar _ _).trans ?_
    refine C135_iterations (mul_pos hc hc) ?_ ?_ ?_ _ _ _ _ _ _
    · exact fun a => hnorm _
    · funext a m
      unfold HI.fullOps
      dsimp only
      rw [hd]
    · funext a m
      unfold HI.fullOps
      dsimp only
      have henv : HI.lsEnv { s'' with free := s.free } conf move =
          { s.lsEnv conf move with err := fun q => c * c * (s.lsEnv conf move).err q } := by
        unfold HI.lsEnv
        simp only [hnorm]
        rfl
      have hslope : (fun q u => localSlope (HI.dLevels { s'' with free := s.free } D J0' conf sat q) u) =
          fun q u => c * c * localSlope (s.dLevels D J0 conf sat q) u := by
        funext q u
        exact C135_slope hc (hlev q) u
      rw [henv, hslope]
      rw [hls _ (s.lsEnv conf move) (fun q u => localSlope (s.dLevels D J0 conf sat q) u) m.2 a m.1]
  rw [this]
  exact ⟨rfl, rfl, rfl⟩

namespace UnitEx
open HINewtonEx OrderEx

/-- The solver of `OrderEx` with errors a thousand times larger -/
noncomputable def sol1' : HI ℝ Nat :=
  { (((HI.init ℝ Nat 2).add (con.inUnit 1000) 0).1.add (con2.inUnit 1000) 0).1.setFreeIndices (Blocks.empty.add 0 2) with
    sqThr := 1000 * 1000 * (1 / 10 ^ 8), ineqThr := 1000 * 0, maxIter := 20, lastIsOptional := false, byLevel := false }

theorem built1V : HI.Built vecEl 2 [(con, 0), (con2, 0)] sol1 :=
  .params _ _ _ _ _ (.free (.add (h := [(con, 0)]) (.add (h := []) .init
    ⟨fn, [], [.equality], .create _ _ (Option.some_get _).symm⟩ (Prod.ext rfl rfl))
    ⟨fn2, [], [.inferior], .create _ _ (Option.some_get _).symm⟩ (Prod.ext rfl rfl)))

theorem built1' : HI.Built vecEl 2 [(con.inUnit 1000, 0), (con2.inUnit 1000, 0)] sol1' :=
  .params _ _ _ _ _ (.free (.add (h := [(con.inUnit 1000, 0)]) (.add (h := []) .init
    ⟨fn.inUnit 1000, [], [.equality], .create _ _ rfl⟩ (Prod.ext rfl rfl))
    ⟨fn2.inUnit 1000, [], [.inferior], .create _ _ rfl⟩ (Prod.ext rfl rfl)))

theorem rhs1V : HI.RhsIs vecEl [(con, 0), (con2, 0)] sol1 fun _ => [0] := ⟨fun e he => by
  simp only [List.mem_cons, List.not_mem_nil, or_false] at he
  rcases he with rfl | rfl <;> rfl, rhs1.eq⟩

theorem rhs1' : HI.RhsIs vecEl [(con.inUnit 1000, 0), (con2.inUnit 1000, 0)] sol1' fun k => ((fun _ => [0]) k : List ℝ).map (1000 * ·) where
  el := by
    intro e he
    simp only [List.mem_cons, List.not_mem_nil, or_false] at he
    rcases he with rfl | rfl <;> rfl
  eq := by
    intro i l hi
    have h0 : i < 1 := lt_of_getElem?_some (l := sol1'.levels) hi
    obtain rfl : i = 0 := by omega
    obtain rfl : (sol1'.levels[0]?).get rfl = l := Option.some.inj ((Option.some_get _).trans hi)
    show [(0 : ℝ), 0] = [1000 * 0, 1000 * 0]
    rw [mul_zero]

theorem vec (e : Impl ℝ Nat × Nat) (he : e ∈ [(con, 0), (con2, 0)]) : e.1.fn.VectorValued := by
  simp only [List.mem_cons, List.not_mem_nil, or_false] at he
  rcases he with rfl | rfl <;> exact ⟨rfl, fun q => rfl⟩

/-- Same result with backtracking and with a step length that depends on the error. -/
example (o o' : SvdOps ℝ) (ho : o.Exact) (hor : o.Ortho) (ho' : o'.Exact) (hor' : o'.Ortho) (J0 J0' : (Nat → ℝ) → Jac ℝ)
    (q : Nat → ℝ) :
    (solve (sol1'.fullOps D o' J0' id (fun _ _ => 0) (fun q v i => q i + v i) lineBacktracking) sol1'.sqThr (1 / 10 ^ 12)
      sol1'.maxIter sol1'.reducedDim q (fun _ => 0, ())).arg =
    (solve (sol1.fullOps D o J0 id (fun _ _ => 0) (fun q v i => q i + v i) lineBacktracking) sol1.sqThr (1 / 10 ^ 12)
      sol1.maxIter sol1.reducedDim q (fun _ => 0, ())).arg :=
  (C135_unit (by norm_num) built1V built1' vec ⟨rfl, rfl, rfl, rfl, rfl, rfl⟩ rhs1V rhs1' (fun h => by cases h)
    (fun _ _ _ _ _ => rfl) ho hor ho' hor' J0 J0' id (fun _ _ => 0) (fun q v i => q i + v i)
    (C135_line_searches (by norm_num) 1).2.1 (1 / 10 ^ 12) q (fun _ => 0) ()).1

example (o o' : SvdOps ℝ) (ho : o.Exact) (hor : o.Ortho) (ho' : o'.Exact) (hor' : o'.Ortho) (J0 J0' : (Nat → ℝ) → Jac ℝ)
    (q : Nat → ℝ) (e : ErrNormBased) :
    (solve (sol1'.fullOps D o' J0' id (fun _ _ => 0) (fun q v i => q i + v i) (lineErrorNormBased sol1'.sqThr)) sol1'.sqThr (1 / 10 ^ 12)
      sol1'.maxIter sol1'.reducedDim q (fun _ => 0, e)).arg =
    (solve (sol1.fullOps D o J0 id (fun _ _ => 0) (fun q v i => q i + v i) (lineErrorNormBased sol1.sqThr)) sol1.sqThr (1 / 10 ^ 12)
      sol1.maxIter sol1.reducedDim q (fun _ => 0, e)).arg :=
  (C135_unit (by norm_num) built1V built1' vec ⟨rfl, rfl, rfl, rfl, rfl, rfl⟩ rhs1V rhs1' (fun h => by cases h)
    (fun _ _ _ _ _ => rfl) ho hor ho' hor' J0 J0' id (fun _ _ => 0) (fun q v i => q i + v i)
    (C135_line_searches (by norm_num) _).2.2.2 (1 / 10 ^ 12) q (fun _ => 0) e).1

end UnitEx

end Hpp
