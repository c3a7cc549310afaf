import Verif.HI.OrderProps
import Verif.HI.NewtonLinkEx
import Verif.Solve.Redundant

/-!
# C134. Level by level, a larger threshold can make the solver fail

Sources: `/repo/include/hpp/constraints/solver/impl/hierarchical-iterative.hh`, lines 128-181 and
`/repo/src/solver/hierarchical-iterative.cc`, lines 744-823.
-/

namespace Hpp

open Matrix

namespace ByLevelEx
open HINewtonEx (El D)

/-- `q₀ - 1` -/
noncomputable def fn1 : Fn ℝ Nat where
  key := 0
  inputSize := 2
  inputDer := 2
  spaceId := 1
  space := vectorSpace ℝ 1
  value q := [q 0 - 1]
  jac _ := fun _ k => if k = 0 then 1 else 0
  activeQ := [true, false]
  active := [true, false]

/-- `q₁ - 3 (1 - q₀)²` -/
noncomputable def fn2 : Fn ℝ Nat where
  key := 1
  inputSize := 2
  inputDer := 2
  spaceId := 1
  space := vectorSpace ℝ 1
  value q := [q 1 - 3 * (1 - q 0) ^ 2]
  jac q := fun _ k => if k = 0 then 6 * (1 - q 0) else if k = 1 then 1 else 0
  activeQ := [true, true]
  active := [true, true]

noncomputable def con1 : Impl ℝ Nat := (Impl.create fn1 [.equalToZero] []).get rfl
noncomputable def con2 : Impl ℝ Nat := (Impl.create fn2 [.equalToZero] []).get rfl

/-- One iteration; the first constraint has priority 0, the second one priority 1. -/
noncomputable def sol (thr : ℝ) : HI ℝ Nat :=
  { (((HI.init ℝ Nat 2).add con1 0).1.add con2 1).1.setFreeIndices (Blocks.empty.add 0 2) with
    sqThr := thr, ineqThr := 0, maxIter := 1, lastIsOptional := false, byLevel := true }

noncomputable def hist : List (Impl ℝ Nat × Nat) := [(con1, 0), (con2, 1)]

theorem sol_built (thr : ℝ) : HI.Built El 2 hist (sol thr) :=
  .params _ _ _ _ _ (.free (.add (h := [(con1, 0)]) (.add (h := []) .init
    ⟨fn1, [], [.equalToZero], .create _ _ (Option.some_get _).symm⟩ (Prod.ext rfl rfl))
    ⟨fn2, [], [.equalToZero], .create _ _ (Option.some_get _).symm⟩ (Prod.ext rfl rfl)))

theorem sol_lawful : ∀ e ∈ hist, e.1.fn.space.Lawful (El e.1.fn) := by
  intro e he
  simp only [hist, List.mem_cons, List.not_mem_nil, or_false] at he
  rcases he with rfl | rfl <;> exact vectorSpace_lawful 1

theorem sol_values : ∀ e ∈ hist, ∀ q, El e.1.fn (e.1.fn.value q) := by
  intro e he q
  simp only [hist, List.mem_cons, List.not_mem_nil, or_false] at he
  rcases he with rfl | rfl <;> rfl

theorem sol_rhs (thr : ℝ) : HI.RhsIs El hist (sol thr) fun _ => [0] where
  el := by
    intro e he
    simp only [hist, List.mem_cons, List.not_mem_nil, or_false] at he
    rcases he with rfl | rfl <;> rfl
  eq := by
    intro i l hi
    have h0 : i < 2 := lt_of_getElem?_some (l := (sol thr).levels) hi
    interval_cases i
    · obtain rfl : ((sol thr).levels[0]?).get rfl = l := Option.some.inj ((Option.some_get _).trans hi)
      rfl
    · obtain rfl : ((sol thr).levels[1]?).get rfl = l := Option.some.inj ((Option.some_get _).trans hi)
      rfl

theorem err1 (q : Nat → ℝ) : conError 0 q con1 [0] = [q 0 - 1] := by
  show [q 0 - 1 - 0] = _
  rw [sub_zero]

theorem err2 (q : Nat → ℝ) : conError 0 q con2 [0] = [q 1 - 3 * (1 - q 0) ^ 2] := by
  show [q 1 - 3 * (1 - q 0) ^ 2 - 0] = _
  rw [sub_zero]

theorem norm_eq (thr : ℝ) (q : Nat → ℝ) :
    (sol thr).sqNorm q = some (max (max 0 ((q 0 - 1) * (q 0 - 1))) ((q 1 - 3 * (1 - q 0) ^ 2) * (q 1 - 3 * (1 - q 0) ^ 2))) := by
  obtain ⟨hs, hf, -⟩ := (sol_built thr).inv sol_lawful sol_values
  rw [solver_sqNorm_eq hs hf (sol_rhs thr) (fun h => by cases h)]
  have e : ((List.range (sol thr).nMandatory).flatMap (atLevel hist)) = [con1, con2] := rfl
  rw [e]
  show some (max (max 0 (sqSum (conError 0 q con1 [0]))) (sqSum (conError 0 q con2 [0]))) = _
  rw [err1, err2]
  simp [sqSum]

/-- The levels at the configuration 0 -/
def lev1 : DLevel ℝ 2 := ⟨1, !![1, 0], ![-1]⟩
def lev2 : DLevel ℝ 2 := ⟨1, !![6, 1], ![-3]⟩

theorem lev1_apply (x : Fin 2 → ℝ) : lev1.J *ᵥ x + lev1.e = (fun _ => x 0 - 1 : Fin 1 → ℝ) := by
  funext i
  obtain rfl : i = (0 : Fin 1) := Subsingleton.elim (α := Fin 1) _ _
  show (∑ j : Fin 2, (!![1, 0] : Matrix (Fin 1) (Fin 2) ℝ) 0 j * x j) + -1 = x 0 - 1
  rw [Fin.sum_univ_two]
  show 1 * x 0 + 0 * x 1 + -1 = _
  ring

theorem lev2_apply (x : Fin 2 → ℝ) : lev2.J *ᵥ x + lev2.e = (fun _ => 6 * x 0 + x 1 - 3 : Fin 1 → ℝ) := by
  funext i
  obtain rfl : i = (0 : Fin 1) := Subsingleton.elim (α := Fin 1) _ _
  show (∑ j : Fin 2, (!![6, 1] : Matrix (Fin 1) (Fin 2) ℝ) 0 j * x j) + -3 = _
  rw [Fin.sum_univ_two]
  show 6 * x 0 + 1 * x 1 + -3 = _
  ring

theorem lev1_cost (x : Fin 2 → ℝ) : lev1.cost x = (x 0 - 1) * (x 0 - 1) := by
  unfold DLevel.cost
  rw [lev1_apply]
  exact Fin.sum_univ_one fun _ => (x 0 - 1) * (x 0 - 1)

theorem lev2_cost (x : Fin 2 → ℝ) : lev2.cost x = (6 * x 0 + x 1 - 3) * (6 * x 0 + x 1 - 3) := by
  unfold DLevel.cost
  rw [lev2_apply]
  exact Fin.sum_univ_one fun _ => (6 * x 0 + x 1 - 3) * (6 * x 0 + x 1 - 3)

theorem err_sq : (-lev1.e) ⬝ᵥ (-lev1.e) = 1 := by
  show ∑ i : Fin 1, -(-1 : ℝ) * -(-1) = 1
  simp

theorem cancels1 (x : Fin 2 → ℝ) : lev1.J *ᵥ x + lev1.e = 0 ↔ x 0 = 1 := by
  rw [lev1_apply]
  constructor
  · intro h
    have : x 0 - 1 = 0 := congrFun (β := fun _ : Fin 1 => ℝ) h 0
    linarith
  · intro h
    funext i
    show x 0 - 1 = 0
    linarith

theorem cancels2 (x : Fin 2 → ℝ) : lev2.J *ᵥ x + lev2.e = 0 ↔ 6 * x 0 + x 1 = 3 := by
  rw [lev2_apply]
  constructor
  · intro h
    have : 6 * x 0 + x 1 - 3 = 0 := congrFun (β := fun _ : Fin 1 => ℝ) h 0
    linarith
  · intro h
    funext i
    show 6 * x 0 + x 1 - 3 = 0
    linarith

theorem row_eq {c : Impl ℝ Nat} (hc : c = con1 ∨ c = con2) (q : Nat → ℝ) (k : Nat) : conRow 0 D q c [0] 0 k = c.fn.jac q 0 k := by
  have hno : ∀ x : ℝ, ¬ InsideLimit (c.comp.getD 0 .equality) 0 x := by
    have hcomp : c.comp.getD 0 .equality = .equalToZero := by rcases hc with rfl | rfl <;> rfl
    rw [hcomp]
    intro x hx
    simp [InsideLimit] at hx
  unfold conRow
  rw [if_neg (hno _)]
  have hsp : c.fn.space = vectorSpace ℝ 1 := by rcases hc with rfl | rfl <;> rfl
  rw [hsp]
  show ∑ j ∈ Finset.range 1, (if 0 = j then (1 : ℝ) else 0) * c.fn.jac q j k = _
  simp

theorem same1 (thr : ℝ) (J0 : Jac ℝ) {l : Level ℝ Nat} (hl : (sol thr).levels[0]? = some l) :
    DLevel.Same ((sol thr).dLevel D J0 (fun _ => 0) l) lev1 := by
  refine ⟨(dLevel_empty (sol_built thr) sol_lawful sol_values hl _ _).trans ?_, fun (x : Fin 2 → ℝ) => ?_⟩
  · refine ⟨fun h => absurd (h con1 (by exact List.mem_singleton.2 rfl) rfl) ?_, fun h => by cases h⟩
    exact fun h => h (List.mem_singleton.2 rfl)
  · refine (dLevel_cost (sol_built thr) sol_lawful sol_values (sol_rhs thr) hl _ _ _).trans ?_
    have e : atLevel hist 0 = [con1] := rfl
    rw [e, List.map_singleton, List.sum_singleton]
    show ∑ r ∈ Finset.range 1, conCost (sol thr).free.segs 0 D (fun _ => 0) x [0] con1 r = _
    rw [Finset.sum_range_one]
    unfold conCost
    rw [if_pos ⟨rfl, rfl⟩]
    simp only [row_eq (Or.inl rfl), err1]
    have h2 : ∀ f : Fin 2 → ℝ, ∑ j : Fin (indices (sol thr).free.segs).length, f j = f 0 + f 1 := fun f => Fin.sum_univ_two f
    rw [h2 fun j => con1.fn.jac (fun _ => 0) 0 ((indices (sol thr).free.segs).getD j 0) * x j]
    show (1 * x 0 + 0 * x 1 + (0 - 1)) * (1 * x 0 + 0 * x 1 + (0 - 1)) = _
    refine Eq.trans ?_ (lev1_cost x).symm
    ring

theorem same2 (thr : ℝ) (J0 : Jac ℝ) {l : Level ℝ Nat} (hl : (sol thr).levels[1]? = some l) :
    DLevel.Same ((sol thr).dLevel D J0 (fun _ => 0) l) lev2 := by
  refine ⟨(dLevel_empty (sol_built thr) sol_lawful sol_values hl _ _).trans ?_, fun (x : Fin 2 → ℝ) => ?_⟩
  · refine ⟨fun h => absurd (h con2 (by exact List.mem_singleton.2 rfl) rfl) ?_, fun h => by cases h⟩
    exact fun h => h (List.mem_singleton.2 rfl)
  · refine (dLevel_cost (sol_built thr) sol_lawful sol_values (sol_rhs thr) hl _ _ _).trans ?_
    have e : atLevel hist 1 = [con2] := rfl
    rw [e, List.map_singleton, List.sum_singleton]
    show ∑ r ∈ Finset.range 1, conCost (sol thr).free.segs 0 D (fun _ => 0) x [0] con2 r = _
    rw [Finset.sum_range_one]
    unfold conCost
    rw [if_pos ⟨rfl, rfl⟩]
    simp only [row_eq (Or.inr rfl), err2]
    have h2 : ∀ f : Fin 2 → ℝ, ∑ j : Fin (indices (sol thr).free.segs).length, f j = f 0 + f 1 := fun f => Fin.sum_univ_two f
    rw [h2 fun j => con2.fn.jac (fun _ => 0) 0 ((indices (sol thr).free.segs).getD j 0) * x j]
    show (6 * (1 - 0) * x 0 + 1 * x 1 + (0 - 3 * (1 - 0) ^ 2)) * (6 * (1 - 0) * x 0 + 1 * x 1 + (0 - 3 * (1 - 0) ^ 2)) = _
    refine Eq.trans ?_ (lev2_cost x).symm
    ring

variable {o : SvdOps ℝ}

/-- The first level alone -/
theorem solve1 (ho : o.Exact) (hor : o.Ortho) : o.solve lev1.J (-lev1.e) = ![1, 0] := by
  have hc : Cancels [lev1] ![1, 0] := by
    intro d hd
    obtain rfl := List.mem_singleton.1 hd
    exact (cancels1 _).2 rfl
  obtain ⟨-, r, hr, h1, h2⟩ := C132_solutions o o ho hor ho hor 0 0 [lev1] [lev1] ⟨_, _, rfl, Or.inl rfl⟩ ⟨_, _, rfl, Or.inl rfl⟩
    ⟨_, hc⟩ (fun _ => Iff.rfl) 0 0
  obtain rfl : o.solve lev1.J (-lev1.e) = r := Option.some.inj hr
  by_contra hne
  have h3 := h2 _ hc (Ne.symm hne)
  have h4 := (cancels1 _).1 (h1 lev1 (List.mem_singleton.2 rfl))
  generalize o.solve lev1.J (-lev1.e) = r at h3 h4
  simp only [dotProduct, Fin.sum_univ_two, Matrix.cons_val_zero, Matrix.cons_val_one] at h3
  rw [h4] at h3
  nlinarith [mul_self_nonneg (r 1)]

/-- With a small threshold the second level is not considered. -/
theorem dir_small (ho : o.Exact) (hor : o.Ortho) {thr : ℝ} (ht : thr < 1) (dq : Fin 2 → ℝ) :
    descend o true thr [lev1, lev2] dq = some ![1, 0] := by
  show some (descendLoop o true thr true [lev1, lev2] none dq) = _
  unfold descendLoop
  rw [if_neg (by decide : ¬ lev1.m = 0)]
  dsimp only
  rw [if_pos rfl, if_pos rfl, solve1 ho hor, if_pos]
  rw [err_sq]
  simpa using ht

/-- With a large threshold both levels are considered. -/
theorem dir_large (ho : o.Exact) (hor : o.Ortho) {thr : ℝ} (ht : 1 ≤ thr) (dq : Fin 2 → ℝ) :
    descend o true thr [lev1, lev2] dq = some ![1, -3] := by
  have e : descend o true thr [lev1, lev2] dq = descend o false thr [lev1, lev2] dq := by
    show some (descendLoop o true thr true [lev1, lev2] none dq) = some (descendLoop o false thr true [lev1, lev2] none dq)
    unfold descendLoop
    rw [if_neg (by decide : ¬ lev1.m = 0), if_neg (by decide : ¬ lev1.m = 0)]
    dsimp only
    have h2 : ¬ (1 : ℝ) > thr := not_lt.2 ht
    rw [if_pos rfl, if_pos rfl, err_sq]
    simp only [h2, decide_false, Bool.and_false, Bool.false_eq_true, if_false, List.isEmpty_cons]
    congr 1
    split
    · rfl
    · unfold descendLoop
      rw [if_neg (by decide : ¬ lev2.m = 0), if_neg (by decide : ¬ lev2.m = 0)]
      simp
  have hc : Cancels [lev1, lev2] ![1, -3] := by
    intro d hd
    simp only [List.mem_cons, List.not_mem_nil, or_false] at hd
    rcases hd with rfl | rfl
    · exact (cancels1 _).2 rfl
    · exact (cancels2 _).2 (by show (6 * 1 + -3 : ℝ) = 3; norm_num)
  obtain ⟨-, r, hr, h1, -⟩ := C132_solutions o o ho hor ho hor thr thr [lev1, lev2] [lev1, lev2]
    ⟨_, _, rfl, Or.inr (by decide)⟩ ⟨_, _, rfl, Or.inr (by decide)⟩ ⟨_, hc⟩ (fun _ => Iff.rfl) dq dq
  rw [e, hr]
  congr 1
  have h2 := (cancels1 _).1 (h1 lev1 (by simp))
  have h3 := (cancels2 _).1 (h1 lev2 (by simp))
  funext i
  fin_cases i
  · show r 0 = 1
    linarith
  · show r 1 = -3
    linarith

/-- The first iteration: direction and configuration -/
theorem first (ho : o.Exact) (hor : o.Ortho) (thr : ℝ) (J0 : (Nat → ℝ) → Jac ℝ) (dq : Fin 2 → ℝ) :
    ((sol thr).fullOps D o J0 id (fun _ _ => 0) (fun q v i => q i + v i) lineConstant).dir (fun _ => 0) (dq, ()) =
      if thr < 1 then ((![1, 0], ()), 1) else ((![1, -3], ()), 10) := by
  have hd : descend o true thr ((sol thr).dLevels D J0 id (fun _ _ => 0) fun _ => 0) dq = descend o true thr [lev1, lev2] dq := by
    have hf : List.Forall₂ (DLevel.Same (n := (indices (sol thr).free.segs).length))
        ((sol thr).dLevels D J0 id (fun _ _ => 0) fun _ => 0) ([lev1, lev2] : List (DLevel ℝ 2)) := ?_
    · exact C128_direction (n := 2) ho hor ho hor true thr hf dq
    refine forall₂_of_index _ _ rfl ?_
    intro i a b ha hb
    unfold HI.dLevels at ha
    rw [List.getElem?_map] at ha
    obtain ⟨l, hl, rfl⟩ := Option.map_eq_some_iff.1 ha
    have hi : i < 2 := lt_of_getElem?_some hb
    have hz : ∀ d : DLevel ℝ (indices (sol thr).free.segs).length, satLevel (fun _ => 0) d = d := fun d => by
      unfold satLevel
      simp
    rw [hz]
    interval_cases i
    · obtain rfl := Option.some.inj hb
      exact same1 thr _ hl
    · obtain rfl := Option.some.inj hb
      exact same2 thr _ hl
  refine (congrArg (fun d : Option (Fin 2 → ℝ) => ((d.getD 0, ()), d.getD 0 ⬝ᵥ d.getD 0)) hd).trans ?_
  by_cases ht : thr < 1
  · rw [if_pos ht, dir_small ho hor ht]
    refine Prod.ext rfl ?_
    show (![1, 0] : Fin 2 → ℝ) ⬝ᵥ ![1, 0] = 1
    simp
  · rw [if_neg ht, dir_large ho hor (not_lt.1 ht)]
    refine Prod.ext rfl ?_
    show (![1, -3] : Fin 2 → ℝ) ⬝ᵥ ![1, -3] = 10
    simp
    norm_num

end ByLevelEx

open ByLevelEx in
/-- C134. With `solveLevelByLevel` a larger threshold turns a success into a failure: `q₀ = 1` at level 0 and
`q₁ = 3 (1 - q₀)²` at level 1, one iteration.  With the squared threshold 1/2 only the first constraint is considered, and its
solution happens to satisfy the second one; with the squared threshold 2 the first constraint is considered as satisfied enough and
the step for the second one is too long. -/
theorem C134_by_level_refuted (o : SvdOps ℝ) (ho : o.Exact) (hor : o.Ortho) (J0 : (Nat → ℝ) → Jac ℝ) (dq : Fin 2 → ℝ) :
    let run := fun thr => solve ((sol thr).fullOps HINewtonEx.D o J0 id (fun _ _ => 0) (fun q v i => q i + v i) lineConstant)
      (sol thr).sqThr (1 / 10 ^ 12) (sol thr).maxIter (sol thr).reducedDim (fun _ => 0) (dq, ())
    (run (1 / 2)).status = some .success ∧ (run 2).status = some .maxIterationReached := by
  intro run
  have h0 : ∀ thr, ((sol thr).fullOps HINewtonEx.D o J0 id (fun _ _ => 0) (fun q v i => q i + v i) lineConstant).norm (fun _ => 0) = 9 := by
    intro thr
    show ((sol thr).sqNorm fun _ => 0).getD 0 = 9
    rw [norm_eq, Option.getD_some]
    norm_num
  have hn : ∀ thr, (sol thr).sqThr = thr := fun _ => rfl
  have hrd : ∀ thr, (sol thr).reducedDim = 2 := fun _ => rfl
  have hexp : ∀ (thr : ℝ) (v : Fin 2 → ℝ), expand (hiFree (sol thr)) v (fun _ => 0) 0 = v 0 ∧
      expand (hiFree (sol thr)) v (fun _ => 0) 1 = v 1 := fun thr v => ⟨rfl, rfl⟩
  have hs : ∀ (thr : ℝ) (v : Fin 2 → ℝ),
      ((sol thr).fullOps HINewtonEx.D o J0 id (fun _ _ => 0) (fun q v i => q i + v i) lineConstant).norm
      (((sol thr).fullOps HINewtonEx.D o J0 id (fun _ _ => 0) (fun q v i => q i + v i) lineConstant).search (fun _ => 0) (v, ())).1 =
      max (max 0 ((v 0 - 1) * (v 0 - 1))) ((v 1 - 3 * (1 - v 0) ^ 2) * (v 1 - 3 * (1 - v 0) ^ 2)) := by
    intro thr v
    show ((sol thr).sqNorm fun i => 0 + expand (hiFree (sol thr)) v (fun _ => 0) i).getD 0 = _
    rw [norm_eq, Option.getD_some, (hexp thr v).1, (hexp thr v).2, zero_add, zero_add]
  have hrun : ∀ thr : ℝ, thr < 9 → ∀ (v : Fin 2 → ℝ) (d : ℝ), 1 ≤ d →
      ((sol thr).fullOps HINewtonEx.D o J0 id (fun _ _ => 0) (fun q v i => q i + v i) lineConstant).dir (fun _ => 0) (dq, ()) = ((v, ()), d) →
      (run thr).status = solveEnd thr (max (max 0 ((v 0 - 1) * (v 0 - 1))) ((v 1 - 3 * (1 - v 0) ^ 2) * (v 1 - 3 * (1 - v 0) ^ 2))) 0 none := by
    intro thr ht v d h1 hd
    show (solve _ thr _ 1 2 _ _).status = _
    unfold solve
    rw [h0 thr]
    dsimp only
    rw [if_neg (by simp)]
    unfold solveLoop
    rw [if_pos ⟨ht, by decide⟩, hd]
    dsimp only
    rw [if_neg (by rw [not_lt]; exact le_trans (by norm_num) h1), ← hs thr v]
    rfl
  constructor
  · rw [hrun (1 / 2) (by norm_num) ![1, 0] 1 le_rfl ((first ho hor (1 / 2) J0 dq).trans (if_pos (by norm_num)))]
    unfold solveEnd
    norm_num
  · rw [hrun 2 (by norm_num) ![1, -3] 10 (by norm_num) ((first ho hor 2 J0 dq).trans (if_neg (by norm_num)))]
    unfold solveEnd
    norm_num

end Hpp
