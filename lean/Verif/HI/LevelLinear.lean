import Verif.HI.BudgetEx
import Verif.Solve.LevelLinear

/-!
# C153 for solvers built by insertion of constraints

Sources: `/repo/include/hpp/constraints/solver/impl/hierarchical-iterative.hh`, lines 128-181 and
`/repo/src/solver/hierarchical-iterative.cc`, lines 744-823.
-/

namespace Hpp

open Matrix

section
variable {κ : Type} [DecidableEq κ] {El : Fn ℝ κ → List ℝ → Prop} {D : Space ℝ → List ℝ → List ℝ → Nat → Nat → ℝ}
  {nq nv : Nat} {h : List (Impl ℝ κ × Nat)} {s : HI ℝ κ}

/-- C153. A solver built by insertions, level by level, with the line search Constant on a vector space of dimension `nq`.  If the errors that are solved for are
affine in the free variables, the reduced Jacobians being their coefficients, and vanish together somewhere, then at most one iteration is done per level and after
each iteration one more level has no error.  `SUCCESS` is returned unless less iterations are allowed than there are levels, or a step is too small, or there are
at least five levels. -/
theorem C153_solver (hb : HI.Built El nv h s)
    (hl : ∀ e ∈ h, e.1.fn.space.Lawful (El e.1.fn)) (hv : ∀ e ∈ h, ∀ q, El e.1.fn (e.1.fn.value q)) (hk : s.Kept h)
    (hne : s.lastIsOptional = true → s.levels ≠ []) (hby : s.byLevel = true) (hfirst : ∀ l, s.levels.head? = some l → indices l.rows.segs ≠ [])
    (hlin : ∀ l ∈ s.levels, ∀ (q : Fin nq → ℝ) v,
      s.dErr D (fun _ _ => 0) (coords (hiMove s q v)) l = s.dErr D (fun _ _ => 0) (coords q) l + s.dJ D (fun _ _ => 0) (coords q) l *ᵥ v ∧
      s.dJ D (fun _ _ => 0) (coords (hiMove s q v)) l = s.dJ D (fun _ _ => 0) (coords q) l)
    (o : SvdOps ℝ) (ho : o.Exact) (ht : 0 ≤ s.sqThr) (dqMin : ℝ) (q : Fin nq → ℝ)
    (hq : ∃ v, ∀ l ∈ s.levels, s.dErr D (fun _ _ => 0) (coords (hiMove s q v)) l = 0) (J0 : (Fin nq → ℝ) → Jac ℝ)
    (dq : Fin (indices s.free.segs).length → ℝ) :
    let r := solve (s.ops D o J0 coords fun _ q u => ((), ⟨hiMove s q u, u, true, 0⟩)) s.sqThr dqMin s.maxIter (indices s.free.segs).length q (dq, ())
    r.iter ≤ s.levels.length ∧ (∀ l ∈ s.levels.take r.iter, s.dErr D (fun _ _ => 0) (coords r.arg) l = 0) ∧
    (r.status = some .success ∨
      (r.status = some .maxIterationReached ∧ s.maxIter < s.levels.length) ∨
      (r.status = some .infeasible ∧ ∃ v, v ⬝ᵥ v < dqMin ∧
        ∀ l ∈ s.levels.take (r.iter + 1), s.dErr D (fun _ _ => 0) (coords (hiMove s r.arg v)) l = 0) ∨
      (r.status = some .errorIncreased ∧ 5 ≤ s.levels.length)) := by
  intro r
  have hlin' : LinearLevels (hiMove s (nq := nq)) (s.levels.map (s.nLevel D coords)) := by
    intro L hL q v
    obtain ⟨l, hl', rfl⟩ := List.mem_map.1 hL
    exact hlin l hl' q v
  have hh : ∀ L, (s.levels.map (s.nLevel D (coords (n := nq)))).head? = some L → L.m ≠ 0 := by
    intro L hL
    rw [List.head?_map] at hL
    obtain ⟨l, hl', rfl⟩ := Option.map_eq_some_iff.1 hL
    exact fun hc => hfirst l hl' (List.length_eq_zero_iff.1 hc)
  have hq' : ∃ v, Solves (hiMove s) (s.levels.map (s.nLevel D (coords (n := nq)))) q v := by
    obtain ⟨v, hv'⟩ := hq
    refine ⟨v, fun L hL => ?_⟩
    obtain ⟨l, hl', rfl⟩ := List.mem_map.1 hL
    exact hv' l hl'
  have key := C153_solve o ho s.lastIsOptional s.sqThr dqMin ht (s.levels.map (s.nLevel D (coords (n := nq)))) hh (hiMove s) hlin' s.maxIter q hq' dq
  have hr : r = solve (newtonOps o true s.lastIsOptional s.sqThr (s.levels.map (s.nLevel D coords))
      (lsC s.lastIsOptional (s.levels.map (s.nLevel D coords)) (hiMove s))) s.sqThr dqMin s.maxIter (indices s.free.segs).length q (dq, ()) := by
    show solve (s.ops D o J0 coords fun _ q u => ((), ⟨hiMove s q u, u, true, 0⟩)) _ _ _ _ _ _ = _
    rw [C114_same_steps hb hl hv hk hne o J0 coords _, hby]
    rfl
  dsimp only at key
  rw [← hr, List.length_map] at key
  obtain ⟨k1, k2, k3⟩ := key
  have tk : ∀ (n : Nat) (x : Fin nq → ℝ), (∀ L ∈ (s.levels.map (s.nLevel D (coords (n := nq)))).take n, L.err x = 0) →
      ∀ l ∈ s.levels.take n, s.dErr D (fun _ _ => 0) (coords x) l = 0 := by
    intro n x hx l hl'
    refine hx (s.nLevel D coords l) ?_
    rw [← List.map_take]
    exact List.mem_map_of_mem hl'
  refine ⟨k1, tk _ _ k2, ?_⟩
  rcases k3 with k3 | k3 | ⟨k3, v, k4, k5⟩ | k3
  · exact Or.inl k3
  · exact Or.inr (Or.inl k3)
  · exact Or.inr (Or.inr (Or.inl ⟨k3, v, k4, tk _ _ k5⟩))
  · exact Or.inr (Or.inr (Or.inr k3))

end

namespace LevelLinearEx
open HINewtonEx (El D)
open ByLevelEx (con1 fn1)

/-- `q₁ - 2 q₀` -/
noncomputable def fn2 : Fn ℝ Nat where
  key := 1
  inputSize := 2
  inputDer := 2
  spaceId := 1
  space := vectorSpace ℝ 1
  value q := [q 1 - 2 * q 0]
  jac _ := fun _ k => if k = 0 then -2 else if k = 1 then 1 else 0
  activeQ := [true, true]
  active := [true, true]

noncomputable def con2 : Impl ℝ Nat := (Impl.create fn2 [.equalToZero] []).get rfl

/-- `q₀ = 1` with priority 0, `q₁ = 2 q₀` with priority 1. -/
noncomputable def sol : HI ℝ Nat :=
  { (((HI.init ℝ Nat 2).add con1 0).1.add con2 1).1.setFreeIndices (Blocks.empty.add 0 2) with
    sqThr := 1 / 10 ^ 8, ineqThr := 0, maxIter := 20, lastIsOptional := false, byLevel := true }

noncomputable def hist : List (Impl ℝ Nat × Nat) := [(con1, 0), (con2, 1)]

theorem sol_built : HI.Built El 2 hist sol :=
  .params _ _ _ _ _ (.free (.add (h := [(con1, 0)]) (.add (h := []) .init
    ⟨fn1, [], [.equalToZero], .create _ _ (Option.some_get _).symm⟩ (Prod.ext rfl rfl))
    ⟨fn2, [], [.equalToZero], .create _ _ (Option.some_get _).symm⟩ (Prod.ext rfl rfl)))

theorem sol_lawful : ∀ e ∈ hist, e.1.fn.space.Lawful (El e.1.fn) := by
  intro e he
  simp only [hist, List.mem_cons, List.not_mem_nil, or_false] at he
  rcases he with rfl | rfl <;> exact vectorSpace_lawful 1

theorem sol_values : ∀ e ∈ hist, ∀ q, El e.1.fn (e.1.fn.value q) := by
  intro e he q
  simp only [hist, List.mem_cons, List.not_mem_nil, or_false] at he
  rcases he with rfl | rfl <;> rfl

theorem sol_rhs : HI.RhsIs El hist sol fun _ => [0] where
  el := by
    intro e he
    simp only [hist, List.mem_cons, List.not_mem_nil, or_false] at he
    rcases he with rfl | rfl <;> rfl
  eq := by
    intro i l hi
    have h0 : i < 2 := lt_of_getElem?_some (l := sol.levels) hi
    interval_cases i
    · obtain rfl : (sol.levels[0]?).get rfl = l := Option.some.inj ((Option.some_get _).trans hi)
      rfl
    · obtain rfl : (sol.levels[1]?).get rfl = l := Option.some.inj ((Option.some_get _).trans hi)
      rfl

theorem kept : sol.Kept hist := by
  intro e he
  simp only [hist, List.mem_cons, List.not_mem_nil, or_false] at he
  rcases he with rfl | rfl
  · exact ⟨fun _ _ => rfl, fun r t _ ht hin => le_rfl⟩
  · exact ⟨fun _ _ => rfl, fun r t _ ht hin => le_rfl⟩

/-- A level with one constraint of one row. -/
theorem level_one {i : Nat} {l : Level ℝ Nat} (hi : sol.levels[i]? = some l) {c : Impl ℝ Nat} (hc : c = con1 ∨ c = con2) (hat : atLevel hist i = [c])
    (hrow : indices l.rows.segs = [0]) (g : (Nat → ℝ) → ℝ) (hg : ∀ q, c.fn.value q = [g q]) (q : Nat → ℝ) (r : Fin (indices l.rows.segs).length) :
    sol.dErr D (fun _ _ => 0) q l r = g q ∧ ∀ k, sol.dJ D (fun _ _ => 0) q l r k = c.fn.jac q 0 ((indices sol.free.segs).getD k 0) := by
  obtain ⟨hs, hf, -⟩ := sol_built.inv sol_lawful sol_values
  obtain ⟨E, hE, -, -, -, he, hr, hJ⟩ := level_evalJac hs hf sol_rhs hi D sol.ineqThr sol.free.segs q fun _ _ => 0
  have hr0 : (indices l.rows.segs).getD r 0 = 0 := by
    have h5 : r.1 = 0 := by
      have h6 : (indices l.rows.segs).length = 1 := by rw [hrow]; rfl
      have := r.2
      omega
    rw [h5, hrow]; rfl
  have hsub : c.fn.space.sub (c.fn.value q) [0] = [g q - 0] := by
    rw [hg q]
    rcases hc with rfl | rfl <;> rfl
  have hce : conError sol.ineqThr q c [0] = [g q] := by
    unfold conError
    rw [hsub, sub_zero]
    rcases hc with rfl | rfl <;> rfl
  constructor
  · show ((l.evalJac D sol.ineqThr sol.free.segs q fun _ _ => 0).map fun E => E.error.getD ((indices l.rows.segs).getD r 0) 0).getD 0 = _
    rw [hE, Option.map_some, Option.getD_some, hr0, he, hat, List.flatMap_cons, List.flatMap_nil, List.append_nil, hce]
    rfl
  · intro k
    show ((l.evalJac D sol.ineqThr sol.free.segs q fun _ _ => 0).map fun E => E.redJ r k).getD 0 = _
    rw [hE, Option.map_some, Option.getD_some, hr, hr0]
    have := hJ [] c [] hat 0 (by rcases hc with rfl | rfl <;> exact Nat.one_pos) .equalToZero true (g q - 0) (by rcases hc with rfl | rfl <;> rfl)
      (by rcases hc with rfl | rfl <;> rfl) (by rw [hsub]; rfl) ((indices sol.free.segs).getD k 0)
    rw [if_neg (by rintro (⟨h, -⟩ | ⟨h, -⟩) <;> cases h)] at this
    refine this.trans ?_
    have hsp : c.fn.space = vectorSpace ℝ 1 := by rcases hc with rfl | rfl <;> rfl
    rw [hsp]
    show ∑ j ∈ Finset.range 1, (if 0 = j then (1 : ℝ) else 0) * c.fn.jac q j _ = _
    simp

theorem free_nodup : (indices sol.free.segs).Nodup := by
  show [0, 1].Nodup
  simp

theorem move0 (q : Fin 2 → ℝ) (v : Fin (indices sol.free.segs).length → ℝ) : coords (hiMove sol q v) 0 = q 0 + v (0 : Fin 2) :=
  congrArg (q 0 + ·) (expand_mem (hiFree sol) (hiFree_inj free_nodup) v (fun _ => 0) (0 : Fin 2))

theorem move1 (q : Fin 2 → ℝ) (v : Fin (indices sol.free.segs).length → ℝ) : coords (hiMove sol q v) 1 = q 1 + v (1 : Fin 2) :=
  congrArg (q 1 + ·) (expand_mem (hiFree sol) (hiFree_inj free_nodup) v (fun _ => 0) (1 : Fin 2))

theorem sum_free (f : Fin (indices sol.free.segs).length → ℝ) : ∑ i, f i = f (0 : Fin 2) + f (1 : Fin 2) := Fin.sum_univ_two f

theorem levels {P : Level ℝ Nat → Prop} (h : ∀ i l, sol.levels[i]? = some l → i < 2 → P l) : ∀ l ∈ sol.levels, P l := by
  intro l hl
  obtain ⟨i, hi⟩ := List.getElem?_of_mem hl
  exact h i l hi (lt_of_getElem?_some (l := sol.levels) hi)

theorem rows {i : Nat} {l : Level ℝ Nat} (hi : sol.levels[i]? = some l) (h : i < 2) : indices l.rows.segs = [0] := by
  interval_cases i
  · obtain rfl : (sol.levels[0]?).get rfl = l := Option.some.inj ((Option.some_get _).trans hi)
    rfl
  · obtain rfl : (sol.levels[1]?).get rfl = l := Option.some.inj ((Option.some_get _).trans hi)
    rfl

/-- The step to the solution -/
def toSol (q : Fin 2 → ℝ) : Fin (indices sol.free.segs).length → ℝ := fun k => if k.1 = 0 then 1 - q 0 else 2 - q 1

end LevelLinearEx

open LevelLinearEx in
open HINewtonEx (D) in
/-- The hypotheses of `C153_solver` are met; here `SUCCESS` is returned unless a step is too small. -/
example (o : SvdOps ℝ) (ho : o.Exact) (J0 : (Fin 2 → ℝ) → Jac ℝ) (q : Fin 2 → ℝ) (dq : Fin 2 → ℝ) :
    let r := solve (sol.ops D o J0 coords fun _ q u => ((), ⟨hiMove sol q u, u, true, 0⟩)) sol.sqThr (1 / 10 ^ 12) sol.maxIter 2 q (dq, ())
    r.iter ≤ 2 ∧ (r.status = some .success ∨ r.status = some .infeasible) := by
  intro r
  have key := C153_solver (D := D) (nq := 2) sol_built sol_lawful sol_values kept (fun h => by cases h) rfl ?_ ?_ o ho (by show (0 : ℝ) ≤ 1 / 10 ^ 8; norm_num)
    (1 / 10 ^ 12) q ?_ J0 dq
  · obtain ⟨k1, -, k3⟩ := key
    refine ⟨k1, ?_⟩
    rcases k3 with k3 | k3 | k3 | k3
    · exact Or.inl k3
    · exact absurd k3.2 (by show ¬ 20 < 2; decide)
    · exact Or.inr k3.1
    · exact absurd k3.2 (by show ¬ 5 ≤ 2; decide)
  · intro l hl
    rw [List.head?_eq_getElem?] at hl
    rw [rows hl (by decide)]
    simp
  · refine levels fun i l hi h => ?_
    have hrow := rows hi h
    intro q v
    interval_cases i
    · have e := level_one hi (Or.inl rfl) rfl hrow (fun q => q 0 - 1) fun q => rfl
      refine ⟨funext fun a => ?_, funext fun a => funext fun b => ?_⟩
      · rw [(e _ a).1, Pi.add_apply, (e _ a).1]
        show _ = _ + ∑ k, sol.dJ D (fun _ _ => 0) (coords q) l a k * v k
        rw [Finset.sum_congr rfl fun k _ => congrArg (· * v k) ((e (coords q) a).2 k), move0, sum_free]
        show q 0 + v (0 : Fin 2) - 1 = q 0 - 1 + (1 * v (0 : Fin 2) + 0 * v (1 : Fin 2))
        ring
      · rw [(e _ a).2, (e _ a).2]
        rfl
    · have e := level_one hi (Or.inr rfl) rfl hrow (fun q => q 1 - 2 * q 0) fun q => rfl
      refine ⟨funext fun a => ?_, funext fun a => funext fun b => ?_⟩
      · rw [(e _ a).1, Pi.add_apply, (e _ a).1]
        show _ = _ + ∑ k, sol.dJ D (fun _ _ => 0) (coords q) l a k * v k
        rw [Finset.sum_congr rfl fun k _ => congrArg (· * v k) ((e (coords q) a).2 k), move0, move1, sum_free]
        show q 1 + v (1 : Fin 2) - 2 * (q 0 + v (0 : Fin 2)) = q 1 - 2 * q 0 + (-2 * v (0 : Fin 2) + 1 * v (1 : Fin 2))
        ring
      · rw [(e _ a).2, (e _ a).2]
        rfl
  · refine ⟨toSol q, levels fun i l hi h => ?_⟩
    have hrow := rows hi h
    interval_cases i
    · have e := level_one hi (Or.inl rfl) rfl hrow (fun q => q 0 - 1) fun q => rfl
      funext a
      rw [(e _ a).1, move0]
      show q 0 + (1 - q 0) - 1 = 0
      ring
    · have e := level_one hi (Or.inr rfl) rfl hrow (fun q => q 1 - 2 * q 0) fun q => rfl
      funext a
      rw [(e _ a).1, move0, move1]
      show q 1 + (2 - q 1) - 2 * (q 0 + (1 - q 0)) = 0
      ring

end Hpp
