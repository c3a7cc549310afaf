import Verif.BySub.Again
import Verif.ECS.RhsProps
import Mathlib.Tactic.Linarith

/-!
# C141: solving on the leaf of a configuration

`rightHandSideFromConfig(q0)` followed by `solve(q)`: by-substitution.cc:312-319, hierarchical-iterative.cc:436-444,
explicit-constraint-set.cc:316-322 for the right hand sides and the two functions `solve`.
-/

namespace Hpp

variable {M α κ : Type} [Field α] [LinearOrder α]

/-- Specification: at `q` the components of the function that are not compared by `Equality` are those of the neutral element. -/
def Impl.OnNeutral (c : Impl α κ) (q : Nat → α) : Prop :=
  ∀ (i : Nat) (t : Comp), c.comp[i]? = some t → t ≠ .equality → (c.fn.space.log (c.fn.value q))[i]? = some 0

/-- Specification: the function takes at `q` and `q'` values that are the same on the components compared by `Equality`. -/
def Impl.SameLeaf (c : Impl α κ) (q q' : Nat → α) : Prop :=
  ∀ i : Nat, c.comp[i]? = some Comp.equality → (c.fn.space.log (c.fn.value q))[i]? = (c.fn.space.log (c.fn.value q'))[i]?

/-- The same for the implicit formulation of an explicit constraint. -/
def ECon.SameLeaf (c : ECon α κ) (q q' : Nat → α) : Prop :=
  ∀ i : Nat, c.comp[i]? = some Comp.equality → (c.space.log (c.h q))[i]? = (c.space.log (c.h q'))[i]?

/-- Two values that are the same on the `Equality` components give the same right hand side. -/
theorem maskEq_congr {c : List Comp} {v w : List α} (hl : v.length = w.length)
    (h : ∀ i : Nat, c[i]? = some Comp.equality → v[i]? = w[i]?) : maskEq c v = maskEq c w := by
  unfold maskEq
  apply List.ext_getElem?
  intro i
  rw [List.getElem?_zipWith, List.getElem?_zipWith]
  cases hc : c[i]? with
  | none => rfl
  | some t =>
    by_cases ht : t = .equality
    · subst ht; rw [h i hc]
    · by_cases hi : i < v.length
      · rw [List.getElem?_eq_getElem hi, List.getElem?_eq_getElem (hl ▸ hi)]
        cases t <;> first | exact absurd rfl ht | rfl
      · rw [List.getElem?_eq_none (not_lt.1 hi), List.getElem?_eq_none (hl ▸ not_lt.1 hi)]

/-- The sum of squares grows with each square. -/
theorem sqSum_mono [IsStrictOrderedRing α] {u v : List α} (h : List.Forall₂ (fun x y => x * x ≤ y * y) u v) : sqSum u ≤ sqSum v := by
  have key : ∀ (a b : α), a ≤ b → u.foldl (fun s x => s + x * x) a ≤ v.foldl (fun s x => s + x * x) b := by
    induction h with
    | nil => intro a b hab; exact hab
    | cons hxy _ ih => intro a b hab; exact ih _ _ (add_le_add hab hxy)
  exact key 0 0 le_rfl

/-- One square is at most the sum. -/
theorem sq_le_sqSum [IsStrictOrderedRing α] {v : List α} {i : Nat} {x : α} (h : v[i]? = some x) : x * x ≤ sqSum v := by
  have key : ∀ (v : List α) (i : Nat) (a : α), 0 ≤ a → v[i]? = some x → x * x ≤ v.foldl (fun s y => s + y * y) a := by
    have up : ∀ (v : List α) (a : α), a ≤ v.foldl (fun s y => s + y * y) a := by
      intro v
      induction v with
      | nil => intro a; exact le_rfl
      | cons y v ih => intro a; exact le_trans (by linarith [mul_self_nonneg y]) (ih (a + y * y))
    intro v
    induction v with
    | nil => intro i a _ hv; simp at hv
    | cons y v ih =>
      intro i a ha hv
      cases i with
      | zero =>
        simp only [List.getElem?_cons_zero, Option.some.injEq] at hv
        subst hv
        exact le_trans (by linarith) (up v (a + y * y))
      | succ i =>
        rw [List.getElem?_cons_succ] at hv
        exact ih i (a + y * y) (by linarith [mul_self_nonneg y]) hv
  exact key v i 0 le_rfl h

/-- The error is zero where the value is the right hand side, if all the components are equalities. -/
theorem conError_self {c : Impl α κ} {E : List α → Prop} (hl : c.fn.space.Lawful E) {q : Nat → α} (hv : E (c.fn.value q)) (thr : α)
    (hk : c.mask.length = c.fn.space.nv) (hcomp : ∀ t ∈ c.comp, t = .equality ∨ t = .equalToZero) :
    sqSum (conError thr q c (c.fn.value q)) = 0 := by
  have h0 : ∀ x ∈ conError thr q c (c.fn.value q), x = 0 := by
    intro x hx
    unfold conError at hx
    rw [(hl.sub_eq_zero _ _ hv hv).2 rfl, maskBy_zero _ _ hk] at hx
    obtain ⟨i, hi⟩ := List.mem_iff_getElem?.1 hx
    rw [List.getElem?_zipWith] at hi
    cases hc : c.comp[i]? with
    | none => rw [hc] at hi; simp at hi
    | some t =>
      rw [hc] at hi
      cases hr : (List.replicate c.fn.space.nv (0 : α))[i]? with
      | none => rw [hr] at hi; simp at hi
      | some y =>
        have hy : y = 0 := List.eq_of_mem_replicate (List.mem_iff_getElem?.2 ⟨i, hr⟩)
        rw [hr] at hi
        rcases hcomp t (List.mem_iff_getElem?.2 ⟨i, hc⟩) with rfl | rfl <;>
        · simp only [comparedError, Option.some.injEq] at hi
          rw [← hi, hy]
  generalize conError thr q c (c.fn.value q) = v at h0
  unfold sqSum
  induction v with
  | nil => rfl
  | cons x v ih =>
    rw [List.foldl_cons, h0 x (by simp), mul_zero, add_zero]
    exact ih fun y hy => h0 y (by simp [hy])

section
variable [DecidableEq κ] {nv : Nat} {El : Fn α κ → List α → Prop} {h : List (Impl α κ × Nat)} {s : HI α κ}
  (hb : HI.Built El nv h s) (hl : ∀ e ∈ h, e.1.fn.space.Lawful (El e.1.fn)) (hv : ∀ e ∈ h, ∀ q, El e.1.fn (e.1.fn.value q))

include hb hl hv

/-- The right hand side of each constraint after `rightHandSideFromConfig(q)`. -/
theorem leaf_getRhs (q : Nat → α) {e : Impl α κ × Nat} (he : e ∈ h) :
    (s.rhsFromConfig q).getRhs e.1 =
      some (some (e.1.fn.space.exp (maskEq e.1.comp (e.1.fn.space.log (e.1.fn.value q))))) := by
  obtain ⟨hs, hf, -⟩ := hb.inv hl hv
  obtain ⟨h1, R, hR, hRe⟩ := fromConfig_rhsIs hs hf q
  rw [getRhs_eq h1 hf hR he, hRe e he, (impl_rhsFromConfig_el hf he q).1]

theorem leaf_lengths {e : Impl α κ × Nat} (he : e ∈ h) :
    e.1.comp.length = e.1.fn.space.nv ∧ e.1.mask.length = e.1.fn.space.nv := by
  obtain ⟨-, hf, -⟩ := hb.inv hl hv
  obtain ⟨fn, mask, comp, hcb⟩ := hf.built e he
  exact ⟨hcb.ok.1.comp_len, hcb.ok.1.mask_len⟩

/-- The value at `q` where the other components are neutral. -/
theorem leaf_getRhs_neutral {q : Nat → α} {e : Impl α κ × Nat} (he : e ∈ h) (hn : e.1.OnNeutral q) :
    (s.rhsFromConfig q).getRhs e.1 = some (some (e.1.fn.value q)) := by
  have hlen := (hl e he).log_len _ (hv e he q)
  rw [leaf_getRhs hb hl hv q he, maskEq_eq_self _ _ ((leaf_lengths hb hl hv he).1.trans hlen.symm) hn,
    (hl e he).exp_log _ (hv e he q)]

/-- C141. Configurations with the same values on the `Equality` components define the same leaf: the solver is in the same state after
`rightHandSideFromConfig`, so that everything computed afterwards is the same. -/
theorem C141_same_leaf {q q' : Nat → α} (hq : ∀ e ∈ h, e.1.SameLeaf q q') : s.rhsFromConfig q = s.rhsFromConfig q' := by
  obtain ⟨hs, hf, -⟩ := hb.inv hl hv
  obtain ⟨-, R, hR, hRe⟩ := fromConfig_rhsIs hs hf q
  obtain ⟨-, R', hR', hRe'⟩ := fromConfig_rhsIs hs hf q'
  have hRR : ∀ e ∈ h, R e.1.fn.key = R' e.1.fn.key := by
    intro e he
    rw [hRe e he, hRe' e he, (impl_rhsFromConfig_el hf he q).1, (impl_rhsFromConfig_el hf he q').1,
      maskEq_congr (((hl e he).log_len _ (hv e he q)).trans ((hl e he).log_len _ (hv e he q')).symm) (hq e he)]
  have hlv : s.levels.map (Level.rhsFromConfig q) = s.levels.map (Level.rhsFromConfig q') := by
    apply List.ext_getElem?
    intro i
    rw [List.getElem?_map, List.getElem?_map]
    cases hi : s.levels[i]? with
    | none => rfl
    | some l =>
      have h1 := hR.eq i (Level.rhsFromConfig q l) (by show (s.levels.map _)[i]? = _; rw [List.getElem?_map, hi]; rfl)
      have h2 := hR'.eq i (Level.rhsFromConfig q' l) (by show (s.levels.map _)[i]? = _; rw [List.getElem?_map, hi]; rfl)
      have h3 : (Level.rhsFromConfig q l).rhs = (Level.rhsFromConfig q' l).rhs := by
        rw [h1, h2]
        refine List.flatMap_congr fun c hc => hRR (c, i) (mem_atLevel.1 hc)
      show some (Level.rhsFromConfig q l) = some (Level.rhsFromConfig q' l)
      unfold Level.rhsFromConfig at h3 ⊢
      dsimp only at h3
      rw [h3]
  unfold HI.rhsFromConfig
  rw [hlv]

variable (hne : s.lastIsOptional = true → s.levels ≠ []) (q0 : Nat → α)
  (o : Ops (Nat → α) M α) (ho : ∀ q, (s.rhsFromConfig q0).sqNorm q = some (o.norm q))

omit hl hv in
theorem leaf_built : HI.Built El nv h (s.rhsFromConfig q0) := .fromConfig hb

omit hb hl hv in
theorem leaf_mandatory (e : Impl α κ × Nat) : IsMandatory (s.rhsFromConfig q0) e ↔ IsMandatory s e := by
  unfold IsMandatory HI.rhsFromConfig
  rw [List.length_map]

omit hb hl hv in
theorem leaf_levels (hne : s.lastIsOptional = true → s.levels ≠ []) :
    (s.rhsFromConfig q0).lastIsOptional = true → (s.rhsFromConfig q0).levels ≠ [] := by
  intro h1 h2
  exact hne h1 (List.map_eq_nil_iff.1 h2)

include hne ho

/-- C141. Hierarchical solver.  After `rightHandSideFromConfig(q0)`, a call that returns `SUCCESS` returns a configuration where each
mandatory constraint takes, up to the threshold, the value it takes at `q0`; conversely if this is the case at the configuration returned
then the status is `SUCCESS`.  Line search, iterations and decomposition are arbitrary. -/
theorem C141_leaf (hn : ∀ e ∈ h, e.1.OnNeutral q0) (dqMin : α) (maxIter reducedDim : Nat) (q : Nat → α) (m : M) :
    (solve o s.sqThr dqMin maxIter reducedDim q m).status = some .success ↔
      0 ≤ s.sqThr ∧ ∀ e ∈ h, IsMandatory s e →
        sqSum (conError s.ineqThr (solve o s.sqThr dqMin maxIter reducedDim q m).arg e.1 (e.1.fn.value q0)) ≤ s.sqThr := by
  refine (C29_success (leaf_built hb q0) hl hv (leaf_levels q0 hne) o ho dqMin maxIter reducedDim q m).trans
    (and_congr_right fun _ => forall₂_congr fun e he => ?_)
  rw [leaf_mandatory]
  refine imp_congr_right fun _ => ?_
  rw [leaf_getRhs_neutral hb hl hv he (hn e he)]
  constructor
  · rintro ⟨r, hr, hle⟩
    rw [Option.some.injEq, Option.some.injEq] at hr
    subst hr
    exact hle
  · intro hle
    exact ⟨_, rfl, hle⟩

/-- C141. On a vector space, component by component, whatever the other components are: an active component compared by `Equality` takes
at the configuration returned with `SUCCESS` the value it takes at `q0`, up to the threshold. -/
theorem C141_leaf_component [IsStrictOrderedRing α] (dqMin : α) (maxIter reducedDim : Nat) (q : Nat → α) (m : M)
    (hs : (solve o s.sqThr dqMin maxIter reducedDim q m).status = some .success)
    {e : Impl α κ × Nat} (he : e ∈ h) (hm : IsMandatory s e) {n : Nat} (hspace : e.1.fn.space = vectorSpace α n)
    {i : Nat} (hi : e.1.comp[i]? = some .equality) (hk : e.1.mask[i]? = some true) :
    ∃ x x0, (e.1.fn.value (solve o s.sqThr dqMin maxIter reducedDim q m).arg)[i]? = some x ∧ (e.1.fn.value q0)[i]? = some x0 ∧
      (x - x0) * (x - x0) ≤ s.sqThr := by
  obtain ⟨-, h1⟩ := (C29_success (leaf_built hb q0) hl hv (leaf_levels q0 hne) o ho dqMin maxIter reducedDim q m).1 hs
  obtain ⟨r, hr, hle⟩ := h1 e he ((leaf_mandatory q0 e).2 hm)
  rw [leaf_getRhs hb hl hv q0 he, Option.some.injEq, Option.some.injEq] at hr
  subst hr
  change sqSum (conError s.ineqThr (solve o s.sqThr dqMin maxIter reducedDim q m).arg e.1 _) ≤ _ at hle
  generalize (solve o s.sqThr dqMin maxIter reducedDim q m).arg = q' at hle ⊢
  have hn : e.1.fn.space.nv = n := by rw [hspace]; rfl
  have hlen : ∀ p, (e.1.fn.value p).length = n := fun p => by
    have := (hl e he).len _ (hv e he p); rw [hspace] at this; exact this
  have hin : i < n := by
    rw [← hn, ← (leaf_lengths hb hl hv he).1]
    exact lt_of_getElem?_some hi
  refine ⟨(e.1.fn.value q')[i]'(by rw [hlen]; exact hin), (e.1.fn.value q0)[i]'(by rw [hlen]; exact hin),
    List.getElem?_eq_getElem _, List.getElem?_eq_getElem _, ?_⟩
  refine le_trans (sq_le_sqSum (i := i) ?_) hle
  unfold conError
  rw [hspace]
  show (List.zipWith _ e.1.comp (maskBy e.1.mask (List.zipWith (· - ·) (e.1.fn.value q') (maskEq e.1.comp (e.1.fn.value q0)))))[i]? = _
  unfold maskBy maskEq
  rw [List.getElem?_zipWith, List.getElem?_zipWith, List.getElem?_zipWith, List.getElem?_zipWith, hi, hk,
    List.getElem?_eq_getElem (by rw [hlen]; exact hin), List.getElem?_eq_getElem (by rw [hlen]; exact hin)]
  simp [comparedError]

/-- C141. Hierarchical solver.  After `rightHandSideFromConfig(q0)`, `solve(q0)` returns `q0` with `SUCCESS` without iteration, if the
constraints have only `Equality` and `EqualToZero` components and the latter hold at `q0`. -/
theorem C141_start (hn : ∀ e ∈ h, e.1.OnNeutral q0) (hcomp : ∀ e ∈ h, ∀ t ∈ e.1.comp, t = .equality ∨ t = .equalToZero)
    (ht : 0 ≤ s.sqThr) (dqMin : α) (maxIter reducedDim : Nat) (m : M) :
    solve o s.sqThr dqMin maxIter reducedDim q0 m = ⟨q0, m, 0, some .success⟩ := by
  refine (C127_hierarchical (leaf_built hb q0) hl hv (leaf_levels q0 hne) o ho ht dqMin maxIter reducedDim m).1 q0 ?_
  intro e he _
  refine ⟨_, leaf_getRhs_neutral hb hl hv he (hn e he), ?_⟩
  rw [conError_self (hl e he) (hv e he q0) _ (leaf_lengths hb hl hv he).2 (hcomp e he)]
  exact ht

omit hne ho in
/-- C141. On vector spaces, `rightHandSideFromConfig(q0)` does not make the error of any constraint at `q0` larger, whatever the
comparison types are, provided that the components of the previous right hand side that are not compared by `Equality` were zero, as
`checkRightHandSide` requires. -/
theorem C141_not_worse [IsStrictOrderedRing α] {e : Impl α κ × Nat} (he : e ∈ h) {n : Nat} (hspace : e.1.fn.space = vectorSpace α n)
    {r : List α} (hr : s.getRhs e.1 = some (some r)) (hz : e.1.checkRhs r = true) :
    ∃ r', (s.rhsFromConfig q0).getRhs e.1 = some (some r') ∧
      sqSum (conError s.ineqThr q0 e.1 r') ≤ sqSum (conError s.ineqThr q0 e.1 r) := by
  refine ⟨_, leaf_getRhs hb hl hv q0 he, sqSum_mono ?_⟩
  obtain ⟨r1, hr1, hel⟩ := C24_get hb hl hv e he
  rw [hr, Option.some.injEq, Option.some.injEq] at hr1
  subst hr1
  have hlr : r.length = n := by have := (hl e he).len _ hel; rw [hspace] at this; exact this
  have hlv : (e.1.fn.value q0).length = n := by have := (hl e he).len _ (hv e he q0); rw [hspace] at this; exact this
  obtain ⟨hc, hk⟩ := leaf_lengths hb hl hv he
  have hz' : ∀ p ∈ e.1.comp.zip r, p.1 = .equality ∨ p.2 = 0 := by
    intro p hp
    unfold Impl.checkRhs at hz
    rw [hspace] at hz
    simpa using List.all_eq_true.1 hz p hp
  rw [hspace] at hc hk
  unfold conError
  rw [hspace]
  show List.Forall₂ _ (List.zipWith _ e.1.comp (maskBy e.1.mask (List.zipWith (· - ·) (e.1.fn.value q0) (maskEq e.1.comp (e.1.fn.value q0)))))
    (List.zipWith _ e.1.comp (maskBy e.1.mask (List.zipWith (· - ·) (e.1.fn.value q0) r)))
  unfold maskBy maskEq
  rw [List.forall₂_iff_get]
  change e.1.comp.length = n at hc
  change e.1.mask.length = n at hk
  refine ⟨by simp [hc, hk, hlr, hlv], fun i h1 h2 => ?_⟩
  have hi : i < n := by simpa [hc, hk, hlr, hlv] using h1
  simp only [List.get_eq_getElem, List.getElem_zipWith]
  have hzi := hz' (e.1.comp[i]'(by omega), r[i]'(by omega)) (by
    rw [List.mem_iff_getElem]
    exact ⟨i, by simp [hc, hlr, hi], by simp⟩)
  dsimp only at hzi
  by_cases ht : e.1.comp[i]'(by omega) = .equality
  · rw [if_pos ht, ht]
    simp only [comparedError, sub_self, ite_self, mul_zero]
    exact mul_self_nonneg _
  · rw [if_neg ht, hzi.resolve_left ht]

/-- C141. So a configuration that satisfies the constraints, inequalities included, still does once the right hand side is set from it,
and the hierarchical solver returns it as it is. -/
theorem C141_kept [IsStrictOrderedRing α] (hspace : ∀ e ∈ h, ∃ n, e.1.fn.space = vectorSpace α n)
    (hz : ∀ e ∈ h, ∀ r, s.getRhs e.1 = some (some r) → e.1.checkRhs r = true)
    (ht : 0 ≤ s.sqThr) (hq : ErrorsAtMost s h q0 s.sqThr) (dqMin : α) (maxIter reducedDim : Nat) (m : M) :
    solve o s.sqThr dqMin maxIter reducedDim q0 m = ⟨q0, m, 0, some .success⟩ := by
  refine (C127_hierarchical (leaf_built hb q0) hl hv (leaf_levels q0 hne) o ho ht dqMin maxIter reducedDim m).1 q0 ?_
  intro e he hm
  obtain ⟨r, hr, hle⟩ := hq e he ((leaf_mandatory q0 e).1 hm)
  obtain ⟨n, hn⟩ := hspace e he
  obtain ⟨r', hr', hle'⟩ := C141_not_worse hb hl hv q0 he hn hr (hz e he r hr)
  exact ⟨r', hr', le_trans hle' hle⟩

end

section
variable [IsStrictOrderedRing α] [DecidableEq κ] {nq nv : Nat} {ex : ECS α κ} {El : Fn α κ → List α → Prop}
  {h : List (Impl α κ × Nat)} {s : HI α κ}
  (hx : ECS.Built nq nv ex) (hwf : ∀ c ∈ ex.cons, WellFormed nq nv c) (hcoh : AllCoherent ex.cons)
  (Ex : ECon α κ → List α → Prop) (hlaw : ∀ c ∈ ex.cons, c.space.Lawful (Ex c)) (hcl : ∀ c ∈ ex.cons, c.comp.length = c.space.nv)

omit [IsStrictOrderedRing α] in
include hx hlaw hcl in
/-- C141. The same for the explicit constraints. -/
theorem C141_same_leaf_explicit {q q' : Nat → α} (hqx : ∀ c ∈ ex.cons, Ex c (c.h q) ∧ Ex c (c.h q'))
    (hq : ∀ c ∈ ex.cons, c.SameLeaf q q') : ex.rhsFromInput q = ex.rhsFromInput q' := by
  have hI := (Inv.built hx).1
  unfold ECS.rhsFromInput
  congr 1
  refine List.map_congr_left fun d hd => ?_
  have hm := mem_cons_of_data hd
  have l1 := (hlaw _ hm).log_len _ (hqx _ hm).1
  have l2 := (hlaw _ hm).log_len _ (hqx _ hm).2
  unfold EData.rhsFromInput
  rw [hI.eqIdx d hd, keepEquality_eq _ _ _ (hcl _ hm) l1, keepEquality_eq _ _ _ (hcl _ hm) l2,
    maskEq_congr (l1.trans l2.symm) (hq _ hm)]

variable (hcons : ∀ c ∈ ex.cons, c.Consistent (Ex c))
  (hout : ∀ c ∈ ex.cons, ∀ x r, Ex c r → (c.outVal x r).length = (indices c.outQ).length)
  (hb : HI.Built El nv h s) (hl : ∀ e ∈ h, e.1.fn.space.Lawful (El e.1.fn)) (hv : ∀ e ∈ h, ∀ q, El e.1.fn (e.1.fn.value q))
  (hne : s.lastIsOptional = true → s.levels ≠ []) (q0 : Nat → α)
  (hq0 : ∀ c ∈ ex.cons, Ex c (c.h q0))
  (hfix : ∀ c ∈ ex.cons, ∀ (i : Nat) (t : Comp), c.comp[i]? = some t → t ≠ .equality → (c.space.log (c.h q0))[i]? = some 0)
  (hn : ∀ e ∈ h, e.1.OnNeutral q0)
  (o : BsOps (Nat → α) M α) (ho : ∀ q, (s.rhsFromConfig q0).sqNorm q = some (o.norm q))
  (hexp : ∀ q, (o.expl q).1 = (ex.rhsFromInput q0).solve q)

include hx hwf hcoh hlaw hcl hcons hout hb hl hv hne hq0 hfix hn ho hexp

/-- C141. Solver by substitution.  After `rightHandSideFromConfig(q0)`, a call that returns `SUCCESS` returns a configuration on the leaf
of `q0`: the implicit formulation of each explicit constraint takes exactly the value it takes at `q0`, and each mandatory implicit
constraint takes this value up to the threshold. -/
theorem C141_substitution (dqMin : α) (reducedDim : Nat) (w : Bool) (q : Nat → α) (m : M)
    (hs : (bsSolve o s.sqThr dqMin s.maxIter reducedDim w s.lastIsOptional q m).status = .success) :
    (∀ c ∈ ex.cons, c.h (bsSolve o s.sqThr dqMin s.maxIter reducedDim w s.lastIsOptional q m).arg = c.h q0) ∧
    ∀ e ∈ h, IsMandatory s e → sqSum (conError s.ineqThr
      (bsSolve o s.sqThr dqMin s.maxIter reducedDim w s.lastIsOptional q m).arg e.1 (e.1.fn.value q0)) ≤ s.sqThr := by
  have hB : ECS.Built nq nv (ex.rhsFromInput q0) := .rhsFromInput ex q0 hx
  have hc : (ex.rhsFromInput q0).cons = ex.cons := (C16_rhs_value hx Ex hlaw hcl q0 hq0).1
  obtain ⟨h1, -⟩ := C16_fixpoint hx hwf hcoh Ex hlaw hcl hcons hout q0 hq0 hfix
  obtain ⟨g1, g2⟩ := C37_success_all hB (by rw [hc]; exact hwf) (by rw [hc]; exact hcoh)
    (outLen_of_lawful hB Ex (by rw [hc]; exact hlaw) (by rw [hc]; exact hout)) (leaf_built hb q0) hl hv (leaf_levels q0 hne) o ho
    (fun p p' hp => by rw [← hexp, hp]) dqMin reducedDim w q m hs
  refine ⟨fun c hcm => ?_, fun e he hm => ?_⟩
  · rw [← hc] at hcm
    obtain ⟨d, hd, rfl⟩ := List.mem_map.1 hcm
    have hm : d.c ∈ ex.cons := by rw [← hc]; exact mem_cons_of_data hd
    have hr := (h1 d hd).1
    have := (hcons _ hm _ d.rhs (by rw [hr]; exact hq0 _ hm)).2 (g1 d hd)
    exact this.trans hr
  · obtain ⟨r, hr, hle⟩ := g2 e he ((leaf_mandatory q0 e).2 hm)
    rw [leaf_getRhs_neutral hb hl hv he (hn e he), Option.some.injEq, Option.some.injEq] at hr
    subst hr
    exact hle

/-- C141. Solver by substitution.  After `rightHandSideFromConfig(q0)`, `solve(q0)` without optimization returns `q0` with `SUCCESS`
without iteration, if the implicit constraints have only `Equality` and `EqualToZero` components and the explicit ones are defined at
`q0`. -/
theorem C141_substitution_start (hcomp : ∀ e ∈ h, ∀ t ∈ e.1.comp, t = .equality ∨ t = .equalToZero) (ht : 0 ≤ s.sqThr)
    (hd : (o.expl q0).2 = true) (dqMin : α) (maxIter reducedDim : Nat) (w : Bool) (hw : (w && s.lastIsOptional) = false) (m : M) :
    bsSolve o s.sqThr dqMin maxIter reducedDim w s.lastIsOptional q0 m = ⟨q0, m, 0, .success, false⟩ := by
  have hB : ECS.Built nq nv (ex.rhsFromInput q0) := .rhsFromInput ex q0 hx
  have hc : (ex.rhsFromInput q0).cons = ex.cons := (C16_rhs_value hx Ex hlaw hcl q0 hq0).1
  obtain ⟨h1, -⟩ := C16_fixpoint hx hwf hcoh Ex hlaw hcl hcons hout q0 hq0 hfix
  refine C127_kept hB (by rw [hc]; exact hwf) (by rw [hc]; exact hcoh)
    (outLen_of_lawful hB Ex (by rw [hc]; exact hlaw) (by rw [hc]; exact hout)) (leaf_built hb q0) hl hv (leaf_levels q0 hne) o ho
    hexp ht dqMin maxIter reducedDim w hw m hd (fun d hd => (h1 d hd).2.1) ?_
  intro e he _
  refine ⟨_, leaf_getRhs_neutral hb hl hv he (hn e he), ?_⟩
  rw [conError_self (hl e he) (hv e he q0) _ (leaf_lengths hb hl hv he).2 (hcomp e he)]
  show (0 : α) ≤ 1 / 4 * s.sqThr
  linarith

end

section
variable [IsStrictOrderedRing α] [DecidableEq κ] {nq nv : Nat} {E : Space α → List α → Prop} {h : BHist α κ} {s : BS α κ}
  (hb : BS.Built E nq nv h s) (hl : BHist.Lawful E h) (hwf : ∀ c ∈ explOf h, WellFormed nq nv c) (hcoh : AllCoherent (explOf h))
  (Ex : ECon α κ → List α → Prop) (hlaw : ∀ c ∈ explOf h, c.space.Lawful (Ex c)) (hcl : ∀ c ∈ explOf h, c.comp.length = c.space.nv)
  (hcons : ∀ c ∈ explOf h, c.Consistent (Ex c))
  (hout : ∀ c ∈ explOf h, ∀ x r, Ex c r → (c.outVal x r).length = (indices c.outQ).length)
  (hne : s.hi.lastIsOptional = true → s.hi.levels ≠ []) (q0 : Nat → α) (hq0 : ∀ c ∈ explOf h, Ex c (c.h q0))
  (hfix : ∀ c ∈ explOf h, ∀ (i : Nat) (t : Comp), c.comp[i]? = some t → t ≠ .equality → (c.space.log (c.h q0))[i]? = some 0)
  (hn : ∀ e ∈ implOf h, e.1.OnNeutral q0)
  (o : BsOps (Nat → α) M α) (ho : ∀ q, (s.rhsFromConfig q0).hi.sqNorm q = some (o.norm q))
  (hexp : ∀ q, (o.expl q).1 = (s.rhsFromConfig q0).ex.solve q)

include hb hl hwf hcoh hlaw hcl hcons hout hne hq0 hfix hn ho hexp

/-- C141. `BySubstitution::rightHandSideFromConfig(q0)` followed by `solve(q)`, for a solver built by insertion of constraints. -/
theorem C141_solver (dqMin : α) (w : Bool) (q : Nat → α) (m : M) :
    let t := s.rhsFromConfig q0
    let r := bsSolve o t.hi.sqThr dqMin t.hi.maxIter t.reducedDim w t.hi.lastIsOptional q m
    r.status = .success → (∀ c ∈ explOf h, c.h r.arg = c.h q0) ∧
      ∀ e ∈ implOf h, IsMandatory s.hi e → sqSum (conError s.hi.ineqThr r.arg e.1 (e.1.fn.value q0)) ≤ s.hi.sqThr := by
  intro t r hs
  obtain ⟨b1, b2, b3, -⟩ := hb.parts
  obtain ⟨l1, l2⟩ := hl.impl
  rw [← b3] at hwf hcoh hlaw hcl hcons hout hq0 hfix ⊢
  exact C141_substitution b2 hwf hcoh Ex hlaw hcl hcons hout b1 l1 l2 hne q0 hq0 hfix hn o ho hexp dqMin t.reducedDim w q m hs

/-- C141. `BySubstitution::rightHandSideFromConfig(q0)` followed by `solve(q0)` without optimization. -/
theorem C141_solver_start (hcomp : ∀ e ∈ implOf h, ∀ t ∈ e.1.comp, t = .equality ∨ t = .equalToZero) (ht : 0 ≤ s.hi.sqThr)
    (hd : (o.expl q0).2 = true) (dqMin : α) (w : Bool) (hw : (w && s.hi.lastIsOptional) = false) (m : M) :
    let t := s.rhsFromConfig q0
    bsSolve o t.hi.sqThr dqMin t.hi.maxIter t.reducedDim w t.hi.lastIsOptional q0 m = ⟨q0, m, 0, .success, false⟩ := by
  intro t
  obtain ⟨b1, b2, b3, -⟩ := hb.parts
  obtain ⟨l1, l2⟩ := hl.impl
  rw [← b3] at hwf hcoh hlaw hcl hcons hout hq0 hfix
  exact C141_substitution_start b2 hwf hcoh Ex hlaw hcl hcons hout b1 l1 l2 hne q0 hq0 hfix hn o ho hexp hcomp ht hd dqMin
    t.hi.maxIter t.reducedDim w hw m

end

end Hpp
