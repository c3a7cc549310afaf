import Verif.HI.Rows

/-!
# Properties of the hierarchical solver: C23 to C28, C33, C35, C64, C66, C70
-/

namespace Hpp

variable {α κ : Type}

/-! ## Example data -/

namespace HIEx

/-- A function of three variables to `ℝⁿ`. -/
def fn (key n : Nat) (value : (Nat → Int) → List Int) (active : List Bool) : Fn Int Nat where
  key := key
  inputSize := 3
  inputDer := 3
  spaceId := n
  space := vectorSpace Int n
  value := value
  jac _ := fun _ _ => 0
  activeQ := active
  active := active

/-- `q ↦ (q 0, q 1)` -/
def fA : Fn Int Nat := fn 0 2 (fun q => [q 0, q 1]) [true, true, false]
/-- `q ↦ q 0 + q 2` -/
def fB : Fn Int Nat := fn 1 1 (fun q => [q 0 + q 2]) [true, false, true]
/-- `q ↦ (q 2, q 1 - 1)` -/
def fC : Fn Int Nat := fn 2 2 (fun q => [q 2, q 1 - 1]) [false, true, true]

def cA : Impl Int Nat := (Impl.create fA [.equality, .equalToZero] []).get (by decide +kernel)
def cB : Impl Int Nat := (Impl.create fB [.superior] []).get (by decide +kernel)
def cC : Impl Int Nat := (Impl.create fC [.equality, .equality] [true, false]).get (by decide +kernel)
/-- Same function as `cB`, other comparison type. -/
def cB' : Impl Int Nat := (Impl.create fB [.equality] []).get (by decide +kernel)

theorem cA_built : Impl.Built fA [] [.equality, .equalToZero] cA := .create _ _ (Option.some_get _).symm
theorem cB_built : Impl.Built fB [] [.superior] cB := .create _ _ (Option.some_get _).symm
theorem cC_built : Impl.Built fC [true, false] [.equality, .equality] cC :=
  .create _ _ (Option.some_get _).symm
theorem cB'_built : Impl.Built fB [] [.equality] cB' := .create _ _ (Option.some_get _).symm

/-- Elements of the output space of a function to a vector space. -/
def El (f : Fn Int Nat) (g : List Int) : Prop := g.length = f.space.nq

/-- Three constraints on two levels, the middle one on the second level. -/
def hist : List (Impl Int Nat × Nat) := [(cA, 0), (cB, 1), (cC, 0)]

def s1 : HI Int Nat := ((HI.init Int Nat 3).add cA 0).1
def s2 : HI Int Nat := (s1.add cB 1).1
def s3 : HI Int Nat := (s2.add cC 0).1

theorem s1_built : HI.Built El 3 [(cA, 0)] s1 :=
  .add .init ⟨_, _, _, cA_built⟩ (Prod.ext rfl rfl)
theorem s2_built : HI.Built El 3 [(cA, 0), (cB, 1)] s2 :=
  .add (h := [(cA, 0)]) s1_built ⟨_, _, _, cB_built⟩ (Prod.ext rfl rfl)
theorem s3_built : HI.Built El 3 hist s3 :=
  .add (h := [(cA, 0), (cB, 1)]) s2_built ⟨_, _, _, cC_built⟩ (Prod.ext rfl rfl)

theorem law (e : Impl Int Nat × Nat) (he : e ∈ hist) : e.1.fn.space.Lawful (El e.1.fn) := by
  simp only [hist, List.mem_cons, List.not_mem_nil, or_false] at he
  rcases he with rfl | rfl | rfl
  · exact vectorSpace_lawful 2
  · exact vectorSpace_lawful 1
  · exact vectorSpace_lawful 2

theorem val (e : Impl Int Nat × Nat) (he : e ∈ hist) (q : Nat → Int) : El e.1.fn (e.1.fn.value q) := by
  simp only [hist, List.mem_cons, List.not_mem_nil, or_false] at he
  rcases he with rfl | rfl | rfl <;> rfl

theorem compat (e : Impl Int Nat × Nat) (he : e ∈ hist) : SameInput 3 3 e.1 := by
  simp only [hist, List.mem_cons, List.not_mem_nil, or_false] at he
  rcases he with rfl | rfl | rfl <;> exact ⟨rfl, rfl, rfl, rfl⟩

end HIEx

section
variable [Zero α] [DecidableEq κ] {El : Fn α κ → List α → Prop} {nv : Nat}
  {h : List (Impl α κ × Nat)} {s : HI α κ}

/-! ## C23 -/

/-- C23. After any history, the constraint that comes after the history `h1` is registered at its
priority, and starts at the sum of the sizes of the constraints added before at the same priority:
the ranges of a level are consecutive, in insertion order, from zero. -/
theorem C23_ranks (hb : HI.Built El nv h s) (hl : ∀ e ∈ h, e.1.fn.space.Lawful (El e.1.fn))
    (hv : ∀ e ∈ h, ∀ q, El e.1.fn (e.1.fn.value q)) (h1 h2 : List (Impl α κ × Nat)) (c : Impl α κ)
    (p : Nat) (he : h = h1 ++ (c, p) :: h2) :
    lookupKey s.prio c.fn.key = some p ∧
    lookupKey s.iq c.fn.key = some (((atLevel h1 p).map (·.fn.space.nq)).sum) ∧
    lookupKey s.iv c.fn.key = some (((atLevel h1 p).map (·.fn.space.nv)).sum) := by
  have hs := (hb.inv hl hv).1
  exact ⟨lookup_prio hs (by rw [he]; simp), hs.iq h1 c p h2 he, hs.iv h1 c p h2 he⟩

/-- C23. The constraints of level `i` are those added with priority `i`, in insertion order; the sizes of
the level are the sums of their sizes, and so are the comparison types.  There is no level after the
last constraint. -/
theorem C23_levels (hb : HI.Built El nv h s) (hl : ∀ e ∈ h, e.1.fn.space.Lawful (El e.1.fn))
    (hv : ∀ e ∈ h, ∀ q, El e.1.fn (e.1.fn.value q)) :
    s.constraints = h.map (·.1) ∧ (∀ e ∈ h, e.2 < s.levels.length) ∧
    (s.levels.length = 0 ∨ ∃ e ∈ h, e.2 + 1 = s.levels.length) ∧
    ∀ (i : Nat) (l : Level α κ), s.levels[i]? = some l →
      l.stack.cs = atLevel h i ∧
      l.stack.fns.space.nq = ((atLevel h i).map (·.fn.space.nq)).sum ∧
      l.stack.fns.space.nv = ((atLevel h i).map (·.fn.space.nv)).sum ∧
      l.comp = (atLevel h i).flatMap (·.comp) ∧
      (∀ r : Nat, r ∈ l.ineq ↔ l.comp[r]? = some .superior ∨ l.comp[r]? = some .inferior) ∧
      (∀ r : Nat, Covers l.eq.segs r ↔ l.comp[r]? = some .equality) := by
  have hs := (hb.inv hl hv).1
  refine ⟨hs.cons, hs.nlev, hs.nlev_min, fun i l hi => ?_⟩
  have hc := hs.level i l hi
  refine ⟨hc.stack.cs_eq, hc.nq, hc.nv, hc.comp, fun r => ?_, hc.eq⟩
  rw [hc.ineq, mem_ineqFrom]
  simp

/-- C23. The dimension of the solver is the number of rows of all its constraints. -/
theorem C23_dimension (hb : HI.Built El nv h s) (hl : ∀ e ∈ h, e.1.fn.space.Lawful (El e.1.fn))
    (hv : ∀ e ∈ h, ∀ q, El e.1.fn (e.1.fn.value q)) :
    s.dimension = (h.map (·.1.fn.space.nv)).sum := by
  have hs := (hb.inv hl hv).1
  rw [hs.dim, levels_map_eq _ (fun cs => (cs.map (·.fn.space.nv)).sum)
    (fun i l hi => (hs.level i l hi).nv)]
  exact sum_levels h (fun c => c.fn.space.nv) _ hs.nlev

/-- C23. The rows of a level that are solved for are exactly those selected by the masks of the
constraints that depend on a free variable. -/
theorem C23_active_rows (hb : HI.Built El nv h s) (hl : ∀ e ∈ h, e.1.fn.space.Lawful (El e.1.fn))
    (hv : ∀ e ∈ h, ∀ q, El e.1.fn (e.1.fn.value q)) (i : Nat) (l : Level α κ)
    (hi : s.levels[i]? = some l) :
    (∀ r : Nat, Covers l.rows.segs r ↔ (rowMask s.free.segs (atLevel h i))[r]? = some true) ∧
    Canonical l.rows.segs ∧ l.rows.nb = (rowMask s.free.segs (atLevel h i)).count true := by
  obtain ⟨hs, hf, -⟩ := hb.inv hl hv
  exact (hs.level i l hi).rows_spec fun c hc => by
    obtain ⟨_, _, _, hcb⟩ := hf.built _ (mem_atLevel.1 hc)
    exact hcb.ok.1

/-- C23. The reduced dimension counts, over all the constraints that depend on a free variable, the rows
selected by their masks. -/
theorem C23_reduced_dimension (hb : HI.Built El nv h s)
    (hl : ∀ e ∈ h, e.1.fn.space.Lawful (El e.1.fn)) (hv : ∀ e ∈ h, ∀ q, El e.1.fn (e.1.fn.value q)) :
    s.reducedDim = (h.map fun e => if dependsOnFree s.free.segs e.1 then e.1.mask.count true else 0).sum := by
  obtain ⟨hs, hf, -⟩ := hb.inv hl hv
  rw [hs.rdim, levels_map_eq _ (fun cs => (cs.map fun c =>
      if dependsOnFree s.free.segs c then c.mask.count true else 0).sum)]
  · exact sum_levels h (fun c => if dependsOnFree s.free.segs c then c.mask.count true else 0) _ hs.nlev
  · intro i l hi
    rw [(C23_active_rows hb hl hv i l hi).2.2]
    unfold rowMask
    rw [sum_flatMap_count]
    congr 1
    apply List.map_congr_left
    intro c _
    cases dependsOnFree s.free.segs c <;> simp [List.count_replicate]

/-! ## C24 -/

/-- C24. A constraint of the solver has a right hand side, which is an element of its output space. -/
theorem C24_get (hb : HI.Built El nv h s) (hl : ∀ e ∈ h, e.1.fn.space.Lawful (El e.1.fn))
    (hv : ∀ e ∈ h, ∀ q, El e.1.fn (e.1.fn.value q)) (e : Impl α κ × Nat) (he : e ∈ h) :
    ∃ r, s.getRhs e.1 = some (some r) ∧ El e.1.fn r := by
  obtain ⟨hs, hf, R, hR⟩ := hb.inv hl hv
  exact ⟨_, getRhs_eq hs hf hR he, hR.el e he⟩

/-- C24. Setting the right hand side of a constraint of the solver returns `true`; reading it gives the
value back; the right hand sides of the constraints on other functions, the constraints and the
priorities are unchanged. -/
theorem C24_set_get (hb : HI.Built El nv h s) (hl : ∀ e ∈ h, e.1.fn.space.Lawful (El e.1.fn))
    (hv : ∀ e ∈ h, ∀ q, El e.1.fn (e.1.fn.value q)) (e : Impl α κ × Nat) (he : e ∈ h) (v : List α)
    (hel : El e.1.fn v) :
    ∃ s', s.setRhs e.1 v = some (s', true) ∧ s'.getRhs e.1 = some (some v) ∧
      (∀ e' ∈ h, e' ≠ e → s'.getRhs e'.1 = s.getRhs e'.1) ∧
      s'.constraints = s.constraints ∧ s'.prio = s.prio ∧ s'.iq = s.iq ∧ s'.iv = s.iv ∧
      s'.dimension = s.dimension ∧ s'.reducedDim = s.reducedDim := by
  obtain ⟨hs, hf, R, hR⟩ := hb.inv hl hv
  obtain ⟨s', h1, ⟨ls, rfl⟩, h3, h4⟩ := writeRhs_present hs hf hR he rfl hel
  refine ⟨_, h1, ?_, ?_, rfl, rfl, rfl, rfl, rfl, rfl⟩
  · rw [getRhs_eq h3 hf h4 he]; simp [setKey]
  · intro e' he' hne
    rw [getRhs_eq h3 hf h4 he', getRhs_eq hs hf hR he']
    have : e'.1.fn.key ≠ e.1.fn.key := fun hk => hne (key_unique hs.keys he' he hk)
    simp [setKey, this]

/-- C24. For a constraint on a function that is not in the solver, `false` is returned and nothing
changes. -/
theorem C24_absent (hb : HI.Built El nv h s) (hl : ∀ e ∈ h, e.1.fn.space.Lawful (El e.1.fn))
    (hv : ∀ e ∈ h, ∀ q, El e.1.fn (e.1.fn.value q)) (c : Impl α κ)
    (hc : ∀ e ∈ h, e.1.fn.key ≠ c.fn.key) (v : List α) (q : Nat → α) :
    s.setRhs c v = some (s, false) ∧ s.rhsFromConfigOne c q = some (s, false) ∧
    s.getRhs c = some none := by
  have hs := (hb.inv hl hv).1
  refine ⟨writeRhs_absent hs hc v, writeRhs_absent hs hc _, ?_⟩
  have hn : c.fn.key ∉ s.prio.map (·.1) := by
    rw [key_mem_prio hs]
    intro hm
    obtain ⟨e, he, hk⟩ := List.mem_map.1 hm
    exact hc e he hk
  unfold HI.getRhs
  rw [lookupKey_none.2 hn]

/-- C24. The stacked right hand side is made of the right hand sides of the constraints, level after
level, in insertion order. -/
theorem C24_stacked (hb : HI.Built El nv h s) (hl : ∀ e ∈ h, e.1.fn.space.Lawful (El e.1.fn))
    (hv : ∀ e ∈ h, ∀ q, El e.1.fn (e.1.fn.value q)) :
    s.rhs = stackRhs h s.levels.length
      (fun k => ((h.find? fun e => e.1.fn.key = k).bind fun e => (s.getRhs e.1).join).getD []) ∧
    s.rhs.length = s.rhsSize := by
  obtain ⟨hs, hf, R, hR⟩ := hb.inv hl hv
  have hlen : ∀ (i : Nat) (l : Level α κ), s.levels[i]? = some l →
      l.rhs.length = l.stack.fns.space.nq := by
    intro i l hi
    rw [hR.eq i l hi, List.flatMap_def, (hs.level i l hi).stack.fns.space]
    exact (PartsOk.map (El := El) (fun c => R c.fn.key)
        fun c hc => hR.el _ (mem_atLevel.1 hc)).lengths (hf.level i)
  refine ⟨?_, ?_⟩
  · rw [rhs_eq_stack hR]
    unfold stackRhs
    rw [List.flatMap_def, List.flatMap_def]
    congr 1
    apply List.map_congr_left
    intro i _
    rw [List.flatMap_def, List.flatMap_def]
    congr 1
    apply List.map_congr_left
    intro c hc
    have hm := mem_atLevel.1 hc
    have hfind : (h.find? fun e => e.1.fn.key = c.fn.key) = some (c, i) := by
      cases hfd : h.find? fun e => e.1.fn.key = c.fn.key with
      | none =>
        rw [List.find?_eq_none] at hfd
        exact absurd (by simp) (hfd _ hm)
      | some e =>
        have h1 := List.mem_of_find?_eq_some hfd
        have h2 := List.find?_some hfd
        simp only [decide_eq_true_eq] at h2
        rw [key_unique hs.keys h1 hm h2]
    have := getRhs_eq hs hf hR hm
    simp only at this
    simp only [hfind]
    simp [this]
  · unfold HI.rhs HI.rhsSize
    rw [List.length_flatMap]
    congr 1
    apply List.ext_getElem?
    intro i
    rw [List.getElem?_map, List.getElem?_map]
    cases hi : s.levels[i]? with
    | none => rfl
    | some l => simp [hlen i l hi]

open HIEx in
/-- The example solver meets the hypotheses: two levels, the ranks of the second constraint of level 0
start after the first one; row 1 of `cC` is masked and with variable 1 only `cB` does not count. -/
example : HI.Built HIEx.El 3 hist s3 ∧ (∀ e ∈ hist, e.1.fn.space.Lawful (HIEx.El e.1.fn)) ∧
    (∀ e ∈ hist, ∀ q, HIEx.El e.1.fn (e.1.fn.value q)) ∧
    lookupKey s3.iv fC.key = some 2 ∧ s3.dimension = 5 ∧ s3.reducedDim = 4 ∧
    (s3.setFreeIndices (Blocks.empty.add 1 1)).reducedDim = 3 ∧
    (s3.setRhs cC [7, 8]).map (fun r => (r.1.rhs, r.2)) = some ([0, 0, 7, 8, 0], true) :=
  ⟨s3_built, law, val, by decide +kernel⟩

/-! ## C25 -/

/-- C25. After `rightHandSideFromConfig(q)`, the right hand side of each constraint is the one whose
logarithm is that of the value of the function at `q` on the `Equality` components, and zero on the
others. -/
theorem C25_from_config (hb : HI.Built El nv h s) (hl : ∀ e ∈ h, e.1.fn.space.Lawful (El e.1.fn))
    (hv : ∀ e ∈ h, ∀ q, El e.1.fn (e.1.fn.value q)) (q : Nat → α) (e : Impl α κ × Nat) (he : e ∈ h) :
    ∃ r, (s.rhsFromConfig q).getRhs e.1 = some (some r) ∧ El e.1.fn r ∧
      ∀ (i : Nat) (t : Comp), e.1.comp[i]? = some t → (e.1.fn.space.log r)[i]? =
        if t = .equality then (e.1.fn.space.log (e.1.fn.value q))[i]? else some 0 := by
  obtain ⟨hs, hf, -⟩ := hb.inv hl hv
  obtain ⟨h1, R, hR, hRe⟩ := fromConfig_rhsIs hs hf q
  refine ⟨_, getRhs_eq h1 hf hR he, hR.el e he, ?_⟩
  rw [hRe e he]
  obtain ⟨fn, mask, comp, hcb⟩ := hf.built e he
  obtain ⟨hok, hfn, hcomp, -⟩ := hcb.ok
  intro i t ht
  have h3 := (hl e he).log_len _ (hv e he q)
  rw [(impl_rhsFromConfig_el hf he q).1, (hl e he).log_exp_mask _ _ (hv e he q) hok.comp_len]
  unfold maskEq
  rw [List.getElem?_zipWith, ht]
  have hi : i < (e.1.fn.space.log (e.1.fn.value q)).length := by
    rw [h3, ← hok.comp_len]; exact lt_of_getElem?_some ht
  rw [List.getElem?_eq_getElem hi]
  simp only
  split <;> simp

/-- C25. The version for one constraint gives it the same right hand side and leaves the others. -/
theorem C25_from_config_one (hb : HI.Built El nv h s) (hl : ∀ e ∈ h, e.1.fn.space.Lawful (El e.1.fn))
    (hv : ∀ e ∈ h, ∀ q, El e.1.fn (e.1.fn.value q)) (q : Nat → α) (e : Impl α κ × Nat) (he : e ∈ h) :
    ∃ s', s.rhsFromConfigOne e.1 q = some (s', true) ∧
      s'.getRhs e.1 = (s.rhsFromConfig q).getRhs e.1 ∧
      ∀ e' ∈ h, e' ≠ e → s'.getRhs e'.1 = s.getRhs e'.1 := by
  obtain ⟨hs, hf, -⟩ := hb.inv hl hv
  obtain ⟨h1, R, hR, hRe⟩ := fromConfig_rhsIs hs hf q
  obtain ⟨s', h2, h3, h4, -⟩ := C24_set_get hb hl hv e he _ (impl_rhsFromConfig_el hf he q).2
  refine ⟨s', h2, ?_, h4⟩
  rw [h3, getRhs_eq h1 hf hR he, hRe e he]

/-- C25. For a constraint with only `Equality` types, the error at `q` is then zero. -/
theorem C25_equality_satisfied [Add α] [Sub α] [Neg α] [Mul α] [LT α] [DecidableLT α]
    (hb : HI.Built El nv h s) (hl : ∀ e ∈ h, e.1.fn.space.Lawful (El e.1.fn))
    (hv : ∀ e ∈ h, ∀ q, El e.1.fn (e.1.fn.value q)) (q : Nat → α) (e : Impl α κ × Nat) (he : e ∈ h)
    (hcomp : ∀ t ∈ e.1.comp, t = .equality) :
    (s.rhsFromConfig q).getRhs e.1 = some (some (e.1.fn.value q)) ∧
    ∃ b, (s.rhsFromConfig q).isConstraintSatisfied e.1 q =
      some (some (List.replicate e.1.fn.space.nv 0, b)) := by
  obtain ⟨hs, hf, -⟩ := hb.inv hl hv
  obtain ⟨h1, R, hR, hRe⟩ := fromConfig_rhsIs hs hf q
  obtain ⟨fn, mask, comp, hcb⟩ := hf.built e he
  have hok := hcb.ok.1
  have hlen := (hl e he).log_len _ (hv e he q)
  have hval : e.1.rhsFromConfig q = e.1.fn.value q := by
    rw [(impl_rhsFromConfig_el hf he q).1, maskEq_all _ _ (hok.comp_len.trans hlen.symm) hcomp,
      (hl e he).exp_log _ (hv e he q)]
  have hRv : R e.1.fn.key = e.1.fn.value q := by rw [hRe e he, hval]
  refine ⟨by rw [getRhs_eq h1 hf hR he, hRv], ?_⟩
  have hsub : e.1.fn.space.sub (e.1.fn.value q) (R e.1.fn.key) = List.replicate e.1.fn.space.nv 0 := by
    rw [hRv]; exact ((hl e he).sub_eq_zero _ _ (hv e he q) (hv e he q)).2 rfl
  rw [isConstraintSatisfied_eq h1 hf hR he q, hsub, maskBy_zero _ _ hok.mask_len]
  exact ⟨_, rfl⟩

/-- C25. On a vector space, whatever the comparison types, the error at `q` is zero on every `Equality`
component, and the value of the function on the others (rows selected by the mask). -/
theorem C25_vector_space {β : Type} [AddGroup β] {El : Fn β κ → List β → Prop} {nv : Nat}
    {h : List (Impl β κ × Nat)} {s : HI β κ} [Mul β] [LT β] [DecidableLT β]
    (hb : HI.Built El nv h s) (hl : ∀ e ∈ h, e.1.fn.space.Lawful (El e.1.fn))
    (hv : ∀ e ∈ h, ∀ q, El e.1.fn (e.1.fn.value q)) (q : Nat → β) (e : Impl β κ × Nat) (he : e ∈ h)
    (n : Nat) (hspace : e.1.fn.space = vectorSpace β n) :
    ∃ err b, (s.rhsFromConfig q).isConstraintSatisfied e.1 q = some (some (err, b)) ∧
      ∀ (i : Nat) (t : Comp), e.1.comp[i]? = some t → e.1.mask[i]? = some true →
        err[i]? = if t = .equality then some 0 else (e.1.fn.value q)[i]? := by
  obtain ⟨hs, hf, -⟩ := hb.inv hl hv
  obtain ⟨h1, R, hR, hRe⟩ := fromConfig_rhsIs hs hf q
  refine ⟨_, _, isConstraintSatisfied_eq h1 hf hR he q, ?_⟩
  intro i t ht hm
  rw [hRe e he, (impl_rhsFromConfig_el hf he q).1, hspace]
  have hlen := (hl e he).len _ (hv e he q)
  rw [hspace] at hlen
  have hlen' : (e.1.fn.value q).length = n := hlen
  obtain ⟨fn, mask, comp, hcb⟩ := hf.built e he
  have hok := hcb.ok.1
  have hcl : e.1.comp.length = n := by rw [hok.comp_len, hspace]; rfl
  have hi : i < n := by rw [← hcl]; exact lt_of_getElem?_some ht
  show (maskBy e.1.mask (List.zipWith (· - ·) (e.1.fn.value q) (maskEq e.1.comp (e.1.fn.value q))))[i]? = _
  unfold maskBy maskEq
  rw [List.getElem?_zipWith, hm, List.getElem?_zipWith, List.getElem?_zipWith, ht,
    List.getElem?_eq_getElem (by omega)]
  by_cases ht' : t = .equality <;> simp [ht']

open HIEx in
example : (s3.rhsFromConfig (fun i => [5, 6, 7].getD i 0)).rhs = [5, 0, 7, 5, 0] := by
  decide +kernel

namespace HIEx

/-- The Heisenberg group in exponential coordinates: `exp` and `log` are the identity and the difference
`h⁻¹ g` has a bracket term. -/
def heisenberg : Space Int where
  nq := 3
  nv := 3
  neutral := [0, 0, 0]
  exp v := v
  log v := v
  sub g h := match g, h with
    | [a, b, c], [a', b', c'] => [a - a', b - b', c - c' + (b' * a - a' * b)]
    | _, _ => []

theorem heisenberg_lawful : heisenberg.Lawful (fun g => g.length = 3) where
  neutral_mem := rfl
  log_len := fun _ h => h
  len := fun _ h => h
  exp_mem := fun _ h => h
  exp_log := fun _ _ => rfl
  exp_zero := rfl
  log_exp_mask := fun _ _ _ _ => rfl
  sub_len := by
    intro g h hg hh
    match g, h, hg, hh with
    | [a, b, c], [a', b', c'], _, _ => rfl
  sub_eq_zero := by
    intro g h hg hh
    match g, h, hg, hh with
    | [a, b, c], [a', b', c'], _, _ =>
      show ([a - a', b - b', c - c' + (b' * a - a' * b)] : List Int) = [0, 0, 0] ↔ _
      simp only [List.cons.injEq, and_true]
      constructor
      · rintro ⟨h1, h2, h3⟩
        have e1 : a = a' := by omega
        have e2 : b = b' := by omega
        subst e1 e2
        refine ⟨rfl, rfl, ?_⟩
        rw [mul_comm b a, sub_self] at h3
        omega
      · rintro ⟨rfl, rfl, rfl⟩
        refine ⟨by omega, by omega, ?_⟩
        rw [mul_comm b a]; omega

/-- A function with values in that group. -/
def fH : Fn Int Nat := { fn 5 3 (fun q => [q 0, q 1, q 2]) [true, true, true] with space := heisenberg }
def cH : Impl Int Nat :=
  (Impl.create fH [.equality, .equalToZero, .equality] []).get (by decide +kernel)
theorem cH_built : Impl.Built fH [] [.equality, .equalToZero, .equality] cH :=
  .create _ _ (Option.some_get _).symm
def sH : HI Int Nat := ((HI.init Int Nat 3).add cH 0).1
theorem sH_built : HI.Built HIEx.El 3 [(cH, 0)] sH := .add .init ⟨_, _, _, cH_built⟩ (Prod.ext rfl rfl)

end HIEx

open HIEx in
/-- C25 fails for mixed comparison types on a non commutative group: after initialisation from `q` the
error at `q` is not zero on a component compared with `Equality`. -/
theorem C25_mixed_refuted : ∃ (s : HI Int Nat) (h : List (Impl Int Nat × Nat)) (c : Impl Int Nat)
    (q : Nat → Int), HI.Built HIEx.El 3 h s ∧ (c, 0) ∈ h ∧ c.fn.space.Lawful (HIEx.El c.fn) ∧
      c.comp[2]? = some .equality ∧ c.mask[2]? = some true ∧
      ((s.rhsFromConfig q).isConstraintSatisfied c q).map (·.map (·.1)) = some (some [0, 1, -1]) :=
  ⟨sH, [(cH, 0)], cH, fun i => if i < 2 then 1 else 0, sH_built, by simp, heisenberg_lawful,
    by decide +kernel⟩

/-! ## C26 -/

/-- C26, part: if all the constraints have the same priority, setting the stacked right hand side and
reading it gives the vector back.  Missing: several levels, for which it is false (see below). -/
theorem C26_one_level_partial (hb : HI.Built El nv h s)
    (hl : ∀ e ∈ h, e.1.fn.space.Lawful (El e.1.fn)) (hv : ∀ e ∈ h, ∀ q, El e.1.fn (e.1.fn.value q))
    (p : Nat) (hp : ∀ e ∈ h, e.2 = p) (R : κ → List α) (hR : ∀ e ∈ h, El e.1.fn (R e.1.fn.key)) :
    ∃ s', s.setRhsVec (stackRhs h s.levels.length R) = some s' ∧
      s'.rhs = stackRhs h s.levels.length R ∧
      ∀ e ∈ h, s'.getRhs e.1 = some (some (R e.1.fn.key)) := by
  obtain ⟨hs, hf, R0, hR0⟩ := hb.inv hl hv
  obtain ⟨s', h1⟩ := setRhsVec_some hs hf hR0 hR p hp
  obtain ⟨h2, h3⟩ := setRhsVec_rhsIs hs hf hR0 hR h1
  refine ⟨s', h1, ?_, fun e he => getRhs_eq h2 hf h3 he⟩
  rw [rhs_eq_stack h3]
  congr 1
  unfold HI.setRhsVec at h1
  rw [Option.map_eq_some_iff] at h1
  obtain ⟨ls, hls, rfl⟩ := h1
  have := setRhsLoop_eq hf hR s.levels 0 0 0 [] ls
    (fun j l hj => by
      rw [Nat.zero_add]
      exact ⟨(hs.level j l hj).toLevelCore, rhs_length hs hf hR0 hj⟩) rfl
    (by rw [List.nil_append, ← List.range_eq_range']; exact hls)
  exact this.2.1.length_eq.symm

/-- C26 fails as soon as a level is followed by another one and has a non trivial output: whatever the
vector, the call reads and writes out of the vectors of the second level. -/
theorem C26_two_levels_refuted (hb : HI.Built El nv h s)
    (hl : ∀ e ∈ h, e.1.fn.space.Lawful (El e.1.fn)) (hv : ∀ e ∈ h, ∀ q, El e.1.fn (e.1.fn.value q))
    (e e' : Impl α κ × Nat) (he : e ∈ h) (he' : e' ∈ h) (hlt : e.2 < e'.2)
    (hne : e.1.fn.space.nq ≠ 0) (v : List α) : s.setRhsVec v = none := by
  obtain ⟨hs, hf, R, hR⟩ := hb.inv hl hv
  cases hv' : s.setRhsVec v with
  | none => rfl
  | some s' =>
    exfalso
    unfold HI.setRhsVec at hv'
    rw [Option.map_eq_some_iff] at hv'
    obtain ⟨ls, hls, -⟩ := hv'
    have h1 := hs.nlev e' he'
    have := setRhsLoop_zero s.levels 0 0 v ls (fun j l hj => rhs_length hs hf hR hj) hls e.2
      s.levels[e.2] (List.getElem?_eq_getElem (by omega)) (by omega)
    have h2 := (hs.level e.2 _ (List.getElem?_eq_getElem (by omega : e.2 < s.levels.length))).nq
    rw [this] at h2
    have h3 : e.1.fn.space.nq ∈ (atLevel h e.2).map (·.fn.space.nq) :=
      List.mem_map.2 ⟨e.1, mem_atLevel.2 he, rfl⟩
    have := le_sum_of_mem h3
    omega

open HIEx in
example : s3.setRhsVec [1, 0, 2, 3, 0] = none :=
  C26_two_levels_refuted s3_built law val (cA, 0) (cB, 1) (by simp [hist]) (by simp [hist]) (by decide)
    (by decide +kernel) _

open HIEx in
example : (s1.setRhsVec [4, 0]).map (·.rhs) = some [4, 0] := by decide +kernel

/-! ## C27 -/

/-- What addition does to the right hand sides: all of them become neutral, those of the constraints
already present too. -/
theorem C27_add_resets (hb : HI.Built El nv h s) (c : Impl α κ) (p : Nat) (s' : HI α κ)
    (hcb : ∃ fn mask comp, Impl.Built fn mask comp c) (ha : s.add c p = (s', none))
    (hl : ∀ e ∈ h ++ [(c, p)], e.1.fn.space.Lawful (El e.1.fn))
    (hv : ∀ e ∈ h ++ [(c, p)], ∀ q, El e.1.fn (e.1.fn.value q)) :
    ∀ e ∈ h ++ [(c, p)], s'.getRhs e.1 = some (some e.1.fn.space.neutral) := by
  have hb' := HI.Built.add hb hcb ha
  obtain ⟨hs, hf, -⟩ := hb'.inv hl hv
  obtain ⟨-, lv, st, -, -, rfl⟩ := HI.add_none ha
  obtain ⟨R, hR, hRe⟩ := updated_rhsIs hs hf (update_neutral _)
  intro e he
  rw [getRhs_eq hs hf hR he, hRe e he]

/-- C27, part: the right hand sides that were neutral are unchanged.  Missing: the others, see
`C27_refuted`. -/
theorem C27_neutral_kept_partial (hb : HI.Built El nv h s) (c : Impl α κ) (p : Nat) (s' : HI α κ)
    (hcb : ∃ fn mask comp, Impl.Built fn mask comp c) (ha : s.add c p = (s', none))
    (hl : ∀ e ∈ h ++ [(c, p)], e.1.fn.space.Lawful (El e.1.fn))
    (hv : ∀ e ∈ h ++ [(c, p)], ∀ q, El e.1.fn (e.1.fn.value q)) (e : Impl α κ × Nat) (he : e ∈ h) :
    s'.getRhs e.1 = s.getRhs e.1 ↔ s.getRhs e.1 = some (some e.1.fn.space.neutral) := by
  rw [C27_add_resets hb c p s' hcb ha hl hv e (by simp [he])]
  exact eq_comm

open HIEx in
/-- C27 fails: a right hand side set before the addition is lost. -/
theorem C27_refuted : ∃ s s' : HI Int Nat, HI.Built HIEx.El 3 [(cA, 0)] s ∧ s.add cB 1 = (s', none) ∧
    s.getRhs cA = some (some [4, 0]) ∧ s'.getRhs cA = some (some [0, 0]) := by
  obtain ⟨s, hs, h1, -⟩ := C24_set_get s1_built (fun e he => law e (by simp_all [hist]))
    (fun e he => val e (by simp_all [hist])) (cA, 0) (by simp) [4, 0] rfl
  have hb : HI.Built HIEx.El 3 [(cA, 0)] s := .setRhs (c := cA) (v := [4, 0]) s1_built
    (by intro e he _; simp only [List.mem_singleton] at he; subst he; rfl) rfl hs
  obtain ⟨hi, -⟩ := hb.inv (fun e he => law e (by simp_all [hist]))
    (fun e he => val e (by simp_all [hist]))
  obtain ⟨s', hs'⟩ := HI.add_succeeds (nq := 3) (nv := 3) hi (c := cB)
    (fun e he => compat e (by simp_all [hist])) (compat (cB, 1) (by simp [hist]))
    (by intro e he; simp only [List.mem_singleton] at he; subst he; decide) 1
  refine ⟨s, s', hb, hs', h1, ?_⟩
  exact C27_add_resets hb cB 1 s' ⟨_, _, _, cB_built⟩ hs' (fun e he => law e (by simp_all [hist]; tauto))
    (fun e he => val e (by simp_all [hist]; tauto)) (cA, 0) (by simp)

/-! ## C28 -/

/-- C28. Adding a constraint whose function is already present raises an exception and leaves the solver
unchanged. -/
theorem C28_duplicate_throws (hb : HI.Built El nv h s) (hl : ∀ e ∈ h, e.1.fn.space.Lawful (El e.1.fn))
    (hv : ∀ e ∈ h, ∀ q, El e.1.fn (e.1.fn.value q)) (c : Impl α κ)
    (hc : ∃ e ∈ h, e.1.fn.key = c.fn.key) (p : Nat) : s.add c p = (s, some .throws) := by
  obtain ⟨e, he, hk⟩ := hc
  exact HI.add_dup (hb.inv hl hv).1 he hk p

/-- C28. Otherwise the addition succeeds, if the function is defined on the same space as the others. -/
theorem C28_new_succeeds (hb : HI.Built El nv h s) (hl : ∀ e ∈ h, e.1.fn.space.Lawful (El e.1.fn))
    (hv : ∀ e ∈ h, ∀ q, El e.1.fn (e.1.fn.value q)) (m n : Nat)
    (hcomp : ∀ e ∈ h, SameInput m n e.1) (c : Impl α κ) (hc : SameInput m n c)
    (hk : ∀ e ∈ h, e.1.fn.key ≠ c.fn.key) (p : Nat) :
    ∃ s', s.add c p = (s', none) ∧ s'.constraints = s.constraints ++ [c] ∧
      lookupKey s'.prio c.fn.key = some p := by
  have hs := (hb.inv hl hv).1
  obtain ⟨s', h1⟩ := HI.add_succeeds hs hcomp hc hk p
  have h2 := hs.add h1
  exact ⟨s', h1, by rw [h2.cons, hs.cons]; simp, lookup_prio h2 (by simp)⟩

/-- C28. After any history, no two constraints of the solver have equal functions. -/
theorem C28_distinct (hb : HI.Built El nv h s) (hl : ∀ e ∈ h, e.1.fn.space.Lawful (El e.1.fn))
    (hv : ∀ e ∈ h, ∀ q, El e.1.fn (e.1.fn.value q)) :
    (s.constraints.map (·.fn.key)).Nodup := by
  have hs := (hb.inv hl hv).1
  rw [hs.cons, List.map_map]
  exact hs.keys

/-- C28. Merge inserts exactly the constraints that were not present, with their priorities, provided
that constraints on the same function in both solvers are equal. -/
theorem C28_merge {h' : List (Impl α κ × Nat)} {s' : HI α κ} (hb : HI.Built El nv h s)
    (hl : ∀ e ∈ h, e.1.fn.space.Lawful (El e.1.fn)) (hv : ∀ e ∈ h, ∀ q, El e.1.fn (e.1.fn.value q))
    (hb' : HI.Built El nv h' s') (hl' : ∀ e ∈ h', e.1.fn.space.Lawful (El e.1.fn))
    (hv' : ∀ e ∈ h', ∀ q, El e.1.fn (e.1.fn.value q)) (m n : Nat)
    (hcomp : ∀ e ∈ h, SameInput m n e.1) (hcomp' : ∀ e ∈ h', SameInput m n e.1)
    (hsame : ∀ e' ∈ h', ∀ e ∈ h, e.1.fn.key = e'.1.fn.key → e.1.isEqual e'.1 = true) :
    ∃ s'', s.merge s' = (s'', none) ∧
      s''.constraints = s.constraints ++
        s'.constraints.filter (fun c => s.constraints.all fun d => d.fn.key ≠ c.fn.key) ∧
      (∀ e ∈ h, lookupKey s''.prio e.1.fn.key = some e.2) ∧
      (∀ e ∈ h', (∀ e' ∈ h, e'.1.fn.key ≠ e.1.fn.key) → lookupKey s''.prio e.1.fn.key = some e.2) ∧
      (s''.constraints.map (·.fn.key)).Nodup := by
  have hs := (hb.inv hl hv).1
  have hs' := (hb'.inv hl' hv').1
  obtain ⟨s'', h1, h2, -⟩ := mergeLoop_spec (nq := m) (nv := n) s'.prio h' h s hs hcomp hcomp' hs'.keys
    (fun e he => lookup_prio hs' he) hsame
  refine ⟨s'', ?_, ?_, ?_, ?_, ?_⟩
  · unfold HI.merge; rw [hs'.cons]; exact h1
  · rw [h2.cons, hs.cons, hs'.cons, List.map_append]
    congr 1
    unfold missing
    rw [List.filter_map]
    congr 1
    apply List.filter_congr
    intro e _
    simp [List.all_map, Function.comp_def]
  · exact fun e he => lookup_prio h2 (List.mem_append_left _ he)
  · intro e he hne
    refine lookup_prio h2 (List.mem_append_right _ ?_)
    unfold missing
    rw [List.mem_filter]
    exact ⟨he, by simpa [List.all_eq_true] using fun c p hc => hne (c, p) hc⟩
  · rw [h2.cons, List.map_map]; exact h2.keys

open HIEx in
example : (s1.merge s3).2 = none ∧ (s1.merge s3).1.constraints.map (·.fn.key) = [0, 1, 2] := by
  decide +kernel

open HIEx in
/-- C28 fails for merge when both solvers have a constraint on the same function with different
comparison types: an exception is raised in the middle, some constraints being already inserted. -/
theorem C28_merge_refuted : ∃ s s' : HI Int Nat, HI.Built HIEx.El 3 [(cB', 0)] s ∧ HI.Built HIEx.El 3 hist s' ∧
    (s.merge s').2 = some .throws ∧ (s.merge s').1.constraints.map (·.fn.key) = [1, 0] := by
  refine ⟨((HI.init Int Nat 3).add cB' 0).1, s3, ?_, s3_built, by decide +kernel⟩
  exact .add .init ⟨_, _, _, cB'_built⟩ (Prod.ext rfl rfl)

/-! ## C64 -/

/-- C64. `definesSubmanifoldOf(other)` holds exactly if each function of the constraints of `other` is
the function of a constraint of the solver. -/
theorem C64_submanifold_iff {h' : List (Impl α κ × Nat)} {s' : HI α κ} (hb : HI.Built El nv h s)
    (hl : ∀ e ∈ h, e.1.fn.space.Lawful (El e.1.fn)) (hv : ∀ e ∈ h, ∀ q, El e.1.fn (e.1.fn.value q))
    (hb' : HI.Built El nv h' s') (hl' : ∀ e ∈ h', e.1.fn.space.Lawful (El e.1.fn))
    (hv' : ∀ e ∈ h', ∀ q, El e.1.fn (e.1.fn.value q)) :
    s.definesSubmanifoldOf s' = true ↔ ∀ e' ∈ h', ∃ e ∈ h, e.1.fn.key = e'.1.fn.key := by
  have hs := (hb.inv hl hv).1
  have hs' := (hb'.inv hl' hv').1
  unfold HI.definesSubmanifoldOf
  rw [hs.cons, hs'.cons, List.all_map, List.all_eq_true]
  simp only [Function.comp_apply, List.any_map, List.any_eq_true, decide_eq_true_eq]

/-- C64. The rows of the reduced Jacobian of a level are the active rows, in increasing order. -/
theorem C64_extracted_rows (hb : HI.Built El nv h s) (hl : ∀ e ∈ h, e.1.fn.space.Lawful (El e.1.fn))
    (hv : ∀ e ∈ h, ∀ q, El e.1.fn (e.1.fn.value q)) (i : Nat) (l : Level α κ)
    (hi : s.levels[i]? = some l) :
    indices l.rows.segs = (List.range (rowMask s.free.segs (atLevel h i)).length).filter
      fun r => (rowMask s.free.segs (atLevel h i))[r]? = some true := by
  obtain ⟨h1, h2, -⟩ := C23_active_rows hb hl hv i l hi
  have hp : (indices l.rows.segs).Perm ((List.range (rowMask s.free.segs (atLevel h i)).length).filter
      fun r => (rowMask s.free.segs (atLevel h i))[r]? = some true) := by
    rw [List.perm_ext_iff_of_nodup h2.disjoint.indices_nodup (List.nodup_range.filter _)]
    intro r
    rw [mem_indices, h1, List.mem_filter, List.mem_range]
    simp only [decide_eq_true_eq]
    exact ⟨fun h => ⟨lt_of_getElem?_some h, h⟩, fun h => h.2⟩
  refine hp.eq_of_pairwise (le := (· < ·)) (fun a b _ _ h1 h2 => absurd h1 (Nat.lt_asymm h2)) ?_ ?_
  · exact h2.disjoint.indices_sorted
  · exact List.pairwise_lt_range.filter _

/-! ## C66 -/

/-- C66, part. Loading what was saved gives a solver with the same constraints at the same priorities and
ranks, and the same parameters.  Missing: the right hand sides and the free variables, see
`C66_rhs_lost_refuted`. -/
theorem C66_save_load_partial (hb : HI.Built El nv h s) (hl : ∀ e ∈ h, e.1.fn.space.Lawful (El e.1.fn))
    (hv : ∀ e ∈ h, ∀ q, El e.1.fn (e.1.fn.value q)) (m n : Nat)
    (hcomp : ∀ e ∈ h, SameInput m n e.1) (junk : Nat × Nat × Bool) (hne : h ≠ []) :
    ∃ s', HI.load junk s.save = (s', none) ∧ s'.constraints = s.constraints ∧ s'.prio = s.prio ∧
      s'.dimension = s.dimension ∧ s'.levels.map (·.stack.cs) = s.levels.map (·.stack.cs) ∧
      (∀ e ∈ h, lookupKey s'.iq e.1.fn.key = lookupKey s.iq e.1.fn.key ∧
        lookupKey s'.iv e.1.fn.key = lookupKey s.iv e.1.fn.key) ∧
      s'.sqThr = s.sqThr ∧ s'.ineqThr = s.ineqThr ∧ s'.maxIter = s.maxIter ∧
      s'.lastIsOptional = s.lastIsOptional := by
  have hs := (hb.inv hl hv).1
  have hzip : s.save.constraints.zip s.save.priorities = h := by
    unfold HI.save
    rw [hs.cons]
    simp only [List.map_map]
    apply List.ext_getElem?
    intro i
    rw [List.zip_map', List.getElem?_map]
    cases hi : h[i]? with
    | none => rfl
    | some e =>
      simp only [Option.map_some, Function.comp_apply, Option.some.injEq]
      rw [lookup_prio hs (List.mem_of_getElem? hi)]
      rfl
  obtain ⟨s', h1, h2, h3, h4, h5, h6, h7, h8, h9, h10⟩ := loadLoop_spec (nq := m) (nv := n) h []
    { HI.init α κ s.save.nv with
      sqThr := s.save.sqThr
      ineqThr := s.save.ineqThr
      maxIter := s.save.maxIter
      lastIsOptional := s.save.lastIsOptional
      dimension := 0
      reducedDim := 0
      byLevel := junk.2.2 }
    ⟨rfl, rfl, List.nodup_nil, by simp, Or.inl rfl, by simp [HI.init], rfl, rfl, by simp, by simp, rfl,
      rfl⟩ (by simp) hcomp (by simpa using hs.keys)
  rw [List.nil_append] at h2
  have hload : HI.load junk s.save = (s', none) := by
    unfold HI.load
    rw [hzip]
    cases h with
    | nil => exact absurd rfl hne
    | cons e h => exact loadLoop_junk h1 junk.1 junk.2.1
  have hlev : s'.levels.length = s.levels.length := by
    rcases h2.nlev_min with h0 | ⟨e, he, h0⟩
    · cases h with
      | nil => exact absurd rfl hne
      | cons e h => have := h2.nlev e (by simp); omega
    · have h1 := hs.nlev e he
      rcases hs.nlev_min with h0' | ⟨e', he', h0'⟩
      · omega
      · have := h2.nlev e' he'; omega
  have hcs : ∀ {t : HI α κ}, HI.Inv h t → t.levels.map (·.stack.cs) =
      (List.range t.levels.length).map (atLevel h) := by
    intro t ht
    apply List.ext_getElem?
    intro i
    rw [List.getElem?_map, List.getElem?_map]
    by_cases hi : i < t.levels.length
    · rw [List.getElem?_eq_getElem hi, List.getElem?_range hi]
      simp only [Option.map_some, Option.some.injEq]
      exact (ht.level i _ (List.getElem?_eq_getElem hi)).stack.cs_eq
    · rw [List.getElem?_eq_none (by omega), List.getElem?_eq_none (by simp; omega)]
      rfl
  refine ⟨s', hload, by rw [h2.cons, hs.cons], by rw [h2.prio, hs.prio], ?_,
    by rw [hcs h2, hcs hs, hlev], ?_, h3, h4, h5, h8⟩
  · rw [h2.dim, hs.dim, levels_map_eq _ (fun cs => (cs.map (·.fn.space.nv)).sum)
      (fun i l hi => (h2.level i l hi).nv), levels_map_eq _ (fun cs => (cs.map (·.fn.space.nv)).sum)
      (fun i l hi => (hs.level i l hi).nv), hlev]
  · intro e he
    obtain ⟨l1, l2, hsp⟩ := List.append_of_mem he
    rcases e with ⟨c, p⟩
    exact ⟨by rw [h2.iq l1 c p l2 hsp, hs.iq l1 c p l2 hsp],
      by rw [h2.iv l1 c p l2 hsp, hs.iv l1 c p l2 hsp]⟩

/-- C66 fails for the right hand sides and the free variables: whatever they were, the loaded solver has
neutral right hand sides and all the variables are free. -/
theorem C66_rhs_lost_refuted (hb : HI.Built El nv h s) (hl : ∀ e ∈ h, e.1.fn.space.Lawful (El e.1.fn))
    (hv : ∀ e ∈ h, ∀ q, El e.1.fn (e.1.fn.value q)) (m n : Nat)
    (hcomp : ∀ e ∈ h, SameInput m n e.1) (junk : Nat × Nat × Bool) (hne : h ≠ []) :
    ∃ s', HI.load junk s.save = (s', none) ∧
      (∀ e ∈ h, s'.getRhs e.1 = some (some e.1.fn.space.neutral)) ∧
      s'.free = Blocks.empty.add 0 s.nv ∧ s'.byLevel = junk.2.2 := by
  obtain ⟨hs, hf, -⟩ := hb.inv hl hv
  have hzip : s.save.constraints.zip s.save.priorities = h := by
    unfold HI.save
    rw [hs.cons]
    simp only [List.map_map]
    apply List.ext_getElem?
    intro i
    rw [List.zip_map', List.getElem?_map]
    cases hi : h[i]? with
    | none => rfl
    | some e =>
      simp only [Option.map_some, Function.comp_apply, Option.some.injEq]
      rw [lookup_prio hs (List.mem_of_getElem? hi)]
      rfl
  obtain ⟨s', h1, h2, h3, h4, h5, h6, h7, h8, h9, h10⟩ := loadLoop_spec (nq := m) (nv := n) h []
    { HI.init α κ s.save.nv with
      sqThr := s.save.sqThr
      ineqThr := s.save.ineqThr
      maxIter := s.save.maxIter
      lastIsOptional := s.save.lastIsOptional
      dimension := 0
      reducedDim := 0
      byLevel := junk.2.2 }
    ⟨rfl, rfl, List.nodup_nil, by simp, Or.inl rfl, by simp [HI.init], rfl, rfl, by simp, by simp, rfl,
      rfl⟩ (by simp) hcomp (by simpa using hs.keys)
  rw [List.nil_append] at h2
  refine ⟨s', ?_, ?_, h7, h9⟩
  · unfold HI.load
    rw [hzip]
    cases h with
    | nil => exact absurd rfl hne
    | cons e h => exact loadLoop_junk h1 junk.1 junk.2.1
  · obtain ⟨R, hR, hRe⟩ := updated_rhsIs h2 hf (h10 hne)
    intro e he
    rw [getRhs_eq h2 hf hR he, hRe e he]

end

end Hpp
