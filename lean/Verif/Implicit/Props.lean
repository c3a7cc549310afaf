import Verif.Implicit.Prod

/-!
# Properties of implicit constraints: C19, C20, C21, C22, C62, C69
-/

namespace Hpp

variable {α κ : Type}

/-! ## Example data: functions to `ℝⁿ` over the integers -/

namespace ImplEx

/-- The function `q ↦ (q 0, q 1 - 2, q 2, q 0 + q 1)`, with input size 3. -/
def f4 : Fn Int Nat where
  key := 4
  inputSize := 3
  inputDer := 3
  spaceId := 4
  space := vectorSpace Int 4
  value q := [q 0, q 1 - 2, q 2, q 0 + q 1]
  jac _ := fun r k => if r = k then 1 else if r = 3 ∧ k < 2 then 1 else 0
  activeQ := [true, true, true]
  active := [true, true, true]

/-- The function `q ↦ q 2`. -/
def f1 : Fn Int Nat where
  key := 1
  inputSize := 3
  inputDer := 3
  spaceId := 1
  space := vectorSpace Int 1
  value q := [q 2]
  jac _ := fun r k => if r = 0 ∧ k = 2 then 1 else 0
  activeQ := [false, false, true]
  active := [false, false, true]

def comp4 : List Comp := [.equality, .superior, .inferior, .equalToZero]
def mask4 : List Bool := [true, false, true, true]

/-- A time varying right hand side for `f4`. -/
def g4 : Fn Int Nat where
  key := 9
  inputSize := 1
  inputDer := 1
  spaceId := 4
  space := vectorSpace Int 4
  value q := [q 0, 2 * q 0, 0, 7]
  jac _ := fun _ _ => 0
  activeQ := [true]
  active := [true]

def c4 : Impl Int Nat := (Impl.create f4 comp4 mask4).get (by decide +kernel)
def c1 : Impl Int Nat := (Impl.create f1 [.equality] []).get (by decide +kernel)

theorem c4_built : Impl.Built f4 mask4 comp4 c4 := .create _ _ (Option.some_get _).symm
theorem c1_built : Impl.Built f1 [] [.equality] c1 := .create _ _ (Option.some_get _).symm

end ImplEx

/-! ## C19 -/

/-- C19. The right hand side computed from a configuration: its logarithm is the one of the value of
the function on the `Equality` components, zero elsewhere. -/
theorem C19_from_config [Zero α] {fn : Fn α κ} {mask : List Bool} {comp : List Comp} {c : Impl α κ}
    (h : Impl.Built fn mask comp c) (El : List α → Prop) (hlaw : fn.space.Lawful El) (q : Nat → α)
    (hq : El (fn.value q)) :
    El (c.rhsFromConfig q) ∧ (fn.space.log (c.rhsFromConfig q)).length = comp.length ∧
    ∀ (i : Nat) (t : Comp), comp[i]? = some t → (fn.space.log (c.rhsFromConfig q))[i]? =
      if t = .equality then (fn.space.log (fn.value q))[i]? else some 0 := by
  obtain ⟨hok, hfn, hcomp, -⟩ := h.ok
  subst hfn hcomp
  have hl := hlaw.log_len _ hq
  have he : c.rhsFromConfig q = c.fn.space.exp (maskEq c.comp (c.fn.space.log (c.fn.value q))) := by
    unfold Impl.rhsFromConfig
    rw [hok.eq, keepEquality_eq _ _ _ hok.comp_len hl]
  have hml : (maskEq c.comp (c.fn.space.log (c.fn.value q))).length = c.fn.space.nv := by
    simp [maskEq, hok.comp_len, hl]
  have hel : El (c.rhsFromConfig q) := by rw [he]; exact hlaw.exp_mem _ hml
  refine ⟨hel, (hlaw.log_len _ hel).trans hok.comp_len.symm, ?_⟩
  intro i t ht
  rw [he, hlaw.log_exp_mask _ _ hq hok.comp_len]
  unfold maskEq
  rw [List.getElem?_zipWith, ht]
  have hi : i < (c.fn.space.log (c.fn.value q)).length := by
    rw [hl, ← hok.comp_len]; exact lt_of_getElem?_some ht
  rw [List.getElem?_eq_getElem hi]
  simp only
  split <;> simp

/-- C19. The parameter size is the number of `Equality` components. -/
theorem C19_parameter_size {fn : Fn α κ} {mask : List Bool} {comp : List Comp} {c : Impl α κ}
    (h : Impl.Built fn mask comp c) : c.paramSize = comp.count .equality := by
  obtain ⟨hok, -, hcomp, -⟩ := h.ok
  rw [hok.param, hcomp]

/-- C19. A right hand side is accepted exactly when it is zero on the components that are not compared
with `Equality`. -/
theorem C19_check [Zero α] [DecidableEq α] {fn : Fn α κ} {mask : List Bool} {comp : List Comp}
    {c : Impl α κ} (h : Impl.Built fn mask comp c) (r : List α)
    (hl : (fn.space.log r).length = fn.space.nv) :
    c.checkRhs r = true ↔ ∀ (i : Nat) (t : Comp), comp[i]? = some t → t ≠ .equality →
      (fn.space.log r)[i]? = some 0 := by
  obtain ⟨hok, hfn, hcomp, -⟩ := h.ok
  subst hfn hcomp
  unfold Impl.checkRhs
  rw [List.all_eq_true]
  constructor
  · intro h i t ht hne
    have hi : i < (c.fn.space.log r).length := by
      rw [hl, ← hok.comp_len]; exact lt_of_getElem?_some ht
    have := h (t, (c.fn.space.log r)[i]) (List.mem_of_getElem? (i := i) (by
      rw [List.getElem?_zip_eq_some]; exact ⟨ht, List.getElem?_eq_getElem hi⟩))
    rw [List.getElem?_eq_getElem hi]
    simpa [hne] using this
  · rintro h ⟨t, x⟩ hp
    obtain ⟨i, hi⟩ := List.mem_iff_getElem?.1 hp
    rw [List.getElem?_zip_eq_some] at hi
    by_cases ht : t = .equality
    · simp [ht]
    · have := h i t hi.1 ht
      have h2 : (c.fn.space.log r)[i]? = some x := hi.2
      rw [h2] at this
      simpa [ht] using this

/-- C19. The right hand side computed from a configuration is accepted. -/
theorem C19_from_config_accepted [Zero α] [DecidableEq α] {fn : Fn α κ} {mask : List Bool}
    {comp : List Comp} {c : Impl α κ} (h : Impl.Built fn mask comp c) (El : List α → Prop)
    (hlaw : fn.space.Lawful El) (q : Nat → α) (hq : El (fn.value q)) :
    c.checkRhs (c.rhsFromConfig q) = true := by
  obtain ⟨h1, -, h3⟩ := C19_from_config h El hlaw q hq
  rw [C19_check h _ (hlaw.log_len _ h1)]
  intro i t ht hne
  rw [h3 i t ht, if_neg hne]

/-- C19. Computing the right hand side from a configuration where the function takes this right hand
side as value changes nothing: the operation is idempotent. -/
theorem C19_from_config_idem [Zero α] {fn : Fn α κ} {mask : List Bool} {comp : List Comp}
    {c : Impl α κ} (h : Impl.Built fn mask comp c) (El : List α → Prop) (hlaw : fn.space.Lawful El)
    (q q' : Nat → α) (hq : El (fn.value q)) (hq' : fn.value q' = c.rhsFromConfig q) :
    c.rhsFromConfig q' = c.rhsFromConfig q := by
  obtain ⟨h1, h2, h3⟩ := C19_from_config h El hlaw q hq
  obtain ⟨h1', h2', h3'⟩ := C19_from_config h El hlaw q' (hq' ▸ h1)
  rw [← hlaw.exp_log _ h1, ← hlaw.exp_log _ h1']
  congr 1
  apply List.ext_getElem?
  intro i
  by_cases hi : i < comp.length
  · have ht := List.getElem?_eq_getElem hi
    rw [h3' i _ ht, hq']
    split
    · rfl
    · rename_i hne
      rw [h3 i _ ht, if_neg hne]
  · rw [List.getElem?_eq_none (by omega), List.getElem?_eq_none (by omega)]

open ImplEx in
example : c4.rhsFromConfig (fun i => [5, 6, 7].getD i 0) = [5, 0, 0, 0] ∧ c4.paramSize = 1 ∧
    c4.checkRhs [5, 0, 0, 0] = true ∧ c4.checkRhs [5, 0, 1, 0] = false := by decide +kernel

open ImplEx in
example : (c4.rhsFromConfig (fun _ => 3)).length = 4 ∧ c4.paramSize = comp4.count .equality :=
  ⟨(vectorSpace_lawful 4).len _ (C19_from_config c4_built _ (vectorSpace_lawful 4) _ rfl).1,
    C19_parameter_size c4_built⟩

/-- C19, on a stack of constraints the parameter size is not maintained: it stays zero although there
are `Equality` components (implicit-constraint-set.hh:61-81). -/
theorem C19_set_parameter_size_refuted :
    ∃ (cs : List (Impl Int Nat)) (s : ImplSet Int Nat), ImplSet.ofList cs = some s ∧
      s.paramSize ≠ s.comp.count .equality := by
  have h : (ImplSet.ofList [ImplEx.c4, ImplEx.c1]).isSome = true := by decide +kernel
  obtain ⟨s, hs⟩ := Option.isSome_iff_exists.1 h
  refine ⟨_, s, hs, ?_⟩
  have hok := ImplSet.ofList_ok hs
  rw [hok.param, hok.comp]
  decide +kernel

/-! ## C20 -/

/-- C20. After comparison:
* `Equality` and `EqualToZero` components are unchanged;
* a `Superior` component becomes zero when the value is at least the threshold, value minus threshold
  otherwise; an `Inferior` one becomes zero when the value is at most minus the threshold, value plus
  threshold otherwise;
* it is zero only in these cases;
* a row of the Jacobian is zeroed exactly when its inequality is met. -/
theorem C20_apply_comparison [AddGroup α] [LinearOrder α] (comp : List Comp) (thr : α) (v : List α)
    (J : Jac α) (hl : v.length = comp.length) :
    ∃ v' J', applyComparison comp thr (ineqFrom 0 comp) (v, J) = some (v', J') ∧
      v'.length = v.length ∧
      ∀ (i : Nat) (t : Comp) (x : α), comp[i]? = some t → v[i]? = some x →
        (t = .equality ∨ t = .equalToZero → v'[i]? = some x ∧ ∀ k, J' i k = J i k) ∧
        (t = .superior → thr ≤ x → v'[i]? = some 0 ∧ ∀ k, J' i k = 0) ∧
        (t = .superior → x < thr → v'[i]? = some (x - thr) ∧ x - thr ≠ 0 ∧ ∀ k, J' i k = J i k) ∧
        (t = .inferior → x ≤ -thr → v'[i]? = some 0 ∧ ∀ k, J' i k = 0) ∧
        (t = .inferior → -thr < x → v'[i]? = some (x + thr) ∧ x + thr ≠ 0 ∧
          ∀ k, J' i k = J i k) := by
  obtain ⟨v', J', h1, h2, h3, h4, h5⟩ := applyComparison_spec comp thr (ineqFrom 0 comp)
    (ineqFrom_nodup _ _) (fun i hi => by simpa using ((mem_ineqFrom 0 comp i).1 hi).2) v J hl
  refine ⟨v', J', h1, h2, ?_⟩
  intro i t x ht hx
  have hmem : i ∈ ineqFrom 0 comp ↔ t = .superior ∨ t = .inferior := by
    rw [mem_ineqFrom]; simp [ht]
  have hJ : ∀ k, InsideLimit t thr x → (t = .superior ∨ t = .inferior) → J' i k = 0 := by
    intro k hin htt
    rw [h4 i k x hx, if_pos ⟨hmem.2 htt, t, ht, hin⟩]
  have hJ' : ∀ k, ¬ InsideLimit t thr x → J' i k = J i k := by
    intro k hin
    rw [h4 i k x hx, if_neg]
    rintro ⟨-, t', ht', hin'⟩
    rw [ht] at ht'; simp only [Option.some.injEq] at ht'; subst ht'; exact hin hin'
  have hv : (t = .superior ∨ t = .inferior) → v'[i]? = some (comparedError t thr x) := by
    intro htt
    rw [h3 i x hx, if_pos (hmem.2 htt), ht]; rfl
  refine ⟨?_, ?_, ?_, ?_, ?_⟩
  · intro htt
    have hn : i ∉ ineqFrom 0 comp := by
      rw [hmem]; rcases htt with rfl | rfl <;> simp
    exact ⟨by rw [h3 i x hx, if_neg hn], fun k => h5 i k hn⟩
  · rintro rfl hc
    refine ⟨?_, fun k => hJ k (.inl ⟨rfl, hc⟩) (.inl rfl)⟩
    rw [hv (.inl rfl)]; simp [comparedError, hc]
  · rintro rfl hc
    refine ⟨?_, fun h => absurd (sub_eq_zero.1 h) hc.ne, fun k => hJ' k ?_⟩
    · rw [hv (.inl rfl)]; simp [comparedError, not_le.2 hc]
    · rintro (⟨-, h⟩ | ⟨h, -⟩)
      · exact absurd h (not_le.2 hc)
      · cases h
  · rintro rfl hc
    refine ⟨?_, fun k => hJ k (.inr ⟨rfl, hc⟩) (.inr rfl)⟩
    rw [hv (.inr rfl)]; simp [comparedError, hc]
  · rintro rfl hc
    refine ⟨?_, fun h => absurd (eq_neg_of_add_eq_zero_left h) hc.ne', fun k => hJ' k ?_⟩
    · rw [hv (.inr rfl)]; simp [comparedError, not_le.2 hc]
    · rintro (⟨h, -⟩ | ⟨-, h⟩)
      · cases h
      · exact absurd h (not_le.2 hc)

/-- C20. The inequalities of a constraint are the components compared with `Superior` or `Inferior`. -/
theorem C20_indices {fn : Fn α κ} {mask : List Bool} {comp : List Comp} {c : Impl α κ}
    (h : Impl.Built fn mask comp c) :
    (∀ i : Nat, i ∈ c.ineq ↔ comp[i]? = some .superior ∨ comp[i]? = some .inferior) ∧
    (∀ i : Nat, Covers c.eq.segs i ↔ comp[i]? = some .equality) := by
  obtain ⟨hok, -, hcomp, -⟩ := h.ok
  rw [hok.ineq, hok.eq, hcomp]
  exact ⟨fun i => by rw [mem_ineqFrom]; simp, fun i => by rw [← mem_indices, equalityIndices_mem]⟩

/-- C20. Same indices for a stack of constraints: those of the concatenated comparison types. -/
theorem C20_set_indices {cs : List (Impl α κ)} {s : ImplSet α κ} (h : ImplSet.ofList cs = some s) :
    (∀ i : Nat, i ∈ s.ineq ↔ (cs.flatMap (·.comp))[i]? = some .superior ∨
      (cs.flatMap (·.comp))[i]? = some .inferior) ∧
    (∀ i : Nat, Covers s.eq.segs i ↔ (cs.flatMap (·.comp))[i]? = some .equality) := by
  have hok := ImplSet.ofList_ok h
  rw [hok.ineq, hok.eq, hok.comp]
  exact ⟨fun i => by rw [mem_ineqFrom]; simp, fun i => by rw [← mem_indices, equalityIndices_mem]⟩

/-- `Superior` at, above and below the threshold; `Inferior` outside; other components unchanged. -/
example : (applyComparison (α := Int) [.superior, .superior, .superior, .inferior, .equality] 2
    (ineqFrom 0 [.superior, .superior, .superior, .inferior, .equality])
    ([2, 5, -1, 3, 4], fun _ _ => 1)).map (fun p => (p.1, List.map (fun r => p.2 r 0) [0, 1, 2, 3, 4])) =
    some ([0, 0, -3, 5, 4], [0, 0, 1, 1, 1]) := by decide +kernel

/-! ## C21 -/

/-- The announced types. -/
def CExpr.types : CExpr → List Comp
  | .type c => [c]
  | .mul n c => List.replicate n c
  | .shift a b => a.types ++ b.types

/-- The announced number of components. -/
def CExpr.multiplicity : CExpr → Nat
  | .type _ => 1
  | .mul n _ => n
  | .shift a b => a.multiplicity + b.multiplicity

/-- Operands without parentheses: `<<` is left associative, so that its right operand is a type or a
product. -/
def CExpr.Chain : CExpr → Prop
  | .type _ => True
  | .mul _ _ => True
  | .shift a b => a.Chain ∧ ∀ x y, b ≠ .shift x y

/-- The types represented by a value. -/
def CVal.list : CVal → List Comp
  | .one c => [c]
  | .rep r => List.replicate r.n r.type
  | .vec v => v

theorem compShift_list (a b r : CVal) (h : compShift a b = some r) : r.list = a.list ++ b.list ∧
    ∃ v, r = .vec v := by
  cases a <;> cases b <;> simp [compShift] at h <;> subst h <;>
    simp [CVal.list, pushTo_eq, RepComp.toVec]

theorem eval_shift (a b : CExpr) (v : CVal) : (CExpr.shift a b).eval = some v ↔
    ∃ x y, a.eval = some x ∧ b.eval = some y ∧ compShift x y = some v := by
  show Option.bind _ _ = _ ↔ _
  rw [Option.bind_eq_some_iff]
  constructor
  · rintro ⟨x, hx, h⟩
    obtain ⟨y, hy, h⟩ := Option.bind_eq_some_iff.1 h
    exact ⟨x, y, hx, hy, h⟩
  · rintro ⟨x, y, hx, hy, h⟩
    exact ⟨x, hx, Option.bind_eq_some_iff.2 ⟨y, hy, h⟩⟩

/-- C21. An expression that evaluates builds the announced types, in order. -/
theorem C21_types (e : CExpr) (v : CVal) (h : e.eval = some v) : v.list = e.types := by
  induction e generalizing v with
  | type c => simp [CExpr.eval] at h; subst h; rfl
  | mul n c => simp [CExpr.eval] at h; subst h; rfl
  | shift a b iha ihb =>
    obtain ⟨x, y, hx, hy, h⟩ := (eval_shift a b v).1 h
    rw [(compShift_list x y v h).1, iha x hx, ihb y hy, CExpr.types]

/-- C21. The expressions that evaluate are the chains of operands without parentheses. -/
theorem C21_defined (e : CExpr) : e.eval.isSome = true ↔ e.Chain := by
  induction e with
  | type c => simp [CExpr.eval, CExpr.Chain]
  | mul n c => simp [CExpr.eval, CExpr.Chain]
  | shift a b iha ihb =>
    simp only [CExpr.Chain, CExpr.eval, bind, Option.bind]
    rw [← iha]
    cases ha : a.eval with
    | none => simp
    | some x =>
      cases b with
      | type c => simp [CExpr.eval]; cases x <;> rfl
      | mul n c => simp [CExpr.eval]; cases x <;> rfl
      | shift b1 b2 =>
        simp only [Option.isSome_some, true_and]
        constructor
        · intro h
          cases hb : (CExpr.shift b1 b2).eval with
          | none => rw [hb] at h; simp at h
          | some y =>
            rw [hb] at h
            obtain ⟨v, rfl⟩ : ∃ v, y = .vec v := by
              obtain ⟨_, _, _, _, h⟩ := (eval_shift _ _ _).1 hb
              exact (compShift_list _ _ _ h).2
            cases x <;> simp [compShift] at h
        · intro h; exact absurd rfl (h b1 b2)

/-- C21. A chain of at least two operands, or a product, builds the announced vector; its length is
the sum of the multiplicities. -/
theorem C21_vector (e : CExpr) (hc : e.Chain) (hne : ∀ c, e ≠ .type c) :
    ∃ v, (e.eval.bind CVal.toVec) = some v ∧ v = e.types ∧ v.length = e.multiplicity := by
  have hlen : ∀ e : CExpr, e.types.length = e.multiplicity := by
    intro e; induction e <;> simp_all [CExpr.types, CExpr.multiplicity]
  obtain ⟨w, hw⟩ := Option.isSome_iff_exists.1 ((C21_defined e).2 hc)
  have ht := C21_types e w hw
  cases e with
  | type c => exact absurd rfl (hne c)
  | mul n c =>
    simp [CExpr.eval] at hw; subst hw
    exact ⟨_, rfl, rfl, hlen (.mul n c)⟩
  | shift a b =>
    obtain ⟨v, rfl⟩ : ∃ v, w = .vec v := by
      obtain ⟨_, _, _, _, h⟩ := (eval_shift _ _ _).1 hw
      exact (compShift_list _ _ _ h).2
    rw [hw]
    exact ⟨v, rfl, ht, by rw [← hlen, ← ht]; rfl⟩

/-- C21. Comparison of a vector with a replicated type. -/
theorem C21_compare (v : List Comp) (n : Nat) (c : Comp) :
    compEqRep v (compMul n c) = true ↔ v = (CExpr.mul n c).types := by
  unfold compEqRep compMul CExpr.types
  simp only [ne_eq, ite_not]
  split
  · rename_i h
    rw [List.all_eq_true, List.eq_replicate_iff]
    simp [h]
  · rename_i h
    simp only [Bool.false_eq_true, false_iff]
    rintro rfl; simp at h

example : ((CExpr.shift (.shift (.mul 3 .equalToZero) (.type .equality)) (.mul 2 .superior)).eval.bind
    CVal.toVec) = some [.equalToZero, .equalToZero, .equalToZero, .equality, .superior, .superior] := by
  decide
example : (CExpr.shift (.shift (.mul 3 .equalToZero) (.type .equality)) (.mul 2 .superior)).Chain := by
  simp [CExpr.Chain]

/-! ## C22 -/

/-- C22. A right hand side function is accepted exactly when it takes one real parameter, has values
in the output space of the constraint, and all the components are compared with `Equality`. -/
theorem C22_accepted_iff {fn : Fn α κ} {mask : List Bool} {comp : List Comp} {c : Impl α κ}
    (h : Impl.Built fn mask comp c) (g : Fn α κ) :
    (∃ c', c.setRhsFn (some g) = .ok c') ↔
      g.inputSize = 1 ∧ g.inputDer = 1 ∧ g.spaceId = fn.spaceId ∧ ∀ t ∈ comp, t = .equality := by
  obtain ⟨-, hfn, hcomp, -⟩ := h.ok
  subst hfn hcomp
  unfold Impl.setRhsFn
  simp only
  split
  · rename_i h1
    simp only [reduceCtorEq, exists_false, false_iff]
    rintro ⟨h2, h3, -⟩
    rcases h1 with h1 | h1 <;> contradiction
  · rename_i h1
    split
    · rename_i h2
      simp only [reduceCtorEq, exists_false, false_iff]
      rintro ⟨-, -, h3, -⟩; exact h2 h3
    · rename_i h2
      split
      · rename_i h3
        simp only [reduceCtorEq, exists_false, false_iff]
        rintro ⟨-, -, -, h4⟩
        obtain ⟨t, ht, hne⟩ := List.any_eq_true.1 h3
        simp [h4 t ht] at hne
      · rename_i h3
        simp only [Except.ok.injEq, exists_eq', true_iff]
        rw [not_or] at h1
        refine ⟨not_not.1 h1.1, not_not.1 h1.2, not_not.1 h2, fun t ht => ?_⟩
        by_contra hne
        exact h3 (List.any_eq_true.2 ⟨t, ht, by simp [hne]⟩)

/-- C22. Otherwise an exception is raised (the constraint is then unchanged: nothing has been
assigned). -/
theorem C22_rejected {fn : Fn α κ} {mask : List Bool} {comp : List Comp} {c : Impl α κ}
    (h : Impl.Built fn mask comp c) (g : Fn α κ)
    (hr : ¬ (g.inputSize = 1 ∧ g.inputDer = 1 ∧ g.spaceId = fn.spaceId ∧ ∀ t ∈ comp, t = .equality)) :
    c.setRhsFn (some g) = .error .throws := by
  have := mt (C22_accepted_iff h g).1 hr
  have key : ∀ e, c.setRhsFn (some g) = .error e → e = .throws := by
    intro e he
    unfold Impl.setRhsFn at he
    simp only at he
    split at he
    · cases he; rfl
    · split at he
      · cases he; rfl
      · split at he
        · cases he; rfl
        · cases he
  cases hc : c.setRhsFn (some g) with
  | ok c' => exact absurd ⟨c', hc⟩ this
  | error e => rw [key e hc]

/-- C22. After acceptance, evaluation at `s` gives the value of the function at `s`, whatever was
evaluated before; nothing else changes. -/
theorem C22_evaluation {c c' : Impl α κ} {g : Fn α κ} (h : c.setRhsFn (some g) = .ok c') (s : α)
    (before : List α) :
    ((before.foldl (fun d x => (d.rhsAt x).1) c').rhsAt s).2 = g.value (fun _ => s) ∧
    c'.comp = c.comp ∧ c'.fn = c.fn ∧ c'.mask = c.mask ∧ c'.paramSize = c.paramSize := by
  have hc := Impl.setRhsFn_ok h
  refine ⟨?_, by rw [hc], by rw [hc], by rw [hc], by rw [hc]⟩
  have hr : c'.rhsFn = some g := by rw [hc]
  clear h hc
  induction before generalizing c' with
  | nil => simp [Impl.rhsAt, hr]
  | cons x l ih =>
    rw [List.foldl_cons]
    apply ih
    simp [Impl.rhsAt, hr]

/-- C22. Removing the right hand side function always succeeds; evaluation then returns the value
last computed, for any parameter. -/
theorem C22_removed (c : Impl α κ) : ∃ c', c.setRhsFn none = .ok c' ∧
    ∀ s, (c'.rhsAt s).2 = c.output ∧ (c'.rhsAt s).1 = c' := ⟨_, rfl, fun _ => ⟨rfl, rfl⟩⟩

open ImplEx in
example : (match (c4.setComparison (List.replicate 4 .equality)).setRhsFn (some g4) with
    | .ok c => some (c.rhsAt 3).2 | .error _ => none) = some [3, 6, 0, 7] := by decide +kernel
open ImplEx in
example : (match c4.setRhsFn (some g4) with | .ok _ => true | .error _ => false) = false := by
  decide +kernel

/-! ## C62 -/

/-- C62. Functions can be stacked exactly when their input sizes agree. -/
theorem C62_stackable (fs : List (Fn α κ)) :
    (FnSet.ofList fs).isSome = true ↔ ∀ f ∈ fs, ∀ g ∈ fs, f.inputSize = g.inputSize ∧
      f.inputDer = g.inputDer ∧ f.activeQ.length = g.activeQ.length ∧
      f.active.length = g.active.length := by
  induction fs using List.reverseRecOn with
  | nil => simp [FnSet.ofList]
  | append_singleton fs f ih =>
    rw [FnSet.ofList_snoc]
    cases hs : FnSet.ofList fs with
    | none =>
      rw [hs] at ih
      simp only [Option.bind_none, Option.isSome_none, Bool.false_eq_true, false_iff] at ih ⊢
      intro h
      exact ih fun g hg g' hg' => h g (by simp [hg]) g' (by simp [hg'])
    | some s =>
      rw [hs] at ih
      have hok := FnSet.ofList_ok hs
      have ih' := ih.1 rfl
      simp only [Option.bind_some]
      unfold FnSet.add
      split
      · rename_i he
        have hnil : fs = [] := by rw [← hok.fns]; exact List.isEmpty_iff.1 he
        subst hnil
        simp
      · rename_i he
        have hne : fs ≠ [] := by
          rw [← hok.fns]; intro h; exact he (by rw [h]; rfl)
        obtain ⟨f0, hf0⟩ := List.exists_mem_of_ne_nil fs hne
        have h0 := hok.sizes f0 hf0
        split
        · rename_i hc
          simp only [Option.isSome_some, true_iff]
          intro g hg g' hg'
          have key : ∀ g ∈ fs ++ [f], g.inputSize = s.inputSize ∧ g.inputDer = s.inputDer ∧
              g.activeQ.length = s.activeQ.length ∧ g.active.length = s.active.length := by
            intro g hg
            rcases List.mem_append.1 hg with hg | hg
            · exact hok.sizes g hg
            · simp only [List.mem_singleton] at hg; subst hg
              exact ⟨hc.1.symm, hc.2.1.symm, hc.2.2.1.symm, hc.2.2.2.symm⟩
          have h1 := key g hg
          have h2 := key g' hg'
          omega
        · rename_i hc
          simp only [Option.isSome_none, Bool.false_eq_true, false_iff]
          intro h
          apply hc
          have := h f0 (by simp [hf0]) f (by simp)
          omega

/-- C62. The value of the stack is the concatenation of the values, whatever was in the result
vector. -/
theorem C62_value {fs : List (Fn α κ)} {s : FnSet α κ} (h : FnSet.ofList fs = some s) (q : Nat → α)
    (hf : ∀ f ∈ fs, (f.value q).length = f.space.nq) (buf : List α) (hb : buf.length = s.space.nq) :
    s.value q buf = fs.flatMap (·.value q) := by
  have hok := FnSet.ofList_ok h
  unfold FnSet.value
  rw [hok.fns]
  have := fnSetValue_eq q fs hf [] buf (by rw [hb, hok.space, spaceOf_nq])
  simpa using this

/-- C62. The Jacobian of the stack is the concatenation of the Jacobians; no other row is written. -/
theorem C62_jacobian {fs : List (Fn α κ)} {s : FnSet α κ} (h : FnSet.ofList fs = some s) (q : Nat → α)
    (J : Jac α) :
    (∀ pre f post, fs = pre ++ f :: post → ∀ r k, r < f.space.nv →
      s.jacobian q J ((pre.map (·.space.nv)).sum + r) k = f.jac q r k) ∧
    (∀ r k, s.space.nv ≤ r → s.jacobian q J r k = J r k) := by
  have hok := FnSet.ofList_ok h
  unfold FnSet.jacobian
  rw [hok.fns]
  constructor
  · rintro pre f post rfl r k hr
    have := fnSetJac_in q pre f post 0 J r k hr
    rwa [Nat.zero_add] at this
  · intro r k hr
    rw [hok.space, spaceOf_nv] at hr
    exact fnSetJac_out q fs 0 J r k (by omega)

/-- C62. The active parameters of the stack are the union of the active parameters; its sizes are the
sums of the sizes. -/
theorem C62_active {fs : List (Fn α κ)} {s : FnSet α κ} (h : FnSet.ofList fs = some s) :
    (∀ i : Nat, s.active[i]? = some true ↔ ∃ f ∈ fs, f.active[i]? = some true) ∧
    (∀ i : Nat, s.activeQ[i]? = some true ↔ ∃ f ∈ fs, f.activeQ[i]? = some true) ∧
    s.space.nq = (fs.map (·.space.nq)).sum ∧ s.space.nv = (fs.map (·.space.nv)).sum := by
  have hok := FnSet.ofList_ok h
  exact ⟨hok.active, hok.activeQ, by rw [hok.space, spaceOf_nq], by rw [hok.space, spaceOf_nv]⟩

/-- C62. The right hand side of a stack computed from a configuration is the concatenation of the
right hand sides of the constraints. -/
theorem C62_rhs_from_config [Zero α] {cs : List (Impl α κ)} {s : ImplSet α κ}
    (h : ImplSet.ofList cs = some s)
    (hc : ∀ c ∈ cs, ∃ fn mask comp, Impl.Built fn mask comp c) (q : Nat → α)
    (hf : ∀ c ∈ cs, (c.fn.value q).length = c.fn.space.nq ∧
      (c.fn.space.log (c.fn.value q)).length = c.fn.space.nv)
    (buf : List α) (hb : buf.length = s.fns.space.nq) :
    s.rhsFromConfig q buf = cs.flatMap (·.rhsFromConfig q) :=
  (ImplSet.ofList_ok h).rhsFromConfig_eq hc q hf buf hb

open ImplEx in
example : ((FnSet.ofList [f4, f1]).map fun s =>
    (s.value (fun i => [5, 6, 7].getD i 0) [9, 9, 9, 9, 9], s.active,
      List.map (fun r => s.jacobian (fun _ => 0) (fun _ _ => 8) r 2) [0, 1, 2, 3, 4, 5])) =
    some ([5, 4, 7, 11, 7], [true, true, true], [0, 0, 1, 0, 1, 8]) := by decide +kernel
open ImplEx in
example : ((ImplSet.ofList [c4, c1]).map fun s => s.rhsFromConfig (fun i => [5, 6, 7].getD i 0)
    [9, 9, 9, 9, 9]) = some [5, 0, 0, 0, 7] := by decide +kernel

/-! ## C69 -/

/-- C69. The rows kept by a constraint are those selected by the mask, and the other ones are set to
zero; an empty mask selects all of them. -/
theorem C69_rows [Zero α] {fn : Fn α κ} {mask : List Bool} {comp : List Comp} {c : Impl α κ}
    (h : Impl.Built fn mask comp c) (e : List α) (he : e.length = fn.space.nv) :
    (∀ i : Nat, Covers c.activeRows i ↔
      if mask = [] then i < fn.space.nv else mask[i]? = some true) ∧
    (c.zeroInactive e).length = e.length ∧
    (∀ (i : Nat) (x : α), e[i]? = some x → (c.zeroInactive e)[i]? =
      if mask = [] ∨ mask[i]? = some true then some x else some 0) := by
  obtain ⟨hok, hfn, hcomp, hm⟩ := h.ok
  subst hfn
  have hz : c.zeroInactive e = maskBy c.mask e :=
    zero_rows_eq hok.rows e (he.trans hok.mask_len.symm)
  refine ⟨fun i => ?_, ?_, fun i x hx => ?_⟩
  · rw [hok.rows.act_iff, hm]
    unfold fullMask
    split
    · rw [List.getElem?_replicate]; simp
    · rfl
  · rw [hz]; simp [maskBy, hok.mask_len, he]
  · rw [hz]
    have hi : i < c.mask.length := by
      rw [hok.mask_len, ← he]; exact lt_of_getElem?_some hx
    unfold maskBy
    rw [List.getElem?_zipWith, hx, List.getElem?_eq_getElem hi]
    have hmi : c.mask[i] = true ↔ mask = [] ∨ mask[i]? = some true := by
      have h1 : c.mask[i] = true ↔ c.mask[i]? = some true := by
        rw [List.getElem?_eq_getElem hi]; simp
      rw [h1, hm]
      unfold fullMask
      split
      · rename_i hn
        have : i < c.fn.space.nv := hok.mask_len ▸ hi
        simp [hn, this]
      · rename_i hn; simp [hn]
    simp only [hmi]
    split <;> rfl

/-- C69. A constraint is created exactly when the comparison types and the mask, if any, have the size
of the output of the function. -/
theorem C69_created_iff (fn : Fn α κ) (comp : List Comp) (mask : List Bool) :
    (Impl.create fn comp mask).isSome = true ↔
      comp.length = fn.space.nv ∧ (mask = [] ∨ mask.length = fn.space.nv) := by
  unfold Impl.create Impl.mk'
  cases mask with
  | nil => simp
  | cons b m => simp

/-- C69. In a stack, the rows kept are those selected by the concatenation of the masks, after any
number of additions. -/
theorem C69_stack_rows [Zero α] {cs : List (Impl α κ)} {s : ImplSet α κ}
    (h : ImplSet.ofList cs = some s) (e : List α) (he : e.length = (cs.flatMap (·.mask)).length) :
    (∀ i : Nat, Covers s.activeRows i ↔ (cs.flatMap (·.mask))[i]? = some true) ∧
    s.zeroInactive e = List.zipWith (fun b x => if b then x else 0) (cs.flatMap (·.mask)) e := by
  have hok := ImplSet.ofList_ok h
  refine ⟨fun i => by rw [hok.rows.act_iff, hok.mask], ?_⟩
  have := zero_rows_eq hok.rows e (by rw [he, hok.mask])
  rw [hok.mask] at this
  exact this

/-- C69. The intervals of kept rows are sorted, disjoint and not adjacent, so that the number of kept
rows is the number of selected components. -/
theorem C69_stack_canonical {cs : List (Impl α κ)} {s : ImplSet α κ}
    (h : ImplSet.ofList cs = some s) : Canonical s.activeRows ∧ (indices s.activeRows).Nodup ∧
    cardinal s.activeRows = (cs.flatMap (·.mask)).count true := by
  have hok := ImplSet.ofList_ok h
  refine ⟨hok.rows.act_canonical, hok.rows.act_canonical.disjoint.indices_nodup, ?_⟩
  rw [cardinal_eq_length]
  have key : ∀ m : List Bool, ∀ k, (indices (onesFrom k m)).length = m.count true := by
    intro m
    induction m with
    | nil => intro k; rfl
    | cons b m ih =>
      intro k
      cases b
      · simp [onesFrom, ih]
      · simp [onesFrom, indices_cons, ih]
  rw [← key _ 0]
  apply List.Perm.length_eq
  rw [List.perm_ext_iff_of_nodup hok.rows.act_canonical.disjoint.indices_nodup
    (onesFrom_disjoint 0 _).indices_nodup]
  intro i
  rw [mem_indices, mem_indices, hok.rows.act_iff, onesFrom_covers, hok.mask]
  simp

open ImplEx in
example : c4.zeroInactive [1, 2, 3, 4] = [1, 0, 3, 4] ∧ c1.zeroInactive [7] = [7] ∧
    ((ImplSet.ofList [c4, c1, c4]).map fun s => (s.activeRows, s.zeroInactive [1, 2, 3, 4, 5, 6, 7, 8, 9]))
    = some ([⟨0, 1⟩, ⟨2, 4⟩, ⟨7, 2⟩], [1, 0, 3, 4, 5, 6, 0, 8, 9]) := by decide +kernel

end Hpp
