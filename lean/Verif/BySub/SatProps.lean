import Verif.BySub.Props

/-!
# Satisfaction of one constraint, of all of them, and thresholds: C117

Sources: `/repo/src/solver/by-substitution.cc`, lines 373-382; `/repo/include/hpp/constraints/solver/by-substitution.hh`,
lines 211-236 and 265-268; `/repo/src/explicit-constraint-set.cc`, lines 67-118;
`/repo/include/hpp/constraints/solver/hierarchical-iterative.hh`, lines 348-352.
-/

namespace Hpp

variable {α κ : Type}

/-- `HierarchicalIterative::isSatisfied(arg, errorThreshold)` (hierarchical-iterative.hh:348-352). -/
def HI.isSatisfiedWith [Zero α] [Add α] [Sub α] [Neg α] [Mul α] [LT α] [DecidableLT α] (s : HI α κ) (q : Nat → α)
    (t : α) : Option Bool :=
  (s.sqNorm q).map fun n => decide (n < t * t)

/-- `BySubstitution::isSatisfied(arg, errorThreshold)` (by-substitution.hh:220-223). -/
def BS.isSatisfiedWith [Zero α] [One α] [Add α] [Sub α] [Neg α] [Mul α] [Max α] [LT α] [DecidableEq α]
    [DecidableLT α] (s : BS α κ) (q : Nat → α) (t : α) : Option Bool :=
  match s.hi.isSatisfiedWith q t with
  | none => none
  | some b => some (b && (s.ex.isSatisfied q t).2)

section
variable [CommRing α] [LinearOrder α] [IsStrictOrderedRing α] [DecidableEq κ] {E : Space α → List α → Prop}
  {nq nv : Nat} {h : BHist α κ} {s : BS α κ}

theorem BS.Built.threshold (hb : BS.Built E nq nv h s) (t : α) : BS.Built E nq nv h (s.setThreshold t) :=
  .params (t * t) s.hi.ineqThr t s.hi.maxIter s.hi.lastIsOptional s.hi.byLevel hb

theorem hi_isConstraintSatisfied_absent {El : Fn α κ → List α → Prop} {hist : List (Impl α κ × Nat)} {s : HI α κ}
    (hs : HI.Inv hist s) (c : Impl α κ) (hc : ∀ e ∈ hist, e.1.fn.key ≠ c.fn.key) (q : Nat → α) :
    s.isConstraintSatisfied c q = some none := by
  have hn : lookupKey s.prio c.fn.key = none := by
    rw [lookupKey_none, key_mem_prio hs]
    intro hm
    obtain ⟨e, he, hk⟩ := List.mem_map.1 hm
    exact hc e he hk
  unfold HI.isConstraintSatisfied
  rw [hn]

/-- C117. Answer for one constraint of the solver, provided that no other constraint has the same function: it is found,
the error is the difference of the value of the function and of the right hand side read by `getRightHandSide`,
with null inactive rows for constraints solved iteratively, and the constraint is declared satisfied exactly if the
squared norm is below the square of the threshold last set. -/
theorem C117_one_partial (hb : BS.Built E nq nv h s) (hl : BHist.Lawful E h)
    (e : BCon α κ × Nat × Bool) (he : e ∈ h)
    (huniq : ∀ e' ∈ h, e'.1.impl.fn.key = e.1.impl.fn.key → e' = e) (t : α) (q : Nat → α) :
    ∃ r err b, s.getRhs e.1 = some (some r) ∧
      (s.setThreshold t).isConstraintSatisfied e.1 q = some (some (err, b)) ∧
      err = (if e.2.2 then e.1.impl.fn.space.sub (e.1.impl.fn.value q) r
        else maskBy e.1.impl.mask (e.1.impl.fn.space.sub (e.1.impl.fn.value q) r)) ∧
      (b = true ↔ normSq err < t * t) := by
  obtain ⟨h1, h2, h3, h4, h5, -⟩ := (hb.threshold t).parts
  obtain ⟨l1, l2⟩ := hl.impl
  obtain ⟨hs, hf, R, hR⟩ := h1.inv l1 l2
  cases hfl : e.2.2 with
  | false =>
    have hm : (e.1.impl, e.2.1) ∈ implOf h := mem_implOf.2 ⟨e, he, hfl, rfl, rfl⟩
    have g1 := getRhs_eq hs hf hR hm
    have g2 := isConstraintSatisfied_eq hs hf hR hm q
    refine ⟨R e.1.impl.fn.key, maskBy e.1.impl.mask (e.1.impl.fn.space.sub (e.1.impl.fn.value q) (R e.1.impl.fn.key)),
      decide (sqSum (maskBy e.1.impl.mask (e.1.impl.fn.space.sub (e.1.impl.fn.value q) (R e.1.impl.fn.key))) < t * t),
      ?_, ?_, by rw [if_neg (by simp)], ?_⟩
    · have : s.hi.getRhs e.1.impl = some (some (R e.1.impl.fn.key)) := g1
      unfold BS.getRhs; simp only [this]
    · unfold BS.isConstraintSatisfied; simp only [g2]; rfl
    · rw [decide_eq_true_iff, ← sqNorm_eq]
      exact Iff.rfl
  | true =>
    obtain ⟨c, hc⟩ := Option.isSome_iff_exists.1 (h5 e he hfl)
    obtain ⟨f1, -, f3, f4⟩ := econ_fields hc
    have hcm : c ∈ s.ex.cons := by
      have : s.ex.cons = explOf h := h3
      rw [this]; exact mem_explOf.2 ⟨e, he, hfl, hc⟩
    have habs : ∀ x ∈ implOf h, x.1.fn.key ≠ e.1.impl.fn.key := by
      rintro ⟨i, p⟩ hx hk
      obtain ⟨e', he', hf', rfl, rfl⟩ := mem_implOf.1 hx
      have := huniq e' he' hk
      subst this
      rw [hfl] at hf'; simp at hf'
    have a1 := hi_isConstraintSatisfied_absent (El := fun f => E f.space) hs e.1.impl habs q
    obtain ⟨-, -, a3⟩ := C24_absent h1 l1 l2 e.1.impl habs [] (fun _ => 0)
    obtain ⟨d0, hd0, hdc⟩ := List.mem_map.1 hcm
    cases hfd : s.ex.data.find? (fun d => decide (d.c.key = c.key)) with
    | none =>
      rw [List.find?_eq_none] at hfd
      exact absurd (hfd d0 hd0) (by simp [hdc])
    | some d =>
      have hd := List.mem_of_find?_eq_some hfd
      have hk : d.c.key = c.key := by simpa using List.find?_some hfd
      have hdcc : d.c = c := by
        have hm : d.c ∈ explOf h := by
          have : s.ex.cons = explOf h := h3
          rw [← this]; exact List.mem_map.2 ⟨d, hd, rfl⟩
        obtain ⟨e', he', hf', hec⟩ := mem_explOf.1 hm
        have := huniq e' he' (by rw [← (econ_fields hec).1, hk, f1])
        subst this
        rw [hc] at hec
        exact (Option.some.inj hec).symm
      have a3' : s.hi.getRhs e.1.impl = some none := a3
      have hfd' : (s.setThreshold t).ex.data.find? (fun d => decide (d.c.key = e.1.impl.fn.key)) = some d := by
        rw [← f1]; exact hfd
      refine ⟨d.rhs, d.error q, decide (sqNorm (d.error q) < t * t), ?_, ?_, ?_, ?_⟩
      · unfold BS.getRhs ECS.getRhsOf
        simp only [a3', hc, Option.bind_some, hfd, Option.map_some]
      · unfold BS.isConstraintSatisfied
        simp only [a1, hfd', Option.map_some]
        rfl
      · rw [if_pos rfl, ← f3, ← f4, ← hdcc]; rfl
      · rw [decide_eq_true_iff, ← sqNorm_eq]

/-- C117. A constraint the function of which is not in the solver is reported as not found. -/
theorem C117_absent (hb : BS.Built E nq nv h s) (hl : BHist.Lawful E h) (c : BCon α κ)
    (hc : ∀ e ∈ h, e.1.impl.fn.key ≠ c.impl.fn.key) (q : Nat → α) : s.isConstraintSatisfied c q = some none := by
  obtain ⟨h1, h2, h3, h4, h5, -⟩ := hb.parts
  obtain ⟨l1, l2⟩ := hl.impl
  obtain ⟨hs, hf, R, hR⟩ := h1.inv l1 l2
  have a1 := hi_isConstraintSatisfied_absent (El := fun f => E f.space) hs c.impl (by
    rintro ⟨i, p⟩ hx hk
    obtain ⟨e', he', hf', rfl, rfl⟩ := mem_implOf.1 hx
    exact hc e' he' hk) q
  unfold BS.isConstraintSatisfied
  simp only [a1]
  rw [List.find?_eq_none.2]
  · rfl
  · intro d hd
    have hm : d.c ∈ explOf h := by rw [← h3]; exact List.mem_map.2 ⟨d, hd, rfl⟩
    obtain ⟨e', he', -, hec⟩ := mem_explOf.1 hm
    have := hc e' he'
    rw [← (econ_fields hec).1] at this
    simpa using this

/-- Without shared functions, each datum of the explicit set is found by the function of its constraint. -/
theorem find_data (hb : BS.Built E nq nv h s)
    (huniq : ∀ e ∈ h, ∀ e' ∈ h, e'.1.impl.fn.key = e.1.impl.fn.key → e' = e) :
    ∀ d ∈ s.ex.data, s.ex.data.find? (fun x => decide (x.c.key = d.c.key)) = some d := by
  obtain ⟨-, -, h3, -, -, h6⟩ := hb.parts
  have hp : h.Pairwise fun (a b : BCon α κ × Nat × Bool) => a.1.impl.fn.key ≠ b.1.impl.fn.key := by
    refine List.Pairwise.imp_of_mem (fun {a b} ha hbm hab hk => ?_) h6
    have := huniq b hbm a ha hk
    subst this
    rw [BCon.isEqual_refl] at hab
    cases hab
  have hn : s.ex.data.Pairwise fun a b => a.c.key ≠ b.c.key := by
    have : (s.ex.data.map (·.c)).Pairwise fun a b => a.key ≠ b.key := by
      change s.ex.cons.Pairwise _
      rw [h3]
      unfold explOf
      rw [List.pairwise_filterMap]
      refine hp.imp ?_
      intro a b hab x hx y hy
      split at hx
      swap
      · cases hx
      split at hy
      swap
      · cases hy
      rw [(econ_fields hx).1, (econ_fields hy).1]
      exact hab
    rwa [List.pairwise_map] at this
  generalize s.ex.data = l at hn
  induction l with
  | nil => simp
  | cons a l ih =>
    rw [List.pairwise_cons] at hn
    intro d hd
    rcases List.mem_cons.1 hd with rfl | hd
    · simp
    · rw [List.find?_cons_of_neg (by simpa using hn.1 d hd)]
      exact ih hn.2 d hd

/-- C117. After `errorThreshold(t)`, the solver declares a configuration satisfied exactly if it declares each
constraint satisfied, provided that no function is shared by two constraints, that no constraint is an inequality
and that the last level is mandatory.  Missing: the other cases, see `C117_hidden_refuted` and `C35_inequality_refuted`,
`C35_optional_refuted`. -/
theorem C117_agree_partial (hb : BS.Built E nq nv h s) (hl : BHist.Lawful E h)
    (huniq : ∀ e ∈ h, ∀ e' ∈ h, e'.1.impl.fn.key = e.1.impl.fn.key → e' = e)
    (hopt : s.hi.lastIsOptional = false)
    (hcomp : ∀ e ∈ h, e.2.2 = false → ∀ c ∈ e.1.impl.comp, c = .equality ∨ c = .equalToZero)
    (t : α) (ht : t ≠ 0) (q : Nat → α) :
    ∃ err b, (s.setThreshold t).isSatisfied q = some (err, b) ∧
      (b = true ↔ ∀ e ∈ h, ∃ err, (s.setThreshold t).isConstraintSatisfied e.1 q = some (some (err, true))) := by
  have hb' := hb.threshold t
  obtain ⟨h1, h2, h3, h4, h5, -⟩ := hb'.parts
  obtain ⟨l1, l2⟩ := hl.impl
  obtain ⟨bi, hs1, hs2⟩ := C33_satisfied h1 l1 l2 (by rw [show (s.setThreshold t).hi.lastIsOptional = false from hopt]; simp) q
  obtain ⟨err, hres, -⟩ := residual_spec h1 l1 l2 q
  have hexs : ((s.setThreshold t).ex.isSatisfied q (-1)).2 = true ↔
      ∀ d ∈ s.ex.data, sqNorm (d.error q) < t * t := by
    unfold ECS.isSatisfied
    simp only [if_true]
    rw [decide_eq_true_iff, (satLoop_eq q _ [] 0).2]
    constructor
    · exact fun g => g.2
    · exact fun g => ⟨mul_self_pos.2 ht, g⟩
  have hag := C35_agree_partial h1 l1 l2 hopt (mul_self_pos.2 ht : 0 < (s.setThreshold t).hi.sqThr) (by
    rintro ⟨i, p⟩ hx
    obtain ⟨e', he', hf', rfl, rfl⟩ := mem_implOf.1 hx
    exact hcomp e' he' hf') q
  obtain ⟨hs, hf, R, hR⟩ := h1.inv l1 l2
  refine ⟨err ++ ((s.setThreshold t).ex.isSatisfied q (-1)).1, bi && ((s.setThreshold t).ex.isSatisfied q (-1)).2, by
    unfold BS.isSatisfied
    simp only [hs1, hres, Option.bind_eq_bind, Option.bind_some], ?_⟩
  rw [Bool.and_eq_true, hexs, show bi = true ↔ (s.setThreshold t).hi.isSatisfied q = some true by
    rw [hs1, Option.some.injEq], hag, hs.cons]
  constructor
  · rintro ⟨g1, g2⟩ e he
    obtain ⟨r, err, b, k1, k2, k3, k4⟩ := C117_one_partial hb hl e he (huniq e he) t q
    refine ⟨err, ?_⟩
    cases hfl : e.2.2 with
    | false =>
      have hm : (e.1.impl, e.2.1) ∈ implOf h := mem_implOf.2 ⟨e, he, hfl, rfl, rfl⟩
      obtain ⟨er, hx⟩ := g1 e.1.impl (List.mem_map.2 ⟨_, hm, rfl⟩)
      have : (s.setThreshold t).isConstraintSatisfied e.1 q = some (some (er, true)) := by
        unfold BS.isConstraintSatisfied; simp only [hx]
      rw [k2] at this ⊢
      simp only [Option.some.injEq, Prod.mk.injEq] at this ⊢
      exact ⟨trivial, this.2⟩
    | true =>
      obtain ⟨c, hc⟩ := Option.isSome_iff_exists.1 (h5 e he hfl)
      obtain ⟨f1, -, f3, f4⟩ := econ_fields hc
      have hcm : c ∈ s.ex.cons := by
        have : s.ex.cons = explOf h := h3
        rw [this]; exact mem_explOf.2 ⟨e, he, hfl, hc⟩
      have habs : ∀ x ∈ implOf h, x.1.fn.key ≠ e.1.impl.fn.key := by
        rintro ⟨i, p⟩ hx hk
        obtain ⟨e', he', hf', rfl, rfl⟩ := mem_implOf.1 hx
        have := huniq e he e' he' hk
        subst this
        rw [hfl] at hf'; simp at hf'
      have a1 := hi_isConstraintSatisfied_absent (El := fun f => E f.space) hs e.1.impl habs q
      obtain ⟨d, hd, rfl⟩ := List.mem_map.1 hcm
      have hfd := find_data hb' huniq d hd
      rw [f1] at hfd
      unfold BS.isConstraintSatisfied at k2 ⊢
      simp only [a1, hfd, Option.map_some, Option.some.injEq, Prod.mk.injEq] at k2 ⊢
      exact ⟨k2.1, decide_eq_true (g2 d hd)⟩
  · intro g
    constructor
    · intro c hc
      obtain ⟨⟨i, p⟩, hx, rfl⟩ := List.mem_map.1 hc
      have hx' := isConstraintSatisfied_eq hs hf hR hx q
      obtain ⟨e, he, hfl, rfl, rfl⟩ := mem_implOf.1 hx
      obtain ⟨er, hg⟩ := g e he
      unfold BS.isConstraintSatisfied at hg
      simp only [hx'] at hg ⊢
      exact ⟨er, by simpa using hg⟩
    · intro d hd
      have hm : d.c ∈ explOf h := by
        have : s.ex.cons = explOf h := h3
        rw [← this]; exact List.mem_map.2 ⟨d, hd, rfl⟩
      obtain ⟨e, he, hfl, hec⟩ := mem_explOf.1 hm
      obtain ⟨er, hg⟩ := g e he
      obtain ⟨f1, -⟩ := econ_fields hec
      have habs : ∀ x ∈ implOf h, x.1.fn.key ≠ e.1.impl.fn.key := by
        rintro ⟨i, p⟩ hx hk
        obtain ⟨e', he', hf', rfl, rfl⟩ := mem_implOf.1 hx
        have := huniq e he e' he' hk
        subst this
        rw [hfl] at hf'; simp at hf'
      have a1 := hi_isConstraintSatisfied_absent (El := fun f => E f.space) hs e.1.impl habs q
      have hfd := find_data hb' huniq d hd
      rw [f1] at hfd
      unfold BS.isConstraintSatisfied at hg
      simp only [a1, hfd, Option.map_some, Option.some.injEq, Prod.mk.injEq, decide_eq_true_eq] at hg
      exact hg.2

/-- C117. A threshold given to `isSatisfied` has the effect of that threshold set in the solver, unless it is -1. -/
theorem C117_given_threshold_partial (hb : BS.Built E nq nv h s) (hl : BHist.Lawful E h) (t : α) (ht : t ≠ -1)
    (q : Nat → α) : s.isSatisfiedWith q t = ((s.setThreshold t).isSatisfied q).map (·.2) := by
  obtain ⟨h1, -⟩ := (hb.threshold t).parts
  obtain ⟨l1, l2⟩ := hl.impl
  obtain ⟨err, hres, -⟩ := residual_spec h1 l1 l2 q
  unfold BS.isSatisfiedWith BS.isSatisfied
  simp only [hres, Option.bind_eq_bind, Option.bind_some]
  have e1 : (s.setThreshold t).hi.isSatisfied q = s.hi.isSatisfiedWith q t := rfl
  have e2 : ((s.setThreshold t).ex.isSatisfied q (-1)).2 = (s.ex.isSatisfied q t).2 := by
    unfold ECS.isSatisfied
    simp only [if_true, if_neg ht]
    rfl
  rw [e1, e2]
  cases s.hi.isSatisfiedWith q t <;> rfl

end

open BsX in
/-- The hypotheses hold for a solver with a constraint in each part: at the first configuration both constraints are
violated, at the second one the implicit one only, at the third one both are satisfied. -/
example : let h := [(cI, 0, false), (cE, 0, true)]
    BS.Built E 4 4 h s2 ∧ (∀ e ∈ h, ∀ e' ∈ h, e'.1.impl.fn.key = e.1.impl.fn.key → e' = e) ∧
    s2.hi.lastIsOptional = false ∧
    (∀ e ∈ h, e.2.2 = false → ∀ c ∈ e.1.impl.comp, c = .equality ∨ c = .equalToZero) ∧
    (s2.setThreshold 2).isConstraintSatisfied cI (fun i => [1, 2, 5, 5].getD i 0) = some (some ([7], false)) ∧
    (s2.setThreshold 2).isConstraintSatisfied cE (fun i => [1, 2, 5, 5].getD i 0) = some (some ([4], false)) ∧
    (s2.setThreshold 2).isConstraintSatisfied cE (fun i => [1, 2, 2, 5].getD i 0) = some (some ([1], true)) ∧
    (s2.setThreshold 2).isSatisfied (fun i => [1, 2, 2, 5].getD i 0) = some ([4, 1], false) ∧
    (s2.setThreshold 2).isSatisfied (fun i => [1, -1, 2, 5].getD i 0) = some ([1, 1], true) := by
  refine ⟨s2_built, ?_, by decide +kernel, ?_, by decide +kernel⟩
  · intro e he e' he' hk
    simp only [List.mem_cons, List.not_mem_nil, or_false] at he he'
    rcases he with rfl | rfl <;> rcases he' with rfl | rfl
    · rfl
    · exact absurd hk (by decide +kernel)
    · exact absurd hk (by decide +kernel)
    · rfl
  · intro e he _
    simp only [List.mem_cons, List.not_mem_nil, or_false] at he
    rcases he with rfl | rfl <;> decide +kernel

open BsX in
/-- C117 is false for a function shared by a constraint of each part: the answer for the explicit constraint is
that for the other one.  Here the explicit constraint `q 2 = q 0 + 3` is violated, `isConstraintSatisfied` returns `true`
for it and for all the others, and the configuration is not accepted. -/
theorem C117_hidden_refuted : ∃ s : BS Int Nat, BS.Built E 4 4 [(cI, 0, false), (cE, 0, true), (cE0, 1, false)] s ∧
    s.hi.lastIsOptional = false ∧ ∃ q, s.isSatisfied q = some ([0, 0, -3], false) ∧
      ∀ c ∈ [cI, cE, cE0], s.isConstraintSatisfied c q = some (some ([0], true)) := by
  have e1 : SameFn (implOf [(cI, 0, false), (cE, 0, true)]) cE.impl := by
    intro e he hk
    simp only [implOf, List.filterMap_cons, Bool.false_eq_true, if_false, if_true, List.filterMap_nil,
      List.mem_singleton] at he
    subst he
    exact absurd hk (by decide +kernel)
  have b1 : BS.Built E 4 4 [(cI, 0, false), (cE, 0, true)] ((s2.setRhs cE [3]).get (by decide +kernel)).1 :=
    .setRhs (v := [3]) (b := true) s2_built e1 rfl (by rfl)
  refine ⟨(((s2.setRhs cE [3]).get (by decide +kernel)).1.add 20 cE0 1).1.setThreshold 1,
    (BS.Built.add (h := [(cI, 0, false), (cE, 0, true)]) (fuel := 20) (junk := []) b1 ⟨_, _, _, iE0_built⟩
      (Prod.ext rfl rfl)).threshold 1, by decide +kernel, fun i => [1, -1, 1, 0].getD i 0, by decide +kernel, ?_⟩
  decide +kernel

open BsX in
/-- C117 is false for the threshold -1: the iterative part uses its square, the explicit part its own
threshold, here 10. -/
theorem C117_minus_one_refuted : ∃ s : BS Int Nat, BS.Built E 4 4 [(cI, 0, false), (cE, 0, true)] s ∧
    ∃ q, s.isSatisfiedWith q (-1) = some true ∧ (s.setThreshold (-1)).isSatisfied q = some ([0, 5], false) ∧
      (s.setThreshold 1).isSatisfied q = some ([0, 5], false) :=
  ⟨s2.setThreshold 10, s2_built.threshold 10, fun i => [1, -6, 6, 0].getD i 0, by decide +kernel⟩

end Hpp
