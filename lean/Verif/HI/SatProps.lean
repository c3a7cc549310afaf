import Verif.HI.Props

/-!
# Error and satisfaction of the hierarchical solver: C33, C35, C64, C70
-/

namespace Hpp

variable {α κ : Type}

section
variable [DecidableEq κ] {nv : Nat}

/-- Specification: constraints of the levels that count. -/
def IsMandatory (s : HI α κ) (e : Impl α κ × Nat) : Prop :=
  s.lastIsOptional = true → e.2 + 1 < s.levels.length

theorem mem_mandatory {h : List (Impl α κ × Nat)} {s : HI α κ} (hs : HI.Inv h s) (c : Impl α κ) :
    c ∈ (List.range s.nMandatory).flatMap (atLevel h) ↔
      ∃ p, (c, p) ∈ h ∧ IsMandatory s (c, p) := by
  simp only [List.mem_flatMap, List.mem_range, mem_atLevel, IsMandatory, HI.nMandatory]
  constructor
  · rintro ⟨i, hi, hc⟩
    refine ⟨i, hc, fun ho => ?_⟩
    rw [if_pos ho] at hi
    show i + 1 < _
    omega
  · rintro ⟨p, hc, hm⟩
    refine ⟨p, ?_, hc⟩
    have := hs.nlev _ hc
    split
    · rename_i ho
      have : p + 1 < s.levels.length := hm ho
      omega
    · exact this

/-! ## C33 -/

/-- C33. The reported error is the maximum, over the constraints of the levels that count, of the squared
norm of the error of the constraint (zero if there is none). -/
theorem C33_worst [AddGroup α] [Mul α] [LinearOrder α] {El : Fn α κ → List α → Prop}
    {h : List (Impl α κ × Nat)} {s : HI α κ} (hb : HI.Built El nv h s)
    (hl : ∀ e ∈ h, e.1.fn.space.Lawful (El e.1.fn)) (hv : ∀ e ∈ h, ∀ q, El e.1.fn (e.1.fn.value q))
    (hne : s.lastIsOptional = true → s.levels ≠ []) (q : Nat → α) :
    ∃ n, s.sqNorm q = some n ∧ 0 ≤ n ∧
      (∀ e ∈ h, IsMandatory s e → ∃ r, s.getRhs e.1 = some (some r) ∧
        sqSum (conError s.ineqThr q e.1 r) ≤ n) ∧
      (n = 0 ∨ ∃ e ∈ h, IsMandatory s e ∧ ∃ r, s.getRhs e.1 = some (some r) ∧
        n = sqSum (conError s.ineqThr q e.1 r)) := by
  obtain ⟨hs, hf, R, hR⟩ := hb.inv hl hv
  obtain ⟨h1, h2, h3⟩ := foldl_max_spec
    (fun c : Impl α κ => sqSum (conError s.ineqThr q c (R c.fn.key)))
    ((List.range s.nMandatory).flatMap (atLevel h)) 0
  refine ⟨_, solver_sqNorm_eq hs hf hR hne q, h1, ?_, ?_⟩
  · intro e he hm
    exact ⟨_, getRhs_eq hs hf hR he, h2 e.1 ((mem_mandatory hs _).2 ⟨e.2, he, hm⟩)⟩
  · rcases h3 with h3 | ⟨c, hc, h3⟩
    · exact Or.inl h3
    · obtain ⟨p, hp, hm⟩ := (mem_mandatory hs _).1 hc
      exact Or.inr ⟨(c, p), hp, hm, _, getRhs_eq hs hf hR hp, h3⟩

/-- C33. A configuration is declared satisfied exactly if the error is below the threshold. -/
theorem C33_satisfied [AddGroup α] [Mul α] [LinearOrder α] {El : Fn α κ → List α → Prop}
    {h : List (Impl α κ × Nat)} {s : HI α κ} (hb : HI.Built El nv h s)
    (hl : ∀ e ∈ h, e.1.fn.space.Lawful (El e.1.fn)) (hv : ∀ e ∈ h, ∀ q, El e.1.fn (e.1.fn.value q))
    (hne : s.lastIsOptional = true → s.levels ≠ []) (q : Nat → α) :
    ∃ b, s.isSatisfied q = some b ∧ (b = true ↔ 0 < s.sqThr ∧
      ∀ e ∈ h, IsMandatory s e → ∃ r, s.getRhs e.1 = some (some r) ∧
        sqSum (conError s.ineqThr q e.1 r) < s.sqThr) := by
  obtain ⟨n, h1, h2, h3, h4⟩ := C33_worst hb hl hv hne q
  refine ⟨decide (n < s.sqThr), by unfold HI.isSatisfied; rw [h1]; rfl, ?_⟩
  rw [decide_eq_true_iff]
  constructor
  · intro hn
    refine ⟨lt_of_le_of_lt h2 hn, fun e he hm => ?_⟩
    obtain ⟨r, hr, hle⟩ := h3 e he hm
    exact ⟨r, hr, lt_of_le_of_lt hle hn⟩
  · rintro ⟨h0, hall⟩
    rcases h4 with h4 | ⟨e, he, hm, r, hr, h4⟩
    · rw [h4]; exact h0
    · obtain ⟨r', hr', hlt⟩ := hall e he hm
      rw [hr] at hr'
      simp only [Option.some.injEq] at hr'
      subst hr'
      rw [h4]; exact hlt

omit [DecidableEq κ] in
/-- The other case: with an optional last level and no constraint, the number of levels minus one
underflows. -/
theorem C33_empty_optional [AddGroup α] [Mul α] [LinearOrder α] (q : Nat → α) :
    HI.sqNorm ({ HI.init α κ nv with lastIsOptional := true }) q = none := rfl

open HIEx in
example : HI.sqNorm { s3 with ineqThr := 1 } (fun i => [2, 1, -3].getD i 0) = some 9 ∧
    HI.sqNorm { s3 with ineqThr := 1, lastIsOptional := true } (fun i => [2, 1, -3].getD i 0) = some 9 ∧
    HI.sqNorm { s3 with ineqThr := 1 } (fun i => [0, 1, -1].getD i 0) = some 4 ∧
    HI.sqNorm { s3 with ineqThr := 1, lastIsOptional := true } (fun i => [0, 1, -1].getD i 0) = some 1 := by
  decide +kernel

namespace NanEx

/-- Numbers with a value "not a number" that compares false with everything, as in floating point
arithmetic. -/
inductive F where
  | nan
  | num (n : Int)
deriving DecidableEq

def F.op (f : Int → Int → Int) : F → F → F
  | .num a, .num b => .num (f a b)
  | _, _ => .nan

instance : Zero F := ⟨.num 0⟩
instance : Add F := ⟨F.op (· + ·)⟩
instance : Sub F := ⟨F.op (· - ·)⟩
instance : Mul F := ⟨F.op (· * ·)⟩
instance : Neg F := ⟨fun | .num a => .num (-a) | .nan => .nan⟩
instance : LT F := ⟨fun | .num a, .num b => a < b | _, _ => False⟩
instance : DecidableLT F := fun a b => match a, b with
  | .num a, .num b => inferInstanceAs (Decidable (a < b))
  | .nan, _ => isFalse (by rintro ⟨⟩)
  | .num _, .nan => isFalse (by rintro ⟨⟩)

/-- A function of one variable whose value is not a number. -/
def f : Fn F Nat where
  key := 0
  inputSize := 1
  inputDer := 1
  spaceId := 1
  space := vectorSpace F 1
  value _ := [.nan]
  jac _ := fun _ _ => 0
  activeQ := [true]
  active := [true]

def c : Impl F Nat := (Impl.create f [.equality] []).get (by decide +kernel)
theorem c_built : Impl.Built f [] [.equality] c := .create _ _ (Option.some_get _).symm
def El (_ : Fn F Nat) (g : List F) : Prop := g.length = 1
def s : HI F Nat := { ((HI.init F Nat 1).add c 0).1 with sqThr := .num 1 }
theorem s_built : HI.Built El 1 [(c, 0)] s :=
  .params (.num 1) 0 0 false false (.add .init ⟨_, _, _, c_built⟩ (Prod.ext rfl rfl))

end NanEx

open NanEx in
/-- C33 fails for errors that are not numbers: `std::max` keeps the first argument, the error of the
constraint is ignored and any configuration is declared satisfied. -/
theorem C33_nan_refuted : ∃ (s : HI F Nat) (h : List (Impl F Nat × Nat)), HI.Built NanEx.El 1 h s ∧
    (∃ c ∈ h, ∀ q, c.1.fn.value q = [.nan]) ∧
    ∀ q, s.sqNorm q = some (.num 0) ∧ s.isSatisfied q = some true :=
  ⟨s, [(c, 0)], s_built, ⟨(c, 0), by simp, fun _ => rfl⟩, fun _ => ⟨rfl, rfl⟩⟩

/-! ## C35 -/

omit [DecidableEq κ] in
theorem conError_noIneq [Zero α] [Add α] [Sub α] [Neg α] [LE α] [DecidableLE α] (thr : α) (q : Nat → α)
    (c : Impl α κ) (r : List α) (hc : ∀ t ∈ c.comp, t = .equality ∨ t = .equalToZero)
    (hlen : c.comp.length = (maskBy c.mask (c.fn.space.sub (c.fn.value q) r)).length) :
    conError thr q c r = maskBy c.mask (c.fn.space.sub (c.fn.value q) r) := by
  unfold conError
  generalize maskBy c.mask (c.fn.space.sub (c.fn.value q) r) = e at hlen
  revert e
  generalize c.comp = comp at hc
  induction comp with
  | nil => intro e he; rw [List.length_eq_zero_iff.1 he.symm]; rfl
  | cons t comp ih =>
    intro e he
    cases e with
    | nil => simp at he
    | cons x e =>
      rw [List.zipWith_cons_cons, ih (fun t ht => hc t (by simp [ht])) e (by simpa using he)]
      rcases hc t (by simp) with rfl | rfl <;> rfl

/-- C35, part: without inequality and without optional level, a configuration satisfies the solver if and
only if it satisfies each constraint (and the threshold is positive).  Missing: inequalities and optional
levels, see the next theorems. -/
theorem C35_agree_partial [AddGroup α] [Mul α] [LinearOrder α] {El : Fn α κ → List α → Prop}
    {h : List (Impl α κ × Nat)} {s : HI α κ} (hb : HI.Built El nv h s)
    (hl : ∀ e ∈ h, e.1.fn.space.Lawful (El e.1.fn)) (hv : ∀ e ∈ h, ∀ q, El e.1.fn (e.1.fn.value q))
    (hopt : s.lastIsOptional = false) (hthr : 0 < s.sqThr)
    (hcomp : ∀ e ∈ h, ∀ t ∈ e.1.comp, t = .equality ∨ t = .equalToZero) (q : Nat → α) :
    s.isSatisfied q = some true ↔
      ∀ c ∈ s.constraints, ∃ err, s.isConstraintSatisfied c q = some (some (err, true)) := by
  obtain ⟨b, h1, h2⟩ := C33_satisfied hb hl hv (by rw [hopt]; simp) q
  obtain ⟨hs, hf, R, hR⟩ := hb.inv hl hv
  rw [h1, Option.some.injEq, h2, hs.cons]
  have key : ∀ e ∈ h, conError s.ineqThr q e.1 (R e.1.fn.key) =
      maskBy e.1.mask (e.1.fn.space.sub (e.1.fn.value q) (R e.1.fn.key)) := by
    intro e he
    refine conError_noIneq _ _ _ _ (hcomp e he) ?_
    obtain ⟨_, _, _, hcb⟩ := hf.built e he
    have hok := hcb.ok.1
    have hsl := (hl e he).sub_len _ _ (hv e he q) (hR.el e he)
    rw [maskBy_length _ _ (hok.mask_len.trans hsl.symm), hsl, hok.comp_len]
  constructor
  · rintro ⟨-, hall⟩ c hc
    obtain ⟨e, he, rfl⟩ := List.mem_map.1 hc
    obtain ⟨r, hr, hlt⟩ := hall e he (by unfold IsMandatory; rw [hopt]; simp)
    rw [getRhs_eq hs hf hR he] at hr
    simp only [Option.some.injEq] at hr
    subst hr
    rw [key e he] at hlt
    exact ⟨_, by rw [isConstraintSatisfied_eq hs hf hR he q, decide_eq_true hlt]⟩
  · intro hall
    refine ⟨hthr, fun e he _ => ⟨_, getRhs_eq hs hf hR he, ?_⟩⟩
    obtain ⟨err, herr⟩ := hall e.1 (List.mem_map.2 ⟨e, he, rfl⟩)
    rw [isConstraintSatisfied_eq hs hf hR he q] at herr
    simp only [Option.some.injEq, Prod.mk.injEq, decide_eq_true_eq] at herr
    rw [key e he]
    exact herr.2

open HIEx in
example : HI.isSatisfied { s1 with sqThr := 2 } (fun i => [1, 0, 5].getD i 0) = some true ∧
    HI.isSatisfied { s1 with sqThr := 2 } (fun i => [1, 1, 5].getD i 0) = some false := by decide +kernel

namespace HIEx

def sB : HI Int Nat := ((HI.init Int Nat 3).add cB 0).1
theorem sB_built : HI.Built El 3 [(cB, 0)] sB := .add .init ⟨_, _, _, cB_built⟩ (Prod.ext rfl rfl)
def sB' : HI Int Nat := ((HI.init Int Nat 3).add cB' 0).1
theorem sB'_built : HI.Built El 3 [(cB', 0)] sB' := .add .init ⟨_, _, _, cB'_built⟩ (Prod.ext rfl rfl)

end HIEx

open HIEx in
/-- C35 fails for inequalities, in one direction and in the other: `isConstraintSatisfied` does not apply
the comparison types.  At `5` the constraint `x ≥ 1` is met, the solver is satisfied and the constraint is
reported as not satisfied; at `0` the solver is not satisfied and the constraint is reported as
satisfied. -/
theorem C35_inequality_refuted : ∃ s : HI Int Nat, HI.Built HIEx.El 3 [(cB, 0)] s ∧
    (∃ q, s.isSatisfied q = some true ∧ s.isConstraintSatisfied cB q = some (some ([5], false))) ∧
    (∃ q, s.isSatisfied q = some false ∧ s.isConstraintSatisfied cB q = some (some ([0], true))) :=
  ⟨_, .params 1 1 0 false false sB_built, ⟨fun i => if i = 0 then 5 else 0, by decide +kernel⟩,
    ⟨fun _ => 0, by decide +kernel⟩⟩

open HIEx in
/-- C35 fails with an optional last level: its constraints do not count for the solver. -/
theorem C35_optional_refuted : ∃ s : HI Int Nat, HI.Built HIEx.El 3 [(cB', 0)] s ∧
    (∃ q, s.isSatisfied q = some true ∧ s.isConstraintSatisfied cB' q = some (some ([5], false))) :=
  ⟨_, .params 1 0 0 true false sB'_built, ⟨fun i => if i = 0 then 5 else 0, by decide +kernel⟩⟩

/-! ## C64 -/

open HIEx in
/-- C64 fails if it is read as an inclusion of the sets of solutions: comparison types (and right hand
sides) are not compared.  A solver for `x ≥ 0` "defines a submanifold of" a solver for `x = 0`. -/
theorem C64_inclusion_refuted : ∃ s s' : HI Int Nat, HI.Built HIEx.El 3 [(cB, 0)] s ∧
    HI.Built HIEx.El 3 [(cB', 0)] s' ∧ s.definesSubmanifoldOf s' = true ∧ s.sqThr = s'.sqThr ∧
    ∃ q, s.isSatisfied q = some true ∧ s'.isSatisfied q = some false :=
  ⟨_, _, .params 1 0 0 false false sB_built, .params 1 0 0 false false sB'_built, by decide +kernel,
    by decide +kernel, fun i => if i = 0 then 5 else 0, by decide +kernel⟩

/-- C64. When the constraints of the other solver are constraints of this one, with the same right hand
sides and thresholds, satisfying this solver implies satisfying the other one. -/
theorem C64_satisfied_partial [AddGroup α] [Mul α] [LinearOrder α] {El : Fn α κ → List α → Prop}
    {h h' : List (Impl α κ × Nat)} {s s' : HI α κ} (hb : HI.Built El nv h s)
    (hl : ∀ e ∈ h, e.1.fn.space.Lawful (El e.1.fn)) (hv : ∀ e ∈ h, ∀ q, El e.1.fn (e.1.fn.value q))
    (hb' : HI.Built El nv h' s') (hl' : ∀ e ∈ h', e.1.fn.space.Lawful (El e.1.fn))
    (hv' : ∀ e ∈ h', ∀ q, El e.1.fn (e.1.fn.value q))
    (hopt : s.lastIsOptional = false) (hopt' : s'.lastIsOptional = false)
    (hthr : s.sqThr ≤ s'.sqThr) (hineq : s.ineqThr = s'.ineqThr)
    (hin : ∀ c ∈ s'.constraints, c ∈ s.constraints ∧ s.getRhs c = s'.getRhs c) (q : Nat → α)
    (hq : s.isSatisfied q = some true) :
    s.definesSubmanifoldOf s' = true ∧ s'.isSatisfied q = some true := by
  obtain ⟨b, h1, h2⟩ := C33_satisfied hb hl hv (by rw [hopt]; simp) q
  obtain ⟨b', h1', h2'⟩ := C33_satisfied hb' hl' hv' (by rw [hopt']; simp) q
  have hs := (hb.inv hl hv).1
  have hs' := (hb'.inv hl' hv').1
  rw [h1, Option.some.injEq] at hq
  obtain ⟨h0, hall⟩ := h2.1 hq
  constructor
  · rw [C64_submanifold_iff hb hl hv hb' hl' hv']
    intro e' he'
    have := (hin e'.1 (by rw [hs'.cons]; exact List.mem_map.2 ⟨e', he', rfl⟩)).1
    rw [hs.cons] at this
    obtain ⟨e, he, heq⟩ := List.mem_map.1 this
    exact ⟨e, he, by rw [heq]⟩
  · rw [h1', Option.some.injEq, h2']
    refine ⟨lt_of_lt_of_le h0 hthr, fun e' he' _ => ?_⟩
    obtain ⟨h3, h4⟩ := hin e'.1 (by rw [hs'.cons]; exact List.mem_map.2 ⟨e', he', rfl⟩)
    rw [hs.cons] at h3
    obtain ⟨e, he, heq⟩ := List.mem_map.1 h3
    obtain ⟨r, hr, hlt⟩ := hall e he (by unfold IsMandatory; rw [hopt]; simp)
    rw [heq] at hr hlt
    exact ⟨r, by rw [← h4]; exact hr, by rw [← hineq]; exact lt_of_lt_of_le hlt hthr⟩

/-! ## C70 -/

/-- C70, part: a row out of the mask contributes zero to the error of the solver if it is not an
inequality, or if the inequality threshold is not positive.  Missing: inequalities with a positive
threshold. -/
theorem C70_masked_row_partial [AddGroup α] [LinearOrder α] {El : Fn α κ → List α → Prop}
    {h : List (Impl α κ × Nat)} {s : HI α κ} (hb : HI.Built El nv h s)
    (hl : ∀ e ∈ h, e.1.fn.space.Lawful (El e.1.fn)) (hv : ∀ e ∈ h, ∀ q, El e.1.fn (e.1.fn.value q))
    (q : Nat → α) (e : Impl α κ × Nat) (he : e ∈ h) (r : Nat) (t : Comp)
    (hm : e.1.mask[r]? = some false) (ht : e.1.comp[r]? = some t) (iv : Nat) (lv : Level α κ)
    (hiv : lookupKey s.iv e.1.fn.key = some iv) (hlv : s.levels[e.2]? = some lv) :
    ∃ err, lv.error s.ineqThr q = some err ∧ err[iv + r]? = some (comparedError t s.ineqThr 0) ∧
      (t = .equality ∨ t = .equalToZero ∨ s.ineqThr = 0 → err[iv + r]? = some 0) := by
  obtain ⟨hs, hf, R, hR⟩ := hb.inv hl hv
  refine ⟨_, level_error hs hf hR hlv s.ineqThr q, ?_⟩
  obtain ⟨h1, h2, rfl⟩ := List.append_of_mem he
  rcases e with ⟨c, p⟩
  have hiv' := hs.iv h1 c p h2 rfl
  simp only at hiv hm ht hlv ⊢
  rw [hiv'] at hiv
  simp only [Option.some.injEq] at hiv
  have hlen : ∀ c ∈ atLevel h1 p, (conError s.ineqThr q c (R c.fn.key)).length = c.fn.space.nv :=
    fun c hc => (conSub_length hf (by simp [mem_atLevel.1 hc]) (hR.el (c, p) (by simp [mem_atLevel.1 hc]))
      q s.ineqThr).2.2.2.2
  have hval : ((atLevel (h1 ++ (c, p) :: h2) p).flatMap fun c => conError s.ineqThr q c (R c.fn.key))[iv + r]? =
      some (comparedError t s.ineqThr 0) := by
    have hat : atLevel (h1 ++ (c, p) :: h2) p = atLevel h1 p ++ c :: atLevel h2 p := by
      rw [show h1 ++ (c, p) :: h2 = (h1 ++ [(c, p)]) ++ h2 by simp, atLevel_append, atLevel_snoc,
        if_pos rfl]
      simp
    rw [hat, List.flatMap_append, List.flatMap_cons]
    have hl1 : ((atLevel h1 p).flatMap fun c => conError s.ineqThr q c (R c.fn.key)).length = iv := by
      rw [List.length_flatMap, ← hiv]
      congr 1
      exact List.map_congr_left hlen
    rw [List.getElem?_append_right (by omega), hl1, Nat.add_sub_cancel_left]
    have hce : (conError s.ineqThr q c (R c.fn.key))[r]? = some (comparedError t s.ineqThr 0) := by
      unfold conError maskBy
      have hsl := (hl (c, p) (by simp)).sub_len _ _ (hv (c, p) (by simp) q) (hR.el (c, p) (by simp))
      obtain ⟨_, _, _, hcb⟩ := hf.built (c, p) (by simp)
      have hr : r < (c.fn.space.sub (c.fn.value q) (R c.fn.key)).length := by
        have h1 := lt_of_getElem?_some ht
        have h2 := hcb.ok.1.comp_len
        simp only at h1 h2 hsl
        omega
      rw [List.getElem?_zipWith, ht, List.getElem?_zipWith, hm, List.getElem?_eq_getElem hr]
      rfl
    rw [List.getElem?_append_left (lt_of_getElem?_some hce), hce]
  refine ⟨hval, fun h => ?_⟩
  rw [hval]
  rcases h with rfl | rfl | h
  · rfl
  · rfl
  · rw [h]
    cases t <;> simp [comparedError]

namespace HIEx

/-- `q 2 = 0` and `q 1 - 1 ≥ 0`, the second row out of the mask. -/
def cM : Impl Int Nat := (Impl.create fC [.equality, .superior] [true, false]).get (by decide +kernel)
theorem cM_built : Impl.Built fC [true, false] [.equality, .superior] cM :=
  .create _ _ (Option.some_get _).symm
def sM : HI Int Nat := ((HI.init Int Nat 3).add cM 0).1
theorem sM_built : HI.Built El 3 [(cM, 0)] sM := .add .init ⟨_, _, _, cM_built⟩ (Prod.ext rfl rfl)

end HIEx

open HIEx in
/-- C70 fails for inequalities: the rows out of the mask are set to zero before the comparison, and zero
does not meet a positive threshold.  No configuration at all satisfies this solver, even the ones
where both rows meet their limit. -/
theorem C70_masked_inequality_refuted : ∃ (s : HI Int Nat) (c : Impl Int Nat),
    HI.Built HIEx.El 3 [(c, 0)] s ∧ c.mask = [true, false] ∧ s.ineqThr = 1 ∧ s.sqThr = 1 ∧
    (∃ q, c.fn.value q = [0, 4]) ∧ ∀ q, s.isSatisfied q = some false := by
  have hb := HI.Built.params 1 1 0 false false sM_built
  have hl : ∀ e ∈ [(cM, 0)], e.1.fn.space.Lawful (HIEx.El e.1.fn) := by
    intro e he
    simp only [List.mem_singleton] at he
    subst he
    exact vectorSpace_lawful 2
  have hv : ∀ e ∈ [(cM, 0)], ∀ q, HIEx.El e.1.fn (e.1.fn.value q) := by
    intro e he q
    simp only [List.mem_singleton] at he
    subst he
    rfl
  refine ⟨_, cM, hb, by decide +kernel, rfl, rfl, ⟨fun i => if i = 1 then 5 else 0, by decide +kernel⟩, ?_⟩
  intro q
  obtain ⟨b, h1, h2⟩ := C33_satisfied hb hl hv (by simp) q
  rw [h1, Option.some.injEq, ← Bool.not_eq_true, h2]
  rintro ⟨-, hall⟩
  obtain ⟨r, hr, hlt⟩ := hall (cM, 0) (by simp) (by simp [IsMandatory])
  have hr' : r = [0, 0] := by
    have : sM.getRhs cM = some (some [0, 0]) := by decide +kernel
    have hr2 : sM.getRhs cM = some (some r) := hr
    rw [this] at hr2
    simpa using hr2.symm
  subst hr'
  have : sqSum (conError (1 : Int) q cM [0, 0]) = q 2 * q 2 + 1 := by
    have h3 : cM.comp = [.equality, .superior] := by decide +kernel
    have h4 : cM.mask = [true, false] := by decide +kernel
    have h5 : cM.fn.value q = [q 2, q 1 - 1] := rfl
    have h6 : cM.fn.space.sub [q 2, q 1 - 1] [0, 0] = [q 2 - 0, q 1 - 1 - 0] := rfl
    unfold conError maskBy sqSum
    rw [h3, h4, h5, h6]
    simp [comparedError]
  simp only at hlt
  rw [this] at hlt
  have := mul_self_nonneg (q 2)
  omega

end

end Hpp
