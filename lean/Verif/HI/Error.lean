import Verif.HI.Rhs

/-!
# Errors of the hierarchical solver, by constraint
-/

namespace Hpp

variable {α κ : Type}

/-- Specification: error of one constraint at `q` for the right hand side `r` as seen by the solver.
Rows out of the mask are set to zero *before* the comparison with the inequality threshold. -/
def conError [Zero α] [Add α] [Sub α] [Neg α] [LE α] [DecidableLE α] (thr : α) (q : Nat → α)
    (c : Impl α κ) (r : List α) : List α :=
  List.zipWith (fun t x => comparedError t thr x) c.comp
    (maskBy c.mask (c.fn.space.sub (c.fn.value q) r))

theorem maskBy_append [Zero α] (m m' : List Bool) (e e' : List α) (h : m.length = e.length) :
    maskBy (m ++ m') (e ++ e') = maskBy m e ++ maskBy m' e' := by
  unfold maskBy; rw [List.zipWith_append h]

theorem maskBy_length [Zero α] (m : List Bool) (e : List α) (h : m.length = e.length) :
    (maskBy m e).length = e.length := by simp [maskBy, h]

theorem maskBy_flatMap [Zero α] {β : Type} (l : List β) (m : β → List Bool) (e : β → List α)
    (h : ∀ x ∈ l, (m x).length = (e x).length) :
    maskBy (l.flatMap m) (l.flatMap e) = l.flatMap fun x => maskBy (m x) (e x) := by
  induction l with
  | nil => rfl
  | cons a l ih =>
    simp only [List.flatMap_cons]
    rw [maskBy_append _ _ _ _ (h a (by simp)), ih fun x hx => h x (by simp [hx])]

theorem zipWith_flatMap {β γ δ ε : Type} (f : γ → δ → ε) (l : List β) (m : β → List γ) (e : β → List δ)
    (h : ∀ x ∈ l, (m x).length = (e x).length) :
    List.zipWith f (l.flatMap m) (l.flatMap e) = l.flatMap fun x => List.zipWith f (m x) (e x) := by
  induction l with
  | nil => rfl
  | cons a l ih =>
    simp only [List.flatMap_cons]
    rw [List.zipWith_append (h a (by simp)), ih fun x hx => h x (by simp [hx])]

theorem applyComparison_eq [AddGroup α] [LinearOrder α] (comp : List Comp) (thr : α) (v : List α)
    (J : Jac α) (hlen : v.length = comp.length) :
    (applyComparison comp thr (ineqFrom 0 comp) (v, J)).map (·.1) =
      some (List.zipWith (fun t x => comparedError t thr x) comp v) := by
  obtain ⟨v', J', h1, h2, h3, -, -⟩ := applyComparison_spec comp thr (ineqFrom 0 comp)
    (ineqFrom_nodup _ _) (fun i hi => by
      have := (mem_ineqFrom _ _ _).1 hi
      simpa using this) v J hlen
  rw [h1]
  simp only [Option.map_some, Option.some.injEq]
  apply List.ext_getElem?
  intro i
  rw [List.getElem?_zipWith]
  by_cases hi : i < v.length
  · have hc : i < comp.length := by omega
    rw [h3 i v[i] (List.getElem?_eq_getElem hi), List.getElem?_eq_getElem hc,
      List.getElem?_eq_getElem hi]
    simp only [Option.map_some]
    split
    · rfl
    · rename_i hn
      have hn' : ¬ (comp[i]? = some .superior ∨ comp[i]? = some .inferior) := by
        intro h; exact hn ((mem_ineqFrom _ _ _).2 (by simpa using h))
      rw [List.getElem?_eq_getElem hc] at hn'
      simp only [Option.some.injEq, not_or] at hn'
      rcases hci : comp[i] with _ | _ | _ | _ <;> simp_all [comparedError]
  · rw [List.getElem?_eq_none (by omega), List.getElem?_eq_none (by omega),
      List.getElem?_eq_none (by omega)]

/-- Length of the error of a constraint. -/
theorem conSub_length [Zero α] [Add α] [Sub α] [Neg α] [LE α] [DecidableLE α]
    {El : Fn α κ → List α → Prop} {h : List (Impl α κ × Nat)} (hf : FnsOk El h)
    {e : Impl α κ × Nat} (he : e ∈ h) {r : List α} (hr : El e.1.fn r) (q : Nat → α) (thr : α) :
    (e.1.fn.space.sub (e.1.fn.value q) r).length = e.1.fn.space.nv ∧
    e.1.mask.length = e.1.fn.space.nv ∧ e.1.comp.length = e.1.fn.space.nv ∧
    (maskBy e.1.mask (e.1.fn.space.sub (e.1.fn.value q) r)).length = e.1.fn.space.nv ∧
    (conError thr q e.1 r).length = e.1.fn.space.nv := by
  obtain ⟨fn, mask, comp, hb⟩ := hf.built e he
  have hok := hb.ok.1
  have h1 := (hf.lawful e he).sub_len _ _ (hf.value e he q) hr
  have h2 : (maskBy e.1.mask (e.1.fn.space.sub (e.1.fn.value q) r)).length = e.1.fn.space.nv := by
    rw [maskBy_length _ _ (hok.mask_len.trans h1.symm), h1]
  refine ⟨h1, hok.mask_len, hok.comp_len, h2, ?_⟩
  unfold conError
  rw [List.length_zipWith, h2, hok.comp_len, Nat.min_self]

/-- The error of a level is made of the errors of its constraints. -/
theorem level_error [AddGroup α] [LinearOrder α] [DecidableEq κ] {El : Fn α κ → List α → Prop}
    {h : List (Impl α κ × Nat)} {s : HI α κ} {R : κ → List α} (hs : HI.Inv h s) (hf : FnsOk El h)
    (hR : HI.RhsIs El h s R) {i : Nat} {l : Level α κ} (hl : s.levels[i]? = some l) (thr : α)
    (q : Nat → α) :
    l.error thr q = some ((atLevel h i).flatMap fun c => conError thr q c (R c.fn.key)) := by
  have hc := hs.level i l hl
  have hval := level_value hf hc.toLevelCore q
  have hRp : PartsOk El (atLevel h i) ((atLevel h i).map fun c => R c.fn.key) :=
    PartsOk.map _ fun c hc => hR.el _ (mem_atLevel.1 hc)
  have hlens : ∀ c ∈ atLevel h i, _ := fun c hc =>
    conSub_length hf (mem_atLevel.1 hc) (hR.el _ (mem_atLevel.1 hc)) q thr
  have hsub : l.stack.fns.space.sub (l.stack.fns.value q (List.replicate l.stack.fns.space.nq 0)) l.rhs
      = (atLevel h i).flatMap fun c => c.fn.space.sub (c.fn.value q) (R c.fn.key) := by
    rw [hval.2, hR.eq i l hl, List.flatMap_def, hc.stack.fns.space,
      hval.1.sub (hf.level i) hRp, List.zip_map', List.zipWith_map_right, List.flatMap_def]
    congr 1
    generalize atLevel h i = cs
    induction cs with
    | nil => rfl
    | cons c cs ih => simp
  have hz : l.stack.zeroInactive (l.stack.fns.space.sub
      (l.stack.fns.value q (List.replicate l.stack.fns.space.nq 0)) l.rhs) =
      (atLevel h i).flatMap fun c => maskBy c.mask (c.fn.space.sub (c.fn.value q) (R c.fn.key)) := by
    unfold ImplSet.zeroInactive
    rw [zero_rows_eq hc.stack.rows, hsub, hc.stack.mask, maskBy_flatMap]
    · intro c hc'; rw [(hlens c hc').2.1, (hlens c hc').1]
    · rw [hsub, hc.stack.mask, List.length_flatMap, List.length_flatMap]
      congr 1
      exact List.map_congr_left fun c hc' => by rw [(hlens c hc').2.1, (hlens c hc').1]
  unfold Level.error
  simp only [hz]
  rw [hc.ineq, applyComparison_eq, hc.comp, zipWith_flatMap]
  · rfl
  · intro c hc'; rw [(hlens c hc').2.2.1, (hlens c hc').2.2.2.1]
  · rw [hc.comp, List.length_flatMap, List.length_flatMap]
    congr 1
    exact List.map_congr_left fun c hc' => by rw [(hlens c hc').2.2.1, (hlens c hc').2.2.2.1]

/-! ### `computeError` -/

theorem worstOfLevel_eq [AddGroup α] [Mul α] [LinearOrder α] (e : Impl α κ → List α) :
    ∀ (cs : List (Impl α κ)) (pre : List α) (m : α),
    (∀ c ∈ cs, (e c).length = c.fn.space.nv) →
    worstOfLevel (pre ++ cs.flatMap e) cs pre.length m =
      some (cs.foldl (fun m c => max m (sqSum (e c))) m) := by
  intro cs
  induction cs with
  | nil => intro pre m _; rfl
  | cons c cs ih =>
    intro pre m hl
    unfold worstOfLevel
    rw [List.flatMap_cons, segGet_mid _ _ _ _ _ rfl (hl c (by simp))]
    simp only [Option.bind_eq_bind, Option.bind_some, List.foldl_cons]
    have := ih (pre ++ e c) (max m (sqSum (e c))) fun d hd => hl d (by simp [hd])
    rw [List.length_append, hl c (by simp), List.append_assoc] at this
    rw [← this]
    congr 1
    by_cases hm : m < sqSum (e c)
    · rw [if_pos hm, max_eq_right hm.le]
    · rw [if_neg hm, max_eq_left (not_lt.1 hm)]

/-- Maximum of the squared norms of the errors of the constraints of a list of levels. -/
theorem worstOf_eq [AddGroup α] [Mul α] [LinearOrder α] (e : Impl α κ → List α) :
    ∀ (ls : List (List (Impl α κ))) (m : α),
    (∀ cs ∈ ls, ∀ c ∈ cs, (e c).length = c.fn.space.nv) →
    worstOf (ls.map fun cs => (cs, cs.flatMap e)) m =
      some (ls.flatten.foldl (fun m c => max m (sqSum (e c))) m) := by
  intro ls
  induction ls with
  | nil => intro m _; rfl
  | cons cs ls ih =>
    intro m hl
    unfold worstOf
    have := worstOfLevel_eq e cs [] m (hl cs (by simp))
    simp only [List.nil_append, List.length_nil] at this
    simp only [List.map_cons, this, Option.bind_eq_bind, Option.bind_some]
    rw [ih _ fun cs hcs => hl cs (by simp [hcs]), List.flatten_cons, List.foldl_append]

theorem foldl_max_spec [LinearOrder α] {β : Type} (f : β → α) (l : List β) (m : α) :
    m ≤ l.foldl (fun m c => max m (f c)) m ∧ (∀ c ∈ l, f c ≤ l.foldl (fun m c => max m (f c)) m) ∧
    (l.foldl (fun m c => max m (f c)) m = m ∨ ∃ c ∈ l, l.foldl (fun m c => max m (f c)) m = f c) := by
  induction l generalizing m with
  | nil => simp
  | cons a l ih =>
    simp only [List.foldl_cons]
    obtain ⟨h1, h2, h3⟩ := ih (max m (f a))
    refine ⟨le_trans (le_max_left _ _) h1, ?_, ?_⟩
    · intro c hc
      rcases List.mem_cons.1 hc with rfl | hc
      · exact le_trans (le_max_right _ _) h1
      · exact h2 c hc
    · rcases h3 with h3 | ⟨c, hc, h3⟩
      · rcases le_total m (f a) with hm | hm
        · right; exact ⟨a, by simp, by rw [h3, max_eq_right hm]⟩
        · left; rw [h3, max_eq_left hm]
      · right; exact ⟨c, by simp [hc], h3⟩

/-- Number of levels that count. -/
def HI.nMandatory (s : HI α κ) : Nat := if s.lastIsOptional then s.levels.length - 1 else s.levels.length

theorem mapM_some {β γ : Type} (f : β → Option γ) (g : β → γ) (l : List β)
    (h : ∀ x ∈ l, f x = some (g x)) : l.mapM f = some (l.map g) := by
  induction l with
  | nil => rfl
  | cons a l ih =>
    rw [List.mapM_cons, h a (by simp), ih fun x hx => h x (by simp [hx])]
    rfl

theorem levels_errors [AddGroup α] [LinearOrder α] [DecidableEq κ]
    {El : Fn α κ → List α → Prop}
    {h : List (Impl α κ × Nat)} {s : HI α κ} {R : κ → List α} (hs : HI.Inv h s) (hf : FnsOk El h)
    (hR : HI.RhsIs El h s R) (thr : α) (q : Nat → α) :
    s.levels.mapM (fun l => (l.error thr q).map fun e => (l.stack.cs, e)) =
      some ((List.range s.levels.length).map fun i =>
        (atLevel h i, (atLevel h i).flatMap fun c => conError thr q c (R c.fn.key))) := by
  have key : ∀ (ls : List (Level α κ)) (k : Nat),
      (∀ (j : Nat) (l : Level α κ), ls[j]? = some l → l.stack.cs = atLevel h (k + j) ∧
        l.error thr q =
          some ((atLevel h (k + j)).flatMap fun c => conError thr q c (R c.fn.key))) →
      ls.mapM (fun l => (l.error thr q).map fun e => (l.stack.cs, e)) =
      some ((List.range' k ls.length).map fun i =>
        (atLevel h i, (atLevel h i).flatMap fun c => conError thr q c (R c.fn.key))) := by
    intro ls
    induction ls with
    | nil => intro k _; rfl
    | cons l ls ih =>
      intro k hk
      obtain ⟨h1, h2⟩ := hk 0 l rfl
      rw [List.mapM_cons, ih (k + 1) (fun j l' hj => by
        have := hk (j + 1) l' (by simpa using hj)
        rwa [show k + (j + 1) = k + 1 + j by omega] at this), h2, h1]
      rw [List.length_cons, List.range'_succ]
      rfl
  rw [List.range_eq_range']
  apply key
  intro j l hj
  rw [Nat.zero_add]
  exact ⟨(hs.level j l hj).stack.cs_eq, level_error hs hf hR hj thr q⟩

theorem solver_sqNorm_eq [AddGroup α] [Mul α] [LinearOrder α] [DecidableEq κ]
    {El : Fn α κ → List α → Prop}
    {h : List (Impl α κ × Nat)} {s : HI α κ} {R : κ → List α} (hs : HI.Inv h s) (hf : FnsOk El h)
    (hR : HI.RhsIs El h s R) (hne : s.lastIsOptional = true → s.levels ≠ []) (q : Nat → α) :
    s.sqNorm q = some (((List.range s.nMandatory).flatMap (atLevel h)).foldl
      (fun m c => max m (sqSum (conError s.ineqThr q c (R c.fn.key)))) 0) := by
  unfold HI.sqNorm
  rw [levels_errors hs hf hR]
  have hm : mandatory s.lastIsOptional ((List.range s.levels.length).map fun i =>
        (atLevel h i, (atLevel h i).flatMap fun c => conError s.ineqThr q c (R c.fn.key))) =
      some ((List.range s.nMandatory).map fun i =>
        (atLevel h i, (atLevel h i).flatMap fun c => conError s.ineqThr q c (R c.fn.key))) := by
    unfold mandatory HI.nMandatory
    cases hlo : s.lastIsOptional with
    | false => simp
    | true =>
      have h1 := hne hlo
      have h2 : s.levels.length ≠ 0 := fun h => h1 (List.length_eq_zero_iff.1 h)
      obtain ⟨n, hn⟩ := Nat.exists_eq_succ_of_ne_zero h2
      simp only [if_true, hn, Nat.succ_eq_add_one, Nat.add_sub_cancel]
      rw [if_neg (by simp), List.range_succ]
      simp
  simp only [Option.bind_eq_bind, Option.bind_some, hm]
  have := worstOf_eq (fun c : Impl α κ => conError s.ineqThr q c (R c.fn.key))
    ((List.range s.nMandatory).map (atLevel h)) 0 (by
      intro cs hcs c hc
      obtain ⟨i, -, rfl⟩ := List.mem_map.1 hcs
      exact (conSub_length hf (mem_atLevel.1 hc) (hR.el _ (mem_atLevel.1 hc)) q s.ineqThr).2.2.2.2)
  rw [List.map_map] at this
  rw [List.flatMap_def]
  exact this

theorem maskBy_zero [Zero α] (m : List Bool) (n : Nat) (h : m.length = n) :
    maskBy m (List.replicate n (0 : α)) = List.replicate n 0 := by
  subst h
  unfold maskBy
  induction m with
  | nil => rfl
  | cons b m ih =>
    simp only [List.length_cons, List.replicate_succ, List.zipWith_cons_cons, List.cons.injEq]
    exact ⟨by cases b <;> rfl, ih⟩

theorem isConstraintSatisfied_eq [Zero α] [Add α] [Sub α] [Neg α] [Mul α] [LT α] [DecidableLT α]
    [DecidableEq κ] {El : Fn α κ → List α → Prop}
    {h : List (Impl α κ × Nat)} {s : HI α κ} {R : κ → List α} (hs : HI.Inv h s) (hf : FnsOk El h)
    (hR : HI.RhsIs El h s R) {e : Impl α κ × Nat} (he : e ∈ h) (q : Nat → α) :
    s.isConstraintSatisfied e.1 q =
      some (some (maskBy e.1.mask (e.1.fn.space.sub (e.1.fn.value q) (R e.1.fn.key)),
        decide (sqSum (maskBy e.1.mask (e.1.fn.space.sub (e.1.fn.value q) (R e.1.fn.key))) <
          s.sqThr))) := by
  obtain ⟨lv, l1, l2, iq, h1, h2, h3, h4, h5, h6, h7, h8, h9⟩ := rhs_place hs hf hR he
  unfold HI.isConstraintSatisfied
  simp only [h2, h3, h1]
  rw [h5, segGet_mid _ _ _ _ _ h6 h7]
  simp only [Option.map_some]
  obtain ⟨_, _, _, hcb⟩ := hf.built _ he
  have hok := hcb.ok.1
  have : e.1.zeroInactive (e.1.fn.space.sub (e.1.fn.value q) (R e.1.fn.key)) =
      maskBy e.1.mask (e.1.fn.space.sub (e.1.fn.value q) (R e.1.fn.key)) := by
    unfold Impl.zeroInactive
    exact zero_rows_eq hok.rows _ (by
      rw [hok.mask_len, (hf.lawful e he).sub_len _ _ (hf.value e he q) (hR.el e he)])
  rw [this]

end Hpp
