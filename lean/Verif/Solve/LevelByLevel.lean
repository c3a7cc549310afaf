import Verif.Solve.OptionalProps

/-!
# C152: which levels are considered with `solveLevelByLevel`

Source: `/repo/src/solver/hierarchical-iterative.cc`, lines 744-823 (`computeDescentDirection`, test of line 809).
-/

namespace Hpp

open Matrix

variable {n : Nat}

/-- Specification: squared norm of the linearised error of a level, after the step computed for the levels before it. -/
noncomputable def linError (o : SvdOps ℝ) (thr : ℝ) (first : Bool) (proj : Proj ℝ n) (dq : Fin n → ℝ) (pre : List (DLevel ℝ n))
    (d : DLevel ℝ n) : ℝ :=
  let x := if first = true ∧ pre = [] then 0 else descendLoop o false thr first pre proj dq
  (d.J *ᵥ x + d.e) ⬝ᵥ (d.J *ᵥ x + d.e)

namespace LevelLoop

noncomputable def err (first : Bool) (dq : Fin n → ℝ) (d : DLevel ℝ n) : Fin d.m → ℝ := if first then -d.e else -d.e - d.J *ᵥ dq

noncomputable def next (o : SvdOps ℝ) (first : Bool) (proj : Proj ℝ n) (dq : Fin n → ℝ) (d : DLevel ℝ n) : Fin n → ℝ :=
  if first then o.solve d.J (err first dq d) else
    match proj with
    | none => dq + o.solve d.J (err first dq d)
    | some ⟨_, P⟩ => dq + P *ᵥ o.solve (d.J * P) (err first dq d)

/-- Projector after a level; `none`: the kernel is reduced to zero. -/
def nextProj (o : SvdOps ℝ) (proj : Proj ℝ n) (d : DLevel ℝ n) : Option (Σ k : Nat, Matrix (Fin n) (Fin k) ℝ) :=
  match proj with
  | none => if (o.ker d.J).1 = 0 then none else some (o.ker d.J)
  | some ⟨_, P⟩ => if (o.ker (d.J * P)).1 = 0 then none else some ⟨_, P * (o.ker (d.J * P)).2⟩

theorem loop_cons (o : SvdOps ℝ) (byLevel : Bool) (thr : ℝ) (first : Bool) (d : DLevel ℝ n) (ds : List (DLevel ℝ n)) (proj : Proj ℝ n)
    (dq : Fin n → ℝ) : descendLoop o byLevel thr first (d :: ds) proj dq =
      if d.m = 0 then descendLoop o byLevel thr false ds proj dq
      else if byLevel = true ∧ thr < err first dq d ⬝ᵥ err first dq d then next o first proj dq d
      else if ds = [] then next o first proj dq d
      else match nextProj o proj d with
        | none => next o first proj dq d
        | some P => descendLoop o byLevel thr false ds (some P) (next o first proj dq d) := by
  conv_lhs => unfold descendLoop
  by_cases hm : d.m = 0
  · rw [if_pos hm, if_pos hm]
  · rw [if_neg hm, if_neg hm]
    simp only [Bool.and_eq_true, decide_eq_true_eq, gt_iff_lt, List.isEmpty_iff]
    unfold nextProj next err
    cases proj with
    | none =>
      dsimp only
      by_cases hk : (o.ker d.J).1 = 0
      · simp only [hk, if_true]
      · simp only [hk, if_false]
    | some P =>
      dsimp only
      by_cases hk : (o.ker (d.J * P.2)).1 = 0
      · simp only [hk, if_true]
      · simp only [hk, if_false]

/-- A level that has rows and does not stop the loop. -/
theorem loop_go {o : SvdOps ℝ} (thr : ℝ) (first : Bool) {d : DLevel ℝ n} (hm : d.m ≠ 0) (proj : Proj ℝ n) (dq : Fin n → ℝ)
    {P : Σ k : Nat, Matrix (Fin n) (Fin k) ℝ} (hP : nextProj o proj d = some P) (ds : List (DLevel ℝ n)) :
    descendLoop o false thr first (d :: ds) proj dq = descendLoop o false thr false ds (some P) (next o first proj dq d) := by
  rw [loop_cons, if_neg hm, if_neg (fun h => Bool.noConfusion h.1)]
  by_cases hd : ds = []
  · rw [if_pos hd, hd]; rfl
  · rw [if_neg hd, hP]

theorem loop_exit {o : SvdOps ℝ} (thr : ℝ) (first : Bool) {d : DLevel ℝ n} (hm : d.m ≠ 0) (proj : Proj ℝ n) (dq : Fin n → ℝ)
    (hP : nextProj o proj d = none) (ds : List (DLevel ℝ n)) :
    descendLoop o false thr first (d :: ds) proj dq = next o first proj dq d := by
  rw [loop_cons, if_neg hm, if_neg (fun h => Bool.noConfusion h.1), hP]
  split <;> rfl

theorem linError_nil (o : SvdOps ℝ) (thr : ℝ) (first : Bool) (proj : Proj ℝ n) (dq : Fin n → ℝ) (d : DLevel ℝ n) :
    linError o thr first proj dq [] d = err first dq d ⬝ᵥ err first dq d := by
  unfold linError err
  cases first with
  | true => simp
  | false =>
    have h : descendLoop o false thr false [] proj dq = dq := rfl
    have e : -d.e - d.J *ᵥ dq = -(d.J *ᵥ dq + d.e) := by rw [neg_add, sub_eq_add_neg, add_comm]
    simp only [Bool.false_eq_true, false_and, if_false, h, e, neg_dotProduct, dotProduct_neg, neg_neg]

theorem linError_empty {o : SvdOps ℝ} (thr : ℝ) (first : Bool) {d0 : DLevel ℝ n} (hm : d0.m = 0) (proj : Proj ℝ n) (dq : Fin n → ℝ)
    (pre : List (DLevel ℝ n)) (d : DLevel ℝ n) :
    linError o thr first proj dq (d0 :: pre) d = linError o thr false proj dq pre d := by
  unfold linError
  have e : descendLoop o false thr first (d0 :: pre) proj dq = descendLoop o false thr false pre proj dq := by
    rw [loop_cons, if_pos hm]
  simp only [reduceCtorEq, and_false, if_false, e, Bool.false_eq_true, false_and]

theorem linError_go {o : SvdOps ℝ} (thr : ℝ) (first : Bool) {d0 : DLevel ℝ n} (hm : d0.m ≠ 0) (proj : Proj ℝ n) (dq : Fin n → ℝ)
    {P : Σ k : Nat, Matrix (Fin n) (Fin k) ℝ} (hP : nextProj o proj d0 = some P) (pre : List (DLevel ℝ n)) (d : DLevel ℝ n) :
    linError o thr first proj dq (d0 :: pre) d = linError o thr false (some P) (next o first proj dq d0) pre d := by
  unfold linError
  simp only [reduceCtorEq, and_false, if_false, loop_go thr first hm proj dq hP pre, Bool.false_eq_true, false_and]

/-- No level of the list that has rows has a large linearised error. -/
def AllSmall (o : SvdOps ℝ) (thr : ℝ) (first : Bool) (proj : Proj ℝ n) (dq : Fin n → ℝ) (ds : List (DLevel ℝ n)) : Prop :=
  ∀ pre d post, ds = pre ++ d :: post → d.m ≠ 0 → linError o thr first proj dq pre d ≤ thr

theorem small_head {o : SvdOps ℝ} {thr : ℝ} {first : Bool} {proj : Proj ℝ n} {dq : Fin n → ℝ} {d : DLevel ℝ n} {ds : List (DLevel ℝ n)}
    (h : AllSmall o thr first proj dq (d :: ds)) (hm : d.m ≠ 0) (byLevel : Bool) :
    ¬ (byLevel = true ∧ thr < err first dq d ⬝ᵥ err first dq d) := by
  have := h [] d ds rfl hm
  rw [linError_nil] at this
  exact fun h => absurd h.2 (not_lt.2 this)

theorem small_empty {o : SvdOps ℝ} {thr : ℝ} {first : Bool} {proj : Proj ℝ n} {dq : Fin n → ℝ} {d : DLevel ℝ n} {ds : List (DLevel ℝ n)}
    (h : AllSmall o thr first proj dq (d :: ds)) (hm : d.m = 0) : AllSmall o thr false proj dq ds := by
  intro pre d' post he hm'
  rw [← linError_empty thr first hm proj dq pre d']
  exact h (d :: pre) d' post (by rw [he]; rfl) hm'

theorem small_go {o : SvdOps ℝ} {thr : ℝ} {first : Bool} {proj : Proj ℝ n} {dq : Fin n → ℝ} {d : DLevel ℝ n} {ds : List (DLevel ℝ n)}
    (h : AllSmall o thr first proj dq (d :: ds)) (hm : d.m ≠ 0) {P : Σ k : Nat, Matrix (Fin n) (Fin k) ℝ}
    (hP : nextProj o proj d = some P) : AllSmall o thr false (some P) (next o first proj dq d) ds := by
  intro pre d' post he hm'
  rw [← linError_go thr first hm proj dq hP pre d']
  exact h (d :: pre) d' post (by rw [he]; rfl) hm'

theorem loop_all (o : SvdOps ℝ) (thr : ℝ) : ∀ (ds : List (DLevel ℝ n)) (first : Bool) (proj : Proj ℝ n) (dq : Fin n → ℝ),
    AllSmall o thr first proj dq ds → descendLoop o true thr first ds proj dq = descendLoop o false thr first ds proj dq := by
  intro ds
  induction ds with
  | nil => intros; rfl
  | cons d ds ih =>
    intro first proj dq h
    by_cases hm : d.m = 0
    · rw [loop_cons, loop_cons, if_pos hm, if_pos hm]
      exact ih _ _ _ (small_empty h hm)
    · rw [loop_cons, loop_cons, if_neg hm, if_neg hm, if_neg (small_head h hm true), if_neg (small_head h hm false)]
      split
      · rfl
      · cases hP : nextProj o proj d with
        | none => rfl
        | some P => exact ih _ _ _ (small_go h hm hP)

theorem loop_stops (o : SvdOps ℝ) (thr : ℝ) {d : DLevel ℝ n} (hd : d.m ≠ 0) (post : List (DLevel ℝ n)) :
    ∀ (pre : List (DLevel ℝ n)) (first : Bool) (proj : Proj ℝ n) (dq : Fin n → ℝ),
    AllSmall o thr first proj dq pre → thr < linError o thr first proj dq pre d →
    descendLoop o true thr first (pre ++ d :: post) proj dq = descendLoop o false thr first (pre ++ [d]) proj dq := by
  intro pre
  induction pre with
  | nil =>
    intro first proj dq _ h
    rw [linError_nil] at h
    rw [List.nil_append, List.nil_append, loop_cons, loop_cons, if_neg hd, if_neg hd, if_pos ⟨rfl, h⟩,
      if_neg fun h => Bool.noConfusion h.1, if_pos rfl]
  | cons d0 pre ih =>
    intro first proj dq hs h
    rw [List.cons_append, List.cons_append]
    by_cases hm : d0.m = 0
    · rw [loop_cons, loop_cons, if_pos hm, if_pos hm]
      exact ih _ _ _ (small_empty hs hm) (by rw [← linError_empty thr first hm]; exact h)
    · rw [loop_cons, loop_cons, if_neg hm, if_neg hm, if_neg (small_head hs hm true), if_neg (small_head hs hm false),
        if_neg (by simp), if_neg (by simp)]
      cases hP : nextProj o proj d0 with
      | none => rfl
      | some P => exact ih _ _ _ (small_go hs hm hP) (by rw [← linError_go thr first hm proj dq hP]; exact h)

end LevelLoop

open LevelLoop

/-- C152. With `solveLevelByLevel` the direction is the one computed without this option for the levels up to the first one (among those
that have rows) whose linearised error, after the step computed for the levels before it, is larger than the threshold; the levels
after it are not read. -/
theorem C152_stops (o : SvdOps ℝ) (thr : ℝ) {d : DLevel ℝ n} (hd : d.m ≠ 0) (pre post : List (DLevel ℝ n)) (hpp : pre ≠ []) (dq : Fin n → ℝ)
    (hs : ∀ p d' q, pre = p ++ d' :: q → d'.m ≠ 0 → linError o thr true none dq p d' ≤ thr)
    (hb : thr < linError o thr true none dq pre d) :
    descend o true thr (pre ++ d :: post) dq = descend o false thr (pre ++ [d]) dq := by
  obtain ⟨a, pre, rfl⟩ := List.exists_cons_of_ne_nil hpp
  have h := loop_stops o thr hd post (a :: pre) true none dq hs hb
  have e : ∀ (b : Bool) (x : DLevel ℝ n) (l : List (DLevel ℝ n)), l ≠ [] →
      descend o b thr (x :: l) dq = some (descendLoop o b thr true (x :: l) none dq) := by
    intro b x l hl
    obtain ⟨y, l, rfl⟩ := List.exists_cons_of_ne_nil hl
    rfl
  rw [List.cons_append, List.cons_append, e _ _ _ (by simp), e _ _ _ (by simp)]
  exact congrArg some h

/-- C152. If no level has such an error the option has no effect. -/
theorem C152_all (o : SvdOps ℝ) (thr : ℝ) (ds : List (DLevel ℝ n)) (dq : Fin n → ℝ)
    (hs : ∀ p d' q, ds = p ++ d' :: q → d'.m ≠ 0 → linError o thr true none dq p d' ≤ thr) :
    descend o true thr ds dq = descend o false thr ds dq := by
  match ds, hs with
  | [], _ => rfl
  | [d], _ => rfl
  | d :: d' :: ds, hs => exact congrArg some (loop_all o thr (d :: d' :: ds) true none dq hs)

namespace LevelEx

/-- `a x + b y + c = 0` -/
def row (a b c : ℝ) : DLevel ℝ 2 := ⟨1, !![a, b], ![c]⟩

/-- `x = 1` linearised at 0 -/
def l0 : DLevel ℝ 2 := row 1 0 (-1)
/-- `x = 2` -/
def l1 : DLevel ℝ 2 := row 1 0 (-2)
/-- `x = -1` -/
def l1' : DLevel ℝ 2 := row 1 0 1
/-- `y = z` -/
def l2 (z : ℝ) : DLevel ℝ 2 := row 0 1 (-z)

theorem row_sq (a b c : ℝ) (x : Fin 2 → ℝ) :
    ((row a b c).J *ᵥ x + (row a b c).e) ⬝ᵥ ((row a b c).J *ᵥ x + (row a b c).e) = (a * x 0 + b * x 1 + c) ^ 2 := by
  show ((!![a, b] : Matrix (Fin 1) (Fin 2) ℝ) *ᵥ x + (![c] : Fin 1 → ℝ)) ⬝ᵥ
    ((!![a, b] : Matrix (Fin 1) (Fin 2) ℝ) *ᵥ x + (![c] : Fin 1 → ℝ)) = _
  simp [dotProduct]
  ring

theorem row_e (a b c : ℝ) : (row a b c).e ⬝ᵥ (row a b c).e = c ^ 2 := by
  show (![c] : Fin 1 → ℝ) ⬝ᵥ (![c] : Fin 1 → ℝ) = _
  simp [dotProduct]
  ring

theorem first_step {o : SvdOps ℝ} (ho : o.Exact) (dq : Fin 2 → ℝ) : descendLoop o false 1 true [l0] none dq = ![1, 0] := by
  have h : descendLoop o false 1 true [l0] none dq = o.solve l0.J (-l0.e) := rfl
  rw [h]
  refine exact_solve ho l0 _ (![1] : Fin 1 → ℝ) ?_ ?_
  · show (!![1, 0] : Matrix (Fin 1) (Fin 2) ℝ)ᵀ *ᵥ ((!![1, 0] : Matrix (Fin 1) (Fin 2) ℝ) *ᵥ ![1, 0] + (![-1] : Fin 1 → ℝ)) = 0
    ext j; fin_cases j <;> simp [mulVec, dotProduct]
  · show ![1, 0] = (!![1, 0] : Matrix (Fin 1) (Fin 2) ℝ)ᵀ *ᵥ (![1] : Fin 1 → ℝ)
    ext j; fin_cases j <;> simp [mulVec, dotProduct]

theorem lin0 (o : SvdOps ℝ) (dq : Fin 2 → ℝ) : linError o 1 true none dq [] l0 = 1 := by
  unfold linError
  rw [if_pos ⟨rfl, rfl⟩]
  dsimp only
  rw [l0, row_sq]
  simp

theorem lin1 {o : SvdOps ℝ} (ho : o.Exact) (dq : Fin 2 → ℝ) : linError o 1 true none dq [l0] l1 = 1 := by
  unfold linError
  rw [if_neg (by simp), first_step ho]
  dsimp only
  rw [l1, row_sq]
  norm_num

theorem lin1' {o : SvdOps ℝ} (ho : o.Exact) (dq : Fin 2 → ℝ) : linError o 1 true none dq [l0] l1' = 4 := by
  unfold linError
  rw [if_neg (by simp), first_step ho]
  dsimp only
  rw [l1', row_sq]
  norm_num

theorem lex (z : ℝ) (r : Fin 2 → ℝ) (h : r ∈ lexOpt Set.univ [l0, l1, l2 z]) : r = ![1, z] := by
  obtain ⟨⟨⟨-, h1⟩, h2⟩, h3⟩ := h
  have c0 : ∀ x : Fin 2 → ℝ, l0.cost x = (x 0 - 1) ^ 2 := by
    intro x
    unfold DLevel.cost l0
    rw [row_sq]
    ring
  have c1 : ∀ x : Fin 2 → ℝ, l1.cost x = (x 0 - 2) ^ 2 := by
    intro x
    unfold DLevel.cost l1
    rw [row_sq]
    ring
  have c2 : ∀ x : Fin 2 → ℝ, (l2 z).cost x = (x 1 - z) ^ 2 := by
    intro x
    unfold DLevel.cost l2
    rw [row_sq]
    ring
  have only : ∀ x : Fin 2 → ℝ, (∀ y ∈ Set.univ, l0.cost x ≤ l0.cost y) → x 0 = 1 := by
    intro x hx
    have := hx ![1, 0] trivial
    rw [c0, c0] at this
    simp at this
    nlinarith [sq_nonneg (x 0 - 1)]
  have m0 : ∀ y ∈ Set.univ, l0.cost ![1, z] ≤ l0.cost y := by
    intro y _
    rw [c0, c0]
    simp
    positivity
  have r0 := only r h1
  have g := h3 ![1, z] ⟨⟨trivial, m0⟩, fun y hy => by rw [c1, c1, only y hy.2]; simp⟩
  rw [c2, c2] at g
  simp at g
  have r1 : r 1 = z := by nlinarith [sq_nonneg (r 1 - z)]
  ext i
  fin_cases i
  · exact r0
  · exact r1

end LevelEx

open LevelEx in
/-- C152. The documentation says that only the level of highest priority that is not satisfied is considered (hierarchical-iterative.hh:426-430)
and that an equation is ignored until the previous one is solved (lines 201-208).  With three levels and the threshold 1 this is false in both
directions: the third level is read although the second one is not satisfied; and it is ignored although the two first ones are
satisfied, because the linearised error after the step is compared with the threshold instead of the error. -/
theorem C152_documented_refuted (o : SvdOps ℝ) (ho : o.Exact) (dq : Fin 2 → ℝ) :
    (l0.e ⬝ᵥ l0.e ≤ 1 ∧ 1 < l1.e ⬝ᵥ l1.e ∧ ∀ z, descend o true 1 [l0, l1, l2 z] dq = some ![1, z]) ∧
    (l0.e ⬝ᵥ l0.e ≤ 1 ∧ l1'.e ⬝ᵥ l1'.e ≤ 1 ∧
      ∀ z z', descend o true 1 [l0, l1', l2 z] dq = descend o true 1 [l0, l1', l2 z'] dq) := by
  refine ⟨⟨by rw [l0, row_e]; norm_num, by rw [l1, row_e]; norm_num, fun z => ?_⟩, by rw [l0, row_e]; norm_num,
    by rw [l1', row_e]; norm_num, fun z z' => ?_⟩
  · have hall : ∀ p d' q, [l0, l1] = p ++ d' :: q → d'.m ≠ 0 → linError o 1 true none dq p d' ≤ 1 := by
      intro p d' q h _
      match p, h with
      | [], h =>
        obtain ⟨rfl, -⟩ := List.cons.inj h
        exact (lin0 o dq).le
      | [a], h =>
        obtain ⟨ha, ht⟩ := List.cons.inj h
        obtain ⟨hd, -⟩ := List.cons.inj ht
        rw [← ha, ← hd]
        exact (lin1 ho dq).le
      | a :: b :: p, h =>
        have := congrArg List.length h
        simp at this
    have e : descend o true 1 [l0, l1, l2 z] dq = descend o false 1 [l0, l1, l2 z] dq := by
      by_cases hb : 1 < linError o 1 true none dq [l0, l1] (l2 z)
      · exact C152_stops o 1 (d := l2 z) one_ne_zero [l0, l1] [] (by simp) dq hall hb
      · refine C152_all o 1 [l0, l1, l2 z] dq fun p d' q h hm => ?_
        match p, h with
        | [], h =>
          obtain ⟨rfl, -⟩ := List.cons.inj h
          exact (lin0 o dq).le
        | [a], h =>
          obtain ⟨ha, ht⟩ := List.cons.inj h
          obtain ⟨hd, -⟩ := List.cons.inj ht
          rw [← ha, ← hd]
          exact (lin1 ho dq).le
        | [a, b], h =>
          obtain ⟨ha, ht⟩ := List.cons.inj h
          obtain ⟨hb', ht'⟩ := List.cons.inj ht
          obtain ⟨hd, -⟩ := List.cons.inj ht'
          rw [← ha, ← hb', ← hd]
          exact not_lt.1 hb
        | a :: b :: c :: p, h =>
          have := congrArg List.length h
          simp at this
    rw [e]
    obtain ⟨r, hr⟩ : ∃ r, descend o false 1 [l0, l1, l2 z] dq = some r := ⟨_, rfl⟩
    rw [hr, lex z r (C36_lexicographic o ho 1 _ dq hr)]
  · have hall : ∀ p d' q, [l0] = p ++ d' :: q → d'.m ≠ 0 → linError o 1 true none dq p d' ≤ 1 := by
      intro p d' q h _
      match p, h with
      | [], h =>
        obtain ⟨rfl, -⟩ := List.cons.inj h
        exact (lin0 o dq).le
      | a :: p, h =>
        have := congrArg List.length h
        simp at this
    have hb : 1 < linError o 1 true none dq [l0] l1' := by rw [lin1' ho]; norm_num
    have h := fun z => C152_stops o 1 (d := l1') one_ne_zero [l0] [l2 z] (by simp) dq hall hb
    exact (h z).trans (h z').symm

end Hpp
