import Verif.HI.Rows
import Mathlib.Algebra.BigOperators.Ring.Finset
import Mathlib.Algebra.BigOperators.Intervals

/-!
# Model of `computeValue<true>`: the Jacobian of a level

Source: `/repo/src/solver/hierarchical-iterative.cc`, lines 623-646 and 674-692.
-/

namespace Hpp

variable {α κ : Type}

/-- `J.middleRows(row, n) = M * J.middleRows(row, n)`: `DerivativeTimesInput` for one Lie group. -/
def blockMul [Zero α] [Add α] [Mul α] (n row : Nat) (M : Nat → Nat → α) (J : Jac α) : Jac α := fun r k =>
  if row ≤ r ∧ r < row + n then ((List.range n).map fun j => M (r - row) j * J (row + j) k).sum
  else J r k

/-- `d.output.space()->dDifference_dq1<DerivativeTimesInput>(d.rightHandSide.vector(),
d.output.vector(), d.jacobian)` (hierarchical-iterative.cc:635-636).  `D sp r o` is the derivative of
`o - r` with respect to `o` in the space `sp` (hpp-pinocchio, external).  The elementary Lie groups of
the output space are visited one after the other; simplified here to the spaces of the functions. -/
def dDiffRows [Zero α] [Add α] [Mul α] (D : Space α → List α → List α → Nat → Nat → α)
    (rhs out : List α) : List (Fn α κ) → Nat → Nat → Jac α → Jac α
  | [], _, _, J => J
  | f :: l, iq, iv, J =>
    dDiffRows D rhs out l (iq + f.space.nq) (iv + f.space.nv)
      (blockMul f.space.nv iv
        (D f.space ((rhs.drop iq).take f.space.nq) ((out.drop iq).take f.space.nq)) J)

/-- `d.output`, `d.error`, `d.jacobian` and `d.reducedJ` (hierarchical-iterative.hh:565-577). -/
structure LevelEval (α : Type) where
  output : List α
  error : List α
  jac : Jac α
  redJ : Jac α

/-- Body of the loop of `computeValue<true>` (hierarchical-iterative.cc:624-644).  `J0` is what
`d.jacobian` holds before; `free` are the columns of `d.activeRowsOfJ` (line 433). -/
def Level.evalJac [Zero α] [Add α] [Sub α] [Neg α] [Mul α] [LT α] [DecidableLT α]
    (D : Space α → List α → List α → Nat → Nat → α) (thr : α) (free : Segs) (q : Nat → α) (J0 : Jac α)
    (l : Level α κ) : Option (LevelEval α) :=
  let out := l.stack.fns.value q (List.replicate l.stack.fns.space.nq 0)
  let e := l.stack.zeroInactive (l.stack.fns.space.sub out l.rhs)
  let J := dDiffRows D l.rhs out l.stack.fns.fns 0 0 (l.stack.fns.jacobian q J0)
  (applyComparison l.comp thr l.ineq (e, J)).map fun p =>
    ⟨out, p.1, p.2, fun r c => p.2 ((indices l.rows.segs).getD r 0) ((indices free).getD c 0)⟩

/-- `computeValue<true>` (hierarchical-iterative.cc:623-646): all the levels. -/
def HI.evalJac [Zero α] [Add α] [Sub α] [Neg α] [Mul α] [LT α] [DecidableLT α]
    (D : Space α → List α → List α → Nat → Nat → α) (q : Nat → α) (J0 : Jac α) (s : HI α κ) :
    Option (List (LevelEval α)) :=
  s.levels.mapM (Level.evalJac D s.ineqThr s.free.segs q J0)

/-- `getValue` (hierarchical-iterative.cc:674-682): the values of the levels, one after the other, in a
vector whose size was chosen by the caller. -/
def getValueLoop : List (LevelEval α) → Nat → List α → List α
  | [], _, v => v
  | d :: l, row, v =>
    getValueLoop l (row + d.output.length) (setAll v ((List.range' row d.output.length).zip d.output))

/-- `getReducedJacobian` (hierarchical-iterative.cc:684-692): the reduced Jacobians of the levels with their
numbers of rows, one below the other, in a matrix given by the caller. -/
def getReducedLoop : List (LevelEval α × Nat) → Nat → Jac α → Jac α
  | [], _, J => J
  | (d, n) :: l, row, J =>
    getReducedLoop l (row + n) fun r k => if row ≤ r ∧ r < row + n then d.redJ (r - row) k else J r k

/-! ## Lemmas -/

theorem list_sum_range [AddCommMonoid α] (f : Nat → α) (n : Nat) :
    ((List.range n).map f).sum = ∑ k ∈ Finset.range n, f k := by
  induction n with
  | zero => rfl
  | succ n ih => rw [List.range_succ, List.map_append, List.sum_append, ih, Finset.sum_range_succ]; simp

theorem dDiffRows_out [Zero α] [Add α] [Mul α] (D : Space α → List α → List α → Nat → Nat → α)
    (rhs out : List α) (fs : List (Fn α κ)) (iq iv : Nat) (J : Jac α) (r k : Nat)
    (h : r < iv ∨ iv + (fs.map (·.space.nv)).sum ≤ r) :
    dDiffRows D rhs out fs iq iv J r k = J r k := by
  induction fs generalizing iq iv J with
  | nil => rfl
  | cons f fs ih =>
    simp only [List.map_cons, List.sum_cons] at h
    rw [dDiffRows, ih _ _ _ (by omega), blockMul, if_neg (by omega)]

theorem dDiffRows_in [Zero α] [Add α] [Mul α] (D : Space α → List α → List α → Nat → Nat → α)
    (rhs out : List α) (pre : List (Fn α κ)) (f : Fn α κ) (post : List (Fn α κ)) (iq iv : Nat)
    (J : Jac α) (r k : Nat) (h : r < f.space.nv) :
    dDiffRows D rhs out (pre ++ f :: post) iq iv J (iv + (pre.map (·.space.nv)).sum + r) k =
      ((List.range f.space.nv).map fun j =>
        D f.space ((rhs.drop (iq + (pre.map (·.space.nq)).sum)).take f.space.nq)
          ((out.drop (iq + (pre.map (·.space.nq)).sum)).take f.space.nq) r j *
        J (iv + (pre.map (·.space.nv)).sum + j) k).sum := by
  induction pre generalizing iq iv J with
  | nil =>
    simp only [List.nil_append, List.map_nil, List.sum_nil, Nat.add_zero, dDiffRows]
    rw [dDiffRows_out _ _ _ _ _ _ _ _ _ (by omega), blockMul, if_pos (by omega)]
    simp
  | cons g pre ih =>
    simp only [List.cons_append, List.map_cons, List.sum_cons, dDiffRows]
    have := ih (iq + g.space.nq) (iv + g.space.nv) (blockMul g.space.nv iv
        (D g.space ((rhs.drop iq).take g.space.nq) ((out.drop iq).take g.space.nq)) J)
    rw [show iv + (g.space.nv + (pre.map (·.space.nv)).sum) + r =
      iv + g.space.nv + (pre.map (·.space.nv)).sum + r by omega, this]
    congr 1
    apply List.map_congr_left
    intro j hj
    rw [blockMul, if_neg (by omega)]
    rw [show iq + g.space.nq + (pre.map (·.space.nq)).sum =
      iq + (g.space.nq + (pre.map (·.space.nq)).sum) by omega,
      show iv + g.space.nv + (pre.map (·.space.nv)).sum + j =
      iv + (g.space.nv + (pre.map (·.space.nv)).sum) + j by omega]

/-- A row of a level is a row of one of its constraints. -/
theorem row_split (cs : List (Impl α κ)) (ρ : Nat) (h : ρ < (cs.map (·.fn.space.nv)).sum) :
    ∃ pre c post r, cs = pre ++ c :: post ∧ ρ = (pre.map (·.fn.space.nv)).sum + r ∧ r < c.fn.space.nv := by
  induction cs generalizing ρ with
  | nil => simp at h
  | cons c cs ih =>
    by_cases hr : ρ < c.fn.space.nv
    · exact ⟨[], c, cs, ρ, rfl, by simp, hr⟩
    · simp only [List.map_cons, List.sum_cons] at h
      obtain ⟨pre, d, post, r, h1, h2, h3⟩ := ih (ρ - c.fn.space.nv) (by omega)
      exact ⟨c :: pre, d, post, r, by rw [h1]; rfl, by simp only [List.map_cons, List.sum_cons]; omega, h3⟩

theorem flatMap_length_sum {β γ : Type} (l : List β) (f : β → List γ) (n : β → Nat)
    (h : ∀ x ∈ l, (f x).length = n x) : (l.flatMap f).length = (l.map n).sum := by
  induction l with
  | nil => rfl
  | cons a l ih =>
    rw [List.flatMap_cons, List.length_append, h a (by simp), ih fun x hx => h x (by simp [hx])]
    simp

theorem flatMap_getElem?_mid {β γ : Type} (pre : List β) (x : β) (post : List β) (f : β → List γ)
    (n : β → Nat) (h : ∀ y ∈ pre, (f y).length = n y) (r : Nat) (hr : r < (f x).length) :
    ((pre ++ x :: post).flatMap f)[(pre.map n).sum + r]? = (f x)[r]? := by
  rw [List.flatMap_append, List.flatMap_cons, List.getElem?_append_right, flatMap_length_sum _ _ _ h,
    Nat.add_sub_cancel_left, List.getElem?_append_left hr]
  rw [flatMap_length_sum _ _ _ h]; omega

theorem flatMap_segment {β γ : Type} (pre : List β) (x : β) (post : List β) (f : β → List γ)
    (n : β → Nat) (h : ∀ y ∈ pre, (f y).length = n y) (hx : (f x).length = n x) :
    ((((pre ++ x :: post).flatMap f).drop (pre.map n).sum).take (n x)) = f x := by
  rw [List.flatMap_append, List.flatMap_cons, ← flatMap_length_sum _ _ _ h, List.drop_left, ← hx,
    List.take_left]

/-- What `computeValue<true>` computes for a level, by constraint.  The row `r` of a constraint `c` is its
row of the Jacobian multiplied by the derivative of the difference, or zero if the inequality is met;
the error is the one of `computeValue<false>`. -/
theorem level_evalJac [Ring α] [LinearOrder α] [DecidableEq κ] {El : Fn α κ → List α → Prop}
    {h : List (Impl α κ × Nat)} {s : HI α κ} {R : κ → List α} (hs : HI.Inv h s) (hf : FnsOk El h)
    (hR : HI.RhsIs El h s R) {i : Nat} {l : Level α κ} (hl : s.levels[i]? = some l)
    (D : Space α → List α → List α → Nat → Nat → α) (thr : α) (free : Segs) (q : Nat → α) (J0 : Jac α) :
    ∃ E, l.evalJac D thr free q J0 = some E ∧ l.error thr q = some E.error ∧
      E.output = (atLevel h i).flatMap (fun c => c.fn.value q) ∧
      l.stack.fns.space.sub (l.stack.fns.value q (List.replicate l.stack.fns.space.nq 0)) l.rhs =
        (atLevel h i).flatMap (fun c => c.fn.space.sub (c.fn.value q) (R c.fn.key)) ∧
      E.error = (atLevel h i).flatMap (fun c => conError thr q c (R c.fn.key)) ∧
      (∀ r c, E.redJ r c = E.jac ((indices l.rows.segs).getD r 0) ((indices free).getD c 0)) ∧
      ∀ pre c post, atLevel h i = pre ++ c :: post → ∀ r, r < c.fn.space.nv → ∀ t b x,
        c.comp[r]? = some t → c.mask[r]? = some b →
        (c.fn.space.sub (c.fn.value q) (R c.fn.key))[r]? = some x → ∀ k,
        E.jac ((pre.map (·.fn.space.nv)).sum + r) k =
          open Classical in if InsideLimit t thr (if b then x else 0) then 0 else
          ∑ j ∈ Finset.range c.fn.space.nv, D c.fn.space (R c.fn.key) (c.fn.value q) r j * c.fn.jac q j k := by
  have hc := hs.level i l hl
  have hval := level_value hf hc.toLevelCore q
  have hRp : PartsOk El (atLevel h i) ((atLevel h i).map fun c => R c.fn.key) :=
    PartsOk.map _ fun c hc => hR.el _ (mem_atLevel.1 hc)
  have hlens : ∀ c ∈ atLevel h i, _ := fun c hc =>
    conSub_length hf (mem_atLevel.1 hc) (hR.el _ (mem_atLevel.1 hc)) q thr
  have hvalF : l.stack.fns.value q (List.replicate l.stack.fns.space.nq 0) =
      (atLevel h i).flatMap (fun c => c.fn.value q) := by rw [hval.2, List.flatMap_def]
  have hsub : l.stack.fns.space.sub (l.stack.fns.value q (List.replicate l.stack.fns.space.nq 0)) l.rhs
      = (atLevel h i).flatMap fun c => c.fn.space.sub (c.fn.value q) (R c.fn.key) := by
    rw [hval.2, hR.eq i l hl, List.flatMap_def, hc.stack.fns.space,
      hval.1.sub (hf.level i) hRp, List.zip_map', List.zipWith_map_right, List.flatMap_def]
    congr 1
    generalize atLevel h i = cs
    induction cs with
    | nil => rfl
    | cons c cs ih => simp
  have hz : l.stack.zeroInactive (l.stack.fns.space.sub
      (l.stack.fns.value q (List.replicate l.stack.fns.space.nq 0)) l.rhs) =
      (atLevel h i).flatMap fun c => maskBy c.mask (c.fn.space.sub (c.fn.value q) (R c.fn.key)) := by
    unfold ImplSet.zeroInactive
    rw [zero_rows_eq hc.stack.rows, hsub, hc.stack.mask, maskBy_flatMap]
    · intro c hc'; rw [(hlens c hc').2.1, (hlens c hc').1]
    · rw [hsub, hc.stack.mask, List.length_flatMap, List.length_flatMap]
      congr 1
      exact List.map_congr_left fun c hc' => by rw [(hlens c hc').2.1, (hlens c hc').1]
  have hlen : ((atLevel h i).flatMap fun c =>
      maskBy c.mask (c.fn.space.sub (c.fn.value q) (R c.fn.key))).length = l.comp.length := by
    rw [hc.comp, List.length_flatMap, List.length_flatMap]
    congr 1
    exact List.map_congr_left fun c hc' => by rw [(hlens c hc').2.2.1, (hlens c hc').2.2.2.1]
  have herr := level_error hs hf hR hl thr q
  obtain ⟨v', J', h1, -, -, h4, -⟩ := applyComparison_spec l.comp thr (ineqFrom 0 l.comp)
    (ineqFrom_nodup _ _) (fun i hi => by
      have := (mem_ineqFrom _ _ _).1 hi
      simpa using this) ((atLevel h i).flatMap fun c =>
      maskBy c.mask (c.fn.space.sub (c.fn.value q) (R c.fn.key)))
      (dDiffRows D l.rhs ((atLevel h i).flatMap (fun c => c.fn.value q)) l.stack.fns.fns 0 0
        (l.stack.fns.jacobian q J0)) hlen
  have hv' : v' = (atLevel h i).flatMap (fun c => conError thr q c (R c.fn.key)) := by
    have h5 := applyComparison_eq l.comp thr _ (dDiffRows D l.rhs ((atLevel h i).flatMap
      (fun c => c.fn.value q)) l.stack.fns.fns 0 0 (l.stack.fns.jacobian q J0)) hlen
    rw [h1, hc.comp, zipWith_flatMap] at h5
    · simp only [Option.map_some, Option.some.injEq] at h5; exact h5
    · intro c hc'; rw [(hlens c hc').2.2.1, (hlens c hc').2.2.2.1]
  refine ⟨⟨_, v', J', _⟩, ?_, ?_, rfl, hsub, hv', fun _ _ => rfl, ?_⟩
  · unfold Level.evalJac
    dsimp only
    rw [hz, hvalF, hc.ineq, h1]
    rfl
  · rw [herr, hv']
  · intro pre c post hsplit r hr t b x ht hb hx k
    have hmem : c ∈ atLevel h i := by rw [hsplit]; simp
    have hpre : ∀ y ∈ pre, y ∈ atLevel h i := fun y hy => by rw [hsplit]; simp [hy]
    have hcl := hlens c hmem
    have hmk : (maskBy c.mask (c.fn.space.sub (c.fn.value q) (R c.fn.key)))[r]? =
        some (if b then x else 0) := by
      unfold maskBy; rw [List.getElem?_zipWith, hb, hx]
    have hrow : ((atLevel h i).flatMap fun c =>
        maskBy c.mask (c.fn.space.sub (c.fn.value q) (R c.fn.key)))[(pre.map (·.fn.space.nv)).sum + r]? =
        some (if b then x else 0) := by
      rw [hsplit, flatMap_getElem?_mid _ _ _ _ _ (fun y hy => (hlens y (hpre y hy)).2.2.2.1) _
        (by rw [hcl.2.2.2.1]; exact hr), hmk]
    have hcomp : l.comp[(pre.map (·.fn.space.nv)).sum + r]? = some t := by
      rw [hc.comp, hsplit, flatMap_getElem?_mid _ _ _ _ _ (fun y hy => (hlens y (hpre y hy)).2.2.1) _
        (by rw [hcl.2.2.1]; exact hr), ht]
    have hidx : (pre.map (·.fn.space.nv)).sum + r ∈ ineqFrom 0 l.comp ↔ t = .superior ∨ t = .inferior := by
      rw [mem_ineqFrom]; simp [hcomp]
    have hJ : dDiffRows D l.rhs ((atLevel h i).flatMap (fun c => c.fn.value q)) l.stack.fns.fns 0 0
        (l.stack.fns.jacobian q J0) ((pre.map (·.fn.space.nv)).sum + r) k =
        ∑ j ∈ Finset.range c.fn.space.nv, D c.fn.space (R c.fn.key) (c.fn.value q) r j *
          c.fn.jac q j k := by
      have hfs : l.stack.fns.fns = pre.map (·.fn) ++ c.fn :: post.map (·.fn) := by
        rw [hc.stack.fns.fns, hsplit]; simp
      have hnv : ((pre.map (·.fn)).map (·.space.nv)).sum = (pre.map (·.fn.space.nv)).sum := by
        rw [List.map_map]; rfl
      have hnq : ((pre.map (·.fn)).map (·.space.nq)).sum = (pre.map (·.fn.space.nq)).sum := by
        rw [List.map_map]; rfl
      have h6 := dDiffRows_in D l.rhs ((atLevel h i).flatMap (fun c => c.fn.value q)) (pre.map (·.fn)) c.fn
        (post.map (·.fn)) 0 0 (l.stack.fns.jacobian q J0) r k hr
      rw [hnv, hnq, Nat.zero_add, Nat.zero_add] at h6
      rw [hfs, h6, list_sum_range]
      apply Finset.sum_congr rfl
      intro j hj
      have h7 := fnSetJac_in q (pre.map (·.fn)) c.fn (post.map (·.fn)) 0 J0 j k (Finset.mem_range.1 hj)
      rw [hnv, Nat.zero_add] at h7
      unfold FnSet.jacobian
      rw [hfs, h7, hR.eq i l hl, hsplit]
      rw [flatMap_segment pre c post (fun c => R c.fn.key) (·.fn.space.nq)
          (fun y hy => (hf.level i y (hpre y hy)).len _ (hR.el _ (mem_atLevel.1 (hpre y hy))))
          ((hf.level i c hmem).len _ (hR.el _ (mem_atLevel.1 hmem))),
        flatMap_segment pre c post (fun c => c.fn.value q) (·.fn.space.nq)
          (fun y hy => (hf.level i y (hpre y hy)).len _ (hf.value _ (mem_atLevel.1 (hpre y hy)) q))
          ((hf.level i c hmem).len _ (hf.value _ (mem_atLevel.1 hmem) q))]
    show J' _ k = _
    rw [h4 _ k _ hrow, hJ]
    congr 1
    rw [hidx, hcomp]
    apply propext
    constructor
    · rintro ⟨-, t', ht', hin⟩
      cases ht'; exact hin
    · intro hin
      refine ⟨?_, t, rfl, hin⟩
      rcases hin with ⟨h, -⟩ | ⟨h, -⟩
      · exact .inl h
      · exact .inr h

end Hpp
