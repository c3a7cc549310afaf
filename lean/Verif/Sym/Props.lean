import Verif.Sym.ValueLemmas
import Mathlib.Analysis.SpecialFunctions.Trigonometric.Deriv

/-!
# Properties of symbolic expressions

* `C47`: Jacobians are derivatives.
* `C48`: results do not depend on the order of the calls.
* `C65`: masks of symbolic functions.
-/

namespace Hpp.Sym

open Matrix

variable {α : Type} {n : Nat} [CommRing α] [DecidableEq α]

/-! ### Histories -/

/-- What can happen to the nodes before: methods of any expression, with any state of the robot. -/
inductive Action (α : Type) (n : Nat) where
  | invalidate (e : Expr α)
  | call (w : World α n) (e : Expr α) (c : Call)

def Action.expr : Action α n → Expr α
  | .invalidate e => e
  | .call _ e _ => e

def act : Action α n → St α n → St α n
  | .invalidate e, st => Sym.invalidate e st
  | .call w e c, st => Sym.call w e c st

def acts (l : List (Action α n)) (st : St α n) : St α n :=
  l.foldl (fun (st : St α n) (a : Action α n) => act a st) st

theorem acts_constructed {U : Expr α} (ha : Addressed U) : ∀ (l : List (Action α n)) (st : St α n),
    (∀ a ∈ l, Sub a.expr U) → Constructed st U → Constructed (acts l st) U := by
  intro l
  induction l with
  | nil => intro st _ h; exact h
  | cons a l ih =>
    intro st hl h
    refine ih _ (fun b hb => hl b (List.mem_cons_of_mem _ hb)) ?_
    have hs := hl a List.mem_cons_self
    match a, hs with
    | .invalidate e, _ => exact invalidate_constructed e st U h
    | .call w e .value, hs => exact computeValue_constructed ha e st hs h
    | .call w e .cross, hs => exact computeCross_constructed ha hs h
    | .call w e .jac, hs => exact computeJac_constructed ha e st hs h

omit [CommRing α] [DecidableEq α] in
theorem Addressed.sub {U e : Expr α} (h : Addressed U) (he : Sub e U) : Addressed e :=
  fun a b ha hb => h a b (ha.trans he) (hb.trans he)

/-! ### C48 -/

/-- C48 (part): whatever has been done before with expressions of the set of nodes `U` (that may share nodes with `e`),
after `invalidate` and any sequence of calls on `e`, `computeValue` gives the value of the expression,
`computeCrossValue` the matrix of the cross product by the value, `computeJacobian` what it gives on a fresh
expression.  Missing: cross products of points other than centers of joints or of centers of mass, and multiplication by
a rotation that is not transposed, see the refutations below. -/
theorem C48_order_partial {U e : Expr α} {st st0 : St α n} (ha : Addressed U) (he : Sub e U) (hh : e.Handled)
    (hst : Constructed st U) (l : List (Action α n)) (hl : ∀ a ∈ l, Sub a.expr U) (w : World α n)
    (cs : List Call) (hcs : Call.cross ∈ cs → ¬ e.isCom ∧ ¬ e.offCenter) (h0 : Constructed st0 e) :
    let m := calls w e cs (invalidate e (acts l st))
    (computeValue w e m e.id).value = e.denote w ∧
      (computeJac w e m e.id).jac = (computeJac w e (invalidate e st0) e.id).jac ∧
      (¬ e.isCom → ¬ e.offCenter → ∀ x : V3 α, (computeCross w e m e.id).cross *ᵥ x = crossProduct (e.denote w) x) := by
  have hae := ha.sub he
  have hc : Constructed (acts l st) e := (acts_constructed ha l st hl hst).sub he
  have hm := calls_after (w := w) hae.nodes (.refl e) hh cs _ hcs (invalidate_good w hc)
  have h0' := invalidate_good w h0
  intro m
  refine ⟨?_, ?_, fun h1 h2 x => ?_⟩
  · obtain ⟨a, b⟩ := computeValue_after hae.nodes e m (.refl e) hh hm
    exact (a.good e (.refl e)).value b
  · obtain ⟨a, b⟩ := computeJac_after hae.nodes e m (.refl e) hh hm
    obtain ⟨c, d⟩ := computeJac_after hae.nodes e _ (.refl e) hh h0'
    rw [(a.good e (.refl e)).jac b, (c.good e (.refl e)).jac d]
  · obtain ⟨a, b⟩ := computeCross_after hae.nodes (.refl e) hh h1 hm (fun o => absurd o h2)
    rw [(a.good e (.refl e)).cross h1 b, hat_mulVec]

/-- C48 (part): `invalidate` followed by `computeValue` (this is what symbolic functions do) gives the value of the
expression, whatever the history; only cross products, the left operand of which is a center of mass, are excluded. -/
theorem C48_value_partial {U e : Expr α} {st : St α n} (ha : Addressed U) (he : Sub e U) (hh : e.ValueHandled)
    (hst : Constructed st U) (l : List (Action α n)) (hl : ∀ a ∈ l, Sub a.expr U) (w : World α n) :
    (computeValue w e (invalidate e (acts l st)) e.id).value = e.denote w := by
  have hc : Constructed (acts l st) e := (acts_constructed ha l st hl hst).sub he
  obtain ⟨a, -, b⟩ := computeValue_vgood (ha.sub he) e _ (.refl e) hh (invalidate_vgood w hc)
  exact (a e (.refl e)).value b

/-! Concrete robot, with integer coordinates: two joints, one degree of freedom. -/

/-- Joint 0 fixed in `(1, 0, 0)`, joint 1 moving along y. -/
def exW : World ℤ 1 where
  R := fun _ => 1
  p := fun j => if j = 0 then ![1, 0, 0] else ![0, 1, 0]
  Jv := fun j => if j = 0 then 0 else !![0; 1; 0]
  Jw := fun _ => 0
  com := fun _ => ![1, 2, 3]
  Jcom := fun _ => 0

def exCache : Cache ℤ 1 := ⟨0, 0, 0, 0, false, false, false⟩

/-- Cross product of a point of joint 0 and the center of joint 1. -/
def exCross : Expr ℤ := .bin 0 .cross (.leaf 1 (.pointIn 0 ![0, 0, 1])) (.leaf 2 (.pointIn 1 0))

/-- C48 does not hold: when the Jacobian of a cross product is computed first, the value computed next is not that of the
expression, because the Jacobian of a point of a joint overwrites its cross product matrix. -/
theorem C48_jacobian_first_refuted :
    (calls exW exCross [.value] (invalidate exCross (fun _ => exCache)) exCross.id).value = exCross.denote exW ∧
      (calls exW exCross [.jac, .value] (invalidate exCross (fun _ => exCache)) exCross.id).value ≠
        exCross.denote exW := by
  refine ⟨?_, ?_⟩
  · decide +kernel
  · decide +kernel

/-- C48 does not hold: the matrix of the cross product of a point of a joint is not the same after the Jacobian has been
computed. -/
theorem C48_cross_overwritten_refuted :
    let e : Expr ℤ := .leaf 1 (.pointIn 0 ![0, 0, 1])
    (calls exW e [.cross] (invalidate e (fun _ => exCache)) e.id).cross ≠
      (calls exW e [.cross, .jac, .cross] (invalidate e (fun _ => exCache)) e.id).cross := by
  decide +kernel

/-- C48 does not hold: the matrix of the cross product of the center of mass depends on what was in the memory when the
expression was built. -/
theorem C48_com_refuted :
    let e : Expr ℤ := .leaf 1 (.com 0)
    (calls exW e [.cross] (invalidate e (fun _ => exCache)) e.id).cross ≠
      (calls exW e [.cross] (invalidate e (fun _ => { exCache with raw := ![1, 1, 1] })) e.id).cross := by
  decide +kernel

/-- C48 does not hold without `invalidate`: the flags are not initialised by the constructor. -/
theorem C48_uninitialised_refuted :
    ∃ st : St ℤ 1, Constructed st exCross ∧ (calls exW exCross [.value] st exCross.id).value ≠ exCross.denote exW := by
  refine ⟨fun _ => { exCache with vV := true }, ⟨trivial, trivial⟩, ?_⟩
  decide +kernel

/-! ### C47 -/

/-- C47 (part): along any motion, the Jacobian computed by the code times the velocity is the derivative of the value
computed by the code, for each expression the code handles (see `Expr.Handled`), whatever the history of the nodes. -/
theorem C47_derivative_partial {e : Expr ℝ} (ha : Addressed e) (hh : e.Handled) {st : St ℝ n}
    (hst : Constructed st e) {w : ℝ → World ℝ n} {qd : Fin n → ℝ} {t : ℝ} (hw : Moves w qd t) :
    VDeriv (fun t => (computeValue (w t) e (invalidate e st) e.id).value)
      ((computeJac (w t) e (invalidate e st) e.id).jac *ᵥ qd) t := by
  have hv : (fun t => (computeValue (w t) e (invalidate e st) e.id).value) = fun t => e.denote (w t) := by
    funext t
    obtain ⟨a, b⟩ := computeValue_after ha.nodes e _ (.refl e) hh (invalidate_good (w t) hst)
    exact (a.good e (.refl e)).value b
  rw [hv]
  obtain ⟨a, b⟩ := computeJac_after ha.nodes e _ (.refl e) hh (invalidate_good (w t) hst)
  rw [(a.good e (.refl e)).jac b]
  exact denote_deriv hw e hh.transposed

/-- Same for the scalar product of two expressions (lines 338-383), that may share nodes. -/
theorem C47_scalar_product_partial {U l r : Expr ℝ} (ha : Addressed U) (hl : Sub l U) (hr : Sub r U)
    (hhl : l.Handled) (hhr : r.Handled) {st : St ℝ n × DotCache ℝ n} (hst : Constructed st.1 U)
    {w : ℝ → World ℝ n} {qd : Fin n → ℝ} {t : ℝ} (hw : Moves w qd t) :
    HasDerivAt (fun t => (dotValue (w t) l r (dotInvalidate l r st)).2.value)
      ((dotJac (w t) l r (dotInvalidate l r st)).2.jac ⬝ᵥ qd) t := by
  have hS : Nodes (fun a => Sub a l ∨ Sub a r) := by
    refine ⟨fun he ha => he.elim (fun h => .inl (ha.trans h)) (fun h => .inr (ha.trans h)), fun {a b} h1 h2 => ?_⟩
    exact ha a b (h1.elim (fun h => h.trans hl) (fun h => h.trans hr)) (h2.elim (fun h => h.trans hl) (fun h => h.trans hr))
  have hgood : ∀ w : World ℝ n, Good w (fun a => Sub a l ∨ Sub a r) (dotInvalidate l r st).1 := by
    intro w a h
    have hoff : Off ((dotInvalidate l r st).1 a.id) :=
      h.elim (fun h => invalidate_off l a _ h) (fun h => invalidate_off_mono l _ _ (invalidate_off r a _ h))
    obtain ⟨h1, h2, h3⟩ := hoff
    refine ⟨fun x => ?_, fun x => ?_, fun _ x => ?_, fun _ x => ?_, fun i v hx => ?_⟩
    · rw [h1] at x; cases x
    · rw [h2] at x; cases x
    · rw [h3] at x; cases x
    · rw [h3] at x; cases x
    · subst hx
      have hc := hst.sub (h.elim (fun h => h.trans hl) (fun h => h.trans hr))
      simp only [dotInvalidate]
      rw [(invalidate_const l _ _).1, (invalidate_const l _ _).2, (invalidate_const r _ _).1,
        (invalidate_const r _ _).2]
      exact hc
  have hv : (fun t => (dotValue (w t) l r (dotInvalidate l r st)).2.value) =
      fun t => l.denote (w t) ⬝ᵥ r.denote (w t) := by
    funext t
    obtain ⟨a1, a2⟩ := computeValue_after hS l _ (.inl (.refl l)) hhl (hgood (w t))
    obtain ⟨b1, b2⟩ := computeValue_after hS r _ (.inr (.refl r)) hhr a1.good
    have e1 := (b1.good l (.inl (.refl l))).value ((b1.mono l.id).1 a2)
    have e2 := (b1.good r (.inr (.refl r))).value b2
    rw [dotValue, if_neg (by simp [dotInvalidate])]
    dsimp only
    rw [e1, e2]
  have hj : (dotJac (w t) l r (dotInvalidate l r st)).2.jac =
      l.denote (w t) ᵥ* r.diff (w t) + r.denote (w t) ᵥ* l.diff (w t) := by
    obtain ⟨a1, a2⟩ := computeValue_after hS l _ (.inl (.refl l)) hhl (hgood (w t))
    obtain ⟨b1, b2⟩ := computeValue_after hS r _ (.inr (.refl r)) hhr a1.good
    obtain ⟨c1, c2⟩ := computeJac_after hS l _ (.inl (.refl l)) hhl b1.good
    obtain ⟨d1, d2⟩ := computeJac_after hS r _ (.inr (.refl r)) hhr c1.good
    have e1 := (d1.good l (.inl (.refl l))).value ((((b1.mono.trans c1.mono).trans d1.mono) l.id).1 a2)
    have e2 := (d1.good r (.inr (.refl r))).value (((c1.mono.trans d1.mono) r.id).1 b2)
    have e3 := (d1.good l (.inl (.refl l))).jac ((d1.mono l.id).2.1 c2)
    have e4 := (d1.good r (.inr (.refl r))).jac d2
    rw [dotJac, if_neg (by simp [dotInvalidate])]
    dsimp only
    rw [e1, e2, e3, e4]
  rw [hv, hj, add_dotProduct, ← dotProduct_mulVec, ← dotProduct_mulVec]
  have h1 := denote_deriv hw l hhl.transposed
  have h2 := denote_deriv hw r hhr.transposed
  have h := ((((h1 0).mul (h2 0))).add ((h1 1).mul (h2 1))).add ((h1 2).mul (h2 2))
  simp only [dotProduct, Fin.sum_univ_three]
  refine HasDerivAt.congr_deriv (f := fun t => l.denote (w t) 0 * r.denote (w t) 0 +
    l.denote (w t) 1 * r.denote (w t) 1 + l.denote (w t) 2 * r.denote (w t) 2) h ?_
  ring

/-! Motions for the examples. -/

/-- Rotation about the z axis -/
noncomputable def rotZ (t : ℝ) : M3 ℝ := !![Real.cos t, -Real.sin t, 0; Real.sin t, Real.cos t, 0; 0, 0, 1]

theorem rotZ_isRot (t : ℝ) : IsRot (rotZ t) := by
  have h := Real.sin_sq_add_cos_sq t
  refine ⟨?_, ?_⟩
  · ext i j
    fin_cases i <;> fin_cases j <;>
      simp [rotZ, Matrix.mul_apply, Fin.sum_univ_three] <;> linarith [h]
  · simp [rotZ, det_fin_three]
    linarith [h]

/-- Joint 0 turns about the vertical axis passing through `(1, 0, 0)`, joint 1 moves along y.  One degree of freedom,
with unit velocity. -/
noncomputable def exMotion (t : ℝ) : World ℝ 1 where
  R := fun j => if j = 0 then rotZ t else 1
  p := fun j => if j = 0 then ![1, 0, 0] else ![0, t, 0]
  Jv := fun j => if j = 0 then 0 else !![0; 1; 0]
  Jw := fun j => if j = 0 then !![0; 0; 1] else 0
  com := fun _ => ![0, 0, t]
  Jcom := fun _ => !![0; 0; 1]

theorem exMotion_moves (t : ℝ) : Moves exMotion ![1] t := by
  refine ⟨fun j => ?_, fun j a b => ?_, fun j a => ?_, fun c a => ?_⟩
  · by_cases hj : j = 0
    · simpa [exMotion, hj] using rotZ_isRot t
    · simp [exMotion, hj, IsRot]
  · by_cases hj : j = 0
    · have hs := Real.hasDerivAt_sin t
      have hc := Real.hasDerivAt_cos t
      fin_cases a <;> fin_cases b <;>
        simp [exMotion, hj, rotZ, hat, Matrix.mul_apply, Fin.sum_univ_three, mulVec, dotProduct,
          hasDerivAt_const] <;> first | exact hs | exact hc | exact hs.neg
    · simp only [exMotion, if_neg hj, Matrix.zero_mulVec, hat_zero, Matrix.mul_zero]
      exact hasDerivAt_const _ _
  · by_cases hj : j = 0
    · simp only [exMotion, if_pos hj, Matrix.zero_mulVec, Matrix.mulVec_zero]
      exact hasDerivAt_const _ _
    · simp only [exMotion, if_neg hj, one_mulVec]
      fin_cases a <;> simp [mulVec, dotProduct, hasDerivAt_const, hasDerivAt_id']
  · fin_cases a <;> simp [exMotion, mulVec, dotProduct, hasDerivAt_const, hasDerivAt_id']

/-- The list of the sub-expressions, to check the examples. -/
def Expr.subs {α : Type} : Expr α → List (Expr α)
  | .leaf i k => [.leaf i k]
  | .bin i op l r => .bin i op l r :: (l.subs ++ r.subs)
  | .un i op e => .un i op e :: e.subs

theorem Sub.mem_subs {α : Type} {a e : Expr α} (h : Sub a e) : a ∈ e.subs := by
  induction h with
  | refl => cases a <;> simp [Expr.subs]
  | left i op l r _ ih => simp [Expr.subs, ih]
  | right i op l r _ ih => simp [Expr.subs, ih]
  | arg i op e _ ih => simp [Expr.subs, ih]

theorem addressed_of_subs {α : Type} {e : Expr α} (h : ∀ a ∈ e.subs, ∀ b ∈ e.subs, a.id = b.id → a = b) :
    Addressed e := fun a b ha hb => h a ha.mem_subs b hb.mem_subs

/-- `(R₀ᵀ p) × (p - com)`, where the point `p` of joint 0 is shared. -/
noncomputable def exShared : Expr ℝ :=
  .bin 0 .cross (.un 1 (.rot true 0) (.leaf 3 (.pointIn 0 ![0, 1, 1])))
    (.bin 2 .diff (.leaf 3 (.pointIn 0 ![0, 1, 1])) (.leaf 4 (.com 0)))

theorem exShared_addressed : Addressed exShared := by
  apply addressed_of_subs
  intro a ha b hb
  simp only [exShared, Expr.subs, List.cons_append, List.nil_append, List.mem_cons, List.not_mem_nil, or_false]
    at ha hb
  rcases ha with rfl | rfl | rfl | rfl | rfl | rfl <;> rcases hb with rfl | rfl | rfl | rfl | rfl | rfl <;>
    simp [Expr.id]

theorem exShared_handled : exShared.Handled := by
  simp [exShared, Expr.Handled, Expr.isCom, Expr.offCenter]

/-- The hypotheses of `C47_derivative_partial` are met by this expression and the motion above. -/
example (st : St ℝ 1) (t : ℝ) : VDeriv (fun t => (computeValue (exMotion t) exShared (invalidate exShared st) 0).value)
    ((computeJac (exMotion t) exShared (invalidate exShared st) 0).jac *ᵥ ![1]) t :=
  C47_derivative_partial exShared_addressed exShared_handled (st := st) ⟨trivial, trivial, trivial⟩ (exMotion_moves t)

/-- Those of `C47_scalar_product_partial`, for two expressions that share a node. -/
example (st : St ℝ 1 × DotCache ℝ 1) (t : ℝ) :
    let l : Expr ℝ := .un 1 (.rot true 0) (.leaf 3 (.pointIn 0 ![0, 1, 1]))
    let r : Expr ℝ := .bin 2 .diff (.leaf 3 (.pointIn 0 ![0, 1, 1])) (.leaf 4 (.com 0))
    HasDerivAt (fun t => (dotValue (exMotion t) l r (dotInvalidate l r st)).2.value)
      ((dotJac (exMotion t) l r (dotInvalidate l r st)).2.jac ⬝ᵥ ![1]) t :=
  C47_scalar_product_partial exShared_addressed (.left _ _ _ _ (.refl _)) (.right _ _ _ _ (.refl _))
    exShared_handled.1 exShared_handled.2.1 (st := st) ⟨trivial, trivial, trivial⟩ (exMotion_moves t)

/-- Those of `C48_order_partial`: the shared point has been used before for another state of the robot. -/
example (st st0 : St ℝ 1) :
    let m := calls (exMotion 1) exShared [.jac, .cross, .value]
      (invalidate exShared (acts [.call (exMotion 0) (.leaf 3 (.pointIn 0 ![0, 1, 1])) .cross] st))
    (computeValue (exMotion 1) exShared m 0).value = exShared.denote (exMotion 1) :=
  (C48_order_partial exShared_addressed (.refl _) exShared_handled (st := st) (st0 := st0)
    ⟨trivial, trivial, trivial⟩ _ (by
      intro a ha
      rw [List.mem_singleton] at ha
      subst ha
      exact .left _ _ _ _ (.arg _ _ _ (.refl _))) (exMotion 1) _
    (fun _ => ⟨fun h => h, fun h => h⟩) ⟨trivial, trivial, trivial⟩).1

/-- Right operand: a center of mass; `C48_value_partial` applies to expressions that are not handled by the others. -/
example (st : St ℝ 1) :
    let e : Expr ℝ := .bin 0 .cross (.leaf 1 (.pointIn 0 ![0, 1, 1])) (.leaf 2 (.com 0))
    (computeValue (exMotion 1) e (invalidate e st) 0).value = e.denote (exMotion 1) := by
  refine C48_value_partial (U := .bin 0 .cross (.leaf 1 (.pointIn 0 ![0, 1, 1])) (.leaf 2 (.com 0)))
    ?_ (.refl _) ⟨trivial, trivial, fun h => h⟩ (st := st) ⟨trivial, trivial⟩ [] (by simp) _
  apply addressed_of_subs
  intro a ha b hb
  simp only [Expr.subs, List.cons_append, List.nil_append, List.mem_cons, List.not_mem_nil, or_false] at ha hb
  rcases ha with rfl | rfl | rfl <;> rcases hb with rfl | rfl | rfl <;> simp [Expr.id]

/-! ### C47: expressions for which it is false -/

/-- C47 does not hold for the product of a vector by the rotation of a joint (lines 556-557): with a joint turning about
z and the constant vector x, the derivative of the second component is 1 and the code gives -1. -/
theorem C47_rotation_refuted :
    let e : Expr ℝ := .un 0 (.rot false 0) (.leaf 1 (.point ![1, 0, 0]))
    ∃ st : St ℝ 1, Constructed st e ∧
      ¬ VDeriv (fun t => (computeValue (exMotion t) e (invalidate e st) e.id).value)
        ((computeJac (exMotion 0) e (invalidate e st) e.id).jac *ᵥ ![1]) 0 := by
  refine ⟨fun _ => ⟨![1, 0, 0], 0, 0, 0, false, false, false⟩, ⟨rfl, rfl⟩, fun h => ?_⟩
  have h1 := h 1
  have hv : ∀ t, (computeValue (exMotion t) (.un 0 (.rot false 0) (.leaf 1 (.point ![1, 0, 0])))
      (invalidate (.un 0 (.rot false 0) (.leaf 1 (.point ![1, 0, 0])))
        (fun _ => ⟨![1, 0, 0], 0, 0, 0, false, false, false⟩)) 0).value 1 = Real.sin t := by
    intro t
    simp [computeValue, invalidate, Cache.invalid, Expr.id, setValue, Leaf.implValue, exMotion, rotZ]
  simp only [Expr.id, hv] at h1
  have h2 := h1.unique (Real.hasDerivAt_sin 0)
  simp [computeJac, computeCross, computeValue, invalidate, Cache.invalid, Expr.id, setJac, setCross, rawValue,
    Leaf.implValue, Leaf.implJac, exMotion, rotZ, hat, mulVec, dotProduct] at h2
  norm_num at h2

/-- C47 does not hold for cross products of points that are not centers of joints: the Jacobian of the point overwrites
the matrix of the cross product. -/
theorem C47_cross_refuted :
    let e : Expr ℝ := .bin 0 .cross (.leaf 1 (.pointIn 0 ![0, 0, 1])) (.leaf 2 (.pointIn 1 0))
    ∃ st : St ℝ 1, Constructed st e ∧
      ¬ VDeriv (fun t => (computeValue (exMotion t) e (invalidate e st) e.id).value)
        ((computeJac (exMotion 0) e (invalidate e st) e.id).jac *ᵥ ![1]) 0 := by
  refine ⟨fun _ => ⟨0, 0, 0, 0, false, false, false⟩, ⟨trivial, trivial⟩, fun h => ?_⟩
  have h1 := h 2
  have hv : ∀ t, (computeValue (exMotion t) (.bin 0 .cross (.leaf 1 (.pointIn 0 ![0, 0, 1])) (.leaf 2 (.pointIn 1 0)))
      (invalidate (.bin 0 .cross (.leaf 1 (.pointIn 0 ![0, 0, 1])) (.leaf 2 (.pointIn 1 0)))
        (fun _ => ⟨0, 0, 0, 0, false, false, false⟩)) 0).value 2 = t := by
    intro t
    simp [computeValue, invalidate, Cache.invalid, Expr.id, setValue, setCross, rawValue, Leaf.implValue, exMotion,
      rotZ, hat, vecHead, vecTail]
  simp only [Expr.id, hv] at h1
  have h2 := h1.unique (hasDerivAt_id' 0)
  simp [computeJac, computeCross, computeValue, invalidate, Cache.invalid, Expr.id, setJac, setCross, rawValue,
    Leaf.implValue, Leaf.implJac, exMotion, rotZ, hat, mulVec, dotProduct, Fin.sum_univ_three, vecHead, vecTail] at h2

/-- C47 does not hold for cross products of the center of mass: the matrix of its cross product is computed from a
member that is never assigned. -/
theorem C47_com_refuted :
    let e : Expr ℝ := .bin 0 .cross (.leaf 1 (.com 0)) (.leaf 2 (.point ![1, 0, 0]))
    ∃ st : St ℝ 1, Constructed st e ∧
      ¬ VDeriv (fun t => (computeValue (exMotion t) e (invalidate e st) e.id).value)
        ((computeJac (exMotion 0) e (invalidate e st) e.id).jac *ᵥ ![1]) 0 := by
  refine ⟨fun _ => ⟨![1, 0, 0], 0, 0, 0, false, false, false⟩, ⟨trivial, rfl, rfl⟩, fun h => ?_⟩
  have h1 := h 1
  have hv : ∀ t, (computeValue (exMotion t) (.bin 0 .cross (.leaf 1 (.com 0)) (.leaf 2 (.point ![1, 0, 0])))
      (invalidate (.bin 0 .cross (.leaf 1 (.com 0)) (.leaf 2 (.point ![1, 0, 0])))
        (fun _ => ⟨![1, 0, 0], 0, 0, 0, false, false, false⟩)) 0).value 1 = 0 := by
    intro t
    simp [computeValue, invalidate, Cache.invalid, Expr.id, setValue, setCross, rawValue, Leaf.implValue, exMotion,
      hat]
  simp only [Expr.id, hv] at h1
  have h2 := h1.unique (hasDerivAt_const _ _)
  simp [computeJac, computeCross, computeValue, invalidate, Cache.invalid, Expr.id, setJac, setCross, rawValue,
    Leaf.implValue, Leaf.implJac, exMotion, hat, mulVec, dotProduct] at h2

/-! ### C65 -/

/-- Specification: the selected components, in order. -/
def selected {β : Type} (mask : List Bool) (xs : List β) : List β :=
  ((mask.zip xs).filter (fun p => p.1)).map (fun p => p.2)

/-- C65 (part): the first components of the output are exactly the selected components of the expression; the size of the
output is not changed.  Holds for values and, with rows, for Jacobians.  Missing: the size of the output is not the
number of selected components. -/
theorem C65_selected_partial {β : Type} : ∀ (mask : List Bool) (xs out : List β), mask.length = xs.length →
    mask.count true ≤ out.length →
    maskCopy mask xs out = selected mask xs ++ out.drop (mask.count true) := by
  intro mask
  induction mask with
  | nil =>
    intro xs out _ _
    simp [maskCopy, selected]
  | cons b mask ih =>
    intro xs out hl hc
    match b, xs, out with
    | _, [], _ => simp at hl
    | true, x :: xs, [] => simp at hc
    | true, x :: xs, o :: out =>
      have := ih xs out (by simpa using hl) (by simpa using hc)
      simp [maskCopy, selected, this]
    | false, x :: xs, out =>
      have := ih xs out (by simpa using hl) (by simpa using hc)
      simp [maskCopy, selected, this]

/-- C65: when all the components are selected (default mask), the output is the value of the expression. -/
theorem C65_full {β : Type} (xs out : List β) (h : out.length = symOutputSize xs (List.replicate xs.length true)) :
    maskCopy (List.replicate xs.length true) xs out = xs := by
  have hs : ∀ xs : List β, selected (List.replicate xs.length true) xs = xs := by
    intro xs
    induction xs with
    | nil => rfl
    | cons x xs ih => simpa [selected, List.replicate_succ] using ih
  have h' : out.length = xs.length := h
  rw [C65_selected_partial _ _ _ (by simp) (by simp [h']), hs]
  simp [h']

/-- C65 does not hold: with a mask that does not select all the components, the output size is not the number of
selected components, and the last components of the output are those of the buffer. -/
theorem C65_size_refuted :
    ∃ (xs : List ℤ) (mask : List Bool), mask.length = xs.length ∧ symOutputSize xs mask ≠ mask.count true ∧
      ∃ out out' : List ℤ, out.length = symOutputSize xs mask ∧ out'.length = symOutputSize xs mask ∧
        maskCopy mask xs out ≠ maskCopy mask xs out' :=
  ⟨[1, 2, 3], [true, false, true], by decide, by decide, [0, 0, 0], [0, 0, 7], by decide, by decide, by decide⟩

example : maskCopy [true, false, true] [1, 2, 3] [7, 8, 9] = [1, 3, 9] := by decide

end Hpp.Sym
