import Verif.Pose.RelProps

/-!
# Jacobian of the output value of an explicit relative pose

Source: `/repo/src/explicit/relative-pose.cc:78-92`.

Simplification: `dIntegrate_dq<DerivativeTimesInput>` (pinocchio, external) multiplies a velocity in the moving frame of `M` by the
inverse of the adjoint of `exp (v)`: this is its contract for `SE(3)`.
-/

namespace Hpp.Pose

open Matrix Hpp.Sym

/-- Column `c` of a matrix given by its rows -/
def col3 (A : Fin 3 → List ℝ) (c : Nat) : V3 ℝ := fun i => (A i).getD c 0

/-- `dIntegrate_dq<DerivativeTimesInput>` (pinocchio): product of the inverse of the adjoint of `M` by a matrix with `m` columns -/
def adInv (M : SE3 ℝ) (m : Nat) (J : (Fin 3 → List ℝ) × (Fin 3 → List ℝ)) : (Fin 3 → List ℝ) × (Fin 3 → List ℝ) :=
  (fun i => (List.range m).map fun c => (M.Rᵀ *ᵥ (col3 J.1 c + crossProduct (col3 J.2 c) M.p)) i,
   fun i => (List.range m).map fun c => (M.Rᵀ *ᵥ col3 J.2 c) i)

open Classical in
/-- `RelativePose::jacobianOutputValue` (relative-pose.cc:78-92): linear and angular rows -/
noncomputable def RelTr.jacobianOutputValue {n : Nat} (o : SE3Ops) (f : RelTr) (K : Kin n) (rhs : List ℝ) :
    (Fin 3 → List ℝ) × (Fin 3 → List ℝ) :=
  let J := f.jacobian K
  if rhs ≠ [0, 0, 0, 0, 0, 0, 1] then adInv (o.exp6 (implicitToExplicitRhs o f.F2 rhs)) (indices f.inVel).length J
  else J

/-! ### Specification -/

/-- Along any motion where only the input variables move, the output value moves with the velocity given by the Jacobian (linear and
angular velocities in the moving frame).  `K`: positions and Jacobians of the joints; at time `t` the output variables have been set
to the value of the explicit function. -/
def RelTr.OutputJacobianOk {n : Nat} (o : SE3Ops) (f : RelTr) (rhs : List ℝ) (q : ℝ → Nat → ℝ) (K : ℝ → Kin n) (qd : Fin n → ℝ)
    (t : ℝ) : Prop :=
  KMoves K qd t → (∀ t j, (K t).M j = f.robot.fk (q t) j) →
  ((K t).M f.joint2 = ((K t).M (f.robot.parent f.joint2)).mul
    ((f.robot.placement f.joint2).mul (f.compute (q t) (rview (q t) f.inConf)))) →
  (∀ c : Fin n, ¬ Covers f.inVel c → qd c = 0) →
  SE3.Moves (fun t => pose7 (f.outputValue o (q t) (rview (q t) f.inConf) rhs))
    (fun i => dot ((f.jacobianOutputValue o (K t) rhs).1 i) (viewVel f.inVel qd))
    (fun i => dot ((f.jacobianOutputValue o (K t) rhs).2 i) (viewVel f.inVel qd)) t

/-! ### Lemmas -/

theorem dot_range (g : Nat → ℝ) (m : List ℝ) : dot ((List.range m.length).map g) m = ∑ c : Fin m.length, g c * m.get c := by
  unfold dot
  rw [← List.sum_ofFn]
  congr 1
  apply List.ext_getElem
  · simp
  · intro i h1 h2
    simp

theorem dot_getD {l m : List ℝ} (h : l.length = m.length) : dot l m = ∑ c : Fin m.length, l.getD c 0 * m.get c := by
  rw [← dot_range (fun c => l.getD c 0)]
  congr 1
  apply List.ext_getElem
  · simp [h]
  · intro i h1 h2
    simp [h1]

/-- Product of the transformed matrix by a vector -/
theorem adInv_dot (M : SE3 ℝ) {J : (Fin 3 → List ℝ) × (Fin 3 → List ℝ)} {x : List ℝ} (h1 : ∀ i, (J.1 i).length = x.length)
    (h2 : ∀ i, (J.2 i).length = x.length) :
    (fun i => dot ((adInv M x.length J).1 i) x) =
      M.Rᵀ *ᵥ ((fun i => dot (J.1 i) x) + crossProduct (fun i => dot (J.2 i) x) M.p) ∧
    (fun i => dot ((adInv M x.length J).2 i) x) = M.Rᵀ *ᵥ fun i => dot (J.2 i) x := by
  have e1 : ∀ i, dot (J.1 i) x = ∑ c : Fin x.length, col3 J.1 c i * x.get c := fun i => dot_getD (h1 i)
  have e2 : ∀ i, dot (J.2 i) x = ∑ c : Fin x.length, col3 J.2 c i * x.get c := fun i => dot_getD (h2 i)
  constructor
  · funext i
    unfold adInv
    dsimp only
    rw [dot_range]
    simp only [e1, e2, mulVec, dotProduct, Fin.sum_univ_three, Pi.add_apply, cross_apply, cons_val_zero, cons_val_one, cons_val_two,
      Matrix.head_cons, Matrix.tail_cons, Finset.sum_mul, Finset.mul_sum, mul_add, mul_sub, add_mul, sub_mul,
      Finset.sum_add_distrib, Finset.sum_sub_distrib]
    simp only [← Finset.sum_add_distrib, ← Finset.sum_sub_distrib]
    exact Finset.sum_congr rfl fun c _ => by ring
  · funext i
    unfold adInv
    dsimp only
    rw [dot_range]
    simp only [e2, mulVec, dotProduct, Fin.sum_univ_three, Finset.mul_sum, add_mul, Finset.sum_add_distrib, mul_assoc]

theorem pose_rhs (o : SE3Ops) (ho : o.Lawful) {F2 : SE3 ℝ} (h2 : IsRot F2.R) {rhs : List ℝ} (hr : Unit7 rhs) :
    o.exp6 (implicitToExplicitRhs o F2 rhs) = (F2.mul (pose7 rhs)).mul F2.inv := by
  have hm : IsRot ((F2.mul (pose7 rhs)).mul F2.inv).R := SE3.mul_rot (SE3.mul_rot h2 (pose7_isRot hr)) (SE3.inv_rot h2)
  unfold implicitToExplicitRhs
  simp only [pose_config hm, ho.exp_log _ hm]

theorem RelTr.compute_rot {f : RelTr} (ok : f.Ok) (cur : Nat → ℝ) (arg : List ℝ) : IsRot (f.compute cur arg).R := by
  rw [f.compute_eq]
  have rq := Robot.fk_rot ok.robot (f.fkConfig cur arg)
  exact IsRot.mul (ok.robot.rotp f.joint2).transpose
    (IsRot.mul (IsRot.mul (rq _).transpose (rq _)) (IsRot.mul ok.rot1 ok.rot2.transpose))

/-- The output value is the value of the explicit function times a constant. -/
theorem RelTr.output_eq (o : SE3Ops) (ho : o.Lawful) {f : RelTr} (ok : f.Ok) (cur : Nat → ℝ) (arg : List ℝ) {rhs : List ℝ}
    (hr : Unit7 rhs) : pose7 (f.outputValue o cur arg rhs) = (f.compute cur arg).mul (o.exp6 (implicitToExplicitRhs o f.F2 rhs)) := by
  have hc := RelTr.compute_rot ok cur arg
  have he := pose_rhs o ho ok.rot2 hr
  unfold RelTr.outputValue
  dsimp only
  rw [pose_config hc, pose_config]
  exact SE3.mul_rot hc (ho.exp_rot _)

theorem neutral_unit : Unit7 [0, 0, 0, 0, 0, 0, 1] := by
  simp [Unit7]

theorem neutral_pose : pose7 [0, 0, 0, 0, 0, 0, 1] = SE3.one := by
  refine SE3.ext' ?_ ?_
  · ext i j
    fin_cases i <;> fin_cases j <;> simp [pose7, quatToRot, SE3.one]
  · funext i
    fin_cases i <;> simp [pose7, SE3.one]

theorem neutral_exp (o : SE3Ops) (ho : o.Lawful) {F2 : SE3 ℝ} (h2 : IsRot F2.R) :
    o.exp6 (implicitToExplicitRhs o F2 [0, 0, 0, 0, 0, 0, 1]) = SE3.one := by
  rw [pose_rhs o ho h2 neutral_unit, neutral_pose, SE3.mul_one, SE3.mul_inv h2]

/-! ### C87 -/

/-- The Jacobian of the output value is right for every right hand side exactly if the Jacobian of the explicit function is. -/
theorem C87_jacobian {n : Nat} (o : SE3Ops) (ho : o.Lawful) {f : RelTr} (ok : f.Ok) (q : ℝ → Nat → ℝ) (K : ℝ → Kin n)
    (qd : Fin n → ℝ) (t : ℝ) :
    (∀ rhs, Unit7 rhs → f.OutputJacobianOk o rhs q K qd t) ↔ f.JacobianOk q K qd t := by
  constructor
  · intro h h1 h2 h3 h4
    have := h _ neutral_unit h1 h2 h3 h4
    simp only [RelTr.output_eq o ho ok _ _ neutral_unit, neutral_exp o ho ok.rot2, SE3.mul_one] at this
    convert this using 1 <;> simp [RelTr.jacobianOutputValue]
  · intro h rhs hr h1 h2 h3 h4
    have hm := (h h1 h2 h3 h4).mul (SE3.Moves.const (ho.exp_rot (implicitToExplicitRhs o f.F2 rhs)) t)
    simp only [add_zero] at hm
    simp only [RelTr.output_eq o ho ok _ _ hr]
    unfold RelTr.jacobianOutputValue
    dsimp only
    split
    · have hl : (viewVel f.inVel qd).length = (indices f.inVel).length := by simp [viewVel]
      have hd := adInv_dot (o.exp6 (implicitToExplicitRhs o f.F2 rhs)) (J := f.jacobian (K t)) (x := viewVel f.inVel qd)
        (fun i => by simp [viewVel, RelTr.jacobian, RelTr.viewRow]) (fun i => by simp [viewVel, RelTr.jacobian, RelTr.viewRow])
      rw [hl] at hd
      rw [hd.1, hd.2]
      exact hm
    · rename_i hn
      rw [not_not.1 hn] at hm ⊢
      rw [neutral_exp o ho ok.rot2] at hm ⊢
      convert hm using 1 <;> simp [SE3.one]

/-- When the parent of joint 2 is the universe, the Jacobian of the output value is its derivative.  Missing: the other case, see
`C87_refuted`. -/
theorem C87_no_parent_partial {n : Nat} (o : SE3Ops) (ho : o.Lawful) {f : RelTr} (ok : f.Ok) (hp : f.robot.parent f.joint2 = 0)
    {rhs : List ℝ} (hr : Unit7 rhs) (q : ℝ → Nat → ℝ) (K : ℝ → Kin n) (qd : Fin n → ℝ) (t : ℝ) : f.OutputJacobianOk o rhs q K qd t :=
  (C87_jacobian o ho ok q K qd t).2 (C78_no_parent_partial ok hp q K qd t) rhs hr

/-- False when the freeflyer joint has a parent, with the right hand side zero. -/
theorem C87_refuted (o : SE3Ops) (ho : o.Lawful) : ∃ (f : RelTr) (q : ℝ → Nat → ℝ) (K : ℝ → Kin 8) (qd : Fin 8 → ℝ) (t : ℝ),
    f.Ok ∧ ∃ rhs, Unit7 rhs ∧ ¬ f.OutputJacobianOk o rhs q K qd t := by
  obtain ⟨f, q, K, qd, t, ok, -, h⟩ := C78_refuted
  refine ⟨f, q, K, qd, t, ok, ?_⟩
  by_contra hne
  push Not at hne
  exact h ((C87_jacobian o ho ok q K qd t).1 hne)

/-- Pose of joint 3 of the example robot with respect to joint 1 -/
example (o : SE3Ops) (ho : o.Lawful) (q : ℝ → Nat → ℝ) (K : ℝ → Kin 8) (qd : Fin 8 → ℝ) (t : ℝ) :
    (⟨exRobot, some 1, 3, ⟨rotZ 1, ![1, 0, 0]⟩, ⟨rotZ 2, ![0, 1, 0]⟩⟩ : RelTr).OutputJacobianOk o [1, 2, 3, 0, 0, 0, 1] q K qd t :=
  C87_no_parent_partial o ho ⟨exRobot_ok, by decide, by decide, by decide, rotZ_isRot _, rotZ_isRot _⟩ rfl (by simp [Unit7]) q K qd t

end Hpp.Pose
