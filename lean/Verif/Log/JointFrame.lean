import Verif.Log.Small

/-!
# Pose of a joint as a symbolic expression

Sources: `JointFrame` and `CalculusBase` (`/repo/include/hpp/constraints/symbolic-calculus.hh`, lines 188-238 and 816-862),
`SymbolicFunction` (`/repo/include/hpp/constraints/symbolic-function.hh`, lines 82-155).

As in `Verif.Sym.Model`, the transformation and the Jacobian of the joint are given by a `World`.  `n`: number of columns of the
Jacobian of a joint (degrees of freedom without those of the extra configuration space), `d`: dimension of the extra configuration
space.
-/

namespace Hpp.Log

open Matrix Hpp.Sym Filter Topology

variable {n d : Nat}

/-- Members of a `JointFrame`: `value_` (translation `pos`, logarithm `log`), `jacobian_` (upper part `jv`, lower part `jw`), `theta_`
(lines 226-230 and 857-858); `cross_` is not used. -/
structure JFrame (n : Nat) where
  pos : V3 ℝ
  log : V3 ℝ
  theta : ℝ
  jv : Matrix (Fin 3) (Fin n) ℝ
  jw : Matrix (Fin 3) (Fin n) ℝ
  vV : Bool
  jV : Bool

/-- `invalidate` (lines 212-216) -/
def JFrame.invalidate (o : JFrame n) : JFrame n := { o with vV := false, jV := false }

/-- `computeValue` (lines 202-206) with `impl_value` (lines 839-843) -/
noncomputable def JFrame.computeValue (w : World ℝ n) (j : Nat) (o : JFrame n) : JFrame n :=
  if o.vV then o
  else { o with pos := w.p j, log := logSO3 (w.R j), theta := angle (w.R j), vV := true }

/-- `computeJacobian` (lines 207-211) with `impl_jacobian` (lines 844-854) -/
noncomputable def JFrame.computeJac (w : World ℝ n) (j : Nat) (o : JFrame n) : JFrame n :=
  if o.jV then o
  else
    let o := o.computeValue w j
    { o with jv := w.R j * w.Jv j, jw := JlogSO3 o.theta o.log * w.Jw j, jV := true }

/-- Copy constructor (lines 197-198 and 829): the flags and `theta_` are not initialised. -/
def JFrame.copy (o : JFrame n) (theta : ℝ) (vV jV : Bool) : JFrame n := { o with theta := theta, vV := vV, jV := jV }

/-- Value as a list -/
def JFrame.value (o : JFrame n) : List ℝ := [o.pos 0, o.pos 1, o.pos 2, o.log 0, o.log 1, o.log 2]

/-- Rows of the Jacobian of a symbolic function (symbolic-function.hh:138-150): the last `d` columns are set to 0. -/
def JFrame.rows (d : Nat) (o : JFrame n) : List (Fin n ⊕ Fin d → ℝ) :=
  [Sum.elim (o.jv 0) 0, Sum.elim (o.jv 1) 0, Sum.elim (o.jv 2) 0, Sum.elim (o.jw 0) 0, Sum.elim (o.jw 1) 0, Sum.elim (o.jw 2) 0]

/-- `SymbolicFunction<JointFrame>::impl_compute` (symbolic-function.hh:112-124): the expression after the call, and the result
written in the buffer `out`. -/
noncomputable def jfCompute (mask : List Bool) (j : Nat) (w : World ℝ n) (o : JFrame n) (out : List ℝ) : JFrame n × List ℝ :=
  let o := o.invalidate.computeValue w j
  (o, maskCopy mask o.value out)

/-- `SymbolicFunction<JointFrame>::impl_jacobian` (symbolic-function.hh:126-151).  The rows of the buffer `out` that are not written
keep their first coefficients; their last `d` coefficients are set to 0. -/
noncomputable def jfJacobian (mask : List Bool) (j : Nat) (w : World ℝ n) (o : JFrame n) (out : List (Fin n ⊕ Fin d → ℝ)) :
    JFrame n × List (Fin n ⊕ Fin d → ℝ) :=
  let o := o.invalidate.computeJac w j
  (o, maskCopy mask (o.rows d) (out.map fun r => Sum.elim (fun k => r (Sum.inl k)) 0))

/-- Calls on the expression -/
inductive JCall (n : Nat) where
  | value (w : World ℝ n)
  | jac (w : World ℝ n)
  | invalidate

/-- Effect of a call -/
noncomputable def JCall.run (j : Nat) (o : JFrame n) : JCall n → JFrame n
  | .value w => o.computeValue w j
  | .jac w => o.computeJac w j
  | .invalidate => o.invalidate

/-! ### Lemmas -/

/-- What is valid is what it should be in the state `w` of the robot. -/
structure JFrame.Ok (w : World ℝ n) (j : Nat) (o : JFrame n) : Prop where
  value : o.vV = true → o.pos = w.p j ∧ o.log = logSO3 (w.R j) ∧ o.theta = angle (w.R j)
  jac : o.jV = true → o.jv = w.R j * w.Jv j ∧ o.jw = JlogSO3 (angle (w.R j)) (logSO3 (w.R j)) * w.Jw j

theorem JFrame.ok_invalidate (w : World ℝ n) (j : Nat) (o : JFrame n) : o.invalidate.Ok w j :=
  ⟨fun h => by simp [JFrame.invalidate] at h, fun h => by simp [JFrame.invalidate] at h⟩

theorem JFrame.Ok.computeValue {w : World ℝ n} {j : Nat} {o : JFrame n} (h : o.Ok w j) :
    (o.computeValue w j).Ok w j ∧ (o.computeValue w j).vV = true := by
  unfold JFrame.computeValue
  split
  · exact ⟨h, by assumption⟩
  · exact ⟨⟨fun _ => ⟨rfl, rfl, rfl⟩, h.jac⟩, rfl⟩

theorem JFrame.Ok.computeJac {w : World ℝ n} {j : Nat} {o : JFrame n} (h : o.Ok w j) :
    (o.computeJac w j).Ok w j ∧ (o.computeJac w j).jV = true := by
  unfold JFrame.computeJac
  split
  · exact ⟨h, by assumption⟩
  · obtain ⟨h1, h2⟩ := h.computeValue
    obtain ⟨-, e2, e3⟩ := h1.value h2
    exact ⟨⟨h1.value, fun _ => ⟨rfl, by simp only [e2, e3]⟩⟩, rfl⟩

/-- A component selected by the mask is found at the rank of its index. -/
theorem maskCopy_get {β : Type} : ∀ (mask : List Bool) (xs out : List β) (i : Nat), mask.length = xs.length →
    mask.count true ≤ out.length → mask[i]? = some true → (maskCopy mask xs out)[(mask.take i).count true]? = xs[i]? := by
  intro mask
  induction mask with
  | nil => intro xs out i _ _ h; simp at h
  | cons b mask ih =>
    intro xs out i hl hc hi
    match b, xs, out, i with
    | _, [], _, _ => simp at hl
    | true, x :: xs, [], _ => simp at hc
    | true, x :: xs, o :: out, 0 => simp [maskCopy]
    | true, x :: xs, o :: out, i + 1 =>
      have := ih xs out i (by simpa using hl) (by simpa using hc) (by simpa using hi)
      simpa [maskCopy] using this
    | false, x :: xs, out, 0 => simp at hi
    | false, x :: xs, out, i + 1 =>
      have := ih xs out i (by simpa using hl) (by simpa using hc) (by simpa using hi)
      simpa [maskCopy] using this

/-! ### C100 -/

/-- C100. After `invalidate`, whatever was in the memory before, whatever the order and number of computations of the value and
of the Jacobian (the robot not moving meanwhile), the value is made of the translation of the joint and of the logarithm of its
rotation, and the Jacobian does not depend on these calls. -/
theorem C100_history (w : World ℝ n) (j : Nat) (o : JFrame n) (cs : List (JCall n))
    (hcs : ∀ c ∈ cs, c = .value w ∨ c = .jac w ∨ c = .invalidate) :
    let m := cs.foldl (JCall.run j) o.invalidate
    (m.computeValue w j).pos = w.p j ∧ (m.computeValue w j).log = logSO3 (w.R j) ∧
      ∀ o' : JFrame n, (m.computeJac w j).jv = (o'.invalidate.computeJac w j).jv ∧
        (m.computeJac w j).jw = (o'.invalidate.computeJac w j).jw := by
  intro m
  have hm : m.Ok w j := by
    have : ∀ (cs : List (JCall n)) (o : JFrame n), (∀ c ∈ cs, c = .value w ∨ c = .jac w ∨ c = .invalidate) → o.Ok w j →
        (cs.foldl (JCall.run j) o).Ok w j := by
      intro cs
      induction cs with
      | nil => intro o _ h; exact h
      | cons c cs ih =>
        intro o hc h
        refine ih _ (fun x hx => hc x (List.mem_cons_of_mem _ hx)) ?_
        rcases hc c List.mem_cons_self with e | e | e <;> subst e
        · exact h.computeValue.1
        · exact h.computeJac.1
        · exact o.ok_invalidate w j
    exact this cs _ hcs (o.ok_invalidate w j)
  obtain ⟨v1, v2⟩ := hm.computeValue
  obtain ⟨j1, j2⟩ := hm.computeJac
  refine ⟨(v1.value v2).1, (v1.value v2).2.1, fun o' => ?_⟩
  obtain ⟨k1, k2⟩ := (o'.ok_invalidate w j).computeJac
  rw [(j1.jac j2).1, (j1.jac j2).2, (k1.jac k2).1, (k1.jac k2).2]
  exact ⟨rfl, rfl⟩

/-- Derivative of all the components, from that of the logarithm -/
theorem jf_deriv {w : ℝ → World ℝ n} {qd : Fin n → ℝ} {t : ℝ} (hM : Moves w qd t) (j : Nat) (D : M3 ℝ)
    (hlog : VDeriv (fun t => logSO3 ((w t).R j)) (D *ᵥ ((w t).Jw j *ᵥ qd)) t) (o : ℝ → JFrame n) (e : Fin d → ℝ) (o' : JFrame n)
    (h1 : o'.jv = (w t).R j * (w t).Jv j) (h2 : o'.jw = D * (w t).Jw j) (i : Nat) (x : ℝ → ℝ) (r : Fin n ⊕ Fin d → ℝ)
    (hx : ∀ t, ((o t).invalidate.computeValue (w t) j).value[i]? = some (x t)) (hr : (o'.rows d)[i]? = some r) :
    HasDerivAt x (r ⬝ᵥ Sum.elim qd e) t := by
  have hv : ∀ t, ((o t).invalidate.computeValue (w t) j).pos = (w t).p j ∧
      ((o t).invalidate.computeValue (w t) j).log = logSO3 ((w t).R j) := fun t => by
    obtain ⟨a, b⟩ := ((o t).ok_invalidate (w t) j).computeValue
    exact ⟨(a.value b).1, (a.value b).2.1⟩
  have hp : ∀ (i : Fin 3), HasDerivAt (fun t => (w t).p j i) (Sum.elim (o'.jv i) 0 ⬝ᵥ Sum.elim qd e) t := fun i => by
    have := hM.p j i
    rw [mulVec_mulVec, ← h1] at this
    rw [sumElim_dotProduct_sumElim, zero_dotProduct, add_zero]
    exact this
  have hl : ∀ (i : Fin 3), HasDerivAt (fun t => logSO3 ((w t).R j) i) (Sum.elim (o'.jw i) 0 ⬝ᵥ Sum.elim qd e) t := fun i => by
    have := hlog i
    rw [mulVec_mulVec, ← h2] at this
    rw [sumElim_dotProduct_sumElim, zero_dotProduct, add_zero]
    exact this
  have hx' : ∀ t, [(w t).p j 0, (w t).p j 1, (w t).p j 2, logSO3 ((w t).R j) 0, logSO3 ((w t).R j) 1,
      logSO3 ((w t).R j) 2][i]? = some (x t) := fun t => by
    rw [← hx t, JFrame.value, (hv t).1, (hv t).2]
  match i with
  | 0 =>
    have : x = fun t => (w t).p j 0 := funext fun t => by have := hx' t; simp at this; exact this.symm
    simp [JFrame.rows] at hr
    rw [this, ← hr]; exact hp 0
  | 1 =>
    have : x = fun t => (w t).p j 1 := funext fun t => by have := hx' t; simp at this; exact this.symm
    simp [JFrame.rows] at hr
    rw [this, ← hr]; exact hp 1
  | 2 =>
    have : x = fun t => (w t).p j 2 := funext fun t => by have := hx' t; simp at this; exact this.symm
    simp [JFrame.rows] at hr
    rw [this, ← hr]; exact hp 2
  | 3 =>
    have : x = fun t => logSO3 ((w t).R j) 0 := funext fun t => by have := hx' t; simp at this; exact this.symm
    simp [JFrame.rows] at hr
    rw [this, ← hr]; exact hl 0
  | 4 =>
    have : x = fun t => logSO3 ((w t).R j) 1 := funext fun t => by have := hx' t; simp at this; exact this.symm
    simp [JFrame.rows] at hr
    rw [this, ← hr]; exact hl 1
  | 5 =>
    have : x = fun t => logSO3 ((w t).R j) 2 := funext fun t => by have := hx' t; simp at this; exact this.symm
    simp [JFrame.rows] at hr
    rw [this, ← hr]; exact hl 2
  | i + 6 => simp [JFrame.rows] at hr

/-- C100. Symbolic function made of the pose of a joint: for each component selected by the mask, found in the result of the
evaluation and in the Jacobian at the rank of this component among the selected ones, the row of the Jacobian is the gradient of the
component: at every motion of the robot with velocity `qd` (`e` in the extra configuration space), whatever the contents of the
expression and of the buffers before the evaluations.  The rotation of the joint is the identity or has an angle between 1e-6 and π. -/
theorem C100_derivative_partial (w : ℝ → World ℝ n) (qd : Fin n → ℝ) (e : Fin d → ℝ) (t : ℝ) (hM : Moves w qd t) (j : Nat)
    (hrot : ∀ᶠ t' in 𝓝 t, IsRot ((w t').R j))
    (hreg : (w t).R j = 1 ∨ (1e-6 < angle ((w t).R j) ∧ angle ((w t).R j) < Real.pi))
    (mask : List Bool) (hmask : mask.length = 6) (o : ℝ → JFrame n) (o' : JFrame n) (out : ℝ → List ℝ)
    (hout : ∀ t, (out t).length = 6) (out' : List (Fin n ⊕ Fin d → ℝ)) (hout' : out'.length = 6) (i : Nat)
    (hi : mask[i]? = some true) :
    ∃ (x : ℝ → ℝ) (r : Fin n ⊕ Fin d → ℝ),
      (∀ t, (jfCompute mask j (w t) (o t) (out t)).2[(mask.take i).count true]? = some (x t)) ∧
      (jfJacobian mask j (w t) o' out').2[(mask.take i).count true]? = some r ∧
      HasDerivAt x (r ⬝ᵥ Sum.elim qd e) t := by
  have hi6 : i < 6 := by
    rw [← hmask]
    exact (List.getElem?_eq_some_iff.1 hi).1
  have hc : mask.count true ≤ 6 := hmask ▸ List.count_le_length
  have e1 : ∀ t, (jfCompute mask j (w t) (o t) (out t)).2[(mask.take i).count true]? =
      ((o t).invalidate.computeValue (w t) j).value[i]? := fun t =>
    maskCopy_get mask _ _ i (by rw [hmask]; rfl) (by rw [hout t]; exact hc) hi
  have e2 : (jfJacobian mask j (w t) o' out').2[(mask.take i).count true]? = ((o'.invalidate.computeJac (w t) j).rows d)[i]? :=
    maskCopy_get mask _ _ i (by rw [hmask]; rfl) (by simp only [List.length_map, hout']; exact hc) hi
  obtain ⟨x, hx⟩ : ∃ x : ℝ → ℝ, ∀ t, ((o t).invalidate.computeValue (w t) j).value[i]? = some (x t) :=
    ⟨fun t => ((o t).invalidate.computeValue (w t) j).value.getD i 0, fun t => by
      have : i < ((o t).invalidate.computeValue (w t) j).value.length := hi6
      simp [List.getD_eq_getElem?_getD, List.getElem?_eq_getElem this]⟩
  obtain ⟨r, hr⟩ : ∃ r, ((o'.invalidate.computeJac (w t) j).rows d)[i]? = some r :=
    ⟨_, List.getElem?_eq_getElem (show i < ((o'.invalidate.computeJac (w t) j).rows d).length from hi6)⟩
  refine ⟨x, r, fun t => (e1 t).trans (hx t), e2.trans hr, ?_⟩
  obtain ⟨k1, k2⟩ := (o'.ok_invalidate (w t) j).computeJac
  refine jf_deriv hM j _ ?_ o e _ (k1.jac k2).1 (k1.jac k2).2 i x r hx hr
  rcases hreg with h1 | ⟨h1, h2⟩
  · exact C58_derivative_identity (fun t => (w t).R j) _ t h1 (hM.R j)
  · exact C58_derivative (fun t => (w t).R j) _ t hrot (hM.R j) h1 h2

/-- C100. When the angle of the rotation is below 1e-6, each coefficient of the Jacobian of the expression is within 1e-6 times the
velocity of the joint of the derivative: the derivative is `D` times the angular velocity, the code uses a matrix whose coefficients
are within 1e-6 of those of `D`. -/
theorem C100_derivative_small (w : ℝ → World ℝ n) (t : ℝ) (j : Nat) (hrot : ∀ᶠ t' in 𝓝 t, IsRot ((w t').R j))
    (h : angle ((w t).R j) < 1e-6) (o : JFrame n) :
    (o.invalidate.computeJac (w t) j).jv = (w t).R j * (w t).Jv j ∧
    ∃ E D : M3 ℝ, (o.invalidate.computeJac (w t) j).jw = E * (w t).Jw j ∧ (∀ a b, |E a b - D a b| ≤ 1e-6) ∧
      ∀ qd : Fin n → ℝ, Moves w qd t → ∀ o' : ℝ → JFrame n,
        VDeriv (fun t => ((o' t).invalidate.computeValue (w t) j).pos) ((o.invalidate.computeJac (w t) j).jv *ᵥ qd) t ∧
        VDeriv (fun t => ((o' t).invalidate.computeValue (w t) j).log) ((D * (w t).Jw j) *ᵥ qd) t := by
  obtain ⟨k1, k2⟩ := (o.ok_invalidate (w t) j).computeJac
  obtain ⟨D, hD, hE⟩ := C58_derivative_small (fun t => (w t).R j) t hrot h
  refine ⟨(k1.jac k2).1, _, D, (k1.jac k2).2, hE, fun qd hM o' => ?_⟩
  have hv : ∀ t, ((o' t).invalidate.computeValue (w t) j).pos = (w t).p j ∧
      ((o' t).invalidate.computeValue (w t) j).log = logSO3 ((w t).R j) := fun t => by
    obtain ⟨a, b⟩ := ((o' t).ok_invalidate (w t) j).computeValue
    exact ⟨(a.value b).1, (a.value b).2.1⟩
  rw [(k1.jac k2).1, ← mulVec_mulVec, ← mulVec_mulVec]
  simp only [hv]
  exact ⟨hM.p j, hD _ (hM.R j)⟩

/-- A joint that turns about the vertical axis: `exTurn` -/
noncomputable def jfMotion (t : ℝ) : World ℝ 1 where
  R := fun _ => exTurn t
  p := fun _ => 0
  Jv := fun _ => 0
  Jw := fun _ => !![0; 0; 1]
  com := fun _ => 0
  Jcom := fun _ => 0

theorem jfMotion_moves (t : ℝ) : Moves jfMotion ![1] t := by
  have hw : (jfMotion t).Jw 0 *ᵥ ![1] = exAxis := by
    ext i; fin_cases i <;> simp [jfMotion, exAxis, mulVec, dotProduct]
  refine ⟨fun _ => exTurn_rot t, fun j a b => ?_, fun j a => ?_, fun c a => ?_⟩
  · have := exTurn_moves t a b
    rw [← hw] at this
    exact this
  · simp only [jfMotion, zero_mulVec, mulVec_zero]; exact hasDerivAt_const _ _
  · simp only [jfMotion, zero_mulVec]; exact hasDerivAt_const _ _

/-- Non-vacuity of `C100_derivative_partial` and of `C100_derivative_small`: rotations of angle 1 and 5e-7, mask that selects the first
and the last components -/
example : Moves jfMotion ![1] 1 ∧ (∀ᶠ t' in 𝓝 (1 : ℝ), IsRot ((jfMotion t').R 0)) ∧ 1e-6 < angle ((jfMotion 1).R 0) ∧
    angle ((jfMotion 1).R 0) < Real.pi ∧ [true, false, false, false, false, true][5]? = some true ∧
    angle ((jfMotion 5e-7).R 0) < 1e-6 := by
  refine ⟨jfMotion_moves 1, Eventually.of_forall exTurn_rot, ?_, ?_, rfl, ?_⟩
  · rw [show (jfMotion 1).R 0 = exTurn 1 from rfl, exTurn_angle (by norm_num) (by norm_num)]; norm_num
  · rw [show (jfMotion 1).R 0 = exTurn 1 from rfl, exTurn_angle (by norm_num) (by norm_num)]; linarith [Real.pi_gt_three]
  · rw [show (jfMotion 5e-7).R 0 = exTurn 5e-7 from rfl, exTurn_angle (by norm_num) (by norm_num)]; norm_num

/-- C100 is false below 1e-6, except at the identity. -/
theorem C100_small_refuted :
    ¬ ∀ (w : ℝ → World ℝ 1) (qd : Fin 1 → ℝ) (t : ℝ) (j : Nat), Moves w qd t → (∀ t, IsRot ((w t).R j)) →
      angle ((w t).R j) < Real.pi → ∀ o : JFrame 1,
      VDeriv (fun t => (o.invalidate.computeValue (w t) j).log) ((o.invalidate.computeJac (w t) j).jw *ᵥ qd) t := by
  intro H
  have ha : angle (exTurn 5e-7) = 5e-7 := exTurn_angle (by norm_num) (by norm_num)
  have hw : (jfMotion 5e-7).Jw 0 *ᵥ ![1] = exAxis := by
    ext i; fin_cases i <;> simp [jfMotion, exAxis, mulVec, dotProduct]
  have h1 := H jfMotion ![1] 5e-7 0 (jfMotion_moves _) exTurn_rot
    (by rw [show (jfMotion 5e-7).R 0 = exTurn 5e-7 from rfl, ha]; linarith [Real.pi_gt_three]) ⟨0, 0, 0, 0, 0, false, false⟩ 2
  have e : (JFrame.computeJac (jfMotion 5e-7) 0 (JFrame.invalidate ⟨0, 0, 0, 0, 0, false, false⟩)).jw *ᵥ ![1] = exAxis := by
    obtain ⟨k1, k2⟩ := (JFrame.ok_invalidate (jfMotion 5e-7) 0 ⟨0, 0, 0, 0, 0, false, false⟩).computeJac
    rw [(k1.jac k2).2, ← mulVec_mulVec, hw]
    unfold JlogSO3
    rw [if_pos (by rw [show (jfMotion 5e-7).R 0 = exTurn 5e-7 from rfl, ha]; norm_num), one_mulVec]
  rw [e] at h1
  have h2 := log_small (Eventually.of_forall exTurn_rot) (exTurn_moves 5e-7) (by rw [ha]; norm_num) 2
  have h3 := HasDerivAt.unique (f := fun t => logSO3 (exTurn t) 2) h1 h2
  rw [exTurn_axialJ] at h3
  have h4 : Real.cos 5e-7 < 1 := by
    rw [← Real.cos_zero]
    exact Real.cos_lt_cos_of_nonneg_of_le_pi (le_refl _) (by linarith [Real.pi_gt_three]) (by norm_num)
  simp [exAxis] at h3
  linarith

/-- C100. A copy, once invalidated, behaves as a new expression of the same joint: what the copy constructor leaves uninitialised is
not used. -/
theorem C100_copy (w : World ℝ n) (j : Nat) (o o' : JFrame n) (theta : ℝ) (vV jV : Bool) :
    ((o.copy theta vV jV).invalidate.computeValue w j).value = (o'.invalidate.computeValue w j).value ∧
      ((o.copy theta vV jV).invalidate.computeJac w j).rows d = (o'.invalidate.computeJac w j).rows d := by
  obtain ⟨a1, a2⟩ := ((o.copy theta vV jV).ok_invalidate w j).computeValue
  obtain ⟨b1, b2⟩ := (o'.ok_invalidate w j).computeValue
  obtain ⟨c1, c2⟩ := ((o.copy theta vV jV).ok_invalidate w j).computeJac
  obtain ⟨d1, d2⟩ := (o'.ok_invalidate w j).computeJac
  unfold JFrame.value JFrame.rows
  rw [(a1.value a2).1, (a1.value a2).2.1, (b1.value b2).1, (b1.value b2).2.1, (c1.jac c2).1, (c1.jac c2).2, (d1.jac d2).1,
    (d1.jac d2).2]
  exact ⟨rfl, rfl⟩

/-- C100 is false for a copy that is not invalidated: the copy constructor initialises neither the flags nor `theta_`.  Even if the
flags take, by chance, the values of the flags of the original, the Jacobian is computed with an arbitrary angle. -/
theorem C100_copy_refuted :
    ∃ (w : World ℝ 1) (o : JFrame 1) (theta : ℝ), o = (JFrame.invalidate ⟨0, 0, 0, 0, 0, false, false⟩).computeValue w 0 ∧
      ((o.copy theta o.vV o.jV).computeJac w 0).jw ≠ (o.computeJac w 0).jw := by
  refine ⟨⟨fun _ => exTurn 1, fun _ => 0, fun _ => 0, fun _ => !![1; 0; 0], fun _ => 0, fun _ => 0⟩, _, 0, rfl, ?_⟩
  have ha : angle (exTurn 1) = 1 := exTurn_angle (by norm_num) (by norm_num)
  have hl : logSO3 (exTurn 1) = exAxis := by
    ext i
    unfold logSO3
    rw [ha, if_pos (by linarith [Real.pi_gt_three]), if_pos (by norm_num)]
    have hs : Real.sin 1 ≠ 0 := (Real.sin_pos_of_pos_of_lt_pi one_pos (by linarith [Real.pi_gt_three])).ne'
    fin_cases i <;> simp [exTurn, rodrigues_apply, exAxis]
    field_simp
    ring
  intro H
  have h10 := congrFun (congrFun H 1) 0
  simp [JFrame.copy, JFrame.computeJac, JFrame.computeValue, JFrame.invalidate, ha, hl, JlogSO3, Matrix.mul_apply, Fin.sum_univ_three,
    exAxis] at h10
  norm_num [vecHead, vecTail] at h10

end Hpp.Log
