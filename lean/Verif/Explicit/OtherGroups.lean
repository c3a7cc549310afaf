import Verif.Log.Inject
import Mathlib.Analysis.SpecialFunctions.Complex.LogDeriv

/-!
# Implicit function of an explicit constraint: SO(2) and SO(3)

Source: `/repo/src/explicit/implicit-function.cc`, lines 143-147 (default visitor) and 209-250.

The visitor that fills the Jacobian has a specialization for `R3xSO3` and for `SE3`.  Every other elementary Lie group
goes through the default one, written for vector spaces: identity in the columns of the output, `-Jf` in the columns of
the input.  The output space of the explicit function may be the configuration space of any joint, in particular of a
spherical joint (`SO(3)`, quaternion, 4 coefficients and 3 velocities) or of an unbounded revolute joint (`SO(2)`, cosine
and sine, 2 coefficients and 1 velocity).
-/

namespace Hpp.Explicit

open Matrix Hpp.Sym Hpp.Pose Hpp.Log

/-- Product of the Jacobian by a velocity, for any Lie group that goes through the default visitor. -/
theorem other_mulVel (ops : LieOps ℝ) (F : ImplicitFn ℝ) (nq n : Nat) (hF : F.OneFactor (.other nq n)) (q : Nat → ℝ)
    (qd : Nat → ℝ) (hout : (indices F.outConf).length = nq) (hf : ∀ x, (F.f x).length = nq) :
    ∃ J, F.jacobian ops q = some J ∧
      ∀ k, k < n → Mat.mulVel J qd k = velAt F.outVel qd k - velF F q qd k := by
  obtain ⟨J, e, h⟩ := jacobian_one ops hF q _ _ (by simpa [rview, LieKind.nq] using hout) (hf _)
    fun b hb _ => visitOther_fill hb (F.Jf (rview q F.inConf))
  refine ⟨J, e, fun k hk => ?_⟩
  rw [Mat.mulVel, h.mul hF.wout hF.win hF.nodup qd hk]
  have hlen : (indices F.outVel).length = n := by rw [← cardinal_eq_length]; exact hF.out
  rw [hlen, Finset.sum_eq_single k]
  · simp [velAt, velF, sub_eq_add_neg]
  · intro b _ hb; simp [hb.symm]
  · intro hn; exact absurd (Finset.mem_range.2 hk) hn

/-! ### SO(2) -/

/-- Difference of two elements of SO(2) (hpp-pinocchio, external): the angle from the second one to the first one, in
`(-π, π]`. -/
noncomputable def subSO2 (a b : List ℝ) : List ℝ :=
  [Complex.arg ⟨a.getD 0 0 * b.getD 0 0 + a.getD 1 0 * b.getD 1 0, a.getD 1 0 * b.getD 0 0 - a.getD 0 0 * b.getD 1 0⟩]

/-- Specification: an element of SO(2) turns with velocity `w`. -/
structure Turns2 (a : ℝ → List ℝ) (w t : ℝ) : Prop where
  unit : (a t).getD 0 0 ^ 2 + (a t).getD 1 0 ^ 2 = 1
  cos : HasDerivAt (fun t => (a t).getD 0 0) (-w * (a t).getD 1 0) t
  sin : HasDerivAt (fun t => (a t).getD 1 0) (w * (a t).getD 0 0) t

/-- Specification: the two elements of SO(2) are not opposite. -/
def NotOpposite (a b : List ℝ) : Prop := ¬ (a.getD 0 0 = -b.getD 0 0 ∧ a.getD 1 0 = -b.getD 1 0)

theorem subSO2_deriv {a b : ℝ → List ℝ} {w w' t : ℝ} (ha : Turns2 a w t) (hb : Turns2 b w' t) (hn : NotOpposite (a t) (b t)) :
    HasDerivAt (fun t => (subSO2 (a t) (b t)).getD 0 0) (w - w') t := by
  have hre := (ha.cos.mul hb.cos).add (ha.sin.mul hb.sin)
  have him := (ha.sin.mul hb.cos).sub (ha.cos.mul hb.sin)
  have hz := hre.ofReal_comp.add (him.ofReal_comp.mul_const Complex.I)
  obtain ⟨hua, -, -⟩ := ha
  obtain ⟨hub, -, -⟩ := hb
  set z : ℝ → ℂ := fun t => ⟨(a t).getD 0 0 * (b t).getD 0 0 + (a t).getD 1 0 * (b t).getD 1 0,
    (a t).getD 1 0 * (b t).getD 0 0 - (a t).getD 0 0 * (b t).getD 1 0⟩ with hzd
  generalize hx : (a t).getD 0 0 = x at *
  generalize hy : (a t).getD 1 0 = y at *
  generalize hx' : (b t).getD 0 0 = x' at *
  generalize hy' : (b t).getD 1 0 = y' at *
  have hzt : z t = ⟨x * x' + y * y', y * x' - x * y'⟩ := by simp only [hzd, hx, hy, hx', hy']
  have hn1 : (x * x' + y * y') ^ 2 + (y * x' - x * y') ^ 2 = 1 := by
    have : (x * x' + y * y') ^ 2 + (y * x' - x * y') ^ 2 = (x ^ 2 + y ^ 2) * (x' ^ 2 + y' ^ 2) := by ring
    rw [this, hua, hub, one_mul]
  have hs : z t ∈ Complex.slitPlane := by
    rw [Complex.mem_slitPlane_iff, hzt]
    by_cases h0 : y * x' - x * y' = 0
    · left
      show 0 < x * x' + y * y'
      rw [h0] at hn1
      by_contra hc
      have h1 : x * x' + y * y' = -1 := by nlinarith
      refine hn ⟨?_, ?_⟩
      · rw [hx, hx']
        have : x = x * (x' ^ 2 + y' ^ 2) := by rw [hub, mul_one]
        have h2 : x * (x' ^ 2 + y' ^ 2) = x' * (x * x' + y * y') - y' * (y * x' - x * y') := by ring
        rw [this, h2, h0, h1]; ring
      · rw [hy, hy']
        have : y = y * (x' ^ 2 + y' ^ 2) := by rw [hub, mul_one]
        have h2 : y * (x' ^ 2 + y' ^ 2) = y' * (x * x' + y * y') + x' * (y * x' - x * y') := by ring
        rw [this, h2, h0, h1]; ring
    · exact .inr h0
  have hne : z t ≠ 0 := Complex.slitPlane_ne_zero hs
  have hz' : HasDerivAt z (Complex.I * ((w - w' : ℝ) : ℂ) * z t) t := by
    refine (hz.congr_of_eventuallyEq (Filter.Eventually.of_forall fun t => ?_)).congr_deriv ?_
    · apply Complex.ext <;> simp [hzd]
    · rw [hzt]
      apply Complex.ext <;> simp <;> ring
  have hl := (hz'.clog_real hs)
  have hi := Complex.imCLM.hasFDerivAt.comp_hasDerivAt t hl
  refine (hi.congr_of_eventuallyEq (Filter.Eventually.of_forall fun t => ?_)).congr_deriv ?_
  · simp [subSO2, hzd, Complex.log_im]
  · rw [mul_div_assoc, div_self hne]
    simp

/-- C116. Output space SO(2): along any motion of the robot in which the output variables and the value of the explicit
function turn as announced by the velocity and by the Jacobian of the explicit function, the Jacobian computed by the
default visitor times the velocity is the derivative of the value, except when the output variables are opposite to the
value of the explicit function. -/
theorem C116_so2 (ops : LieOps ℝ) (hops : ops.subOther 2 1 = subSO2) (F : ImplicitFn ℝ) (hF : F.OneFactor (.other 2 1))
    (q : ℝ → Nat → ℝ) (qd : Nat → ℝ) (t : ℝ) (hout : (indices F.outConf).length = 2) (hf : ∀ x, (F.f x).length = 2)
    (hq : Turns2 (fun t => rview (q t) F.outConf) (velAt F.outVel qd 0) t)
    (hJ : Turns2 (fun t => F.f (rview (q t) F.inConf)) (velF F (q t) qd 0) t)
    (hn : NotOpposite (rview (q t) F.outConf) (F.f (rview (q t) F.inConf))) :
    ∃ J, F.jacobian ops (q t) = some J ∧
      ∀ k, k < 1 → HasDerivAt (fun t => (F.value ops (q t)).getD k 0) (Mat.mulVel J qd k) t := by
  obtain ⟨J, e, h⟩ := other_mulVel ops F 2 1 hF (q t) qd hout hf
  refine ⟨J, e, fun k hk => ?_⟩
  obtain rfl : k = 0 := by omega
  rw [h 0 hk]
  have hv : ∀ t, F.value ops (q t) = subSO2 (rview (q t) F.outConf) (F.f (rview (q t) F.inConf)) := by
    intro t
    have h1 : (rview (q t) F.outConf).length = 2 := by simpa [rview] using hout
    simp only [ImplicitFn.value, hF.kinds, LieOps.subAll, LieOps.sub, LieKind.nq, List.append_nil]
    rw [hops, List.take_of_length_le h1.le, List.take_of_length_le (hf _).le]
  simp only [hv]
  exact subSO2_deriv hq hJ hn

/-! ### SO(3) -/

/-- Difference of two elements of SO(3) given by quaternions (hpp-pinocchio, external): logarithm of the rotation from the
second one to the first one. -/
def LieOps.SubSO3 (ops : LieOps ℝ) : Prop :=
  ∀ a b, ops.subOther 4 3 a b = List.ofFn (ops.log3 ((ops.quat b)ᵀ * ops.quat a))

/-- First three components of a velocity -/
def ang0 (v : Nat → ℝ) : V3 ℝ := fun i => v i

/-- C116. Output space SO(3): along any motion of the robot in which the orientation stored in the output variables and
the one computed by the explicit function turn as announced by the velocity (`w`) and by the Jacobian of the explicit
function (`wf`), the derivative of the value is `Jlog (w - Rᵀ Rf wf)`, where `Jlog` is the derivative of the logarithm at
the relative rotation `Rfᵀ R`, whereas the Jacobian computed by the default visitor times the velocity is `w - wf`. -/
theorem C116_so3 (ops : LieOps ℝ) (hops : ops.SubSO3) (F : ImplicitFn ℝ) (hF : F.OneFactor (.other 4 3))
    (q : ℝ → Nat → ℝ) (qd : Nat → ℝ) (t : ℝ) (hout : (indices F.outConf).length = 4) (hf : ∀ x, (F.f x).length = 4)
    (hrot : IsRot (ops.quat (rview (q t) F.outConf))) (hrotf : IsRot (ops.quat (F.f (rview (q t) F.inConf))))
    (hq : ∀ a b, HasDerivAt (fun t => ops.quat (rview (q t) F.outConf) a b)
      ((ops.quat (rview (q t) F.outConf) * hat (ang0 (velAt F.outVel qd))) a b) t)
    (hJ : ∀ a b, HasDerivAt (fun t => ops.quat (F.f (rview (q t) F.inConf)) a b)
      ((ops.quat (F.f (rview (q t) F.inConf)) * hat (ang0 (velF F (q t) qd))) a b) t)
    (hlog : ops.Log3At ((ops.quat (F.f (rview (q t) F.inConf)))ᵀ * ops.quat (rview (q t) F.outConf))) :
    ∃ J, F.jacobian ops (q t) = some J ∧ ∀ k : Fin 3,
      HasDerivAt (fun t => (F.value ops (q t)).getD k 0)
        ((ops.Jlog3 ((ops.quat (F.f (rview (q t) F.inConf)))ᵀ * ops.quat (rview (q t) F.outConf)) *ᵥ
          (ang0 (velAt F.outVel qd) - (ops.quat (rview (q t) F.outConf))ᵀ *ᵥ
            (ops.quat (F.f (rview (q t) F.inConf)) *ᵥ ang0 (velF F (q t) qd)))) k) t ∧
      Mat.mulVel J qd k = ang0 (velAt F.outVel qd) k - ang0 (velF F (q t) qd) k := by
  obtain ⟨J, e, h⟩ := other_mulVel ops F 4 3 hF (q t) qd hout hf
  refine ⟨J, e, fun k => ⟨?_, h k k.isLt⟩⟩
  have hv : ∀ t, (F.value ops (q t)).getD k 0
      = ops.log3 ((ops.quat (F.f (rview (q t) F.inConf)))ᵀ * ops.quat (rview (q t) F.outConf)) k := by
    intro t
    have h1 : (rview (q t) F.outConf).length = 4 := by simpa [rview] using hout
    simp only [ImplicitFn.value, hF.kinds, LieOps.subAll, LieOps.sub, LieKind.nq, List.append_nil]
    rw [hops, List.take_of_length_le h1.le, List.take_of_length_le (hf _).le]
    fin_cases k <;> simp [List.getD]
  simp only [hv]
  have hm : ∀ a b, HasDerivAt (fun t => ((ops.quat (F.f (rview (q t) F.inConf)))ᵀ *
      ops.quat (rview (q t) F.outConf)) a b) _ t := deriv_mul (fun a b => hJ b a) hq
  set Rf := ops.quat (F.f (rview (q t) F.inConf)) with hRf
  set Ro := ops.quat (rview (q t) F.outConf) with hRo
  have hdd : (Rf * hat (ang0 (velF F (q t) qd)))ᵀ * Ro + Rfᵀ * (Ro * hat (ang0 (velAt F.outVel qd)))
      = Rfᵀ * Ro * hat (ang0 (velAt F.outVel qd) - Roᵀ *ᵥ (Rf *ᵥ ang0 (velF F (q t) qd))) := by
    rw [hat_sub, Matrix.mul_sub, ← Matrix.mul_assoc, Matrix.mul_assoc Rfᵀ Ro (hat (Roᵀ *ᵥ _)), ← hrot.hat_mul,
      ← Matrix.mul_assoc Rfᵀ (hat _), transpose_mul, hat_transpose]
    rw [show Rfᵀ * hat (Rf *ᵥ ang0 (velF F (q t) qd)) = hat (ang0 (velF F (q t) qd)) * Rfᵀ by
      rw [hrotf.transpose.mul_hat, mulVec_mulVec, hrotf.1, one_mulVec]]
    rw [Matrix.neg_mul, Matrix.neg_mul]
    abel
  exact hlog _ (ang0 (velAt F.outVel qd) - Roᵀ *ᵥ (Rf *ᵥ ang0 (velF F (q t) qd))) t rfl
    (IsRot.mul hrotf.transpose hrot) (fun a b => (hm a b).congr_deriv (by rw [← hdd]; rfl)) k

/-- C116 (partial: only where the constraint is satisfied). Output space SO(3), logarithm of `tools.hh`: at the
configurations where the orientation stored in the output variables is the one computed by the explicit function, the
Jacobian times the velocity is the derivative of the value. -/
theorem C116_so3_satisfied_partial (ops : LieOps ℝ) (hops : ops.SubSO3) (htools : ops.Tools) (F : ImplicitFn ℝ)
    (hF : F.OneFactor (.other 4 3))
    (q : ℝ → Nat → ℝ) (qd : Nat → ℝ) (t : ℝ) (hout : (indices F.outConf).length = 4) (hf : ∀ x, (F.f x).length = 4)
    (hrot : IsRot (ops.quat (rview (q t) F.outConf)))
    (hq : ∀ a b, HasDerivAt (fun t => ops.quat (rview (q t) F.outConf) a b)
      ((ops.quat (rview (q t) F.outConf) * hat (ang0 (velAt F.outVel qd))) a b) t)
    (hJ : ∀ a b, HasDerivAt (fun t => ops.quat (F.f (rview (q t) F.inConf)) a b)
      ((ops.quat (F.f (rview (q t) F.inConf)) * hat (ang0 (velF F (q t) qd))) a b) t)
    (hs : ops.quat (rview (q t) F.outConf) = ops.quat (F.f (rview (q t) F.inConf))) :
    ∃ J, F.jacobian ops (q t) = some J ∧
      ∀ k, k < 3 → HasDerivAt (fun t => (F.value ops (q t)).getD k 0) (Mat.mulVel J qd k) t := by
  have h1 : (ops.quat (F.f (rview (q t) F.inConf)))ᵀ * ops.quat (rview (q t) F.outConf) = 1 := by rw [← hs]; exact hrot.1
  obtain ⟨J, e, h⟩ := C116_so3 ops hops F hF q qd t hout hf hrot (hs ▸ hrot) hq hJ
    (C77_log3_regular ops htools _ (.inl h1))
  refine ⟨J, e, fun k hk => ?_⟩
  obtain ⟨h2, h3⟩ := h ⟨k, hk⟩
  simp only at h2 h3
  rw [h3]
  refine h2.congr_deriv ?_
  have hJ1 : JlogSO3 (angle 1) (logSO3 1) = 1 := by
    unfold JlogSO3
    rw [if_pos (by rw [(log_one rfl).1]; norm_num)]
  rw [h1, htools.Jlog3, hJ1, one_mulVec, ← hs, mulVec_mulVec, hrot.1, one_mulVec, Pi.sub_apply]

/-- The derivative of the logarithm is the identity at no rotation of angle in `(1e-6, π)`. -/
theorem JlogSO3_ne_one {R : M3 ℝ} (hR : IsRot R) (h : 1e-6 < angle R) (h' : angle R < Real.pi) :
    JlogSO3 (angle R) (logSO3 R) ≠ 1 := by
  intro e
  have hl : logSO3 R = 0 := by
    unfold JlogSO3 at e
    rw [if_neg (not_lt.2 h.le)] at e
    have g : ∀ i j, _ := fun i j => congrFun (congrFun e i) j
    have g01 := g 0 1; have g10 := g 1 0; have g02 := g 0 2; have g20 := g 2 0; have g12 := g 1 2; have g21 := g 2 1
    simp [vecMulVec_apply] at g01 g10 g02 g20 g12 g21
    funext i
    fin_cases i
    · show logSO3 R 0 = 0
      nlinarith
    · show logSO3 R 1 = 0
      nlinarith
    · show logSO3 R 2 = 0
      nlinarith
  have hn := logSO3_norm hR h'
  rw [if_pos h, hl] at hn
  simp at hn
  linarith [pow_eq_zero_iff (two_ne_zero) |>.1 hn.symm]

/-- C116 (refuted on SO(3)). Output space SO(3), logarithm of `tools.hh`: at every configuration where the rotation from
the orientation computed by the explicit function to the one stored in the output variables has an angle in
`(1e-6, π - 1e-2)`, there is an angular velocity such that, along every motion of the output with this velocity (the
input does not move), the Jacobian times the velocity is not the derivative of the value. -/
theorem C116_so3_refuted (ops : LieOps ℝ) (hops : ops.SubSO3) (htools : ops.Tools) (F : ImplicitFn ℝ)
    (hF : F.OneFactor (.other 4 3)) (hout : (indices F.outConf).length = 4) (hf : ∀ x, (F.f x).length = 4) (q₀ : Nat → ℝ)
    (hrot : IsRot (ops.quat (rview q₀ F.outConf))) (hrotf : IsRot (ops.quat (F.f (rview q₀ F.inConf))))
    (ha : 1e-6 < angle ((ops.quat (F.f (rview q₀ F.inConf)))ᵀ * ops.quat (rview q₀ F.outConf)))
    (ha' : angle ((ops.quat (F.f (rview q₀ F.inConf)))ᵀ * ops.quat (rview q₀ F.outConf)) < Real.pi - 1e-2) :
    ∃ w : V3 ℝ, ∀ (q : ℝ → Nat → ℝ) (qd : Nat → ℝ) (t : ℝ), q t = q₀ → (∀ t', rview (q t') F.inConf = rview q₀ F.inConf) →
      ang0 (velAt F.outVel qd) = w → ang0 (velF F (q t) qd) = 0 →
      (∀ a b, HasDerivAt (fun t => ops.quat (rview (q t) F.outConf) a b)
        ((ops.quat (rview (q t) F.outConf) * hat w) a b) t) →
      ∃ J, F.jacobian ops (q t) = some J ∧
        ∃ k, k < 3 ∧ ¬ HasDerivAt (fun t => (F.value ops (q t)).getD k 0) (Mat.mulVel J qd k) t := by
  set Jl := ops.Jlog3 ((ops.quat (F.f (rview q₀ F.inConf)))ᵀ * ops.quat (rview q₀ F.outConf)) with hJl
  have hne : Jl ≠ 1 := by
    rw [hJl, htools.Jlog3]
    exact JlogSO3_ne_one (IsRot.mul hrotf.transpose hrot) ha (lt_trans ha' (by norm_num))
  have : ∃ w k, (Jl *ᵥ w) k ≠ w k := by
    by_contra hc
    push Not at hc
    refine hne (Matrix.ext_of_mulVec_single fun j => ?_)
    funext k
    rw [hc, one_mulVec]
  obtain ⟨w, k, hk⟩ := this
  refine ⟨w, fun q qd t hq hin hw hwf hd => ?_⟩
  subst hq
  have hJ0 : ∀ a b, HasDerivAt (fun t => ops.quat (F.f (rview (q t) F.inConf)) a b)
      ((ops.quat (F.f (rview (q t) F.inConf)) * hat (ang0 (velF F (q t) qd))) a b) t := by
    intro a b
    simp only [hin]
    rw [hwf, hat_zero, Matrix.mul_zero]
    exact hasDerivAt_const t _
  obtain ⟨J, e, h⟩ := C116_so3 ops hops F hF q qd t hout hf hrot hrotf (by rw [hw]; exact hd) hJ0
    (C77_log3_regular ops htools _ (.inr ⟨ha, ha'⟩))
  obtain ⟨h1, h2⟩ := h k
  refine ⟨J, e, k, k.isLt, fun hc => ?_⟩
  rw [h2, hw, hwf, Pi.zero_apply, sub_zero] at hc
  rw [hw, hwf, mulVec_zero, mulVec_zero, sub_zero] at h1
  exact hk (h1.unique hc)

/-! ### The hypotheses are met -/

/-- Rotation matrix of a unit quaternion `(x, y, z, w)` (`Eigen::Quaternion::toRotationMatrix`, external) -/
def quatMatrix (c : List ℝ) : M3 ℝ :=
  let x := c.getD 0 0
  let y := c.getD 1 0
  let z := c.getD 2 0
  let w := c.getD 3 0
  !![1 - 2 * (y * y + z * z), 2 * (x * y - w * z), 2 * (x * z + w * y);
    2 * (x * y + w * z), 1 - 2 * (x * x + z * z), 2 * (y * z - w * x);
    2 * (x * z - w * y), 2 * (y * z + w * x), 1 - 2 * (x * x + y * y)]

/-- Operations of `tools.hh`, differences in SO(2), SO(3) and vector spaces. -/
noncomputable def toolsOps : LieOps ℝ where
  subOther nq nv a b := if nq = 2 ∧ nv = 1 then subSO2 a b
    else if nq = 4 ∧ nv = 3 then List.ofFn (logSO3 ((quatMatrix b)ᵀ * quatMatrix a))
    else List.zipWith (· - ·) a b
  quat := quatMatrix
  log3 := logSO3
  Jlog3 R := JlogSO3 (angle R) (logSO3 R)
  log6 A := Sum.elim (logSE3 A).1 (logSE3 A).2
  Jlog6 := JlogSE3

theorem toolsOps_tools : toolsOps.Tools := ⟨rfl, fun _ => rfl, fun _ _ => rfl, rfl⟩
theorem toolsOps_so3 : toolsOps.SubSO3 := fun a b => by simp [toolsOps]
theorem toolsOps_so2 : toolsOps.subOther 2 1 = subSO2 := by funext a b; simp [toolsOps]

/-- A spherical joint locked at the identity: no input. -/
def lockedBall : ImplicitFn ℝ where
  nv := 3
  inConf := []
  outConf := [⟨0, 4⟩]
  inVel := []
  outVel := [⟨0, 3⟩]
  kinds := [.other 4 3]
  f _ := [0, 0, 0, 1]
  Jf _ _ _ := 0

theorem lockedBall_one : lockedBall.OneFactor (.other 4 3) :=
  ⟨rfl, by decide, by simp [Within, lockedBall], by simp [Within, lockedBall], by decide⟩

/-- The joint turned about the vertical axis (half angle of cosine 4/5) then about its own first axis. -/
noncomputable def ballCurve (t : ℝ) (i : Nat) : ℝ :=
  if i = 0 then 4 / 5 * Real.sin (t / 2) else if i = 1 then 3 / 5 * Real.sin (t / 2)
  else if i = 2 then 3 / 5 * Real.cos (t / 2) else 4 / 5 * Real.cos (t / 2)

theorem ball_view (t : ℝ) : rview (ballCurve t) [⟨0, 4⟩]
    = [4 / 5 * Real.sin (t / 2), 3 / 5 * Real.sin (t / 2), 3 / 5 * Real.cos (t / 2), 4 / 5 * Real.cos (t / 2)] := by
  simp [rview, indices, List.range', ballCurve]

theorem ball_quat (t : ℝ) : toolsOps.quat (rview (ballCurve t) lockedBall.outConf)
    = !![7 / 25, -24 / 25, 0; 24 / 25, 7 / 25, 0; 0, 0, 1] * !![1, 0, 0; 0, Real.cos t, -Real.sin t; 0, Real.sin t, Real.cos t] := by
  show quatMatrix (rview (ballCurve t) [⟨0, 4⟩]) = _
  rw [ball_view]
  have hh : t = 2 * (t / 2) := by ring
  have h1 : Real.cos t = 1 - 2 * Real.sin (t / 2) ^ 2 := by
    conv_lhs => rw [hh]
    rw [Real.cos_two_mul']; linarith [Real.sin_sq_add_cos_sq (t / 2)]
  have h2 : Real.sin t = 2 * Real.sin (t / 2) * Real.cos (t / 2) := by
    conv_lhs => rw [hh]
    rw [Real.sin_two_mul]
  rw [h1, h2]
  have hc : Real.cos (t / 2) ^ 2 = 1 - Real.sin (t / 2) ^ 2 := by linarith [Real.sin_sq_add_cos_sq (t / 2)]
  generalize Real.sin (t / 2) = s at *
  generalize Real.cos (t / 2) = c at *
  ext a b
  fin_cases a <;> fin_cases b <;> simp [quatMatrix, Matrix.mul_apply, Fin.sum_univ_three] <;> ring_nf <;>
    (try rw [hc]) <;> ring_nf

theorem ball_start : (toolsOps.quat (lockedBall.f []))ᵀ * toolsOps.quat (rview (ballCurve 0) lockedBall.outConf)
    = !![7 / 25, -24 / 25, 0; 24 / 25, 7 / 25, 0; 0, 0, 1] := by
  rw [ball_quat]
  have h1 : toolsOps.quat (lockedBall.f []) = 1 := by
    ext a b
    fin_cases a <;> fin_cases b <;> simp [toolsOps, lockedBall, quatMatrix]
  have h2 : !![1, 0, 0; 0, Real.cos 0, -Real.sin 0; 0, Real.sin 0, Real.cos 0] = (1 : M3 ℝ) := by
    ext a b
    fin_cases a <;> fin_cases b <;> simp
  rw [h1, h2, transpose_one, Matrix.one_mul, Matrix.mul_one]

theorem ball_angle : angle !![7 / 25, -24 / 25, 0; 24 / 25, 7 / 25, 0; 0, 0, 1] = Real.arccos (7 / 25) := by
  simp [angle]
  norm_num

theorem ball_angle_bounds : 1e-6 < Real.arccos (7 / 25) ∧ Real.arccos (7 / 25) < Real.pi - 1e-2 := by
  constructor
  · rw [← not_le]
    intro h
    have h1 := Real.cos_le_cos_of_nonneg_of_le_pi (Real.arccos_nonneg _) (by have := Real.pi_gt_three; norm_num; linarith) h
    rw [Real.cos_arccos (by norm_num) (by norm_num)] at h1
    have := Real.one_sub_sq_div_two_le_cos (x := 1e-6)
    norm_num at this h1
    linarith
  · have := (Real.arccos_lt_pi_div_two (x := 7 / 25)).2 (by norm_num)
    have h3 := Real.pi_gt_three
    norm_num
    linarith

theorem ball_rot : IsRot (!![7 / 25, -24 / 25, 0; 24 / 25, 7 / 25, 0; 0, 0, 1] : M3 ℝ) := by
  refine ⟨?_, ?_⟩
  · ext a b
    fin_cases a <;> fin_cases b <;> simp [Matrix.mul_apply, Fin.sum_univ_three] <;> norm_num
  · simp [Matrix.det_fin_three]; norm_num

/-- C116. Concrete case: a spherical joint locked at the identity, that has turned about the vertical axis and now turns
about its own first axis.  The second component of the value has a nonzero derivative, the Jacobian times the velocity has
a zero second component. -/
theorem C116_locked_ball_refuted : ∃ J d, lockedBall.jacobian toolsOps (ballCurve 0) = some J ∧ d ≠ 0 ∧
    HasDerivAt (fun t => (lockedBall.value toolsOps (ballCurve t)).getD 1 0) d 0 ∧
    Mat.mulVel J (fun i => if i = 0 then 1 else 0) 1 = 0 := by
  have hin : ∀ t, rview (ballCurve t) lockedBall.inConf = [] := fun t => rfl
  have hf0 : ang0 (velF lockedBall (ballCurve 0) (fun i => if i = 0 then 1 else 0)) = 0 := by
    funext i
    simp [ang0, velF, lockedBall]
  have hw : ang0 (velAt lockedBall.outVel (fun i => if i = 0 then 1 else 0)) = ![1, 0, 0] := by
    funext i
    fin_cases i <;> simp [ang0, velAt, lockedBall, indices, List.range', List.getD]
  have hf1 : toolsOps.quat (lockedBall.f []) = 1 := by
    ext a b
    fin_cases a <;> fin_cases b <;> simp [toolsOps, lockedBall, quatMatrix]
  have hq0 : toolsOps.quat (rview (ballCurve 0) lockedBall.outConf)
      = !![7 / 25, -24 / 25, 0; 24 / 25, 7 / 25, 0; 0, 0, 1] := by
    rw [← ball_start, hf1, transpose_one, Matrix.one_mul]
  obtain ⟨J, e, h⟩ := C116_so3 toolsOps toolsOps_so3 lockedBall lockedBall_one ballCurve (fun i => if i = 0 then 1 else 0) 0
    (by decide) (fun _ => rfl) (by rw [hq0]; exact ball_rot) (by rw [hin, hf1]; exact ⟨by simp, by simp⟩)
    (by
      intro a b
      rw [hw, hq0]
      simp only [ball_quat]
      have hs := Real.hasDerivAt_sin 0
      have hc := Real.hasDerivAt_cos 0
      simp only [Real.cos_zero, Real.sin_zero, neg_zero] at hs hc
      fin_cases a <;> fin_cases b <;> simp [Matrix.mul_apply, Fin.sum_univ_three, hat, -mul_neg]
      all_goals first
        | exact hasDerivAt_const _ _
        | exact (hs.const_mul _).congr_deriv (by simp)
        | exact (hc.const_mul _).congr_deriv (by simp)
        | exact (hs.neg.const_mul _).congr_deriv (by simp)
        | exact hs.neg
        | exact hs
        | exact hc
        | exact (hc.neg.const_mul _).congr_deriv (by simp))
    (by
      intro a b
      simp only [hin]
      rw [hf0, hat_zero, Matrix.mul_zero]
      exact hasDerivAt_const _ _)
    (C77_log3_regular toolsOps toolsOps_tools _ (.inr (by rw [hin, ball_start, ball_angle]; exact ball_angle_bounds)))
  obtain ⟨h1, h2⟩ := h 1
  rw [hw, hf0] at h1 h2
  refine ⟨J, _, e, ?_, h1, by simpa using h2⟩
  rw [hin, ball_start, mulVec_zero, mulVec_zero, sub_zero]
  have ha := ball_angle_bounds
  show (JlogSO3 (angle _) (logSO3 _) *ᵥ _) 1 ≠ 0
  have hl : logSO3 !![7 / 25, -24 / 25, 0; 24 / 25, 7 / 25, 0; 0, 0, 1]
      = ![0, 0, Real.arccos (7 / 25) / Real.sin (Real.arccos (7 / 25)) / 2 * (48 / 25)] := by
    unfold logSO3
    rw [ball_angle]
    simp only [if_pos ha.2, if_pos ha.1]
    funext i
    fin_cases i <;> simp
    norm_num
  have hpos : 0 < Real.arccos (7 / 25) / Real.sin (Real.arccos (7 / 25)) / 2 * (48 / 25) := by
    have h0 : 0 < Real.arccos (7 / 25) := lt_trans (by norm_num) ha.1
    have h3 := Real.sin_pos_of_pos_of_lt_pi h0 (lt_trans ha.2 (by norm_num))
    positivity
  rw [hl, ball_angle]
  unfold JlogSO3
  rw [if_neg (not_lt.2 ha.1.le)]
  generalize Real.arccos (7 / 25) / Real.sin (Real.arccos (7 / 25)) / 2 * (48 / 25) = x at hpos
  simp [mulVec, dotProduct, Fin.sum_univ_three, vecHead, vecTail]
  exact hpos.ne'

/-- An unbounded joint that follows another joint (two thirds of its angle): the hypotheses of `C116_so2` are met. -/
noncomputable def follower : ImplicitFn ℝ where
  nv := 2
  inConf := [⟨0, 1⟩]
  outConf := [⟨1, 2⟩]
  inVel := [⟨0, 1⟩]
  outVel := [⟨1, 1⟩]
  kinds := [.other 2 1]
  f x := [Real.cos (2 / 3 * x.getD 0 0), Real.sin (2 / 3 * x.getD 0 0)]
  Jf _ _ _ := 2 / 3

noncomputable def followCurve (t : ℝ) (i : Nat) : ℝ := if i = 0 then 3 * t else if i = 1 then Real.cos t else Real.sin t

example (t : ℝ) (ht : 0 < t) (ht' : t < 1) : ∃ J, follower.jacobian toolsOps (followCurve t) = some J ∧
    ∀ k, k < 1 → HasDerivAt (fun t => (follower.value toolsOps (followCurve t)).getD k 0)
      (Mat.mulVel J (fun i => if i = 0 then 3 else 1) k) t := by
  have ho : ∀ t, rview (followCurve t) follower.outConf = [Real.cos t, Real.sin t] := fun t => by
    simp [rview, indices, List.range', followCurve, follower]
  have hi : ∀ t, follower.f (rview (followCurve t) follower.inConf) = [Real.cos (2 * t), Real.sin (2 * t)] := fun t => by
    simp [rview, indices, List.range', followCurve, follower]
    constructor <;> congr 1 <;> ring
  have hwo : velAt follower.outVel (fun i => if i = 0 then 3 else 1) 0 = 1 := by
    simp [velAt, follower, indices, List.range', List.getD]
  have hwi : velF follower (followCurve t) (fun i => if i = 0 then 3 else 1) 0 = 2 := by
    simp [velF, velAt, follower, indices, List.range', List.getD]
  refine C116_so2 toolsOps toolsOps_so2 follower
    ⟨rfl, by decide, by simp [Within, follower], by simp [Within, follower], by decide⟩ followCurve _ t (by decide)
    (fun _ => rfl) ?_ ?_ ?_
  · rw [hwo]
    refine ⟨?_, ?_, ?_⟩
    · simp [ho]
    · simpa [ho] using Real.hasDerivAt_cos t
    · simpa [ho] using Real.hasDerivAt_sin t
  · rw [hwi]
    refine ⟨?_, ?_, ?_⟩
    · simp [hi]
    · simp only [hi]
      exact ((Real.hasDerivAt_cos (2 * t)).comp t ((hasDerivAt_id t).const_mul 2)).congr_deriv (by simp; ring)
    · simp only [hi]
      exact ((Real.hasDerivAt_sin (2 * t)).comp t ((hasDerivAt_id t).const_mul 2)).congr_deriv (by simp; ring)
  · rw [ho, hi]
    rintro ⟨-, h⟩
    simp at h
    have h1 := Real.sin_pos_of_pos_of_lt_pi ht (by linarith [Real.pi_gt_three])
    have h2 := Real.sin_pos_of_pos_of_lt_pi (x := 2 * t) (by linarith) (by linarith [Real.pi_gt_three])
    linarith

end Hpp.Explicit
