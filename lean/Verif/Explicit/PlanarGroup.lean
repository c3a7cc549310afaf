import Verif.Explicit.OtherGroups
import Mathlib.Tactic.IntervalCases

/-!
# Implicit function of an explicit constraint: configuration space of a planar joint

Source: `/repo/src/explicit/implicit-function.cc`, lines 143-147 (default visitor) and 209-250.

The configuration space of a planar joint (position, cosine, sine; velocity of 3 coefficients) is either `R2xSO2` or `SE2`.  Both go
through the default visitor, as SO(2) and SO(3) in `Explicit/OtherGroups.lean`.
-/

namespace Hpp.Explicit

open Matrix Hpp.Sym Hpp.Pose Hpp.Log

/-! ### R2xSO2 -/

/-- Difference in `R2xSO2` (hpp-pinocchio, external). -/
noncomputable def subR2xSO2 (a b : List ℝ) : List ℝ :=
  [a.getD 0 0 - b.getD 0 0, a.getD 1 0 - b.getD 1 0] ++ subSO2 (a.drop 2) (b.drop 2)

/-- Specification: an element of `R2xSO2` moves with velocity `v`: the position with velocity `(v 0, v 1)` and the rotation with
velocity `v 2`. -/
structure Moves2 (a : ℝ → List ℝ) (v : Nat → ℝ) (t : ℝ) : Prop where
  x : HasDerivAt (fun t => (a t).getD 0 0) (v 0) t
  y : HasDerivAt (fun t => (a t).getD 1 0) (v 1) t
  turn : Turns2 (fun t => (a t).drop 2) (v 2) t

/-- C116. Output space `R2xSO2`: the Jacobian computed by the default visitor times the velocity is the derivative of the value, except
when the rotations of the output variables and of the value of the explicit function are opposite. -/
theorem C116_r2xso2 (ops : LieOps ℝ) (hops : ops.subOther 4 3 = subR2xSO2) (F : ImplicitFn ℝ) (hF : F.OneFactor (.other 4 3))
    (q : ℝ → Nat → ℝ) (qd : Nat → ℝ) (t : ℝ) (hout : (indices F.outConf).length = 4) (hf : ∀ x, (F.f x).length = 4)
    (hq : Moves2 (fun t => rview (q t) F.outConf) (velAt F.outVel qd) t)
    (hJ : Moves2 (fun t => F.f (rview (q t) F.inConf)) (velF F (q t) qd) t)
    (hn : NotOpposite ((rview (q t) F.outConf).drop 2) ((F.f (rview (q t) F.inConf)).drop 2)) :
    ∃ J, F.jacobian ops (q t) = some J ∧
      ∀ k, k < 3 → HasDerivAt (fun t => (F.value ops (q t)).getD k 0) (Mat.mulVel J qd k) t := by
  obtain ⟨J, e, h⟩ := other_mulVel ops F 4 3 hF (q t) qd hout hf
  refine ⟨J, e, fun k hk => ?_⟩
  rw [h k hk]
  have hv : ∀ t, F.value ops (q t) = subR2xSO2 (rview (q t) F.outConf) (F.f (rview (q t) F.inConf)) := by
    intro t
    have h1 : (rview (q t) F.outConf).length = 4 := by simpa [rview] using hout
    simp only [ImplicitFn.value, hF.kinds, LieOps.subAll, LieOps.sub, LieKind.nq, List.append_nil]
    rw [hops, List.take_of_length_le h1.le, List.take_of_length_le (hf _).le]
  simp only [hv]
  interval_cases k
  · exact hq.x.sub hJ.x
  · exact hq.y.sub hJ.y
  · exact subSO2_deriv hq.turn hJ.turn hn

/-! ### SE(2) -/

/-- Coefficient of the logarithm of SE(2) (pinocchio, external). -/
noncomputable def alphaSE2 (θ : ℝ) : ℝ :=
  if |θ| < 1e-4 then 1 - θ ^ 2 / 12 - θ ^ 4 / 720 else |θ| * Real.sin |θ| / (2 * (1 - Real.cos |θ|))

/-- Difference in SE(2) (pinocchio, external): logarithm of the displacement from `b` to `a`. -/
noncomputable def subSE2 (a b : List ℝ) : List ℝ :=
  let θ := (subSO2 (a.drop 2) (b.drop 2)).getD 0 0
  let x := b.getD 2 0 * (a.getD 0 0 - b.getD 0 0) + b.getD 3 0 * (a.getD 1 0 - b.getD 1 0)
  let y := -b.getD 3 0 * (a.getD 0 0 - b.getD 0 0) + b.getD 2 0 * (a.getD 1 0 - b.getD 1 0)
  [alphaSE2 θ * x + θ / 2 * y, -(θ / 2) * x + alphaSE2 θ * y, θ]

/-- Specification: an element of SE(2) moves with velocity `v`, linear velocity expressed in the moving frame. -/
structure MovesSE2 (a : ℝ → List ℝ) (v : Nat → ℝ) (t : ℝ) : Prop where
  x : HasDerivAt (fun t => (a t).getD 0 0) ((a t).getD 2 0 * v 0 - (a t).getD 3 0 * v 1) t
  y : HasDerivAt (fun t => (a t).getD 1 0) ((a t).getD 3 0 * v 0 + (a t).getD 2 0 * v 1) t
  turn : Turns2 (fun t => (a t).drop 2) (v 2) t

theorem alphaSE2_zero : HasDerivAt alphaSE2 0 0 := by
  have h : HasDerivAt (fun θ : ℝ => 1 - θ ^ 2 / 12 - θ ^ 4 / 720) 0 0 := by
    have h2 := (hasDerivAt_pow 2 (0 : ℝ)).div_const 12
    have h4 := (hasDerivAt_pow 4 (0 : ℝ)).div_const 720
    exact ((h2.const_sub 1).sub h4).congr_deriv (by norm_num)
  refine h.congr_of_eventuallyEq ?_
  have : ∀ᶠ θ : ℝ in nhds 0, |θ| < 1e-4 :=
    (continuous_abs.tendsto (0 : ℝ)).eventually (gt_mem_nhds (by rw [abs_zero]; norm_num))
  filter_upwards [this] with θ hθ
  rw [alphaSE2, if_pos hθ]

theorem drop_getD (l : List ℝ) (k n : Nat) : (l.drop k).getD n 0 = l.getD (k + n) 0 := by
  simp [List.getD]

theorem subSO2_self {a : List ℝ} (h : a.getD 0 0 ^ 2 + a.getD 1 0 ^ 2 = 1) : (subSO2 a a).getD 0 0 = 0 := by
  simp only [subSO2, List.getD_cons_zero]
  have : (⟨a.getD 0 0 * a.getD 0 0 + a.getD 1 0 * a.getD 1 0, a.getD 1 0 * a.getD 0 0 - a.getD 0 0 * a.getD 1 0⟩ : ℂ) = 1 := by
    apply Complex.ext
    · show _ = (1 : ℝ); rw [← h]; ring
    · show _ = (0 : ℝ); ring
  rw [this, Complex.arg_one]

/-- C116 (partial: only where the constraint is satisfied). Output space SE(2): at the configurations where the output variables are
equal to the value of the explicit function the Jacobian times the velocity is the derivative of the value. -/
theorem C116_se2_satisfied_partial (ops : LieOps ℝ) (hops : ops.subOther 4 3 = subSE2) (F : ImplicitFn ℝ)
    (hF : F.OneFactor (.other 4 3))
    (q : ℝ → Nat → ℝ) (qd : Nat → ℝ) (t : ℝ) (hout : (indices F.outConf).length = 4) (hf : ∀ x, (F.f x).length = 4)
    (hq : MovesSE2 (fun t => rview (q t) F.outConf) (velAt F.outVel qd) t)
    (hJ : MovesSE2 (fun t => F.f (rview (q t) F.inConf)) (velF F (q t) qd) t)
    (hs : rview (q t) F.outConf = F.f (rview (q t) F.inConf)) :
    ∃ J, F.jacobian ops (q t) = some J ∧
      ∀ k, k < 3 → HasDerivAt (fun t => (F.value ops (q t)).getD k 0) (Mat.mulVel J qd k) t := by
  obtain ⟨J, e, h⟩ := other_mulVel ops F 4 3 hF (q t) qd hout hf
  refine ⟨J, e, fun k hk => ?_⟩
  rw [h k hk]
  have hv : ∀ t, F.value ops (q t) = subSE2 (rview (q t) F.outConf) (F.f (rview (q t) F.inConf)) := by
    intro t
    have h1 : (rview (q t) F.outConf).length = 4 := by simpa [rview] using hout
    simp only [ImplicitFn.value, hF.kinds, LieOps.subAll, LieOps.sub, LieKind.nq, List.append_nil]
    rw [hops, List.take_of_length_le h1.le, List.take_of_length_le (hf _).le]
  simp only [hv]
  generalize velAt F.outVel qd = v at hq
  generalize velF F (q t) qd = w at hJ
  generalize ha : (fun t => rview (q t) F.outConf) = a at hq
  generalize hb : (fun t => F.f (rview (q t) F.inConf)) = b at hJ
  have ha' : ∀ t, rview (q t) F.outConf = a t := fun t => congrFun ha t
  have hb' : ∀ t, F.f (rview (q t) F.inConf) = b t := fun t => congrFun hb t
  simp only [ha', hb'] at hs ⊢
  have hno : NotOpposite ((a t).drop 2) ((b t).drop 2) := by
    rw [hs]
    rintro ⟨h1, h2⟩
    have hu := hJ.turn.unit
    have e1 : ((b t).drop 2).getD 0 0 = 0 := by linarith
    have e2 : ((b t).drop 2).getD 1 0 = 0 := by linarith
    rw [e1, e2] at hu
    norm_num at hu
  have hθ := subSO2_deriv hq.turn hJ.turn hno
  have hθ0 : (subSO2 ((a t).drop 2) ((b t).drop 2)).getD 0 0 = 0 := by
    rw [hs]; exact subSO2_self hJ.turn.unit
  have hα : HasDerivAt (fun t => alphaSE2 ((subSO2 ((a t).drop 2) ((b t).drop 2)).getD 0 0)) 0 t := by
    have h0 : HasDerivAt alphaSE2 0 ((subSO2 ((a t).drop 2) ((b t).drop 2)).getD 0 0) := by rw [hθ0]; exact alphaSE2_zero
    exact (h0.comp t hθ).congr_deriv (by rw [zero_mul])
  have hα1 : alphaSE2 0 = 1 := by simp [alphaSE2]; norm_num
  have hbc := hJ.turn.cos
  have hbs := hJ.turn.sin
  have hu := hJ.turn.unit
  simp only [drop_getD] at hbc hbs hu
  have hdx := hq.x.sub hJ.x
  have hdy := hq.y.sub hJ.y
  have hx := (hbc.mul hdx).add (hbs.mul hdy)
  have hy := (hbs.neg.mul hdx).add (hbc.mul hdy)
  have h0 := (hα.mul hx).add ((hθ.div_const 2).mul hy)
  have h1 := ((hθ.div_const 2).neg.mul hx).add (hα.mul hy)
  interval_cases k
  · refine h0.congr_deriv ?_
    simp only [Pi.mul_apply, Pi.add_apply, Pi.sub_apply, Pi.neg_apply, hθ0, hα1]
    rw [hs]
    simp only [Nat.add_zero, Nat.reduceAdd] at hu ⊢
    linear_combination (v 0 - w 0) * hu
  · refine h1.congr_deriv ?_
    simp only [Pi.mul_apply, Pi.add_apply, Pi.sub_apply, Pi.neg_apply, hθ0, hα1]
    rw [hs]
    simp only [Nat.add_zero, Nat.reduceAdd] at hu ⊢
    linear_combination (v 1 - w 1) * hu
  · exact hθ

/-- The linear part of the derivative is not the identity on any velocity. -/
theorem se2_scale {α θ c s x y : ℝ} (hsc : s ^ 2 + c ^ 2 = 1) (hα : α * (2 * (1 - c)) = θ * s) (hcos : 1 - θ ^ 2 / 2 < c)
    (hv : x ≠ 0 ∨ y ≠ 0) (U0 : (α * c + θ / 2 * s) * x - (α * s - θ / 2 * c) * y = x)
    (U1 : (α * s - θ / 2 * c) * x + (α * c + θ / 2 * s) * y = y) : False := by
  have hxy : 0 < x ^ 2 + y ^ 2 := by
    rcases hv with hv | hv
    · have := pow_pos (abs_pos.2 hv) 2
      rw [sq_abs] at this
      linarith [sq_nonneg y]
    · have := pow_pos (abs_pos.2 hv) 2
      rw [sq_abs] at this
      linarith [sq_nonneg x]
  have hAB : (α * c + θ / 2 * s - 1) ^ 2 + (α * s - θ / 2 * c) ^ 2 = 0 := by
    generalize α * c + θ / 2 * s = A at *
    generalize α * s - θ / 2 * c = B at *
    have e0 : (A - 1) * x - B * y = 0 := by linarith
    have e1 : B * x + (A - 1) * y = 0 := by linarith
    have : ((A - 1) ^ 2 + B ^ 2) * (x ^ 2 + y ^ 2) = ((A - 1) * x - B * y) ^ 2 + (B * x + (A - 1) * y) ^ 2 := by ring
    rw [e0, e1] at this
    rcases mul_eq_zero.1 (this.trans (by norm_num)) with h | h
    · exact h
    · linarith
  have hA : α * c + θ / 2 * s - 1 = 0 := by
    refine pow_eq_zero_iff two_ne_zero |>.1 ?_
    linarith [sq_nonneg (α * c + θ / 2 * s - 1), sq_nonneg (α * s - θ / 2 * c)]
  have hB : α * s - θ / 2 * c = 0 := by
    refine pow_eq_zero_iff two_ne_zero |>.1 ?_
    linarith [sq_nonneg (α * c + θ / 2 * s - 1), sq_nonneg (α * s - θ / 2 * c)]
  have hA' : α * c + θ / 2 * s = 1 := by linarith
  have h2 : α ^ 2 + θ ^ 2 / 4 = 1 := by
    have : (α * c + θ / 2 * s) ^ 2 + (α * s - θ / 2 * c) ^ 2 = (α ^ 2 + θ ^ 2 / 4) * (s ^ 2 + c ^ 2) := by ring
    rw [hA', hB, hsc] at this
    linarith
  have e1 : (α * (2 * (1 - c))) ^ 2 = θ ^ 2 * s ^ 2 := by rw [hα]; ring
  have e2 : (α * (2 * (1 - c))) ^ 2 = (1 - θ ^ 2 / 4) * (2 * (1 - c)) ^ 2 := by
    rw [mul_pow]; linear_combination (2 * (1 - c)) ^ 2 * h2
  have e3 : s ^ 2 = 1 - c ^ 2 := by linarith
  rw [e3] at e1
  have h3 : (θ ^ 2 - 2 * (1 - c)) * (1 - c) = 0 := by linear_combination (e2 - e1) / 2
  rcases mul_eq_zero.1 h3 with h | h
  · linarith
  · have hc : c = 1 := by linarith
    have hs : s = 0 := by
      refine pow_eq_zero_iff two_ne_zero |>.1 ?_
      rw [e3, hc]; norm_num
    rw [hs, hc] at hB hA'
    have : θ = 0 := by linarith
    rw [this, hc] at hcos
    norm_num at hcos

/-- C116 (refuted on SE(2)). Output space SE(2): at every configuration where the angle from the value of the explicit function to the
output variables is in `[1e-4, π)`, along every motion in which the output variables move without turning, with a nonzero linear
velocity, and the input does not move, the Jacobian times the velocity is not the derivative of the value. -/
theorem C116_se2_refuted (ops : LieOps ℝ) (hops : ops.subOther 4 3 = subSE2) (F : ImplicitFn ℝ) (hF : F.OneFactor (.other 4 3))
    (hout : (indices F.outConf).length = 4) (hf : ∀ x, (F.f x).length = 4)
    (q : ℝ → Nat → ℝ) (qd : Nat → ℝ) (t θ : ℝ) (hθ : 1e-4 ≤ θ) (hθ' : θ < Real.pi)
    (hin : ∀ t', rview (q t') F.inConf = rview (q t) F.inConf)
    (hturn : ∀ t', (rview (q t') F.outConf).drop 2 = (rview (q t) F.outConf).drop 2)
    (hq : MovesSE2 (fun t => rview (q t) F.outConf) (velAt F.outVel qd) t)
    (hw : velF F (q t) qd 0 = 0 ∧ velF F (q t) qd 1 = 0) (hv : velAt F.outVel qd 0 ≠ 0 ∨ velAt F.outVel qd 1 ≠ 0)
    {cb sb : ℝ} (hcb : (F.f (rview (q t) F.inConf)).drop 2 = [cb, sb]) (hub : cb ^ 2 + sb ^ 2 = 1)
    (hrel : (rview (q t) F.outConf).drop 2 =
      [Real.cos θ * cb - Real.sin θ * sb, Real.sin θ * cb + Real.cos θ * sb]) :
    ∃ J, F.jacobian ops (q t) = some J ∧
      ∃ k, k < 2 ∧ ¬ HasDerivAt (fun t => (F.value ops (q t)).getD k 0) (Mat.mulVel J qd k) t := by
  obtain ⟨J, e, h⟩ := other_mulVel ops F 4 3 hF (q t) qd hout hf
  refine ⟨J, e, ?_⟩
  have hval : ∀ t, F.value ops (q t) = subSE2 (rview (q t) F.outConf) (F.f (rview (q t) F.inConf)) := by
    intro t
    have h1 : (rview (q t) F.outConf).length = 4 := by simpa [rview] using hout
    simp only [ImplicitFn.value, hF.kinds, LieOps.subAll, LieOps.sub, LieKind.nq, List.append_nil]
    rw [hops, List.take_of_length_le h1.le, List.take_of_length_le (hf _).le]
  have h00 := h 0 (by norm_num)
  have h11 := h 1 (by norm_num)
  rw [hw.1, sub_zero] at h00
  rw [hw.2, sub_zero] at h11
  generalize velAt F.outVel qd = v at hq hv h00 h11
  generalize ha : (fun t => rview (q t) F.outConf) = a at hq
  have ha' : ∀ t, rview (q t) F.outConf = a t := fun t => congrFun ha t
  generalize hb : F.f (rview (q t) F.inConf) = b at hcb
  have hb' : ∀ t', F.f (rview (q t') F.inConf) = b := fun t' => by rw [hin, hb]
  simp only [ha', hb'] at hval hturn hrel
  have hb2 : b.getD 2 0 = cb := by rw [show 2 = 2 + 0 from rfl, ← drop_getD, hcb]; rfl
  have hb3 : b.getD 3 0 = sb := by rw [show 3 = 2 + 1 from rfl, ← drop_getD, hcb]; rfl
  have ha2 : (a t).getD 2 0 = Real.cos θ * cb - Real.sin θ * sb := by rw [show 2 = 2 + 0 from rfl, ← drop_getD, hrel]; rfl
  have ha3 : (a t).getD 3 0 = Real.sin θ * cb + Real.cos θ * sb := by rw [show 3 = 2 + 1 from rfl, ← drop_getD, hrel]; rfl
  have hang : ∀ t', (subSO2 ((a t').drop 2) (b.drop 2)).getD 0 0 = θ := by
    intro t'
    rw [hturn, hrel, hcb]
    simp only [subSO2, List.getD_cons_zero, List.getD_cons_succ]
    have : (⟨(Real.cos θ * cb - Real.sin θ * sb) * cb + (Real.sin θ * cb + Real.cos θ * sb) * sb,
        (Real.sin θ * cb + Real.cos θ * sb) * cb - (Real.cos θ * cb - Real.sin θ * sb) * sb⟩ : ℂ) =
        ⟨Real.cos θ, Real.sin θ⟩ := by
      congr 1
      · linear_combination Real.cos θ * hub
      · linear_combination Real.sin θ * hub
    have h2 : (⟨Real.cos θ, Real.sin θ⟩ : ℂ) = Complex.cos θ + Complex.sin θ * Complex.I := by
      rw [← Complex.ofReal_cos, ← Complex.ofReal_sin]
      apply Complex.ext <;> simp [-Complex.ofReal_cos, -Complex.ofReal_sin]
    rw [this, h2]
    have hm := Complex.arg_mul_cos_add_sin_mul_I (r := 1) one_pos (θ := θ) ⟨by linarith [Real.pi_pos], hθ'.le⟩
    simpa using hm
  have hdx := hq.x.sub_const (b.getD 0 0)
  have hdy := hq.y.sub_const (b.getD 1 0)
  have hx := (hdx.const_mul cb).add (hdy.const_mul sb)
  have hy := (hdx.const_mul (-sb)).add (hdy.const_mul cb)
  have d0 := (hx.const_mul (alphaSE2 θ)).add (hy.const_mul (θ / 2))
  have d1 := (hx.const_mul (-(θ / 2))).add (hy.const_mul (alphaSE2 θ))
  rw [ha2, ha3] at d0 d1
  by_contra hc
  push Not at hc
  have c0 := hc 0 (by norm_num)
  have c1 := hc 1 (by norm_num)
  simp only [hval, subSE2, hang, hb2, hb3, List.getD_cons_zero, List.getD_cons_succ] at c0 c1
  have u0 := c0.unique d0
  have u1 := c1.unique d1
  rw [h00] at u0
  rw [h11] at u1
  have hpos : 0 < θ := lt_of_lt_of_le (by norm_num) hθ
  have hcos := Real.one_sub_sq_div_two_lt_cos hpos.ne'
  have hα : alphaSE2 θ * (2 * (1 - Real.cos θ)) = θ * Real.sin θ := by
    have : (2 * (1 - Real.cos θ)) ≠ 0 := by
      have h1 : Real.cos θ < 1 := by
        have := Real.cos_lt_cos_of_nonneg_of_le_pi (le_refl 0) hθ'.le hpos
        rwa [Real.cos_zero] at this
      linarith
    rw [alphaSE2, abs_of_pos hpos, if_neg (not_lt.2 hθ), div_mul_cancel₀ _ this]
  have hsc := Real.sin_sq_add_cos_sq θ
  generalize alphaSE2 θ = α at *
  generalize Real.cos θ = c at *
  generalize Real.sin θ = s at *
  generalize v 0 = x at *
  generalize v 1 = y at *
  refine se2_scale hsc hα hcos (θ := θ) (x := x) (y := y) hv ?_ ?_
  · linear_combination -u0 - ((α * c + θ / 2 * s) * x - (α * s - θ / 2 * c) * y) * hub
  · linear_combination -u1 - ((α * s - θ / 2 * c) * x + (α * c + θ / 2 * s) * y) * hub

/-! ### The hypotheses are met -/

/-- A planar joint locked at the identity: no input. -/
def lockedPlane : ImplicitFn ℝ where
  nv := 3
  inConf := []
  outConf := [⟨0, 4⟩]
  inVel := []
  outVel := [⟨0, 3⟩]
  kinds := [.other 4 3]
  f _ := [0, 0, 1, 0]
  Jf _ _ _ := 0

theorem lockedPlane_one : lockedPlane.OneFactor (.other 4 3) :=
  ⟨rfl, by decide, by simp [Within, lockedPlane], by simp [Within, lockedPlane], by decide⟩

theorem lockedPlane_vel (qd : Nat → ℝ) :
    velAt lockedPlane.outVel qd 0 = qd 0 ∧ velAt lockedPlane.outVel qd 1 = qd 1 ∧ velAt lockedPlane.outVel qd 2 = qd 2 := by
  refine ⟨?_, ?_, ?_⟩ <;> simp [velAt, lockedPlane, indices, List.range', List.getD]

/-- Position and angle of the joint as functions of time. -/
noncomputable def planeCurve (x y θ : ℝ → ℝ) (t : ℝ) (i : Nat) : ℝ :=
  if i = 0 then x t else if i = 1 then y t else if i = 2 then Real.cos (θ t) else Real.sin (θ t)

theorem plane_view (x y θ : ℝ → ℝ) (t : ℝ) :
    rview (planeCurve x y θ t) lockedPlane.outConf = [x t, y t, Real.cos (θ t), Real.sin (θ t)] := by
  simp [rview, indices, List.range', planeCurve, lockedPlane]

theorem plane_turns (x y θ : ℝ → ℝ) {w t : ℝ} (h : HasDerivAt θ w t) :
    Turns2 (fun t => (rview (planeCurve x y θ t) lockedPlane.outConf).drop 2) w t := by
  simp only [plane_view]
  refine ⟨by simp, ?_, ?_⟩
  · exact ((Real.hasDerivAt_cos (θ t)).comp t h).congr_deriv (by simp; ring)
  · exact ((Real.hasDerivAt_sin (θ t)).comp t h).congr_deriv (by simp; ring)

/-- C116. Concrete case: a planar joint locked at the identity, turned by a quarter of a turn, that moves forward. -/
theorem C116_locked_plane_refuted (ops : LieOps ℝ) (hops : ops.subOther 4 3 = subSE2) :
    ∃ J, lockedPlane.jacobian ops (planeCurve (fun _ => 0) id (fun _ => Real.pi / 2) 0) = some J ∧ ∃ k, k < 2 ∧
      ¬ HasDerivAt (fun t => (lockedPlane.value ops (planeCurve (fun _ => 0) id (fun _ => Real.pi / 2) t)).getD k 0)
        (Mat.mulVel J (fun i => if i = 0 then 1 else 0) k) 0 := by
  obtain ⟨v0, v1, v2⟩ := lockedPlane_vel (fun i => if i = 0 then 1 else 0)
  refine C116_se2_refuted ops hops lockedPlane lockedPlane_one (by decide) (fun _ => rfl)
    (planeCurve (fun _ => 0) id (fun _ => Real.pi / 2)) _ 0 (Real.pi / 2) ?_ ?_ (fun _ => rfl) ?_ ⟨?_, ?_, ?_⟩
    ⟨by simp [velF, lockedPlane], by simp [velF, lockedPlane]⟩ (.inl (by rw [v0]; simp)) (cb := 1) (sb := 0) rfl (by norm_num) ?_
  · have := Real.pi_gt_three; norm_num; linarith
  · linarith [Real.pi_pos]
  · intro t'
    rw [plane_view, plane_view]; rfl
  · simp only [plane_view, v0, v1]
    exact (hasDerivAt_const _ _).congr_deriv (by simp)
  · simp only [plane_view, v0, v1]
    exact (hasDerivAt_id _).congr_deriv (by simp)
  · rw [v2]
    exact plane_turns _ _ _ (by simpa using hasDerivAt_const (0 : ℝ) (Real.pi / 2))
  · rw [plane_view]; simp

/-- `C116_se2_satisfied_partial`: the joint leaves the identity, moving forward and turning. -/
example (ops : LieOps ℝ) (hops : ops.subOther 4 3 = subSE2) :
    ∃ J, lockedPlane.jacobian ops (planeCurve (fun t => 2 * t) (fun t => t) (fun t => 3 * t) 0) = some J ∧ ∀ k, k < 3 →
      HasDerivAt (fun t => (lockedPlane.value ops (planeCurve (fun t => 2 * t) (fun t => t) (fun t => 3 * t) t)).getD k 0)
        (Mat.mulVel J (fun i => if i = 0 then 2 else if i = 1 then 1 else 3) k) 0 := by
  obtain ⟨v0, v1, v2⟩ := lockedPlane_vel (fun i => if i = 0 then 2 else if i = 1 then 1 else 3)
  refine C116_se2_satisfied_partial ops hops lockedPlane lockedPlane_one
    (planeCurve (fun t => 2 * t) (fun t => t) (fun t => 3 * t)) _ 0 (by decide) (fun _ => rfl) ⟨?_, ?_, ?_⟩ ⟨?_, ?_, ?_, ?_, ?_⟩ ?_
  · simp only [plane_view, v0, v1]
    exact ((hasDerivAt_id (0 : ℝ)).const_mul 2).congr_deriv (by simp)
  · simp only [plane_view, v0, v1]
    exact (hasDerivAt_id (0 : ℝ)).congr_deriv (by simp)
  · rw [v2]
    exact plane_turns _ _ _ (((hasDerivAt_id (0 : ℝ)).const_mul 3).congr_deriv (by simp))
  · exact (hasDerivAt_const _ _).congr_deriv (by simp [velF, lockedPlane])
  · exact (hasDerivAt_const _ _).congr_deriv (by simp [velF, lockedPlane])
  · simp [lockedPlane]
  · exact (hasDerivAt_const _ _).congr_deriv (by simp [velF, lockedPlane])
  · exact (hasDerivAt_const _ _).congr_deriv (by simp [velF, lockedPlane])
  · rw [plane_view]; simp [lockedPlane]

/-- `C116_r2xso2`: the joint moves and turns, away from the identity. -/
example (ops : LieOps ℝ) (hops : ops.subOther 4 3 = subR2xSO2) (t : ℝ) (ht : 0 < t) (ht' : t < 1) :
    ∃ J, lockedPlane.jacobian ops (planeCurve (fun t => 2 * t) (fun t => t) (fun t => 3 * t) t) = some J ∧ ∀ k, k < 3 →
      HasDerivAt (fun t => (lockedPlane.value ops (planeCurve (fun t => 2 * t) (fun t => t) (fun t => 3 * t) t)).getD k 0)
        (Mat.mulVel J (fun i => if i = 0 then 2 else if i = 1 then 1 else 3) k) t := by
  obtain ⟨v0, v1, v2⟩ := lockedPlane_vel (fun i => if i = 0 then 2 else if i = 1 then 1 else 3)
  refine C116_r2xso2 ops hops lockedPlane lockedPlane_one
    (planeCurve (fun t => 2 * t) (fun t => t) (fun t => 3 * t)) _ t (by decide) (fun _ => rfl) ⟨?_, ?_, ?_⟩ ⟨?_, ?_, ?_, ?_, ?_⟩ ?_
  · simp only [plane_view, v0]
    exact ((hasDerivAt_id t).const_mul 2).congr_deriv (by simp)
  · simp only [plane_view, v1]
    exact (hasDerivAt_id t).congr_deriv (by simp)
  · rw [v2]
    exact plane_turns _ _ _ (((hasDerivAt_id t).const_mul 3).congr_deriv (by simp))
  · exact (hasDerivAt_const _ _).congr_deriv (by simp [velF, lockedPlane])
  · exact (hasDerivAt_const _ _).congr_deriv (by simp [velF, lockedPlane])
  · simp [lockedPlane]
  · exact (hasDerivAt_const _ _).congr_deriv (by simp [velF, lockedPlane])
  · exact (hasDerivAt_const _ _).congr_deriv (by simp [velF, lockedPlane])
  · rw [plane_view]
    rintro ⟨-, h⟩
    simp [lockedPlane] at h
    have := Real.sin_pos_of_pos_of_lt_pi (x := 3 * t) (by linarith) (by linarith [Real.pi_gt_three])
    linarith

end Hpp.Explicit
