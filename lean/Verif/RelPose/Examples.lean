import Verif.RelPose.Constrain

/-!
# C97: refutations and concrete cases
-/

namespace Hpp.RelPose

open Matrix Hpp.Sym Hpp.Pose Hpp.Contact Hpp.Log

/-- Conversion to a quaternion, not used by functions with vector values -/
def noQuat (_ : M3 ℝ) : List ℝ := [0, 0, 0, 1]

/-- Absolute transformation of joint `j`, `F2`: frame of the joint -/
def exAbs (j : Nat) (F2 : SE3 ℝ) : GT := ⟨false, true, true, false, none, some j, SE3.one, F2, List.replicate 6 true⟩

theorem exAbs_ok (j : Nat) {F2 : SE3 ℝ} (h : IsRot F2.R) : (exAbs j F2).Ok where
  mask := by simp [exAbs, GT.lPos, GT.lOri]
  some := Or.inl rfl
  full := fun h => absurd h (by simp [exAbs])
  rot1 := one_isRot
  rot2 := h

theorem exAbs_relative {r : Robot ℝ} (ok : r.Ok) (j : Nat) (F2 : SE3 ℝ) (q : Nat → ℝ) :
    (exAbs j F2).relative (r.fk q) = (r.fk q j).mul F2 := by
  rw [relative_relPose ok]
  change SE3.one.inv.mul ((SE3.one.inv.mul (r.fk q j)).mul F2) = _
  rw [← inv_unique one_isRot (SE3.one_mul SE3.one), SE3.one_mul, SE3.one_mul]

theorem exAbs_value {r : Robot ℝ} (ok : r.Ok) (j : Nat) {F2 : SE3 ℝ} (h : IsRot F2.R) (q : Nat → ℝ) :
    (exAbs j F2).value noQuat (r.fk q) = list3 ((r.fk q j).mul F2).p ++ list3 (logSO3 ((r.fk q j).mul F2).R) := by
  rw [value_six (exAbs_ok j h) (fun _ => by simp [noQuat]) (by simp [exAbs]) (Robot.fk_rot ok q), exAbs_relative ok]
  rfl

theorem exAbs_pair (j : Nat) (F2 : SE3 ℝ) : ofGT (exAbs j F2) = (none, some j) := by
  change (if 0 ≤ j then ((none, some j) : JPair) else (some j, none)) = _
  rw [if_pos (Nat.zero_le _)]

/-- The constraint with comparison types all equal to `t` and no mask -/
theorem exists_con (fn : Hpp.Fn ℝ Unit) (h : fn.space.nv = 6) (t : Comp) :
    ∃ c, Impl.Built fn [] (List.replicate 6 t) c ∧ ∀ p, constrains c p = p := by
  obtain ⟨c, hc⟩ : ∃ c, Impl.create fn (List.replicate 6 t) [] = some c := by
    simp [Impl.create, Impl.mk', h]
  have hb : Impl.Built fn [] (List.replicate 6 t) c := .create _ _ hc
  refine ⟨c, hb, fun p => ?_⟩
  obtain ⟨hok, hfn, -, hm⟩ := hb.ok
  unfold constrains
  rw [if_neg]
  push Not
  refine ⟨by rw [hfn, h], ?_⟩
  rw [hok.rows.inact_nb, cardinal_eq_length, List.length_eq_zero_iff, List.eq_nil_iff_forall_not_mem]
  intro i hi
  have := (hok.rows.inact_iff i).1 ((mem_indices _ _).1 hi)
  rw [hm, fullMask, if_pos rfl, List.getElem?_replicate] at this
  split at this <;> simp at this

theorem demo_fk1 (q : Nat → ℝ) : demoRobot.fk q 1 = ⟨1, ![q 0, 1, 0]⟩ := by
  rw [Robot.fk_step demoRobot_ok _ (by omega)]
  change SE3.one.mul (SE3.mul ⟨1, ![0, 1, 0]⟩ ⟨1, ![q 0, 0, 0]⟩) = _
  rw [SE3.one_mul]
  simp [SE3.mul]

theorem logSO3_one : logSO3 (1 : M3 ℝ) = 0 := (log_one rfl).2

/-- Only the identity has logarithm zero. -/
theorem logSO3_eq_zero {R : M3 ℝ} (h : IsRot R) (h0 : logSO3 R = 0) : R = 1 := by
  have h00 := (log_fix h).1 ⟨by rw [h0]; rfl, by rw [h0]; rfl⟩
  have hlt : angle R < Real.pi := by
    refine lt_of_le_of_ne (angle_le_pi h) fun he => ?_
    have h1 : logSO3 R 0 = 0 := by rw [h0]; rfl
    have hpi := Real.pi_pos
    unfold logSO3 at h1
    simp only [he, sub_self, Real.cos_zero] at h1
    rw [if_neg (by norm_num)] at h1
    have hp : 0 < (R 0 0 + 1) * (Real.pi * Real.pi / (1 + 1)) := by rw [h00]; positivity
    simp only [Matrix.cons_val_zero, if_pos hp] at h1
    rcases mul_eq_zero.1 h1 with h2 | h2
    · split at h2 <;> norm_num at h2
    · exact absurd h2 (Real.sqrt_pos.2 hp).ne'
  refine C76_injective h one_isRot hlt ?_ (h0.trans logSO3_one.symm)
  rw [(log_one rfl).1]
  exact Real.pi_pos

/-- C97 (refutation). The comparison types are not taken into account: with `Superior` on all the rows of the transformation of
joint 1 of `demoRobot` (that translates along x) the joint is returned as fully constrained although it can move. -/
theorem C97_inequality_refuted (jac : (Nat → ℝ) → Jac ℝ) :
    ∃ c, Impl.Built (gtFn () demoRobot (exAbs 1 SE3.one) noQuat (vspace 6) jac) [] (List.replicate 6 .superior) c ∧
      constrains c (ofGT (exAbs 1 SE3.one)) = (none, some 1) ∧
      ¬ Fixes demoRobot (Meets (gtFn () demoRobot (exAbs 1 SE3.one) noQuat (vspace 6) jac) [] (List.replicate 6 .superior)
        (List.replicate 6 0)) (constrains c (ofGT (exAbs 1 SE3.one))) := by
  obtain ⟨c, hb, hc⟩ := exists_con (gtFn () demoRobot (exAbs 1 SE3.one) noQuat (vspace 6) jac) rfl .superior
  refine ⟨c, hb, by rw [hc, exAbs_pair], fun h => ?_⟩
  rw [hc, exAbs_pair] at h
  have key : ∀ t : ℝ, 0 ≤ t → Meets (gtFn () demoRobot (exAbs 1 SE3.one) noQuat (vspace 6) jac) [] (List.replicate 6 .superior)
      (List.replicate 6 0) fun _ => t := by
    intro t ht i ty x _ hty hx
    have hv : (gtFn () demoRobot (exAbs 1 SE3.one) noQuat (vspace 6) jac).value (fun _ => t) = [t, 1, 0, 0, 0, 0] := by
      change (exAbs 1 SE3.one).value noQuat (demoRobot.fk fun _ => t) = _
      rw [exAbs_value demoRobot_ok 1 one_isRot, demo_fk1, SE3.mul_one]
      simp [logSO3_one, list3]
    have hty' : ty = .superior := List.eq_of_mem_replicate (List.mem_of_getElem? hty)
    subst hty'
    rw [hv] at hx
    have hm := List.mem_of_getElem? hx
    change x ∈ [t - 0, 1 - 0, 0 - 0, 0 - 0, 0 - 0, 0 - 0] at hm
    change 0 ≤ x
    simp at hm
    rcases hm with rfl | rfl | rfl
    · exact ht
    · exact zero_le_one
    · exact le_refl _
  have := h _ _ (key 0 (le_refl _)) (key 1 zero_le_one)
  have e := congrArg SE3.p this
  unfold relPose at e
  simp only [poseOf, demo_fk1, ← inv_unique one_isRot (SE3.one_mul SE3.one), SE3.one_mul] at e
  have := congrFun e 0
  simp at this

/-- Half turn about x -/
def halfX : M3 ℝ := !![1, 0, 0; 0, -1, 0; 0, 0, -1]

theorem halfX_isRot : IsRot halfX := by
  refine ⟨?_, ?_⟩
  · ext i j
    fin_cases i <;> fin_cases j <;> simp [halfX, Matrix.mul_apply, Fin.sum_univ_three]
  · rw [det_fin_three]
    simp [halfX]

/-- C97 (refutation). Joint 1 of `exRobot` turns about z; its frame is turned by half a turn about x: whatever its configuration the
orientation error is half a turn, the logarithm of which does not identify the rotation.  The joint is returned as fully
constrained, although two of its configurations satisfy the constraint with the same right hand side. -/
theorem C97_half_turn_refuted (jac : (Nat → ℝ) → Jac ℝ) :
    ∃ c rhs, Impl.Built (gtFn () exRobot (exAbs 1 ⟨halfX, 0⟩) noQuat (vspace 6) jac) [] (List.replicate 6 .equality) c ∧
      constrains c (ofGT (exAbs 1 ⟨halfX, 0⟩)) = (none, some 1) ∧
      ¬ Fixes exRobot (Meets (gtFn () exRobot (exAbs 1 ⟨halfX, 0⟩) noQuat (vspace 6) jac) [] (List.replicate 6 .equality) rhs)
        (constrains c (ofGT (exAbs 1 ⟨halfX, 0⟩))) := by
  obtain ⟨c, hb, hc⟩ := exists_con (gtFn () exRobot (exAbs 1 ⟨halfX, 0⟩) noQuat (vspace 6) jac) rfl .equality
  have hR : ∀ t : ℝ, rotZ t * halfX = !![Real.cos t, Real.sin t, 0; Real.sin t, -Real.cos t, 0; 0, 0, -1] := by
    intro t
    ext i j
    fin_cases i <;> fin_cases j <;> simp [rotZ, halfX, Matrix.mul_apply, Fin.sum_univ_three]
  have hv : ∀ t : ℝ, (exAbs 1 ⟨halfX, 0⟩).value noQuat (exRobot.fk (exConf t)) = list3 0 ++ list3 (logSO3 (rotZ t * halfX)) := by
    intro t
    rw [exAbs_value exRobot_ok 1 halfX_isRot, exFk, if_pos (.inl rfl)]
    simp [SE3.mul]
  have hlog : logSO3 (rotZ (-(Real.pi / 2)) * halfX) = logSO3 (rotZ (Real.pi / 2) * halfX) := by
    have ha : angle (rotZ (-(Real.pi / 2)) * halfX) = angle (rotZ (Real.pi / 2) * halfX) := by
      rw [hR, hR]; simp [angle]
    unfold logSO3
    rw [ha, hR, hR]
    simp
  refine ⟨c, (exAbs 1 ⟨halfX, 0⟩).value noQuat (exRobot.fk (exConf (Real.pi / 2))), hb, by rw [hc, exAbs_pair], fun h => ?_⟩
  rw [hc, exAbs_pair] at h
  have key : ∀ q, (exAbs 1 ⟨halfX, 0⟩).value noQuat (exRobot.fk q) = (exAbs 1 ⟨halfX, 0⟩).value noQuat (exRobot.fk (exConf (Real.pi / 2))) →
      Meets (gtFn () exRobot (exAbs 1 ⟨halfX, 0⟩) noQuat (vspace 6) jac) [] (List.replicate 6 .equality)
      ((exAbs 1 ⟨halfX, 0⟩).value noQuat (exRobot.fk (exConf (Real.pi / 2)))) q := by
    intro q hq i ty x _ hty hx
    have hty' : ty = .equality := List.eq_of_mem_replicate (List.mem_of_getElem? hty)
    subst hty'
    change (List.zipWith (· - ·) ((exAbs 1 ⟨halfX, 0⟩).value noQuat (exRobot.fk q)) _)[i]? = some x at hx
    rw [hq, List.zipWith_self] at hx
    have hm := List.mem_of_getElem? hx
    obtain ⟨y, -, rfl⟩ := List.mem_map.1 hm
    change y - y = 0
    ring
  have := h _ _ (key (exConf (Real.pi / 2)) rfl) (key (exConf (-(Real.pi / 2))) (by rw [hv, hv, hlog]))
  have e := congrArg SE3.R this
  unfold relPose at e
  simp only [poseOf, exFk, ← inv_unique one_isRot (SE3.one_mul SE3.one), SE3.one_mul] at e
  have := congrFun (congrFun e 1) 0
  simp [rotZ] at this
  norm_num at this

/-- C97 (refutation). Constant explicit constraint on variables 2 to 8 of `exRobot` (see `C96_shifted_refuted`): joint 2 and its parent
are returned as fully constrained, although the first variable of joint 2 is free. -/
theorem C97_shifted_refuted (jac : (Nat → ℝ) → Jac ℝ) (a b : List Bool) (value : List ℝ) :
    ∃ c rhs, Impl.Built (constFn () exRobot exShift [⟨2, 7⟩] value jac a b) [] (List.replicate 6 .equality) c ∧
      constrains c (ofImplicitFn exRobot 0 [⟨2, 7⟩]) = (some 1, some 2) ∧
      ¬ Fixes exRobot (Meets (constFn () exRobot exShift [⟨2, 7⟩] value jac a b) [] (List.replicate 6 .equality) rhs)
        (constrains c (ofImplicitFn exRobot 0 [⟨2, 7⟩])) := by
  obtain ⟨c, hb, hc⟩ := exists_con (constFn () exRobot exShift [⟨2, 7⟩] value jac a b) rfl .equality
  have hp := (C96_shifted_refuted jac a b).1
  refine ⟨c, exShift.diff (rview (exConf 0) [⟨2, 7⟩]) value, hb, by rw [hc, hp], fun h => ?_⟩
  rw [hc, hp] at h
  have key : ∀ q : Nat → ℝ, rview q [⟨2, 7⟩] = rview (exConf 0) [⟨2, 7⟩] →
      Meets (constFn () exRobot exShift [⟨2, 7⟩] value jac a b) [] (List.replicate 6 .equality)
      (exShift.diff (rview (exConf 0) [⟨2, 7⟩]) value) q := by
    intro q hq i ty x _ hty hx
    have hty' : ty = .equality := List.eq_of_mem_replicate (List.mem_of_getElem? hty)
    subst hty'
    change (List.zipWith (· - ·) (exShift.diff (rview q [⟨2, 7⟩]) value) _)[i]? = some x at hx
    rw [hq, List.zipWith_self] at hx
    have hm := List.mem_of_getElem? hx
    obtain ⟨y, -, rfl⟩ := List.mem_map.1 hm
    change y - y = 0
    ring
  have hfk : ∀ t : ℝ, relPose (exRobot.fk fun k => if k = 1 then t else exConf 0 k) (some 1, some 2) = ⟨1, ![t, 0, 0]⟩ := by
    intro t
    have := parent_pose exRobot_ok (fun k => if k = 1 then t else exConf 0 k) (j := 2) (by omega)
    rw [show parentJoint exRobot 2 = some 1 from rfl] at this
    rw [this]
    change SE3.one.mul (exRobot.jt 2 (exRobot.slice (fun k => if k = 1 then t else exConf 0 k) 2)) = _
    have hs : exRobot.slice (fun k => if k = 1 then t else exConf 0 k) 2 = [t, 0, 0, 0, 0, 0, 1] := by
      simp [Robot.slice, exRobot, exConf, List.range']
    have hu : Unit7 [t, 0, 0, 0, 0, 0, 1] := by simp [Unit7]
    have hj : exRobot.jt 2 [t, 0, 0, 0, 0, 0, 1] = pose7 [t, 0, 0, 0, 0, 0, 1] := by
      simp only [exRobot, if_true, hu]
    rw [hs, hj, SE3.one_mul]
    refine SE3.ext' ?_ ?_
    · ext i j
      fin_cases i <;> fin_cases j <;> simp [pose7, quatToRot]
    · funext i
      fin_cases i <;> simp [pose7]
  have := h (fun k => if k = 1 then 0 else exConf 0 k) (fun k => if k = 1 then 1 else exConf 0 k)
    (key _ (by simp [rview, indices, List.range'])) (key _ (by simp [rview, indices, List.range']))
  rw [hfk, hfk] at this
  have e := congrFun (congrArg SE3.p this) 0
  simp at e

/-- C97 (refutation of the converse). A joint that is fully constrained is not always returned: a constant explicit constraint on a
joint with one degree of freedom fixes its pose with respect to its parent, but only constraints of dimension 6 are considered. -/
theorem C97_incomplete_refuted (jac : (Nat → ℝ) → Jac ℝ) (a b : List Bool) (v x : ℝ) :
    ∃ c, Impl.Built (constFn () demoRobot (JSpace.rn 1) [⟨0, 1⟩] [v] jac a b) [] [.equality] c ∧
      ofImplicitFn demoRobot 0 [⟨0, 1⟩] = (none, some 1) ∧
      Fixes demoRobot (Meets (constFn () demoRobot (JSpace.rn 1) [⟨0, 1⟩] [v] jac a b) [] [.equality] [x]) (none, some 1) ∧
      constrains c (ofImplicitFn demoRobot 0 [⟨0, 1⟩]) = nullPair := by
  obtain ⟨c, hc⟩ : ∃ c, Impl.create (constFn () demoRobot (JSpace.rn 1) [⟨0, 1⟩] [v] jac a b) [.equality] [] = some c := by
    simp [Impl.create, Impl.mk', constFn, vspace, JSpace.rn]
  have hb : Impl.Built (constFn () demoRobot (JSpace.rn 1) [⟨0, 1⟩] [v] jac a b) [] [.equality] c := .create _ _ hc
  refine ⟨c, hb, by decide, fun q q' h h' => ?_, ?_⟩
  · have key : ∀ q : Nat → ℝ, Meets (constFn () demoRobot (JSpace.rn 1) [⟨0, 1⟩] [v] jac a b) [] [.equality] [x] q → q 0 = v + x := by
      intro q h
      have := h 0 .equality (q 0 - v - x) (.inl rfl) rfl (by
        simp [constFn, vspace, JSpace.rn, rview, indices, List.range'])
      have : q 0 - v - x = 0 := this
      linarith
    unfold relPose
    simp only [poseOf, demo_fk1, key q h, key q' h']
  · unfold constrains
    rw [hb.ok.2.1, if_pos (.inl (by simp [constFn, vspace, JSpace.rn]))]

/-! ### Concrete cases -/

/-- `C97_transformation_partial` for joint 1 of `demoRobot`: the constraint exists, the pair is returned, and the set of
configurations is not empty. -/
example (jac : (Nat → ℝ) → Jac ℝ) :
    ∃ c, Impl.Built (gtFn () demoRobot (exAbs 1 SE3.one) noQuat (vspace ((exAbs 1 SE3.one).mask.count true)) jac) []
        (List.replicate 6 .equality) c ∧ constrains c (ofGT (exAbs 1 SE3.one)) ≠ nullPair ∧
      (exAbs 1 SE3.one).Ok ∧ angle ((exAbs 1 SE3.one).relative (demoRobot.fk fun _ => 2)).R < Real.pi ∧
      (exAbs 1 SE3.one).value noQuat (demoRobot.fk fun _ => 2) = [2, 1, 0, 0, 0, 0] := by
  obtain ⟨c, hb, hc⟩ := exists_con (gtFn () demoRobot (exAbs 1 SE3.one) noQuat (vspace ((exAbs 1 SE3.one).mask.count true)) jac)
    (by simp [gtFn, vspace, exAbs]) .equality
  refine ⟨c, hb, by rw [hc, exAbs_pair]; simp [nullPair], exAbs_ok 1 one_isRot, ?_, ?_⟩
  · rw [exAbs_relative demoRobot_ok, demo_fk1, SE3.mul_one]
    simp only [angle]
    norm_num [Real.pi_pos]
  · rw [exAbs_value demoRobot_ok 1 one_isRot, demo_fk1, SE3.mul_one]
    simp [logSO3_one, list3]

/-- `R^3 x SO(3)`: difference -/
noncomputable def exR3SO3 : Space ℝ where
  nq := 7
  nv := 6
  neutral := [0, 0, 0, 0, 0, 0, 1]
  exp := fun v => config7 ⟨expSO3 ![v.getD 3 0, v.getD 4 0, v.getD 5 0], ![v.getD 0 0, v.getD 1 0, v.getD 2 0]⟩
  log := fun x => list3 (pose7 x).p ++ list3 (logSO3 (pose7 x).R)
  sub := fun x y => list3 ((pose7 x).p - (pose7 y).p) ++ list3 (logSO3 ((pose7 y).Rᵀ * (pose7 x).R))

theorem list3_zero {u : V3 ℝ} (h : list3 u = [0, 0, 0]) : u = 0 := list3_inj (v := 0) h

theorem exR3SO3_law {x y : List ℝ} (hx : Unit7 x) (hy : Unit7 y) (h : exR3SO3.sub x y = List.replicate 6 0) : pose7 x = pose7 y := by
  have h' : list3 ((pose7 x).p - (pose7 y).p) ++ list3 (logSO3 ((pose7 y).Rᵀ * (pose7 x).R)) = [0, 0, 0] ++ [0, 0, 0] := h
  obtain ⟨h1, h2⟩ := List.append_inj h' (by simp only [list3, List.length_cons, List.length_nil])
  have rx := pose7_isRot hx
  have ry := pose7_isRot hy
  have h3 := logSO3_eq_zero (ry.transpose.mul rx) (list3_zero h2)
  refine SE3.ext' ?_ (sub_eq_zero.1 (list3_zero h1))
  have := congrArg (fun A => (pose7 y).R * A) h3
  simpa only [← Matrix.mul_assoc, ry.mul_transpose, Matrix.one_mul, Matrix.mul_one] using this

/-- `C97_transformation_so3_partial` for joint 1 of `exRobot` in `R^3 x SO(3)`, frame turned by half a turn about x: the case
excluded by `C97_half_turn_refuted` -/
example (jac : (Nat → ℝ) → Jac ℝ) :
    ∃ c, Impl.Built (gtFn () exRobot { exAbs 1 ⟨halfX, 0⟩ with ose3 := true } rotToQuat exR3SO3 jac) []
        (List.replicate 6 .equality) c ∧
      Fixes exRobot (Meets (gtFn () exRobot { exAbs 1 ⟨halfX, 0⟩ with ose3 := true } rotToQuat exR3SO3 jac) []
        (List.replicate 6 .equality) [0, 0, 0, 1, 0, 0, 0]) (none, some 1) := by
  obtain ⟨c, hb, hc⟩ := exists_con (gtFn () exRobot { exAbs 1 ⟨halfX, 0⟩ with ose3 := true } rotToQuat exR3SO3 jac) rfl .equality
  have hpair : ofGT { exAbs 1 ⟨halfX, 0⟩ with ose3 := true } = (none, some 1) := exAbs_pair 1 ⟨halfX, 0⟩
  have gok : GT.Ok { exAbs 1 ⟨halfX, 0⟩ with ose3 := true } :=
    { exAbs_ok 1 (F2 := ⟨halfX, 0⟩) halfX_isRot with full := fun _ => rfl }
  refine ⟨c, hb, ?_⟩
  have := (C97_transformation_so3_partial exRobot_ok gok rfl (by simp [exR3SO3, exAbs])
    (fun x y => by simp [exR3SO3, list3]) (fun x y _ _ hx hy h => exR3SO3_law hx hy h) hb (by rw [hc, hpair]; simp [nullPair])
    (fun t ht => .inl (List.eq_of_mem_replicate ht)) (rhs := [0, 0, 0, 1, 0, 0, 0]) rfl (by simp [Unit7])).2
  rwa [hc, hpair] at this

/-- `SE(3)` with the difference of `R^3 x SO(3)` -/
noncomputable def exFree : JSpace ℝ := ⟨7, 6, fun x v => config7 ⟨(pose7 x).R * expSO3 ![v.getD 3 0, v.getD 4 0, v.getD 5 0],
  (pose7 x).p + ![v.getD 0 0, v.getD 1 0, v.getD 2 0]⟩, exR3SO3.sub⟩

/-- `C97_constant_partial` for joint 2 of `exRobot`, locked at the neutral configuration; angles less than π -/
example (jac : (Nat → ℝ) → Jac ℝ) (a b : List Bool) (c : Impl ℝ Unit)
    (h : Impl.Built (constFn () exRobot exFree [⟨1, 7⟩] [0, 0, 0, 0, 0, 0, 1] jac a b) [] (List.replicate 6 .equality) c) :
    constrains c (ofImplicitFn exRobot 0 [⟨1, 7⟩]) = (some 1, some 2) ∧
    Fixes exRobot (fun q => (Unit7 (exRobot.slice q 2) ∧ angle (pose7 (exRobot.slice q 2)).R < Real.pi) ∧
      Meets (constFn () exRobot exFree [⟨1, 7⟩] [0, 0, 0, 0, 0, 0, 1] jac a b) [] (List.replicate 6 .equality) (List.replicate 6 0) q)
      (constrains c (ofImplicitFn exRobot 0 [⟨1, 7⟩])) := by
  have hone : pose7 [0, 0, 0, 0, 0, 0, 1] = SE3.one := by
    refine SE3.ext' ?_ ?_
    · ext i j
      fin_cases i <;> fin_cases j <;> simp [pose7, quatToRot, SE3.one]
    · funext i
      fin_cases i <;> simp [pose7, SE3.one]
  have hdiff : ∀ x, exFree.diff x [0, 0, 0, 0, 0, 0, 1] = list3 (pose7 x).p ++ list3 (logSO3 (pose7 x).R) := by
    intro x
    change list3 ((pose7 x).p - (pose7 [0, 0, 0, 0, 0, 0, 1]).p) ++ list3 (logSO3 ((pose7 [0, 0, 0, 0, 0, 0, 1]).Rᵀ * (pose7 x).R)) = _
    rw [hone]
    simp [SE3.one]
  exact C97_constant_partial exRobot_ok (j := 2) (by omega) (by decide) (by decide) rfl
    (fun x => by rw [hdiff]; simp only [list3, List.length_append, List.length_cons, List.length_nil])
    (dom := fun x => Unit7 x ∧ angle (pose7 x).R < Real.pi)
    (fun x x' hx hx' e => by
      rw [hdiff, hdiff] at e
      obtain ⟨e1, e2⟩ := List.append_inj e (by simp only [list3, List.length_cons, List.length_nil])
      have : pose7 x = pose7 x' :=
        SE3.ext' (C76_injective (pose7_isRot hx.1) (pose7_isRot hx'.1) hx.2 hx'.2 (list3_inj e2)) (list3_inj e1)
      simp only [exRobot, if_true, hx.1, hx'.1, this])
    (.inl rfl) h (fun t ht => .inl (List.eq_of_mem_replicate ht)) (by simp)

/-- `C97_locked` for joint 1 of `demoRobot` -/
example : ofLocked demoRobot ["universe", "x"] "x" (some 1) = some (none, some 1) ∧
    Fixes demoRobot (fun q => (demoRobot.slice q 1).length = 1 ∧ (lockedJoint () (⟨0, 0, JSpace.rn 1⟩ : LJoint ℝ) [3]).h q = [0])
      (none, some 1) :=
  C97_locked demoRobot_ok (by omega) (by decide) rfl rfl (dom := fun x => x.length = 1)
    (fun x x' h h' e => by
      obtain ⟨a, rfl⟩ := List.length_eq_one_iff.1 h
      obtain ⟨b, rfl⟩ := List.length_eq_one_iff.1 h'
      have : a - 3 = b - 3 := List.head_eq_of_cons_eq e
      rw [sub_left_injective this]) () [0]

end Hpp.RelPose
