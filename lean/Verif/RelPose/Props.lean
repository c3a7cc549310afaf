import Verif.RelPose.Lemmas

/-!
# C96: joints on the relative pose of which a function depends
-/

namespace Hpp.RelPose

open Matrix Hpp.Sym Hpp.Pose Hpp.Contact Hpp.Log

variable {r : Robot ℝ}

theorem nullPair_le : jindex nullPair.1 ≤ jindex nullPair.2 := le_refl _

theorem rank_joint (ok : r.Ok) {j k : Nat} (hj : 0 < j) (hn : j < r.njoints) (h1 : r.idxq j ≤ k) (h2 : k < r.idxq j + r.jnq j) :
    jointAtConfigRank r k = some j := by
  unfold jointAtConfigRank
  have hmem : j ∈ (List.range r.njoints).drop 1 := by
    rw [List.range_eq_range', List.drop_range', List.mem_range'_1]
    omega
  cases hf : ((List.range r.njoints).drop 1).find? fun j => decide (r.idxq j ≤ k ∧ k < r.idxq j + r.jnq j) with
  | none =>
    have := List.find?_eq_none.1 hf j hmem
    exact absurd (decide_eq_true ⟨h1, h2⟩) this
  | some i =>
    have hi := List.find?_some hf
    have hi := of_decide_eq_true hi
    have him := List.mem_of_find?_eq_some hf
    rw [List.range_eq_range', List.drop_range', List.mem_range'_1] at him
    rw [ok.qdisj i j k (by omega) hj (by omega) hn hi.1 hi.2 h1 h2]

/-- C96. The joints are returned in the order of increasing indices: by the functions and by the constraints. -/
theorem C96_ordered (r : Robot ℝ) (g : GT) (f : RelTr) (k : Contact.Fn) (inputSize : Nat) (out : Segs) :
    jindex (ofGT g).1 ≤ jindex (ofGT g).2 ∧ jindex (ofRelTr f).1 ≤ jindex (ofRelTr f).2 ∧
    jindex (ofContact k).1 ≤ jindex (ofContact k).2 ∧
    jindex (ofImplicitFn r inputSize out).1 ≤ jindex (ofImplicitFn r inputSize out).2 ∧
    ∀ (names : List String) (name : String) (joint : Option Nat) (p : JPair), ofLocked r names name joint = some p →
      jindex p.1 ≤ jindex p.2 := by
  refine ⟨ordered_le _ _, ordered_le _ _, ?_, ?_, ?_⟩
  · unfold ofContact
    split
    · exact nullPair_le
    · exact nullPair_le
    · split
      · exact nullPair_le
      · split
        · exact nullPair_le
        · exact ordered_le _ _
  · unfold ofImplicitFn
    split
    · exact nullPair_le
    · split
      · split
        · exact nullPair_le
        · split
          · exact nullPair_le
          · exact ordered_le _ _
      · exact nullPair_le
  · intro names name joint p h
    unfold ofLocked at h
    split at h
    · injection h with h; subst h; exact nullPair_le
    · cases joint with
      | none => exact absurd h (by simp)
      | some j =>
        injection h with h
        subst h
        exact ordered_le _ _

/-- C96. The value of a position, orientation or transformation constraint, absolute or relative, depends only on the relative pose
of the joints returned. -/
theorem C96_generic (ok : r.Ok) (g : GT) (quat : M3 ℝ → List ℝ) : DependsOnly r (fun q => g.value quat (r.fk q)) (ofGT g) := by
  intro q q' h
  have h' := (relPose_ordered (Robot.fk_rot ok q) (Robot.fk_rot ok q') _ _).1 h
  change g.value quat (r.fk q) = g.value quat (r.fk q')
  unfold GT.value
  rw [value_congr ok g quat (q := q) (q' := q') (by rw [relative_relPose ok, relative_relPose ok, h'])]

/-- C96. The values of the contact function, of its complement and of their combination depend only on the relative pose of the
joints returned. -/
theorem C96_contact (ok : r.Ok) (f : Contact.Fn) (h : ofContact f ≠ nullPair) :
    DependsOnly r (fun q => f.value (r.fk q)) (ofContact f) ∧ DependsOnly r (fun q => f.complement (r.fk q)) (ofContact f) ∧
    DependsOnly r (fun q => f.hold (r.fk q)) (ofContact f) := by
  have h1 : DependsOnly r (fun q => f.value (r.fk q)) (ofContact f) := by
    intro q q' he
    obtain ⟨e1, e2⟩ := contact_moved ok h he
    change f.value _ = f.value _
    unfold Contact.Fn.value
    rw [← e1]
    cases hp : f.pick (r.fk q) with
    | error e => rfl
    | ok p => dsimp only; rw [e2 p hp]
  have h2 : DependsOnly r (fun q => f.complement (r.fk q)) (ofContact f) := by
    intro q q' he
    obtain ⟨e1, e2⟩ := contact_moved ok h he
    change f.complement _ = f.complement _
    unfold Contact.Fn.complement
    rw [← e1]
    cases hp : f.pick (r.fk q) with
    | error e => rfl
    | ok p => dsimp only; rw [e2 p hp]
  refine ⟨h1, h2, fun q q' he => ?_⟩
  have e1 : f.value (r.fk q) = f.value (r.fk q') := h1 q q' he
  have e2 : f.complement (r.fk q) = f.complement (r.fk q') := h2 q q' he
  change f.hold _ = f.hold _
  unfold Contact.Fn.hold
  rw [e1, e2]

/-- C96. When surfaces of the same kind are on joints of different indices, or when there is no surface of a kind, the pair is null. -/
theorem C96_contact_null (f : Contact.Fn)
    (h : f.floors = [] ∨ f.objects = [] ∨ (∃ s ∈ f.floors, ∃ t ∈ f.floors, s.joint.getD 0 ≠ t.joint.getD 0) ∨
      ∃ s ∈ f.objects, ∃ t ∈ f.objects, s.joint.getD 0 ≠ t.joint.getD 0) : ofContact f = nullPair := by
  by_contra hne
  obtain ⟨a, b, -, hf, ho⟩ := ofContact_ne_null hne
  rcases h with h | h | ⟨s, hs, t, ht, h⟩ | ⟨s, hs, t, ht, h⟩
  · exact hne (by unfold ofContact; rw [h])
  · exact hne (by unfold ofContact; rw [h]; cases f.floors <;> rfl)
  · exact h ((hf s hs).trans (hf t ht).symm)
  · exact h ((ho s hs).trans (ho t ht).symm)

/-- C96. The implicit form of an explicit function that has inputs, or whose output variables are not consecutive, returns the null
pair; so does a constant function whose output variables are not as many as those of the joint of the first one. -/
theorem C96_implicit_null (ok : r.Ok) (inputSize : Nat) (out : Segs)
    (h : inputSize ≠ 0 ∨ out.length ≠ 1 ∨ ∃ j first len, 0 < j ∧ j < r.njoints ∧ out = [⟨first, len⟩] ∧ r.idxq j ≤ first ∧
      first < r.idxq j + r.jnq j ∧ len ≠ r.jnq j) : ofImplicitFn r inputSize out = nullPair := by
  unfold ofImplicitFn
  split
  · rfl
  · rename_i h0
    rcases h with h | h | ⟨j, first, len, hj, hn, rfl, h1, h2, h3⟩
    · exact absurd h h0
    · split
      · exact absurd rfl h
      · rfl
    · dsimp only
      rw [rank_joint ok hj hn h1 h2]
      dsimp only
      rw [if_pos h3]

/-- C96 (partial: the pair is not the one returned, see `C96_explicit_refuted`). The value of `explicit_::RelativeTransformation`
depends only on the relative pose of `joint1` and of the parent of `joint2`. -/
theorem C96_explicit_partial {f : RelTr} (ok : f.Ok) :
    DependsOnly f.robot (fun q => f.compute q (rview q f.inConf)) (ordered f.joint1 (parentJoint f.robot f.joint2)) := by
  intro q q' h
  have h' := (relPose_ordered (Robot.fk_rot ok.robot q) (Robot.fk_rot ok.robot q') _ _).1 h
  have key : ∀ q, f.compute q (rview q f.inConf) = (f.robot.placement f.joint2).inv.mul
      ((relPose (f.robot.fk q) (f.joint1, parentJoint f.robot f.joint2)).inv.mul f.F1F2inv) := by
    intro q
    have hc : f.fkConfig q (rview q f.inConf) = q := if_neg (by simp)
    have hp : poseOf (f.robot.fk q) (parentJoint f.robot f.joint2) = f.robot.fk q (f.robot.parent f.joint2) := by
      rw [poseOf_fk]
      unfold parentJoint
      split
      · rename_i h0; rw [h0]; rfl
      · rfl
    rw [← relPose_flip (Robot.fk_rot ok.robot q)]
    unfold RelTr.compute relPose
    dsimp only
    rw [hc, hp, SE3.actInv_eq, SE3.mul_assoc]
    congr 1
    have hx : ∀ X : SE3 ℝ, (if f.hasParent then (f.robot.fk q (f.robot.parent f.joint2)).actInv X else X) =
        (f.robot.fk q (f.robot.parent f.joint2)).inv.mul X := by
      intro X
      unfold RelTr.hasParent
      by_cases h0 : 0 < f.robot.parent f.joint2
      · rw [if_pos (decide_eq_true h0), SE3.actInv_eq]
      · rw [if_neg (by simpa using h0), show f.robot.parent f.joint2 = 0 by omega]
        change _ = SE3.one.inv.mul _
        rw [← inv_unique one_isRot (SE3.one_mul SE3.one), SE3.one_mul]
    rw [hx]
    congr 1
    cases f.joint1 with
    | none => simp [poseOf, SE3.one_mul]
    | some j => rfl
  change f.compute _ _ = f.compute _ _
  rw [key, key, h']

/-! ### Concrete cases -/

/-- Joint 2 relative to joint 3 of `exRobot`: joint 1 and joint 3 are fixed to the world, joint 2 moves freely and is attached to
joint 1. -/
noncomputable def exRel0 : RelTr := ⟨exRobot, some 3, 2, SE3.one, SE3.one⟩

/-- Joints 2 and 3 turned by half a turn -/
noncomputable def exTurn : Nat → ℝ := fun k => if k = 6 then 1 else if k = 8 then Real.pi else 0

theorem exTurn_fk3 : exRobot.fk exTurn 3 = ⟨rotZ Real.pi, 0⟩ := by
  rw [Robot.fk_step exRobot_ok _ (by omega)]
  change (exRobot.fk exTurn 0).mul (SE3.one.mul ⟨rotZ (exTurn 8), 0⟩) = _
  change SE3.one.mul _ = _
  rw [SE3.one_mul, SE3.one_mul]
  simp [exTurn]

theorem exTurn_fk1 : exRobot.fk exTurn 1 = SE3.one := by
  rw [Robot.fk_step exRobot_ok _ (by omega)]
  change SE3.one.mul (SE3.one.mul ⟨rotZ (exTurn 0), 0⟩) = _
  rw [SE3.one_mul, SE3.one_mul]
  simp [exTurn, rotZ_zero, SE3.one]

theorem exTurn_fk2 : exRobot.fk exTurn 2 = ⟨rotZ Real.pi, 0⟩ := by
  rw [Robot.fk_step exRobot_ok _ (by omega)]
  change (exRobot.fk exTurn 1).mul (SE3.one.mul (exRobot.jt 2 (exRobot.slice exTurn 2))) = _
  have hs : exRobot.slice exTurn 2 = [0, 0, 0, 0, 0, 1, 0] := by
    simp [Robot.slice, exRobot, exTurn, List.range']
  have hu : Unit7 [0, 0, 0, 0, 0, 1, 0] := by simp [Unit7]
  have hj : exRobot.jt 2 [0, 0, 0, 0, 0, 1, 0] = pose7 [0, 0, 0, 0, 0, 1, 0] := by
    simp only [exRobot, if_true, hu]
  rw [exTurn_fk1, SE3.one_mul, SE3.one_mul, hs, hj]
  refine SE3.ext' ?_ ?_
  · ext i j
    fin_cases i <;> fin_cases j <;> norm_num [pose7, quatToRot, rotZ]
  · funext i
    fin_cases i <;> simp [pose7]

/-- C96 (refutation). The value of `explicit_::RelativeTransformation` does not depend on the relative pose of the joints returned
only: when both joints are turned together their relative pose is the same, the value is not. -/
theorem C96_explicit_refuted :
    exRel0.Ok ∧ ofRelTr exRel0 = (some 2, some 3) ∧
      ¬ DependsOnly exRel0.robot (fun q => exRel0.compute q (rview q exRel0.inConf)) (ofRelTr exRel0) := by
  have ok : exRel0.Ok := ⟨exRobot_ok, by decide, by decide, by decide, one_isRot, one_isRot⟩
  refine ⟨ok, rfl, fun h => ?_⟩
  have hr : relPose (exRobot.fk (exConf 0)) (ofRelTr exRel0) = relPose (exRobot.fk exTurn) (ofRelTr exRel0) := by
    change (exRobot.fk (exConf 0) 2).inv.mul (exRobot.fk (exConf 0) 3) = (exRobot.fk exTurn 2).inv.mul (exRobot.fk exTurn 3)
    rw [exTurn_fk2, exTurn_fk3, exFk, exFk, if_pos (by omega), if_neg (by omega), SE3.inv_mul (rotZ_isRot _), rotZ_zero]
    exact SE3.inv_mul (A := ⟨1, 0⟩) one_isRot
  have hv := h _ _ hr
  have hc : ∀ q : Nat → ℝ, exRel0.compute q (rview q exRel0.inConf) =
      SE3.one.actInv ((exRobot.fk q 1).actInv ((exRobot.fk q 3).mul (SE3.one.mul SE3.one.inv))) := by
    intro q
    have hc : exRel0.fkConfig q (rview q exRel0.inConf) = q := if_neg (by simp)
    unfold RelTr.compute
    dsimp only
    rw [hc]
    rfl
  change exRel0.compute _ _ = exRel0.compute _ _ at hv
  rw [hc, hc, exTurn_fk1, exTurn_fk3, exFk, exFk, if_pos (by omega), if_neg (by omega), rotZ_zero] at hv
  have := congrFun (congrFun (congrArg SE3.R hv) 0) 0
  simp [SE3.actInv, SE3.mul, SE3.one, SE3.inv, rotZ] at this
  norm_num at this

/-- `R^2 x SO(3) x R` -/
noncomputable def exShift : JSpace ℝ where
  nq := 7
  nv := 6
  integrate := fun x v => [x.getD 0 0 + v.getD 0 0, x.getD 1 0 + v.getD 1 0] ++
    rotToQuat (quatToRot (x.getD 2 0) (x.getD 3 0) (x.getD 4 0) (x.getD 5 0) * expSO3 ![v.getD 2 0, v.getD 3 0, v.getD 4 0]) ++
    [x.getD 6 0 + v.getD 5 0]
  diff := fun x y => [x.getD 0 0 - y.getD 0 0, x.getD 1 0 - y.getD 1 0] ++
    list3 (logSO3 ((quatToRot (y.getD 2 0) (y.getD 3 0) (y.getD 4 0) (y.getD 5 0))ᵀ *
      quatToRot (x.getD 2 0) (x.getD 3 0) (x.getD 4 0) (x.getD 5 0))) ++ [x.getD 6 0 - y.getD 6 0]

/-- C96 (refutation). Constant explicit constraint on the 7 variables of rank 2 to 8 of `exRobot`, that start in the middle of the
variables of joint 2 and end with the variable of joint 3: the pair is joint 2 and its parent, but the value depends on joint 3. -/
theorem C96_shifted_refuted (jac : (Nat → ℝ) → Jac ℝ) (a b : List Bool) :
    ofImplicitFn exRobot 0 [⟨2, 7⟩] = (some 1, some 2) ∧
      ¬ DependsOnly exRobot (constFn () exRobot exShift [⟨2, 7⟩] [0, 0, 0, 0, 0, 1, 0] jac a b).value
        (ofImplicitFn exRobot 0 [⟨2, 7⟩]) := by
  have hp : ofImplicitFn exRobot 0 [⟨2, 7⟩] = (some 1, some 2) := by
    have : jointAtConfigRank exRobot 2 = some 2 := by decide
    unfold ofImplicitFn
    rw [if_neg (by omega)]
    dsimp only
    rw [this]
    rfl
  refine ⟨hp, fun h => ?_⟩
  rw [hp] at h
  have hv := h (exConf 0) (fun k => if k = 8 then 1 else exConf 0 k) ?_
  · have := congrArg (fun l : List ℝ => l.getD 5 0) hv
    simp [constFn, exShift, rview, indices, list3, exConf, List.range'] at this
  · have hstep : ∀ (q q' : Nat → ℝ), (∀ k, k < 8 → q k = q' k) → ∀ j, j = 1 ∨ j = 2 → exRobot.fk q j = exRobot.fk q' j := by
      intro q q' e
      have e1 : exRobot.fk q 1 = exRobot.fk q' 1 := by
        rw [Robot.fk_step exRobot_ok q (by omega), Robot.fk_step exRobot_ok q' (by omega)]
        change SE3.one.mul (SE3.one.mul ⟨rotZ (q 0), 0⟩) = SE3.one.mul (SE3.one.mul ⟨rotZ (q' 0), 0⟩)
        rw [e 0 (by omega)]
      have e2 : exRobot.fk q 2 = exRobot.fk q' 2 := by
        rw [Robot.fk_step exRobot_ok q (by omega), Robot.fk_step exRobot_ok q' (by omega)]
        change (exRobot.fk q 1).mul (SE3.one.mul (exRobot.jt 2 (exRobot.slice q 2))) =
          (exRobot.fk q' 1).mul (SE3.one.mul (exRobot.jt 2 (exRobot.slice q' 2)))
        have : exRobot.slice q 2 = exRobot.slice q' 2 := by
          simp [Robot.slice, exRobot, List.range', e]
        rw [e1, this]
      rintro j (rfl | rfl)
      · exact e1
      · exact e2
    have hq : ∀ k, k < 8 → exConf 0 k = if k = 8 then 1 else exConf 0 k := fun k hk => by
      rw [if_neg (by omega)]
    change (exRobot.fk _ 1).inv.mul (exRobot.fk _ 2) = (exRobot.fk _ 1).inv.mul (exRobot.fk _ 2)
    rw [hstep _ _ hq 1 (.inl rfl), hstep _ _ hq 2 (.inr rfl)]

/-- The hypotheses of `C96_contact` are met: a floor of the world and an object on joint 1; for another floor on joint 2 the pair is
null. -/
example : ∃ s : Shape, ofContact ⟨[⟨s, none⟩], [⟨s, some 1⟩], 0⟩ = (none, some 1) ∧
    ofContact ⟨[⟨s, none⟩, ⟨s, some 2⟩], [⟨s, some 1⟩], 0⟩ = nullPair := by
  obtain ⟨s, -⟩ := new_defined (P := [0]) (by simp) [] []
  exact ⟨s, by simp [ofContact, ordered, jindex], by simp [ofContact, jindex]⟩

/-- `C96_generic` on joints 1 and 2 of `demoRobot`, given in decreasing order -/
example (quat : M3 ℝ → List ℝ) : DependsOnly demoRobot
    (fun q => (⟨true, true, true, false, some 2, some 1, SE3.one, SE3.one, List.replicate 6 true⟩ : GT).value quat (demoRobot.fk q))
    (some 1, some 2) :=
  C96_generic demoRobot_ok ⟨true, true, true, false, some 2, some 1, SE3.one, SE3.one, List.replicate 6 true⟩ quat

end Hpp.RelPose
