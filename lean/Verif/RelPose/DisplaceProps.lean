import Verif.RelPose.Props
import Verif.Com.BetweenProps
import Verif.Dist.Props
import Verif.Stab.QpProps
import Verif.Contact.FuncPoints

/-!
# C136: functions that do not change when the robot is displaced as a whole

The robot goes from one state to another one by a rigid displacement `D`: the positions of the joints that the function uses, and of
the center of mass, are those of the first state followed by `D`. The Jacobians of the joints, which give velocities in the frames of
the joints, are the same.
-/

namespace Hpp.RelPose

open Matrix Hpp.Sym Hpp.Pose Hpp.Contact Hpp.Log

variable {n e : Nat} {D : SE3 ℝ}

/-! ### Specification -/

/-- Joint `j` is displaced, with the same velocities in its own frame. -/
structure KinMoved (D : SE3 ℝ) (K K' : Kin n) (j : Nat) : Prop where
  M : K'.M j = D.mul (K.M j)
  Jv : K'.Jv j = K.Jv j
  Jw : K'.Jw j = K.Jw j

/-- Joint `j` is displaced (states with a center of mass). -/
structure JointMoved (D : SE3 ℝ) (w w' : World ℝ n) (j : Nat) : Prop where
  R : w'.R j = D.R * w.R j
  p : w'.p j = D.R *ᵥ w.p j + D.p
  Jv : w'.Jv j = w.Jv j
  Jw : w'.Jw j = w.Jw j

/-- The center of mass is displaced. -/
structure ComMoved (D : SE3 ℝ) (w w' : World ℝ n) (c : Nat) : Prop where
  com : w'.com c = D.R *ᵥ w.com c + D.p
  Jcom : w'.Jcom c = D.R * w.Jcom c

/-- The displacement leaves the vertical direction unchanged: translation and rotation about a vertical axis. -/
def Upright (D : SE3 ℝ) : Prop := D.R *ᵥ ![0, 0, 1] = ![0, 0, 1]

/-! ### Changing the variables of the root joint -/

/-- C136. Changing only the configuration variables of a joint from which all the joints of the robot descend displaces all of them by
the same rigid displacement. -/
theorem C136_root {r : Robot ℝ} (ok : r.Ok) {a : Nat} (ha : a < r.njoints) (hroot : ∀ j, 0 < j → j < r.njoints → r.Anc a j)
    (q q' : Nat → ℝ) (h : ∀ k, ¬ r.QVar a k → q' k = q k) :
    ∃ D : SE3 ℝ, IsRot D.R ∧ ∀ j, 0 < j → j < r.njoints → r.fk q' j = D.mul (r.fk q j) := by
  refine ⟨(r.fk q' a).mul (r.fk q a).inv, SE3.mul_rot (Robot.fk_rot ok q' a) (SE3.inv_rot (Robot.fk_rot ok q a)), ?_⟩
  intro j
  induction j using Nat.strong_induction_on with
  | _ j ih =>
    intro h0 hj
    rcases eq_or_ne j a with rfl | hne
    · rw [SE3.mul_assoc, SE3.inv_mul (Robot.fk_rot ok q j), SE3.mul_one]
    · have hanc : r.Anc a (r.parent j) := by
        cases hroot j h0 hj with
        | self _ => exact absurd rfl hne
        | up _ h' => exact h'
      have hp : 0 < r.parent j := lt_of_lt_of_le (hanc.le ok.parent_lt).2 (hanc.le ok.parent_lt).1
      have hlt := ok.parent_lt j h0
      have hl : r.local_ q' j = r.local_ q j := by
        unfold Robot.local_ Robot.slice
        congr 2
        refine List.map_congr_left fun k hk => ?_
        rw [List.mem_range'_1] at hk
        refine h k fun hv => hne ?_
        exact ok.qdisj j a k h0 (hanc.le ok.parent_lt).2 hj ha hk.1 hk.2 hv.1 hv.2
      rw [Robot.fk_step ok q' h0, Robot.fk_step ok q h0, hl, ih _ hlt hp (by omega), SE3.mul_assoc]

/-! ### Relative transformations -/

theorem rotT_mul (hD : IsRot D.R) (A B : M3 ℝ) : (D.R * A)ᵀ * (D.R * B) = Aᵀ * B := by
  rw [transpose_mul, Matrix.mul_assoc, ← Matrix.mul_assoc D.Rᵀ, hD.1, Matrix.one_mul]

theorem rotT_mulVec (hD : IsRot D.R) (A : M3 ℝ) (x : V3 ℝ) : (D.R * A)ᵀ *ᵥ (D.R *ᵥ x) = Aᵀ *ᵥ x := by
  rw [transpose_mul, mulVec_mulVec, Matrix.mul_assoc, hD.1, Matrix.mul_one]

theorem colCross_moved (hD : IsRot D.R) (A : M3 ℝ) (c : V3 ℝ) : colCross (D.R * A) (D.R *ᵥ c) = D.R * colCross A c := by
  rw [colCross_eq, colCross_eq, Matrix.mul_neg, ← Matrix.mul_assoc, ← Matrix.mul_assoc, hD.mul_hat]

theorem moved_p_sub (A B : SE3 ℝ) : (D.mul A).p - (D.mul B).p = D.R *ᵥ (A.p - B.p) := by
  simp only [SE3.mul, mulVec_sub]
  abel

theorem actInv_moved (hD : IsRot D.R) (A B : SE3 ℝ) : (D.mul A).actInv (D.mul B) = A.actInv B := by
  refine SE3.ext' ?_ ?_
  · exact rotT_mul hD _ _
  · change (D.R * A.R)ᵀ *ᵥ _ = _
    rw [moved_p_sub, rotT_mulVec hD]
    rfl

section
variable {g : GT} {M M' : Nat → SE3 ℝ} {a b : Nat}

theorem transform_moved (hD : IsRot D.R) (h1 : g.j1 = some a) (h2 : g.joint2 = some b) (ha : M' a = D.mul (M a))
    (hb : M' b = D.mul (M b)) : g.transform M' = g.transform M := by
  unfold GT.transform GT.M2
  rw [h1, h2]
  dsimp only
  rw [ha, hb, SE3.mul_assoc, actInv_moved hD]

theorem translation_moved (hD : IsRot D.R) (h1 : g.j1 = some a) (h2 : g.joint2 = some b) (ha : M' a = D.mul (M a))
    (hb : M' b = D.mul (M b)) : g.translation M' = g.translation M := by
  have e : (M' a).Rᵀ *ᵥ ((M' b).act g.F2.p - (M' a).p) = (M a).Rᵀ *ᵥ ((M b).act g.F2.p - (M a).p) := by
    rw [ha, hb]
    have : (D.mul (M b)).act g.F2.p - (D.mul (M a)).p = D.R *ᵥ ((M b).act g.F2.p - (M a).p) := by
      simp only [SE3.act, SE3.mul, mulVec_sub, mulVec_add, mulVec_mulVec]
      abel
    rw [this]
    exact rotT_mulVec hD _ _
  unfold GT.translation GT.M2
  rw [h1, h2]
  dsimp only
  rw [e]

theorem rawValue_moved (hD : IsRot D.R) (quat : M3 ℝ → List ℝ) (h1 : g.j1 = some a) (h2 : g.joint2 = some b)
    (ha : M' a = D.mul (M a)) (hb : M' b = D.mul (M b)) : g.rawValue quat M' = g.rawValue quat M := by
  unfold GT.rawValue
  rw [transform_moved hD h1 h2 ha hb, translation_moved hD h1 h2 ha hb]

/-- C136. The value and the Jacobian of a relative position, orientation or transformation do not change, for all masks and all
frames in the joints. -/
theorem C136_relative_transformation (hD : IsRot D.R) (quat : M3 ℝ → List ℝ) {K K' : Kin n} (h1 : g.j1 = some a)
    (h2 : g.joint2 = some b) (ha : KinMoved D K K' a) (hb : KinMoved D K K' b) (C : Rows n) (J : Rows2 n e) :
    g.value quat K'.M = g.value quat K.M ∧ g.jacobian K' C J = g.jacobian K C J := by
  constructor
  · unfold GT.value
    rw [rawValue_moved hD quat h1 h2 ha.M hb.M]
  · have hM2 : g.M2 K.M = K.M b := by unfold GT.M2; rw [h2]
    have hM2' : g.M2 K'.M = D.mul (K.M b) := by unfold GT.M2; rw [h2]; exact hb.M
    have hc2 : g.cross2 K'.M = D.R *ᵥ g.cross2 K.M := by
      rw [GT.cross2_eq, GT.cross2_eq, ← GT.M2_eq, ← GT.M2_eq, hM2, hM2', mulVec_mulVec]
      rfl
    have hc1 : g.cross2 K'.M + (D.mul (K.M b)).p - (D.mul (K.M a)).p = D.R *ᵥ (g.cross2 K.M + (K.M b).p - (K.M a).p) := by
      rw [add_sub_assoc, moved_p_sub, hc2, ← mulVec_add, add_sub_assoc]
    have hjl : g.jlogFrom1 K'.M = g.jlogFrom1 K.M := by
      have e : (D.R * (K.M b).R)ᵀ * (D.R * (K.M a).R) = (K.M b).Rᵀ * (K.M a).R := rotT_mul hD _ _
      unfold GT.jlogFrom1
      rw [transform_moved hD h1 h2 ha.M hb.M, hM2, hM2', h1]
      dsimp only
      rw [ha.M, Matrix.mul_assoc, Matrix.mul_assoc]
      change (if _ then g.F2.Rᵀ * ((D.R * (K.M b).R)ᵀ * (D.R * (K.M a).R)) else _) = _
      rw [e]
    have hjt : g.jtranslation K' = g.jtranslation K := by
      unfold GT.jtranslation
      rw [h1, h2, hM2, hM2']
      dsimp only
      rw [ha.M, hc1, ha.Jv, ha.Jw, hb.Jv, hb.Jw, hc2]
      have e1 : -(D.mul (K.M a)).Rᵀ * colCross (D.mul (K.M a)).R (D.R *ᵥ (g.cross2 K.M + (K.M b).p - (K.M a).p)) =
          -(K.M a).Rᵀ * colCross (K.M a).R (g.cross2 K.M + (K.M b).p - (K.M a).p) := by
        change -(D.R * (K.M a).R)ᵀ * colCross (D.R * (K.M a).R) _ = _
        rw [colCross_moved hD, Matrix.neg_mul, rotT_mul hD, Matrix.neg_mul]
      have e2 : (D.mul (K.M a)).Rᵀ * (D.mul (K.M b)).R = (K.M a).Rᵀ * (K.M b).R := rotT_mul hD _ _
      have e3 : (D.mul (K.M a)).Rᵀ * colCross (D.mul (K.M b)).R (D.R *ᵥ g.cross2 K.M) =
          (K.M a).Rᵀ * colCross (K.M b).R (g.cross2 K.M) := by
        change (D.R * (K.M a).R)ᵀ * colCross (D.R * (K.M b).R) _ = _
        rw [colCross_moved hD, rotT_mul hD]
      rw [e1, e2, e3]
    have hjo : g.jorientation K' = g.jorientation K := by
      unfold GT.jorientation
      rw [h1, h2, hM2, hM2', hjl]
      dsimp only
      rw [ha.M, ha.Jw, hb.Jw]
      have e2 : (D.mul (K.M a)).Rᵀ * (D.mul (K.M b)).R = (K.M a).Rᵀ * (K.M b).R := rotT_mul hD _ _
      rw [e2]
    unfold GT.jacobian GT.writeTranslation GT.writeOrientation
    rw [hjt, hjo]

end

/-- C136 does not hold for absolute positions. -/
theorem C136_absolute_refuted : ∃ (g : GT) (M M' : Nat → SE3 ℝ) (D : SE3 ℝ), g.rel = false ∧ IsRot D.R ∧
    (∀ j, M' j = D.mul (M j)) ∧ g.value (fun _ => []) M' ≠ g.value (fun _ => []) M := by
  refine ⟨⟨false, true, false, false, none, some 1, SE3.one, SE3.one, [true, true, true]⟩, fun _ => SE3.one,
    fun _ => ⟨1, ![1, 0, 0]⟩, ⟨1, ![1, 0, 0]⟩, rfl, one_isRot, fun j => (SE3.mul_one _).symm, ?_⟩
  intro h
  have h := congrArg (fun l => l.getD 0 0) h
  have hm : indices (fromLogical [true, true, true]) = [0, 1, 2] := by
    simp [fromLogical, onesFrom, shrink, shrinkLoop, indices, compEndFirst, Seg.stop]
    decide
  simp [GT.value, GT.rawValue, GT.translation, GT.valueMask, GT.j1, GT.M2, SE3.act, SE3.one, GT.t1isZero, GT.R1isID, list3, lread, hm] at h

/-! ### Center of mass, distance -/

/-- C136. The position of the center of mass in the frame of a joint, and its Jacobian, do not change. -/
theorem C136_relative_com (hD : IsRot D.R) (f : Com.RelCom) {w w' : World ℝ n} (hj : JointMoved D w w' f.joint)
    (hc : ComMoved D w w' f.comc) (out : Nat → ℝ) (J : Rows2 n e) : f.value w' out = f.value w out ∧ f.jacobian w' J = f.jacobian w J := by
  have e1 : ∀ x y : V3 ℝ, (D.R *ᵥ x + D.p) - (D.R *ᵥ y + D.p) = D.R *ᵥ (x - y) := fun x y => by rw [mulVec_sub]; abel
  constructor
  · unfold Com.RelCom.value
    rw [hj.R, hj.p, hc.com, e1, rotT_mulVec hD]
  · unfold Com.RelCom.jacobian
    rw [hj.R, hj.p, hc.com, hc.Jcom, hj.Jw, hj.Jv, e1, colCross_moved hD, rotT_mul hD]
    have : (D.R * w.R f.joint)ᵀ * (D.R * w.Jcom f.comc) = (w.R f.joint)ᵀ * w.Jcom f.comc := by
      rw [transpose_mul, Matrix.mul_assoc, ← Matrix.mul_assoc D.Rᵀ, hD.1, Matrix.one_mul]
    rw [this]

theorem dot_moved (hD : IsRot D.R) (x y : V3 ℝ) : (D.R *ᵥ x) ⬝ᵥ (D.R *ᵥ y) = x ⬝ᵥ y := by
  rw [dotProduct_mulVec, ← mulVec_transpose, mulVec_mulVec, hD.1, one_mulVec]

/-- C136. Position of the center of mass with respect to the feet: the outputs other than the height do not change; the height changes
by the change of height of the center of mass. Whatever was evaluated before. -/
theorem C136_feet (hD : IsRot D.R) {f : Com.Between} (h4 : f.mask.length = 4) {w w' : World ℝ n} (hL : JointMoved D w w' f.jL)
    (hR : JointMoved D w w' f.jR) (hr : JointMoved D w w' f.jRef) (hc : ComMoved D w w' f.comc) (m m' : Com.BMem n)
    (out out' : Nat → ℝ) {k i : Nat} (h : Com.IsOutput f.mask k i) :
    (f.value w' m' out').out k = (f.value w m out).out k + if i = 0 then w'.com f.comc 2 - w.com f.comc 2 else 0 := by
  rw [Com.C79_value h4 w' m' out' h, Com.C79_value h4 w m out h]
  have eL : w'.R f.jL *ᵥ f.pL + w'.p f.jL = D.R *ᵥ (w.R f.jL *ᵥ f.pL + w.p f.jL) + D.p := by
    rw [hL.R, hL.p, mulVec_add, mulVec_mulVec, add_assoc]
  have eR : w'.R f.jR *ᵥ f.pR + w'.p f.jR = D.R *ᵥ (w.R f.jR *ᵥ f.pR + w.p f.jR) + D.p := by
    rw [hR.R, hR.p, mulVec_add, mulVec_mulVec, add_assoc]
  have e1 : ∀ x y : V3 ℝ, (D.R *ᵥ x + D.p) - (D.R *ᵥ y + D.p) = D.R *ᵥ (x - y) := fun x y => by rw [mulVec_sub]; abel
  have e2 : ∀ x y z : V3 ℝ, (D.R *ᵥ x + D.p) - (1 / 2 : ℝ) • ((D.R *ᵥ y + D.p) + (D.R *ᵥ z + D.p)) =
      D.R *ᵥ (x - (1 / 2 : ℝ) • (y + z)) := fun x y z => by
    rw [mulVec_sub, mulVec_smul, mulVec_add]
    module
  unfold Com.Between.component
  dsimp only
  rw [eL, eR]
  generalize w.R f.jL *ᵥ f.pL + w.p f.jL = xL
  generalize w.R f.jR *ᵥ f.pR + w.p f.jR = xR
  match i with
  | 0 =>
    rw [if_pos rfl]
    change w'.com f.comc 2 - f.pRef 2 = w.com f.comc 2 - f.pRef 2 + _
    ring
  | 1 =>
    rw [if_neg (by omega), add_zero]
    change ((w'.R f.jRef)ᵀ *ᵥ crossProduct (w'.com f.comc - (1 / 2 : ℝ) • ((D.R *ᵥ xL + D.p) + (D.R *ᵥ xR + D.p)))
      ((D.R *ᵥ xR + D.p) - (D.R *ᵥ xL + D.p))) 2 = ((w.R f.jRef)ᵀ *ᵥ crossProduct (w.com f.comc - (1 / 2 : ℝ) • (xL + xR)) (xR - xL)) 2
    rw [hc.com, e2, e1, hD.cross, hr.R, rotT_mulVec hD]
  | 2 =>
    rw [if_neg (by omega), add_zero]
    change (w'.com f.comc - (D.R *ᵥ xL + D.p)) ⬝ᵥ ((D.R *ᵥ xR + D.p) - (D.R *ᵥ xL + D.p)) = (w.com f.comc - xL) ⬝ᵥ (xR - xL)
    rw [hc.com, e1, e1, dot_moved hD]
  | i + 3 =>
    rw [if_neg (by omega), add_zero]
    change (w'.com f.comc - (D.R *ᵥ xR + D.p)) ⬝ᵥ ((D.R *ᵥ xR + D.p) - (D.R *ᵥ xL + D.p)) = (w.com f.comc - xR) ⬝ᵥ (xR - xL)
    rw [hc.com, e1, e1, dot_moved hD]

/-- C136. The distance between points of two joints does not change, whatever was done before with the function and with the
robot. -/
theorem C136_distance {Q : Type} [DecidableEq Q] (hD : IsRot D.R) {f : Dist.DistPts} {j2 : Nat} (hj : f.joint2 = some j2)
    (K : Q → Kin n) {q q' : Q} (h1 : (K q').M f.joint1 = D.mul ((K q).M f.joint1)) (h2 : (K q').M j2 = D.mul ((K q).M j2))
    (r r' : Dist.Rob Q) (l l' : List (Dist.Op Q)) :
    (f.compute K (f.run K l' (r', f.init)) q').2.result = (f.compute K (f.run K l (r, f.init)) q).2.result := by
  rw [Dist.C60_value_partial hj, Dist.C60_value_partial hj]
  have e : ∀ (A : SE3 ℝ) (x : V3 ℝ), (D.mul A).act x = D.R *ᵥ A.act x + D.p := fun A x => by
    simp only [SE3.act, SE3.mul, mulVec_add, mulVec_mulVec, add_assoc]
  have ed : ∀ x y : V3 ℝ, Dist.edist (D.R *ᵥ x + D.p) (D.R *ᵥ y + D.p) = Dist.edist x y := fun x y => by
    rw [← Dist.norm_sub, ← Dist.norm_sub]
    unfold Dist.norm
    rw [add_sub_add_right_eq_sub, ← mulVec_sub, dot_moved hD]
  have hw : ∀ (j : Nat) (x : V3 ℝ), (K q').M j = D.mul ((K q).M j) →
      Dist.worldPos (K q') (some j) x = D.R *ᵥ Dist.worldPos (K q) (some j) x + D.p := by
    intro j x hj
    have h := e ((K q).M j) x
    rw [← hj] at h
    exact h
  rw [hw _ _ h1, hw _ _ h2, ed]

/-! ### Contacts -/

/-- C136. When all the surfaces are on joints, the values of the contact function, of its complement and of their combination, in
particular the surfaces that are selected, and exceptions, do not change. -/
theorem C136_contact (hD : IsRot D.R) (f : Contact.Fn) {M M' : Nat → SE3 ℝ} (hM : ∀ j, IsRot (M j).R) (hM' : ∀ j, IsRot (M' j).R)
    (hf : ∀ s ∈ f.floors, ∃ j, s.joint = some j ∧ 0 < j ∧ M' j = D.mul (M j))
    (ho : ∀ s ∈ f.objects, ∃ j, s.joint = some j ∧ M' j = D.mul (M j)) :
    f.value M' = f.value M ∧ f.complement M' = f.complement M ∧ f.hold M' = f.hold M := by
  have hmv : ∀ {j : Nat}, M' j = D.mul (M j) → MovedBy M M' D (some j) := by
    intro j h x
    rw [place_poseOf, place_poseOf, ← act_mul]
    change act (some (M' j)) x = act (some (D.mul (M j))) x
    rw [h]
  have hpick : f.pick M' = f.pick M := by
    unfold Contact.Fn.pick
    rw [select_moved hM hM' hD (fun s hs => by obtain ⟨j, e, -, h⟩ := hf s hs; rw [e]; exact hmv h)
      (fun s hs => by obtain ⟨j, e, h⟩ := ho s hs; rw [e]; exact hmv h)]
  have herr : ∀ p, f.pick M = .ok p → poseError p M' = poseError p M := by
    intro p hp
    obtain ⟨⟨s, hs, hj⟩, hob⟩ := pick_joints hp
    obtain ⟨a, ea, ha0, ha⟩ := hf s hs
    obtain ⟨b, eb, hb⟩ := ho _ hob
    unfold poseError
    rw [rawValue_moved hD (fun _ => []) (g := relModel p.floor p.object) (a := a) (b := b) ?_ eb ha hb]
    change (p.floor.joint.filter fun j => decide (0 < j)) = some a
    rw [hj, ea, Option.filter_some, if_pos (by simpa using ha0)]
  have hv : f.value M' = f.value M := by
    unfold Contact.Fn.value
    rw [hpick]
    cases hp : f.pick M with
    | error e => rfl
    | ok p => dsimp only; rw [herr p hp]
  have hcm : f.complement M' = f.complement M := by
    unfold Contact.Fn.complement
    rw [hpick]
    cases hp : f.pick M with
    | error e => rfl
    | ok p => dsimp only; rw [herr p hp]
  refine ⟨hv, hcm, ?_⟩
  unfold Contact.Fn.hold
  rw [hv, hcm]

/-- C136. A robot all the joints of which descend from joint `a`: when only the variables of `a` change, the relative
transformations between its joints, and the contact functions between surfaces of its joints, keep their values. -/
theorem C136_robot {r : Robot ℝ} (ok : r.Ok) {a : Nat} (ha : a < r.njoints) (hroot : ∀ j, 0 < j → j < r.njoints → r.Anc a j)
    (q q' : Nat → ℝ) (h : ∀ k, ¬ r.QVar a k → q' k = q k) :
    (∀ (g : GT) (quat : M3 ℝ → List ℝ) (j1 j2 : Nat), g.j1 = some j1 → g.joint2 = some j2 → 0 < j1 → j1 < r.njoints →
      0 < j2 → j2 < r.njoints → g.value quat (r.fk q') = g.value quat (r.fk q)) ∧
    ∀ f : Contact.Fn, (∀ s ∈ f.floors ++ f.objects, ∃ j, s.joint = some j ∧ 0 < j ∧ j < r.njoints) →
      f.hold (r.fk q') = f.hold (r.fk q) := by
  obtain ⟨D, hD, hm⟩ := C136_root ok ha hroot q q' h
  constructor
  · intro g quat j1 j2 h1 h2 p1 l1 p2 l2
    exact (C136_relative_transformation (n := 0) (e := 0) hD quat (K := ⟨r.fk q, 0, 0⟩) (K' := ⟨r.fk q', 0, 0⟩) h1 h2
      ⟨hm _ p1 l1, rfl, rfl⟩ ⟨hm _ p2 l2, rfl, rfl⟩ 0 0).1
  · intro f hf
    refine (C136_contact hD f (Robot.fk_rot ok q) (Robot.fk_rot ok q') (fun s hs => ?_) (fun s hs => ?_)).2.2
    · obtain ⟨j, e, p, l⟩ := hf s (List.mem_append_left _ hs)
      exact ⟨j, e, p, hm j p l⟩
    · obtain ⟨j, e, p, l⟩ := hf s (List.mem_append_right _ hs)
      exact ⟨j, e, hm j p l⟩

/-- C136 does not hold when the floor is fixed in the world: the floor is a square, the object a point of joint 1 that lies in it, and the
robot is lifted by 1. -/
theorem C136_floor_refuted : ∃ (f : Contact.Fn) (M M' : Nat → SE3 ℝ) (D : SE3 ℝ), Contact.Fn.build [demoFloor] [demoPt 0] 0 = some f ∧
    IsRot D.R ∧ (∀ j, IsRot (M j).R) ∧ (∀ j, M' j = D.mul (M j)) ∧ f.value M' ≠ f.value M := by
  obtain ⟨f, hf⟩ := build_defined (fs := [demoFloor]) (os := [demoPt 0]) (by simp [demoFloor, square])
    (by simp [demoPt]) 0
  have hM : ∀ j, IsRot ((demoKin 0).M j).R := (demoKin_moves 0).rot 0
  have hO := demo_surfaces (O := demoPt 0) (.point _) (by simp [demoPt])
  have hD : IsRot (⟨1, ![0, 0, 1]⟩ : SE3 ℝ).R := one_isRot
  refine ⟨f, (demoKin 0).M, fun j => (⟨1, ![0, 0, 1]⟩ : SE3 ℝ).mul ((demoKin 0).M j), ⟨1, ![0, 0, 1]⟩, hf, hD, hM, fun _ => rfl, ?_⟩
  intro h
  have h0 : f.value (demoKin 0).M = .ok 0 := by
    refine (C84_point hf hO hM (demo_nearest _) (square_normal _) rfl).2 ⟨demo_above (demoPt_center 0), ?_⟩
    rw [demoPt_center, demoFloor_center]
    simp [dotProduct, Fin.sum_univ_three]
  rw [h0] at h
  have h1 := ((C84_point hf hO (fun j => hD.mul (hM j)) (demo_nearest _) (square_normal _) rfl).1 h).2
  rw [demoFloor_center] at h1
  have h2 : (demoPt 0).center (fun j => (⟨1, ![0, 0, 1]⟩ : SE3 ℝ).mul ((demoKin 0).M j)) = ![1 / 2, 1 / 2, 1] := by
    have h3 := demoPt_center 0
    unfold JShape.center at h3 ⊢
    change place (fun j => (⟨1, ![0, 0, 1]⟩ : SE3 ℝ).mul ((demoKin 0).M j)) (some 1) _ = _
    change place (demoKin 0).M (some 1) _ = _ at h3
    unfold place at h3 ⊢
    dsimp only at h3 ⊢
    change ((1 : M3 ℝ) * ((demoKin 0).M 1).R) *ᵥ _ + ((1 : M3 ℝ) *ᵥ ((demoKin 0).M 1).p + ![0, 0, 1]) = _
    rw [Matrix.one_mul, one_mulVec, ← add_assoc, h3]
    funext i
    fin_cases i <;> simp
  rw [h2] at h1
  simp [dotProduct, Fin.sum_univ_three] at h1

/-! ### Static stability -/

/-- Rotation of both halves of a wrench -/
def wrenchRot (D : SE3 ℝ) : Matrix (Fin (2 * 3)) (Fin (2 * 3)) ℝ := fun r s =>
  if (Stab.unrow (p := 2) r).1 = (Stab.unrow (p := 2) s).1 then D.R (Stab.unrow (p := 2) r).2 (Stab.unrow (p := 2) s).2 else 0

theorem sum_wrench (x : Fin (2 * 3) → ℝ) : ∑ s, x s = ∑ i : Fin 2, ∑ a : Fin 3, x (Stab.row i a) := by
  unfold Stab.row
  rw [← Equiv.sum_comp finProdFinEquiv, Fintype.sum_prod_type]

theorem wrenchRot_mulVec (D : SE3 ℝ) (x : Fin (2 * 3) → ℝ) (i : Fin 2) (a : Fin 3) :
    (wrenchRot D *ᵥ x) (Stab.row i a) = (D.R *ᵥ fun b => x (Stab.row i b)) a := by
  unfold mulVec dotProduct wrenchRot
  rw [sum_wrench]
  simp only [Stab.unrow_row, ite_mul, zero_mul]
  rw [Finset.sum_eq_single i]
  · simp
  · intro k _ hk
    simp [hk.symm]
  · simp

theorem wrench_ext {x y : Fin (2 * 3) → ℝ} (h : ∀ i a, x (Stab.row i a) = y (Stab.row i a)) : x = y := by
  funext r
  rw [← Stab.row_unrow r]
  exact h _ _

theorem wrenchRot_orth (hD : IsRot D.R) : (wrenchRot D)ᵀ * wrenchRot D = 1 := by
  have hT : ∀ (x : Fin (2 * 3) → ℝ), (wrenchRot D)ᵀ *ᵥ (wrenchRot D *ᵥ x) = x := by
    intro x
    have e : (wrenchRot D)ᵀ = wrenchRot ⟨D.Rᵀ, 0⟩ := by
      ext r s
      simp only [transpose_apply, wrenchRot]
      by_cases h : (Stab.unrow (p := 2) s).1 = (Stab.unrow (p := 2) r).1
      · rw [if_pos h, if_pos h.symm]
      · rw [if_neg h, if_neg fun h' => h h'.symm]
    rw [e]
    refine wrench_ext fun i a => ?_
    rw [wrenchRot_mulVec]
    have : (fun b => (wrenchRot D *ᵥ x) (Stab.row i b)) = D.R *ᵥ fun b => x (Stab.row i b) :=
      funext fun b => wrenchRot_mulVec D x i b
    rw [this, mulVec_mulVec, hD.1, one_mulVec]
  refine ext_mulVec fun x => ?_
  rw [← mulVec_mulVec, hT, one_mulVec]

theorem wrenchRot_gravity (hu : Upright D) : wrenchRot D *ᵥ Stab.gravity = Stab.gravity := by
  refine wrench_ext fun i a => ?_
  rw [wrenchRot_mulVec]
  have g0 : (fun b => Stab.gravity (Stab.row (p := 2) 0 b)) = -![0, 0, 1] := by
    funext b
    fin_cases b <;> simp [Stab.gravity, Stab.row, finProdFinEquiv]
  have g1 : (fun b => Stab.gravity (Stab.row (p := 2) 1 b)) = 0 := by
    funext b
    fin_cases b <;> simp [Stab.gravity, Stab.row, finProdFinEquiv]
  have hi : i = 0 ∨ i = 1 := by omega
  rcases hi with rfl | rfl
  · rw [g0, mulVec_neg, hu]
    exact (congrFun g0 a).symm
  · rw [g1, mulVec_zero]
    exact (congrFun g1 a).symm

theorem phi_moved (hD : IsRot D.R) {com : Nat} {l : List Stab.Col} {w w' : World ℝ n}
    (hj : ∀ x ∈ l, JointMoved D w w' x.contact.joint) (hc : ComMoved D w w' com) :
    (Stab.phi com l).mat w' = wrenchRot D * (Stab.phi com l).mat w := by
  ext r j
  rw [← Stab.row_unrow r]
  generalize Stab.unrow (p := 2) r = x
  obtain ⟨i, a⟩ := x
  dsimp only
  have e : (wrenchRot D * (Stab.phi com l).mat w) (Stab.row i a) j =
      (wrenchRot D *ᵥ fun s => (Stab.phi com l).mat w s j) (Stab.row i a) := rfl
  rw [e, wrenchRot_mulVec]
  have hx := hj l[j] (List.getElem_mem _)
  have hm : ∀ (w : World ℝ n) (i : Fin 2) (b : Fin 3), (Stab.phi com l).mat w (Stab.row i b) j = ((Stab.phi com l).el i j).denote w b := by
    intro w i b
    unfold Stab.Moe.mat
    rw [Stab.unrow_row]
  simp only [hm]
  have hn : l[j].contact.nrm w' = D.R *ᵥ l[j].contact.nrm w := by
    unfold Stab.ContactPt.nrm
    rw [hx.R, mulVec_mulVec]
  have hp : l[j].contact.pos w' = D.R *ᵥ l[j].contact.pos w + D.p := by
    unfold Stab.ContactPt.pos
    rw [hx.R, hx.p, mulVec_add, mulVec_mulVec, add_assoc]
  have h0 : ∀ w : World ℝ n, ((Stab.phi com l).el 0 j).denote w = l[j].contact.nrm w := fun w => rfl
  have h1 : ∀ w : World ℝ n, ((Stab.phi com l).el 1 j).denote w =
      crossProduct (w.com com - l[j].contact.pos w) (l[j].contact.nrm w) := fun w => rfl
  have hi : i = 0 ∨ i = 1 := by omega
  rcases hi with rfl | rfl
  · simp only [h0, hn]
  · simp only [h1, hn, hp, hc.com]
    rw [add_sub_add_right_eq_sub, ← mulVec_sub, hD.cross]

/-- C136. Static stability by quadratic programming: the value does not change when the robot is translated and turned about a
vertical axis, whatever solver of quadratic programs is used and whatever was evaluated before. -/
theorem C136_qp_stability (hD : IsRot D.R) (hu : Upright D) {com : Nat} {l : List Stab.Col} (hl : Stab.Grouped l)
    (solver : Stab.QpSolver l.length) {w w' : World ℝ n} (hj : ∀ x ∈ l, JointMoved D w w' x.contact.joint)
    (hc : ComMoved D w w' com) (m m' : Stab.MMem n 2 l.length) :
    (Stab.qpCompute com l solver w' m').2 = (Stab.qpCompute com l solver w m).2 := by
  have ho := wrenchRot_orth hD
  have hg := wrenchRot_gravity hu
  have hg' : (wrenchRot D)ᵀ *ᵥ Stab.gravity = Stab.gravity := by
    conv_lhs => rw [← hg]
    rw [mulVec_mulVec, ho, one_mulVec]
  have hA := phi_moved hD hj hc
  have h1 : ((Stab.phi com l).mat w')ᵀ * (Stab.phi com l).mat w' = ((Stab.phi com l).mat w)ᵀ * (Stab.phi com l).mat w := by
    rw [hA, transpose_mul, Matrix.mul_assoc, ← Matrix.mul_assoc (wrenchRot D)ᵀ, ho, Matrix.one_mul]
  have h2 : ((Stab.phi com l).mat w')ᵀ *ᵥ Stab.gravity = ((Stab.phi com l).mat w)ᵀ *ᵥ Stab.gravity := by
    rw [hA, transpose_mul, ← mulVec_mulVec, hg']
  have key : ∀ (w : World ℝ n) (m : Stab.MMem n 2 l.length), (Stab.qpCompute com l solver w m).2 =
      2 * Stab.qpObj (((Stab.phi com l).mat w)ᵀ * (Stab.phi com l).mat w) (((Stab.phi com l).mat w)ᵀ *ᵥ Stab.gravity)
        (solver (((Stab.phi com l).mat w)ᵀ * (Stab.phi com l).mat w) (((Stab.phi com l).mat w)ᵀ *ᵥ Stab.gravity)) +
        Stab.minusGravity ⬝ᵥ Stab.minusGravity := by
    intro w m
    have h := Stab.qpCompute_mem (com := com) hl solver w m
    unfold Stab.qpCompute at h ⊢
    dsimp only at h ⊢
    unfold Stab.solveQP
    dsimp only
    rw [h]
  rw [key, key, h1, h2]

theorem IsPinv_unique {m k : Nat} {A : Matrix (Fin m) (Fin k) ℝ} {P Q : Matrix (Fin k) (Fin m) ℝ} (hP : Stab.IsPinv A P)
    (hQ : Stab.IsPinv A Q) : P = Q := by
  have h := Stab.pinv_sub hP hQ
  simp only [sub_self, Matrix.mul_zero, Matrix.zero_mul, transpose_zero, neg_zero, add_zero] at h
  exact (sub_eq_zero.1 h).symm

/-- C136. Static stability: the forces do not change when the robot is translated and turned about a vertical axis, and the
residual wrench is turned with the robot. -/
theorem C136_stability (hD : IsRot D.R) (hu : Upright D) {com : Nat} {l : List Stab.Col} (hl : Stab.Grouped l)
    {svdOf : Stab.SvdOf l.length} (hs : Stab.SvdContract svdOf) (prec : ℝ) {w w' : World ℝ n}
    (hj : ∀ x ∈ l, JointMoved D w w' x.contact.joint) (hc : ComMoved D w w' com) (m m' : Stab.MMem n 2 l.length) :
    let r := (Stab.staticCompute com l svdOf prec w m).2
    let r' := (Stab.staticCompute com l svdOf prec w' m').2
    r'.1 = r.1 ∧ ∀ i a, r'.2 (Stab.row i a) = (D.R *ᵥ fun b => r.2 (Stab.row i b)) a := by
  intro r r'
  have ho := wrenchRot_orth hD
  have hg := wrenchRot_gravity hu
  have hA := phi_moved hD hj hc
  have er : r = _ := Stab.staticCompute_eq hl svdOf prec w m
  have er' : r' = _ := Stab.staticCompute_eq hl svdOf prec w' m'
  dsimp only at er er'
  rw [hA] at er'
  generalize (Stab.phi com l).mat w = A at er er'
  have hP := hs.isPinv A
  have hP' := hs.isPinv (wrenchRot D * A)
  have hWP : (svdOf (wrenchRot D * A)).pinv = (svdOf A).pinv * (wrenchRot D)ᵀ := by
    refine IsPinv_unique hP' ⟨?_, ?_, ?_, ?_⟩
    · have : wrenchRot D * A * ((svdOf A).pinv * (wrenchRot D)ᵀ) * (wrenchRot D * A) =
          wrenchRot D * (A * (svdOf A).pinv * ((wrenchRot D)ᵀ * wrenchRot D) * A) := by simp only [Matrix.mul_assoc]
      rw [this, ho, Matrix.mul_one, hP.apa]
    · have : (svdOf A).pinv * (wrenchRot D)ᵀ * (wrenchRot D * A) * ((svdOf A).pinv * (wrenchRot D)ᵀ) =
          (svdOf A).pinv * ((wrenchRot D)ᵀ * wrenchRot D) * A * (svdOf A).pinv * (wrenchRot D)ᵀ := by
        simp only [Matrix.mul_assoc]
      rw [this, ho, Matrix.mul_one, hP.pap]
    · have : wrenchRot D * A * ((svdOf A).pinv * (wrenchRot D)ᵀ) = wrenchRot D * (A * (svdOf A).pinv) * (wrenchRot D)ᵀ := by
        simp only [Matrix.mul_assoc]
      rw [this, transpose_mul, transpose_mul, transpose_transpose, hP.symL, ← Matrix.mul_assoc]
    · have : (svdOf A).pinv * (wrenchRot D)ᵀ * (wrenchRot D * A) = (svdOf A).pinv * ((wrenchRot D)ᵀ * wrenchRot D) * A := by
        simp only [Matrix.mul_assoc]
      rw [this, ho, Matrix.mul_one, hP.symR]
  have hu' : (svdOf (wrenchRot D * A)).pinv *ᵥ -Stab.gravity = (svdOf A).pinv *ᵥ -Stab.gravity := by
    rw [hWP, ← mulVec_mulVec]
    congr 1
    conv_lhs => rw [← hg]
    rw [mulVec_neg, mulVec_mulVec, ho, one_mulVec]
  have hv : ∀ u, Stab.computeV prec (svdOf (wrenchRot D * A)) u = Stab.computeV prec (svdOf A) u := by
    intro u
    have e : (svdOf (wrenchRot D * A)).V2 * (svdOf (wrenchRot D * A)).V2ᵀ = (svdOf A).V2 * (svdOf A).V2ᵀ := by
      rw [hs.v2, hs.v2, hWP, Matrix.mul_assoc, ← Matrix.mul_assoc (wrenchRot D)ᵀ, ho, Matrix.one_mul]
    by_cases h : Stab.isZeroVec prec (Stab.uMinusOf u)
    · rw [Stab.computeV_none h, Stab.computeV_none h]
    · rw [Stab.computeV_some h, Stab.computeV_some h, mulVec_mulVec, mulVec_mulVec, e]
  constructor
  · rw [er, er', hu', hv]
  · intro i a
    have e1 : r'.2 = wrenchRot D *ᵥ r.2 := by
      rw [er, er', hu', mulVec_add, hg, mulVec_mulVec (M := wrenchRot D)]
    rw [e1, wrenchRot_mulVec]

/-- C136 does not hold for static stability when the robot is tilted. -/
theorem C136_tilted_refuted : ∃ (l : List Stab.Col) (w w' : World ℝ 1) (D : SE3 ℝ), Stab.Grouped l ∧ IsRot D.R ∧
    (∀ j, JointMoved D w w' j) ∧ (∀ c, ComMoved D w w' c) ∧
    ∀ (solver : Stab.QpSolver l.length), Stab.QpContract solver → ∀ m m',
      (Stab.qpCompute 0 l solver w m).2 = 0 ∧ (Stab.qpCompute 0 l solver w' m').2 ≠ 0 := by
  refine ⟨Stab.exCols, Stab.exSlide 0,
    ⟨fun _ => !![1, 0, 0; 0, 0, -1; 0, 1, 0], fun _ => 0, fun _ => !![1; 0; 0], fun _ => 0, fun _ => 0, fun _ => 0⟩,
    ⟨!![1, 0, 0; 0, 0, -1; 0, 1, 0], 0⟩, Stab.exCols_grouped, ⟨?_, ?_⟩, fun j => ⟨?_, ?_, rfl, rfl⟩, fun c => ⟨?_, ?_⟩, ?_⟩
  · ext a b
    fin_cases a <;> fin_cases b <;> simp [Matrix.mul_apply, Fin.sum_univ_three]
  · simp [det_fin_three]
  · simp [Stab.exSlide]
  · funext a
    fin_cases a <;> simp [Stab.exSlide]
  · simp [Stab.exSlide]
  · simp [Stab.exSlide]
  · intro solver hq m m'
    constructor
    · rw [Stab.exSlide_value hq]
      norm_num
    · rw [Ne, Stab.C59_zero_iff Stab.exCols_grouped hq]
      rintro ⟨F, -, h, -⟩
      have h2 := congrFun h 2
      have hz : ∀ j : Fin Stab.exCols.length, (F j • Stab.exCols[j].contact.nrm
          (⟨fun _ => !![1, 0, 0; 0, 0, -1; 0, 1, 0], fun _ => 0, fun _ => !![1; 0; 0], fun _ => 0, fun _ => 0, fun _ => 0⟩ : World ℝ 1)) 2 = 0 := by
        intro j
        have hj : j.val < 1 := j.2
        have : j = ⟨0, Nat.one_pos⟩ := Fin.ext (by show j.val = 0; omega)
        rw [this]
        change F _ * ((!![1, 0, 0; 0, 0, -1; 0, 1, 0] : M3 ℝ) *ᵥ ![0, 0, 1]) 2 = 0
        simp [mulVec, dotProduct, Fin.sum_univ_three]
      unfold Stab.resultant at h2
      rw [Pi.sub_apply, Finset.sum_apply, Finset.sum_eq_zero (fun j _ => hz j)] at h2
      simp at h2

/-! ### Concrete cases -/

/-- All the joints of `demoRobot` descend from joint 1. -/
theorem demo_anc (j : Nat) (h0 : 0 < j) (h : j < demoRobot.njoints) : demoRobot.Anc 1 j := by
  have h1 : demoRobot.Anc 1 1 := .self (by omega)
  rcases eq_or_ne j 1 with rfl | hne
  · exact h1
  · refine .up h0 ?_
    have : demoRobot.parent j = 1 := by
      simp only [demoRobot]
      rw [if_neg (by omega)]
    rw [this]
    exact h1

/-- Joint 1 moves by 5: the relative transformations between joints 2 and 3 do not change. -/
example (quat : M3 ℝ → List ℝ) (F1 F2 : SE3 ℝ) (mask : List Bool) (q : Nat → ℝ) :
    (⟨true, true, true, true, some 2, some 3, F1, F2, mask⟩ : GT).value quat (demoRobot.fk fun k => if k = 0 then q 0 + 5 else q k) =
      (⟨true, true, true, true, some 2, some 3, F1, F2, mask⟩ : GT).value quat (demoRobot.fk q) :=
  (C136_robot demoRobot_ok (a := 1) (by decide) demo_anc q _ fun k hk => by
    rw [if_neg]
    rintro rfl
    exact hk ⟨by decide, by decide⟩).1 _ quat 2 3 rfl rfl (by decide) (by decide) (by decide) (by decide)

/-- A quarter of turn about the vertical axis, and a translation -/
noncomputable def quarter : SE3 ℝ := ⟨Sym.rotZ (Real.pi / 2), ![1, 2, 3]⟩

theorem quarter_upright : Upright quarter := by
  unfold Upright quarter
  funext a
  fin_cases a <;> simp [Sym.rotZ, mulVec, dotProduct, Fin.sum_univ_three]

/-- State of `exMotion` displaced -/
noncomputable def exMoved (t : ℝ) : World ℝ 1 where
  R := fun j => quarter.R * (exMotion t).R j
  p := fun j => quarter.R *ᵥ (exMotion t).p j + quarter.p
  Jv := (exMotion t).Jv
  Jw := (exMotion t).Jw
  com := fun c => quarter.R *ᵥ (exMotion t).com c + quarter.p
  Jcom := fun c => quarter.R * (exMotion t).Jcom c

example (t : ℝ) (solver : Stab.QpSolver Stab.exCols.length) (m m' : Stab.MMem 1 2 Stab.exCols.length) :
    (Stab.qpCompute 0 Stab.exCols solver (exMoved t) m').2 = (Stab.qpCompute 0 Stab.exCols solver (exMotion t) m).2 :=
  C136_qp_stability (D := quarter) (w := exMotion t) (w' := exMoved t) (Sym.rotZ_isRot _) quarter_upright Stab.exCols_grouped solver (fun _ _ => ⟨rfl, rfl, rfl, rfl⟩) ⟨rfl, rfl⟩ m m'

example (t : ℝ) (m m' : Stab.MMem 1 2 Stab.exCols.length) : ∃ svdOf : Stab.SvdOf Stab.exCols.length,
    (Stab.staticCompute 0 Stab.exCols svdOf 0 (exMoved t) m').2.1 = (Stab.staticCompute 0 Stab.exCols svdOf 0 (exMotion t) m).2.1 := by
  obtain ⟨svdOf, hs⟩ := Stab.exists_svdOf 2 Stab.exCols.length
  exact ⟨svdOf, (C136_stability (D := quarter) (Sym.rotZ_isRot _) quarter_upright Stab.exCols_grouped hs 0 (w := exMotion t) (w' := exMoved t)
    (fun _ _ => ⟨rfl, rfl, rfl, rfl⟩) ⟨rfl, rfl⟩ m m').1⟩

example (t : ℝ) (m m' : Com.BMem 1) : (Com.exBetween.value (exMoved t) m' 0).out 1 = (Com.exBetween.value (exMotion t) m 0).out 1 := by
  have h := C136_feet (D := quarter) (Sym.rotZ_isRot _) (f := Com.exBetween) rfl (w := exMotion t) (w' := exMoved t) ⟨rfl, rfl, rfl, rfl⟩
    ⟨rfl, rfl, rfl, rfl⟩ ⟨rfl, rfl, rfl, rfl⟩ ⟨rfl, rfl⟩ m m' 0 0 (k := 1) (i := 3) (by unfold Com.IsOutput; decide)
  rw [h, if_neg (by omega), add_zero]

example (t : ℝ) : (Com.RelCom.mk 0 0 ![1, 2, 3] [true, false, true]).value (exMoved t) 0 =
    (Com.RelCom.mk 0 0 ![1, 2, 3] [true, false, true]).value (exMotion t) 0 :=
  (C136_relative_com (D := quarter) (w := exMotion t) (w' := exMoved t) (e := 0) (Sym.rotZ_isRot _) _ ⟨rfl, rfl, rfl, rfl⟩ ⟨rfl, rfl⟩ 0 0).1

end Hpp.RelPose
