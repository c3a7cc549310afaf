import Verif.Pose.RelTransf
import Verif.Pose.Props
import Verif.Common.Lemmas
import Mathlib.Algebra.BigOperators.Group.List.Lemmas

/-!
# Properties of the explicit relative transformation and of the relative pose constraint (C49, C50, C78)
-/

namespace Hpp.Pose

open Matrix Hpp.Sym Hpp.Log

/-! ### C50 -/

/-- The input variables are exactly those of the joints on the path between joint 1 and the parent of joint 2, that is the joints
between joint 1 and joint 2 apart from joint 2. -/
theorem C50_inputs {r : Robot ℝ} (ok : r.Ok) {j1 j2 : Nat} (h1 : j1 < r.njoints) (h2 : j2 < r.njoints) (hj2 : 0 < j2) (k : Nat) :
    (Covers (r.inConf j1 j2) k ↔ ∃ a, r.OnPath j1 (r.parent j2) a ∧ r.QVar a k) ∧
    (Covers (r.inVel j1 j2) k ↔ ∃ a, r.OnPath j1 (r.parent j2) a ∧ r.VVar a k) := by
  have hp : r.parent j2 < r.njoints := lt_trans (ok.parent_lt j2 hj2) h2
  unfold Robot.inConf Robot.inVel
  rw [(C08_mask_to_intervals _).2.1, (C08_mask_to_intervals _).2.1]
  unfold Robot.inputBits Robot.inputVariable
  simp only [Robot.inputVariableLoop_eq]
  exact ⟨r.toggle_path ok.parent_lt r.idxq r.jnq r.nq h1 hp ok.qin ok.qdisj k,
    r.toggle_path ok.parent_lt r.idxv r.jnv r.nv h1 hp ok.vin ok.vdisj k⟩

/-- When joint 2 is not an ancestor of joint 1 (nor joint 1 itself), these are all the joints between joint 1 and joint 2,
except joint 2. -/
theorem C50_path {r : Robot ℝ} (ok : r.Ok) {j1 j2 : Nat} (hj2 : 0 < j2) (h : ¬ r.Anc j2 j1) (a : Nat) :
    r.OnPath j1 (r.parent j2) a ↔ r.OnPath j1 j2 a ∧ a ≠ j2 := by
  have hlt := ok.parent_lt j2 hj2
  have hself : ¬ r.Anc j2 (r.parent j2) := fun h' => by have := (h'.le ok.parent_lt).1; omega
  have hu : r.Anc a j2 ↔ a = j2 ∨ r.Anc a (r.parent j2) := by
    constructor
    · intro h'
      cases h' with
      | self _ => exact .inl rfl
      | up _ h' => exact .inr h'
    · rintro (rfl | h')
      · exact .self hj2
      · exact .up hj2 h'
  unfold Robot.OnPath
  rw [hu]
  constructor
  · rintro (⟨h1, h2⟩ | ⟨h1, h2⟩)
    · have : a ≠ j2 := fun e => h (e ▸ h1)
      exact ⟨.inl ⟨h1, by rintro (e | e); exacts [this e, h2 e]⟩, this⟩
    · exact ⟨.inr ⟨.inr h1, h2⟩, fun e => hself (e ▸ h1)⟩
  · rintro ⟨⟨h1, h2⟩ | ⟨h1, h2⟩, hne⟩
    · exact .inl ⟨h1, fun e => h2 (.inr e)⟩
    · rcases h1 with e | h1
      · exact absurd e hne
      · exact .inr ⟨h1, h2⟩

/-- The functions of `input-configurations.hh` used to build the constraint select the same variables. -/
theorem C50_rel_pose_variables (r : Robot ℝ) (j1 j2 : Nat) :
    fromLogical (r.relPoseConfVariables j1 j2) = r.inConf j1 j2 ∧
    fromLogical (r.relPoseVelVariables j1 j2) = r.inVel j1 j2 := by
  unfold Robot.inConf Robot.inVel Robot.inputBits Robot.inputVariable
  simp only [Robot.inputVariableLoop_eq]
  exact ⟨rfl, rfl⟩

/-- When joint 2 is not an ancestor of joint 1, no output variable is an input variable. -/
theorem C50_outputs {r : Robot ℝ} (ok : r.Ok) {j1 j2 : Nat} (h1 : j1 < r.njoints) (h2 : j2 < r.njoints) (hj2 : 0 < j2)
    (h : ¬ r.Anc j2 j1) (k : Nat) :
    (Covers (r.outConf j2) k → ¬ Covers (r.inConf j1 j2) k) ∧ (Covers (r.outVel j2) k → ¬ Covers (r.inVel j1 j2) k) := by
  have hb : ∀ a, r.OnPath j1 (r.parent j2) a → 0 < a ∧ a < r.njoints := fun a ha => by
    have := Robot.OnPath.bounds ok.parent_lt ha
    have := ok.parent_lt j2 hj2
    omega
  obtain ⟨e1, e2⟩ := C50_inputs ok h1 h2 hj2 k
  rw [e1, e2]
  constructor
  · rintro ⟨s, hs, hk⟩ ⟨a, ha, hk'⟩
    simp only [Robot.outConf, List.mem_singleton] at hs
    subst hs
    simp only [Seg.Has] at hk
    have := ok.qdisj j2 a k hj2 (hb a ha).1 h2 (hb a ha).2 hk.1 hk.2 hk'.1 hk'.2
    subst this
    exact ((C50_path ok hj2 h _).1 ha).2 rfl
  · rintro ⟨s, hs, hk⟩ ⟨a, ha, hk'⟩
    simp only [Robot.outVel, List.mem_singleton] at hs
    subst hs
    simp only [Seg.Has] at hk
    have := ok.vdisj j2 a k hj2 (hb a ha).1 h2 (hb a ha).2 hk.1 hk.2 hk'.1 hk'.2
    subst this
    exact ((C50_path ok hj2 h _).1 ha).2 rfl

/-- If joint 2 is an ancestor of joint 1, its variables are both inputs and outputs. -/
theorem C50_descendant_refuted {r : Robot ℝ} (ok : r.Ok) {j1 j2 : Nat} (h1 : j1 < r.njoints) (h2 : j2 < r.njoints) (hj2 : 0 < j2)
    (h : r.Anc j2 j1) (k : Nat) (hk : Covers (r.outConf j2) k) : Covers (r.inConf j1 j2) k := by
  rw [(C50_inputs ok h1 h2 hj2 k).1]
  obtain ⟨s, hs, hk⟩ := hk
  simp only [Robot.outConf, List.mem_singleton] at hs
  subst hs
  refine ⟨j2, .inl ⟨h, fun h' => ?_⟩, hk⟩
  have := (h'.le ok.parent_lt).1
  have := ok.parent_lt j2 hj2
  omega

/-- The function as a transform: parent frame of joint 2, placement of joint 2, for the configuration `q`. -/
theorem RelTr.compute_eq {f : RelTr} (cur : Nat → ℝ) (arg : List ℝ) :
    f.compute cur arg = (f.robot.placement f.joint2).actInv
      (((f.robot.fk (f.fkConfig cur arg) (f.robot.parent f.joint2)).actInv
        (f.robot.fk (f.fkConfig cur arg) f.id1)).mul f.F1F2inv) := by
  have h0 : ∀ q, f.robot.fk q 0 = SE3.one := fun _ => rfl
  unfold RelTr.compute
  simp only []
  congr 1
  have e1 : (match f.joint1 with
    | none => f.F1F2inv
    | some j => (f.robot.fk (f.fkConfig cur arg) j).mul f.F1F2inv) =
      (f.robot.fk (f.fkConfig cur arg) f.id1).mul f.F1F2inv := by
    unfold RelTr.id1
    cases f.joint1 with
    | none => simp only [Option.getD_none, h0, SE3.one_mul]
    | some j => rfl
  refine Eq.trans (b := if f.hasParent = true then (f.robot.fk (f.fkConfig cur arg) (f.robot.parent f.joint2)).actInv
    ((f.robot.fk (f.fkConfig cur arg) f.id1).mul f.F1F2inv) else (f.robot.fk (f.fkConfig cur arg) f.id1).mul f.F1F2inv) ?_ ?_
  · rw [← e1]; rfl
  split
  · simp only [SE3.actInv_eq, SE3.mul_assoc]
  · rename_i hp
    have : f.robot.parent f.joint2 = 0 := by
      simp only [RelTr.hasParent, decide_eq_true_eq, not_lt, Nat.le_zero] at hp
      exact hp
    rw [this, h0]
    simp [SE3.actInv, SE3.one]

/-- Preconditions of the constructor: joints of the robot, joint 2 is not the universe. -/
structure RelTr.Ok (f : RelTr) : Prop where
  robot : f.robot.Ok
  joint1 : f.id1 < f.robot.njoints
  joint2 : f.joint2 < f.robot.njoints
  pos2 : 0 < f.joint2
  rot1 : IsRot f.F1.R
  rot2 : IsRot f.F2.R

theorem fromLogical_nodup (v : List Bool) : (indices (fromLogical v)).Nodup := by
  rw [(C08_mask_to_intervals v).2.2]
  exact List.nodup_range.filter _

theorem RelTr.fkConfig_view {f : RelTr} (cur : Nat → ℝ) {arg : List ℝ} (ha : arg.length = (indices f.inConf).length) :
    rview (f.fkConfig cur arg) f.inConf = arg := by
  unfold RelTr.fkConfig
  split
  · exact rview_lview _ _ _ (fromLogical_nodup _) ha
  · rename_i h
    exact not_not.1 h

/-- The value depends only on the argument: not on the current configuration of the robot, neither on the variables that
are not inputs, nor on the inputs left by a previous evaluation. -/
theorem C50_value {f : RelTr} (ok : f.Ok) (cur cur' : Nat → ℝ) {arg : List ℝ} (ha : arg.length = (indices f.inConf).length) :
    f.compute cur arg = f.compute cur' arg := by
  rw [f.compute_eq, f.compute_eq]
  have hv := (f.fkConfig_view cur ha).trans (f.fkConfig_view cur' ha).symm
  have hi := rview_inj hv
  rw [Robot.rel_congr ok.robot (q := f.fkConfig cur arg) (q' := f.fkConfig cur' arg)]
  intro a hp k hk
  refine hi k ?_
  rw [mem_indices]
  exact (C50_inputs ok.robot ok.joint1 ok.joint2 ok.pos2 k).1.2 ⟨a, Robot.onPath_comm.1 hp, hk⟩

/-! ### C49 -/

theorem pose7_isRot {v : List ℝ} (h : Unit7 v) : IsRot (pose7 v).R := quatToRot_isRot h

theorem config7_spec {M : SE3 ℝ} (h : IsRot M.R) :
    (config7 M).length = 7 ∧ Unit7 (config7 M) ∧ pose7 (config7 M) = M := by
  obtain ⟨x, y, z, w, e, hu, hr⟩ := rotToQuat_spec h
  unfold config7 list3
  rw [e]
  refine ⟨rfl, hu, ?_⟩
  refine SE3.ext' hr ?_
  funext i
  fin_cases i <;> rfl

theorem SE3.mul_rot {A B : SE3 ℝ} (hA : IsRot A.R) (hB : IsRot B.R) : IsRot (A.mul B).R := IsRot.mul hA hB
theorem SE3.inv_rot {A : SE3 ℝ} (hA : IsRot A.R) : IsRot A.inv.R := hA.transpose

theorem pose_config {M : SE3 ℝ} (h : IsRot M.R) : pose7 (config7 M) = M := (config7_spec h).2.2

variable {o : SE3Ops}

/-- Right hand side of the implicit formulation, converted to the explicit formulation and back: the same pose. -/
theorem C49_round_trip (ho : o.Lawful) {F2 : SE3 ℝ} (h2 : IsRot F2.R) {rhs : List ℝ} (hr : Unit7 rhs) :
    pose7 (explicitToImplicitRhs o F2 (implicitToExplicitRhs o F2 rhs)) = pose7 rhs := by
  have h1 := pose7_isRot hr
  have hm : IsRot ((F2.mul (pose7 rhs)).mul F2.inv).R := SE3.mul_rot (SE3.mul_rot h2 h1) (SE3.inv_rot h2)
  unfold explicitToImplicitRhs implicitToExplicitRhs
  simp only [pose_config hm, ho.exp_log _ hm]
  rw [pose_config (SE3.mul_rot (SE3.mul_rot (SE3.inv_rot h2) hm) h2)]
  have : (F2.inv.mul ((F2.mul (pose7 rhs)).mul F2.inv)).mul F2 =
      (F2.inv.mul F2).mul ((pose7 rhs).mul (F2.inv.mul F2)) := by simp only [SE3.mul_assoc]
  rw [this, SE3.inv_mul h2, SE3.mul_one, SE3.one_mul]

/-- Right hand side of the explicit formulation, converted to the implicit formulation and back, when the logarithm returns
the vector (angle less than `π`). -/
theorem C49_round_trip_explicit (ho : o.Lawful) {F2 : SE3 ℝ} (h2 : IsRot F2.R) {v : List ℝ} (hv : o.log6 (o.exp6 v) = v) :
    implicitToExplicitRhs o F2 (explicitToImplicitRhs o F2 v) = v := by
  have h1 := ho.exp_rot v
  unfold explicitToImplicitRhs implicitToExplicitRhs
  simp only [pose_config h1]
  rw [pose_config (M := (F2.inv.mul (o.exp6 v)).mul F2) (SE3.mul_rot (SE3.mul_rot (SE3.inv_rot h2) h1) h2)]
  have : (F2.mul ((F2.inv.mul (o.exp6 v)).mul F2)).mul F2.inv =
      (F2.mul F2.inv).mul ((o.exp6 v).mul (F2.mul F2.inv)) := by simp only [SE3.mul_assoc]
  rw [this, SE3.mul_inv h2, SE3.mul_one, SE3.one_mul, pose_config h1, hv]

/-- The round trip is not the identity on vectors: whatever the conversion from rotation to quaternion, it cannot return both
a quaternion and its opposite. -/
theorem C49_vector_refuted (o : SE3Ops) (F2 : SE3 ℝ) :
    ∃ rhs, Unit7 rhs ∧ explicitToImplicitRhs o F2 (implicitToExplicitRhs o F2 rhs) ≠ rhs := by
  by_contra hc
  push Not at hc
  have e1 := hc [0, 0, 0, 0, 0, 0, 1] (by simp [Unit7])
  have e2 := hc [0, 0, 0, -0, -0, -0, -1] (by simp [Unit7])
  have hp : pose7 [0, 0, 0, -0, -0, -0, -1] = pose7 [0, 0, 0, 0, 0, 0, 1] := by
    unfold pose7
    simpa using quatToRot_neg 0 0 0 1
  have : implicitToExplicitRhs o F2 [0, 0, 0, -0, -0, -0, -1] = implicitToExplicitRhs o F2 [0, 0, 0, 0, 0, 0, 1] := by
    unfold implicitToExplicitRhs
    rw [hp]
  rw [this, e1] at e2
  norm_num at e2

/-- The pose computed by the explicit constraint satisfies the implicit constraint: after the output variables are set to the
output value, the position of frame 2 in frame 1 is the right hand side.  `joint2` is a freeflyer joint that is neither joint 1
nor an ancestor of joint 1. -/
theorem C49_solution (ho : o.Lawful) {f : RelTr} (ok : f.Ok) (hanc : ¬ f.robot.Anc f.joint2 f.id1)
    (hff : ∀ v, Unit7 v → f.robot.jt f.joint2 v = pose7 v) (hnq : f.robot.jnq f.joint2 = 7) (q : Nat → ℝ)
    {rhs : List ℝ} (hr : Unit7 rhs) :
    (f.implicitFunction).relative
      (f.robot.fk (lview q f.outConf (f.outputValue o q (rview q f.inConf) rhs))) = pose7 rhs := by
  have hR := pose7_isRot hr
  have h2 := ok.rot2
  have hm : IsRot ((f.F2.mul (pose7 rhs)).mul f.F2.inv).R := SE3.mul_rot (SE3.mul_rot h2 hR) (SE3.inv_rot h2)
  set T := f.compute q (rview q f.inConf) with hT
  have hfk : f.fkConfig q (rview q f.inConf) = q := by simp [RelTr.fkConfig]
  have hTe := f.compute_eq q (rview q f.inConf)
  rw [hfk, ← hT] at hTe
  have rp := ok.robot.rotp f.joint2
  have rq := Robot.fk_rot ok.robot q
  have hTr : IsRot T.R := by
    rw [hTe]
    exact IsRot.mul rp.transpose (IsRot.mul (IsRot.mul (rq _).transpose (rq _)) (IsRot.mul ok.rot1 h2.transpose))
  have hout : f.outputValue o q (rview q f.inConf) rhs = config7 (T.mul ((f.F2.mul (pose7 rhs)).mul f.F2.inv)) := by
    unfold RelTr.outputValue implicitToExplicitRhs
    simp only [pose_config hm, ho.exp_log _ hm, ← hT, pose_config hTr]
  set out := f.outputValue o q (rview q f.inConf) rhs with hout'
  have hpose : pose7 out = T.mul ((f.F2.mul (pose7 rhs)).mul f.F2.inv) := by
    rw [hout]; exact pose_config (SE3.mul_rot hTr hm)
  have hlen : out.length = (indices f.outConf).length := by
    rw [hout, (config7_spec (SE3.mul_rot hTr hm)).1]
    simp [RelTr.outConf, Robot.outConf, indices, hnq]
  set q' := lview q f.outConf out with hq'
  have rq' := Robot.fk_rot ok.robot q'
  have hlt := ok.robot.parent_lt f.joint2 ok.pos2
  -- variables of other joints do not change
  have hsame : ∀ a, f.robot.Anc a f.id1 ∨ f.robot.Anc a (f.robot.parent f.joint2) → ∀ k, f.robot.QVar a k → q k = q' k := by
    intro a ha k hk
    have hne : a ≠ f.joint2 := by
      rintro rfl
      rcases ha with h | h
      · exact hanc h
      · have := (h.le ok.robot.parent_lt).1; omega
    have hb : 0 < a ∧ a < f.robot.njoints := by
      have h1 := ok.joint1
      have h2 := ok.joint2
      rcases ha with h | h
      · have := h.le ok.robot.parent_lt; omega
      · have := h.le ok.robot.parent_lt; omega
    rw [hq', lview_not_mem]
    rw [mem_indices]
    rintro ⟨s, hs, hk'⟩
    simp only [RelTr.outConf, Robot.outConf, List.mem_singleton] at hs
    subst hs
    exact hne (ok.robot.qdisj a f.joint2 k hb.1 ok.pos2 hb.2 ok.joint2 hk.1 hk.2 hk'.1 hk'.2)
  have hfk1 : f.robot.fk q' f.id1 = f.robot.fk q f.id1 := by
    rw [Robot.fk_branch, Robot.fk_branch]
    exact f.robot.branch_congr fun a ha k hk => (hsame a (.inl ((Robot.mem_chain ok.robot.parent_lt).1 ha)) k hk).symm
  have hfkp : f.robot.fk q' (f.robot.parent f.joint2) = f.robot.fk q (f.robot.parent f.joint2) := by
    rw [Robot.fk_branch, Robot.fk_branch]
    exact f.robot.branch_congr fun a ha k hk => (hsame a (.inr ((Robot.mem_chain ok.robot.parent_lt).1 ha)) k hk).symm
  have hfk2 : f.robot.fk q' f.joint2 = (f.robot.fk q (f.robot.parent f.joint2)).mul ((f.robot.placement f.joint2).mul (pose7 out)) := by
    rw [Robot.fk_branch, Robot.chain_pos ok.robot.parent_lt ok.pos2, Robot.branch, ← Robot.fk_branch, hfkp]
    have : f.robot.slice q' f.joint2 = out := by
      have := rview_lview q f.outConf out (by simp [RelTr.outConf, Robot.outConf, indices, List.nodup_range']) hlen
      rw [← hq'] at this
      rw [← this]
      simp [rview, Robot.slice, RelTr.outConf, Robot.outConf, indices]
    rw [Robot.local_, this, hff out (by rw [hout]; exact (config7_spec (SE3.mul_rot hTr hm)).2.1)]
  have ho1 : optM (f.robot.fk q') f.implicitFunction.j1 = f.robot.fk q f.id1 := by
    rw [← hfk1]
    unfold GT.j1 RelTr.implicitFunction RelTr.id1
    simp only [if_true]
    cases hj : f.joint1 with
    | none => rfl
    | some j =>
      rcases Nat.eq_zero_or_pos j with rfl | h
      · rfl
      · simp [Option.filter, h, optM]
  rw [GT.relative_eq _ rq', ho1]
  change f.F1.actInv ((f.robot.fk q f.id1).actInv ((f.robot.fk q' f.joint2).mul f.F2)) = _
  rw [hfk2, hpose, hTe]
  unfold RelTr.F1F2inv
  have c1 : ∀ {A : SE3 ℝ} (_ : IsRot A.R) (B : SE3 ℝ), A.mul (A.inv.mul B) = B := fun h B => by
    rw [← SE3.mul_assoc, SE3.mul_inv h, SE3.one_mul]
  have c2 : ∀ {A : SE3 ℝ} (_ : IsRot A.R) (B : SE3 ℝ), A.inv.mul (A.mul B) = B := fun h B => by
    rw [← SE3.mul_assoc, SE3.inv_mul h, SE3.one_mul]
  simp only [SE3.actInv_eq, SE3.mul_assoc, c1 rp, c1 (rq _), c2 (rq _), c2 ok.rot1, c2 ok.rot2, SE3.inv_mul ok.rot2,
    SE3.mul_one]

/-! ### C78 -/

/-- Product of a row of a matrix with a vector -/
def dot (l m : List ℝ) : ℝ := (List.zipWith (· * ·) l m).sum

/-- Velocities of the selected variables -/
def viewVel {n : Nat} (l : Segs) (qd : Fin n → ℝ) : List ℝ := (indices l).map fun c => if h : c < n then qd ⟨c, h⟩ else 0

theorem viewRow_dot {n : Nat} {l : Segs} (hn : (indices l).Nodup) (A : Matrix (Fin 3) (Fin n) ℝ) (qd : Fin n → ℝ)
    (hz : ∀ c : Fin n, ¬ Covers l c → qd c = 0) (i : Fin 3) :
    dot (RelTr.viewRow l A i) (viewVel l qd) = (A *ᵥ qd) i := by
  unfold dot RelTr.viewRow viewVel
  rw [List.zipWith_map_left, List.zipWith_map_right, List.zipWith_self]
  have e1 : (fun c => (if h : c < n then A i ⟨c, h⟩ else 0) * (if h : c < n then qd ⟨c, h⟩ else 0)) =
      fun c => if h : c < n then A i ⟨c, h⟩ * qd ⟨c, h⟩ else 0 := by
    funext c
    split <;> simp
  rw [e1, ← List.sum_toFinset _ hn]
  simp only [mulVec, dotProduct]
  rw [Finset.sum_fin_eq_sum_range]
  refine Finset.sum_congr_of_eq_on_inter ?_ ?_ ?_
  · intro c _ hc
    have : ¬ c < n := fun h => hc (Finset.mem_range.2 h)
    rw [dif_neg this]
  · intro c hc hc'
    have h := Finset.mem_range.1 hc
    have : qd ⟨c, h⟩ = 0 := hz ⟨c, h⟩ fun hcov => hc' (List.mem_toFinset.2 ((mem_indices _ _).2 hcov))
    rw [dif_pos h, this, mul_zero]
  · intro c _ _
    rfl

/-- The claim: along any motion where only the input variables move, the value moves with the velocity given by the Jacobian
(linear and angular velocities in the moving frame).  `K`: positions and Jacobians of the joints; at time `t` the output
variables have been set to the value of the function (lines 163-169). -/
def RelTr.JacobianOk {n : Nat} (f : RelTr) (q : ℝ → Nat → ℝ) (K : ℝ → Kin n) (qd : Fin n → ℝ) (t : ℝ) : Prop :=
  KMoves K qd t → (∀ t j, (K t).M j = f.robot.fk (q t) j) →
  ((K t).M f.joint2 = ((K t).M (f.robot.parent f.joint2)).mul
    ((f.robot.placement f.joint2).mul (f.compute (q t) (rview (q t) f.inConf)))) →
  (∀ c : Fin n, ¬ Covers f.inVel c → qd c = 0) →
  SE3.Moves (fun t => f.compute (q t) (rview (q t) f.inConf))
    (fun i => dot ((f.jacobian (K t)).1 i) (viewVel f.inVel qd))
    (fun i => dot ((f.jacobian (K t)).2 i) (viewVel f.inVel qd)) t

/-- When the parent of joint 2 is the universe, the Jacobian is the derivative of the value.  Missing: the other case, see
`C78_refuted`. -/
theorem C78_no_parent_partial {n : Nat} {f : RelTr} (ok : f.Ok) (hp : f.robot.parent f.joint2 = 0) (q : ℝ → Nat → ℝ)
    (K : ℝ → Kin n) (qd : Fin n → ℝ) (t : ℝ) : f.JacobianOk q K qd t := by
  intro hK hM h2 hz
  have hpar : f.hasParent = false := by simp [RelTr.hasParent, hp]
  have hF : IsRot f.F1F2inv.R := IsRot.mul ok.rot1 ok.rot2.transpose
  have rp := ok.robot.rotp f.joint2
  have hfk : ∀ q : Nat → ℝ, f.fkConfig q (rview q f.inConf) = q := fun q => by simp [RelTr.fkConfig]
  have h1 : ∀ t, f.compute (q t) (rview (q t) f.inConf) =
      (f.robot.placement f.joint2).actInv ((optM (K t).M f.joint1).mul f.F1F2inv) := fun t => by
    have ho : optM (K t).M f.joint1 = f.robot.fk (q t) f.id1 := by
      unfold RelTr.id1
      cases f.joint1 with
      | none => rfl
      | some j => exact hM t j
    rw [f.compute_eq, hfk, hp, ho]
    congr 2
    simp [SE3.actInv, Robot.fk, Robot.fkLoop, SE3.one]
  have hm := (SE3.Moves.const rp t).actInv ((optM_moves hK f.joint1).mul (SE3.Moves.const hF t))
  have hn : (indices f.inVel).Nodup := fromLogical_nodup _
  have hR2 : ((K t).M f.joint2).R = (optM (K t).M f.joint1).R * f.F1F2inv.R := by
    rw [h2, hM, hp, h1]
    simp only [SE3.mul, SE3.actInv, Robot.fk, Robot.fkLoop, SE3.one, Matrix.one_mul]
    rw [← Matrix.mul_assoc, rp.mul_transpose, Matrix.one_mul]
  have e1 : (fun i => dot ((f.jacobian (K t)).1 i) (viewVel f.inVel qd)) = (f.tmpJac (K t)).1 *ᵥ qd :=
    funext fun i => viewRow_dot hn _ qd hz i
  have e2 : (fun i => dot ((f.jacobian (K t)).2 i) (viewVel f.inVel qd)) = (f.tmpJac (K t)).2 *ᵥ qd :=
    funext fun i => viewRow_dot hn _ qd hz i
  rw [e1, e2]
  simp only [h1]
  convert hm using 1
  · unfold RelTr.tmpJac
    simp only [hpar, Bool.false_eq_true, if_false, hR2]
    cases hj : f.joint1 with
    | none => simp [optV]
    | some j =>
      have hr := hK.rot t j
      simp only [optM, optV, mulVec_zero, sub_zero, add_zero, map_zero, SE3.mul, ← mulVec_mulVec, add_mulVec,
        transpose_mul, neg_mulVec, Matrix.neg_mul, hat_mulVec]
      rw [hr.cross, ← mulVec_neg, ← mulVec_add, mulVec_mulVec (M := ((K t).M j).Rᵀ), hr.1, one_mulVec, cross_anticomm,
        add_comm]
  · unfold RelTr.tmpJac
    simp only [hpar, Bool.false_eq_true, if_false, hR2]
    cases hj : f.joint1 with
    | none => simp [optV]
    | some j =>
      have hr := hK.rot t j
      simp only [optM, optV, mulVec_zero, sub_zero, add_zero, SE3.mul, ← mulVec_mulVec, transpose_mul]
      rw [mulVec_mulVec (M := ((K t).M j).Rᵀ), hr.1, one_mulVec]

/-! ### A concrete robot -/

/-- Rotation about the vertical axis -/
noncomputable def rotZ (t : ℝ) : M3 ℝ := !![Real.cos t, -Real.sin t, 0; Real.sin t, Real.cos t, 0; 0, 0, 1]

theorem rotZ_isRot (t : ℝ) : IsRot (rotZ t) := by
  have h := Real.sin_sq_add_cos_sq t
  constructor
  · ext i j
    fin_cases i <;> fin_cases j <;> simp [rotZ, Matrix.mul_apply, Fin.sum_univ_three]
    · linear_combination h
    · ring
    · ring
    · linear_combination h
  · rw [det_fin_three]
    simp [rotZ]
    linear_combination h

open Classical in
/-- Joint 1 rotates about the vertical axis, joint 2 is a freeflyer attached to joint 1, joint 3 rotates about the vertical axis. -/
noncomputable def exRobot : Robot ℝ where
  njoints := 4
  nq := 9
  nv := 8
  parent := fun j => if j = 2 then 1 else 0
  idxq := fun j => if j = 1 then 0 else if j = 2 then 1 else 8
  jnq := fun j => if j = 2 then 7 else 1
  idxv := fun j => if j = 1 then 0 else if j = 2 then 1 else 7
  jnv := fun j => if j = 2 then 6 else 1
  placement := fun _ => SE3.one
  jt := fun j v => if j = 2 then (if Unit7 v then pose7 v else SE3.one) else ⟨rotZ (v.getD 0 0), 0⟩

theorem exRobot_ok : exRobot.Ok where
  pos := by decide
  parent_lt := fun j hj => by simp only [exRobot]; split <;> omega
  qin := fun j h h' => by
    simp only [exRobot] at *
    obtain rfl | rfl | rfl : j = 1 ∨ j = 2 ∨ j = 3 := by omega
    all_goals decide
  vin := fun j h h' => by
    simp only [exRobot] at *
    obtain rfl | rfl | rfl : j = 1 ∨ j = 2 ∨ j = 3 := by omega
    all_goals decide
  qdisj := fun i j k _ _ _ _ _ _ _ _ => by
    simp only [exRobot] at *
    obtain rfl | rfl | rfl : i = 1 ∨ i = 2 ∨ i = 3 := by omega
    all_goals obtain rfl | rfl | rfl : j = 1 ∨ j = 2 ∨ j = 3 := by omega
    all_goals simp_all
    all_goals omega
  vdisj := fun i j k _ _ _ _ _ _ _ _ => by
    simp only [exRobot] at *
    obtain rfl | rfl | rfl : i = 1 ∨ i = 2 ∨ i = 3 := by omega
    all_goals obtain rfl | rfl | rfl : j = 1 ∨ j = 2 ∨ j = 3 := by omega
    all_goals simp_all
    all_goals omega
  rotp := fun _ => one_isRot
  rotj := fun j v => by
    simp only [exRobot]
    split
    · split
      · rename_i h; exact pose7_isRot h
      · exact one_isRot
    · exact rotZ_isRot _

/-- Pose of joint 2 relative to joint 3 -/
noncomputable def exRel : RelTr := ⟨exRobot, some 3, 2, ⟨rotZ 1, ![1, 0, 0]⟩, ⟨rotZ 2, ![0, 1, 0]⟩⟩

theorem exRel_ok : exRel.Ok :=
  ⟨exRobot_ok, by decide, by decide, by decide, rotZ_isRot _, rotZ_isRot _⟩

theorem exRel_anc : ¬ exRobot.Anc 2 3 := by
  rw [← Robot.mem_chain exRobot_ok.parent_lt]
  decide

/-- Inputs: the variables of joint 3 and of joint 1, parent of joint 2 -/
example : exRel.inConf = [⟨0, 1⟩, ⟨8, 1⟩] ∧ exRel.outConf = [⟨1, 7⟩] ∧ exRel.inVel = [⟨0, 1⟩, ⟨7, 1⟩] := by
  refine ⟨?_, ?_, ?_⟩ <;> decide

/-- The hypotheses of `C49_solution` hold. -/
example (o : SE3Ops) (ho : o.Lawful) (q : Nat → ℝ) :
    exRel.implicitFunction.relative (exRobot.fk (lview q exRel.outConf
      (exRel.outputValue o q (rview q exRel.inConf) [1, 2, 3, 0, 0, 0, 1]))) = pose7 [1, 2, 3, 0, 0, 0, 1] :=
  C49_solution ho exRel_ok exRel_anc (fun v hv => by simp [exRel, exRobot, hv]) rfl q (by simp [Unit7])

open Classical in
/-- Operations that satisfy the laws (a parametrisation of the transforms by their coefficients in place of the exponential). -/
example : ∃ o : SE3Ops, o.Lawful := by
  let dec : List ℝ → SE3 ℝ := fun v => ⟨Matrix.of fun i j => v.getD (3 * i + j) 0, fun i => v.getD (9 + i) 0⟩
  let enc : SE3 ℝ → List ℝ := fun M => [M.R 0 0, M.R 0 1, M.R 0 2, M.R 1 0, M.R 1 1, M.R 1 2, M.R 2 0, M.R 2 1, M.R 2 2,
    M.p 0, M.p 1, M.p 2]
  have h : ∀ M, dec (enc M) = M := fun M => by
    refine SE3.ext' ?_ ?_
    · ext i j
      fin_cases i <;> fin_cases j <;> rfl
    · funext i
      fin_cases i <;> rfl
  refine ⟨⟨fun v => if IsRot (dec v).R then dec v else SE3.one, enc⟩, fun v => ?_, fun M hM => ?_⟩
  · dsimp only
    split
    · assumption
    · exact one_isRot
  · dsimp only
    rw [h, if_pos hM]

/-- The configuration where joint 1 has value `t` and the others are neutral -/
def exConf (t : ℝ) : Nat → ℝ := fun k => if k = 0 then t else if k = 7 then 1 else 0

theorem Robot.fk_step {r : Robot ℝ} (ok : r.Ok) (q : Nat → ℝ) {j : Nat} (h : 0 < j) :
    r.fk q j = (r.fk q (r.parent j)).mul (r.local_ q j) := by
  rw [Robot.fk_branch, Robot.chain_pos ok.parent_lt h, Robot.branch, ← Robot.fk_branch]

theorem rotZ_zero : rotZ 0 = 1 := by
  ext i j
  fin_cases i <;> fin_cases j <;> simp [rotZ]

theorem exFk (t : ℝ) (j : Nat) : exRobot.fk (exConf t) j = if j = 1 ∨ j = 2 then ⟨rotZ t, 0⟩ else SE3.one := by
  have h0 : exRobot.fk (exConf t) 0 = SE3.one := rfl
  have h1 : exRobot.fk (exConf t) 1 = ⟨rotZ t, 0⟩ := by
    rw [Robot.fk_step exRobot_ok _ (by omega)]
    change (exRobot.fk (exConf t) 0).mul (SE3.one.mul ⟨rotZ (exConf t 0), 0⟩) = _
    rw [h0, SE3.one_mul, SE3.one_mul]
    simp [exConf]
  have h2 : exRobot.fk (exConf t) 2 = ⟨rotZ t, 0⟩ := by
    rw [Robot.fk_step exRobot_ok _ (by omega)]
    change (exRobot.fk (exConf t) 1).mul (SE3.one.mul (exRobot.jt 2 (exRobot.slice (exConf t) 2))) = _
    have hs : exRobot.slice (exConf t) 2 = [0, 0, 0, 0, 0, 0, 1] := by
      simp [Robot.slice, exRobot, exConf, List.range']
    have hu : Unit7 [0, 0, 0, 0, 0, 0, 1] := by simp [Unit7]
    have hp : pose7 [0, 0, 0, 0, 0, 0, 1] = SE3.one := by
      refine SE3.ext' ?_ ?_
      · ext i j
        fin_cases i <;> fin_cases j <;> simp [pose7, quatToRot, SE3.one]
      · funext i
        fin_cases i <;> simp [pose7, SE3.one]
    have hj : exRobot.jt 2 [0, 0, 0, 0, 0, 0, 1] = SE3.one := by
      simp only [exRobot, if_true, hu, hp]
    rw [hs, hj, SE3.one_mul, SE3.mul_one, h1]
  by_cases hj : j = 1 ∨ j = 2
  · rw [if_pos hj]
    rcases hj with rfl | rfl
    · exact h1
    · exact h2
  · rw [if_neg hj]
    rcases Nat.eq_zero_or_pos j with rfl | hp
    · exact h0
    · have hj1 : j ≠ 1 := fun e => hj (.inl e)
      have hj2 : j ≠ 2 := fun e => hj (.inr e)
      have hpar : exRobot.parent j = 0 := by simp [exRobot, hj2]
      rw [Robot.fk_step exRobot_ok _ hp, hpar, h0, SE3.one_mul]
      simp only [Robot.local_, exRobot, Robot.slice, hj1, hj2, if_false]
      simp [List.range', exConf, rotZ_zero, SE3.mul, SE3.one]

/-- Absolute pose of joint 2 -/
noncomputable def exAbs : RelTr := ⟨exRobot, none, 2, SE3.one, SE3.one⟩

theorem exAbs_ok : exAbs.Ok := ⟨exRobot_ok, by decide, by decide, by decide, one_isRot, one_isRot⟩

/-- Positions and Jacobians when joint 1 turns -/
noncomputable def exKin (t : ℝ) : Kin 8 :=
  ⟨exRobot.fk (exConf t), fun _ => 0, fun j => if j = 1 ∨ j = 2 then Matrix.of fun i c => if i = 2 ∧ c = 0 then 1 else 0 else 0⟩

/-- Velocity: only joint 1 moves. -/
def exVel : Fin 8 → ℝ := fun c => if c = 0 then 1 else 0

theorem exKin_w (t : ℝ) (j : Nat) : (exKin t).Jw j *ᵥ exVel = if j = 1 ∨ j = 2 then ![0, 0, 1] else 0 := by
  unfold exKin
  dsimp only
  split
  · funext i
    fin_cases i <;> simp [mulVec, dotProduct, exVel]
  · simp

theorem rotZ_deriv (t : ℝ) (a b : Fin 3) : HasDerivAt (fun t => rotZ t a b) ((rotZ t * (hat ![0, 0, 1] : M3 ℝ)) a b) t := by
  have hs := Real.hasDerivAt_sin t
  have hc := Real.hasDerivAt_cos t
  fin_cases a <;> fin_cases b <;> simp [rotZ, hat, Matrix.mul_apply, Fin.sum_univ_three, hasDerivAt_const] <;>
    first
    | exact hs
    | exact hc
    | exact hs.neg

theorem exKin_moves (t : ℝ) : KMoves exKin exVel t := by
  refine ⟨fun t j => Robot.fk_rot exRobot_ok _ j, fun j => ?_⟩
  rw [exKin_w]
  have hM : (fun t => (exKin t).M j) = fun t => if j = 1 ∨ j = 2 then ⟨rotZ t, 0⟩ else SE3.one := by
    funext t; exact exFk t j
  have hv : (exKin t).Jv j *ᵥ exVel = 0 := by simp [exKin]
  rw [hM, hv]
  split
  · refine ⟨rotZ_isRot t, rotZ_deriv t, ?_⟩
    rw [mulVec_zero]
    exact VDeriv.const _ _
  · exact SE3.Moves.const one_isRot t

/-- With a parent joint the Jacobian is not the derivative of the value: when joint 1 turns, the pose of joint 2 in its parent
frame that keeps it fixed in the world turns in the opposite direction; the Jacobian has the wrong sign. -/
theorem C78_refuted : ∃ (f : RelTr) (q : ℝ → Nat → ℝ) (K : ℝ → Kin 8) (qd : Fin 8 → ℝ) (t : ℝ),
    f.Ok ∧ ¬ f.robot.Anc f.joint2 f.id1 ∧ ¬ f.JacobianOk q K qd t := by
  refine ⟨exAbs, exConf, exKin, exVel, 0, exAbs_ok, ?_, fun h => ?_⟩
  · change ¬ exRobot.Anc 2 0
    rw [← Robot.mem_chain exRobot_ok.parent_lt]
    decide
  have hT : ∀ t, exAbs.compute (exConf t) (rview (exConf t) exAbs.inConf) = ⟨(rotZ t)ᵀ, 0⟩ := fun t => by
    have hfk : exAbs.fkConfig (exConf t) (rview (exConf t) exAbs.inConf) = exConf t := by simp [RelTr.fkConfig]
    rw [exAbs.compute_eq, hfk]
    change SE3.one.actInv (((exRobot.fk (exConf t) 1).actInv (exRobot.fk (exConf t) 0)).mul (SE3.one.mul SE3.one.inv)) = _
    rw [exFk, exFk]
    simp [SE3.actInv, SE3.mul, SE3.one, SE3.inv]
  have hin : exAbs.inVel = [⟨0, 1⟩] := by decide
  have hm := h (exKin_moves 0) (fun _ _ => rfl) (by
    rw [hT]
    change exRobot.fk (exConf 0) 2 = (exRobot.fk (exConf 0) 1).mul (SE3.one.mul _)
    rw [exFk, exFk]
    simp [SE3.mul, SE3.one, rotZ_zero]) (fun c hc => by
    have : c ≠ 0 := fun e => hc (by subst e; rw [hin]; exact ⟨⟨0, 1⟩, by simp, by simp [Seg.Has]⟩)
    simp [exVel, this])
  have hn : (indices exAbs.inVel).Nodup := by rw [hin]; decide
  have e2 : (fun i => dot ((exAbs.jacobian (exKin 0)).2 i) (viewVel exAbs.inVel exVel)) = ![0, 0, 1] := by
    funext i
    have hz : ∀ c : Fin 8, ¬ Covers exAbs.inVel c → exVel c = 0 := fun c hc => by
      have : c ≠ 0 := fun e => hc (by subst e; rw [hin]; exact ⟨⟨0, 1⟩, by simp, by simp [Seg.Has]⟩)
      simp [exVel, this]
    have := viewRow_dot hn (exAbs.tmpJac (exKin 0)).2 exVel hz i
    refine this.trans ?_
    have hj : (exAbs.tmpJac (exKin 0)).2 = ((exRobot.fk (exConf 0) 2).Rᵀ * (exRobot.fk (exConf 0) 1).R) * (exKin 0).Jw 1 := rfl
    rw [hj, ← mulVec_mulVec, exKin_w, exFk, exFk]
    simp [rotZ_zero]
  have hd := hm.R 1 0
  rw [e2] at hd
  simp only [hT] at hd
  have h1 : HasDerivAt (fun t => (rotZ t)ᵀ 1 0) (-1) 0 := by
    have := rotZ_deriv 0 0 1
    simpa [rotZ_zero, hat] using this
  have h2 := hd.unique h1
  simp [rotZ_zero, hat] at h2
  norm_num at h2

/-- The hypotheses of `C78_no_parent_partial` can be met with a joint that moves: pose of the freeflyer when its parent is the
universe. -/
example : ∃ f : RelTr, f.Ok ∧ f.robot.parent f.joint2 = 0 ∧ f.inVel = [⟨0, 1⟩] :=
  ⟨⟨exRobot, some 1, 3, SE3.one, SE3.one⟩, ⟨exRobot_ok, by decide, by decide, by decide, one_isRot, one_isRot⟩, by decide,
    by decide⟩

end Hpp.Pose
