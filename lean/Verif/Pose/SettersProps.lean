import Verif.Pose.Setters

/-! # Properties of the setters of generic transformations (C103) -/

namespace Hpp.Pose

open Matrix Hpp.Sym Hpp.Log

variable {n : Nat}

theorem dummyPrec_pos : 0 < dummyPrec := by unfold dummyPrec; norm_num

theorem isIdentityE_one : isIdentityE 1 = true := by
  refine decide_eq_true fun i j => ?_
  have := dummyPrec_pos
  split
  · rename_i h
    subst h
    simp [this.le]
  · rename_i h
    simp [h, this.le]

theorem isZeroE_zero : isZeroE 0 = true := decide_eq_true fun i => by simp [dummyPrec_pos.le]

theorem isIdentityE_near {R : M3 ℝ} (h : isIdentityE R = true) (i j : Fin 3) : |R i j - (1 : M3 ℝ) i j| ≤ dummyPrec := by
  have h := of_decide_eq_true h i j
  split at h
  · rename_i e
    subst e
    rw [one_apply_eq]
    refine h.trans ?_
    have := min_le_right |R i i| 1
    have := dummyPrec_pos
    nlinarith
  · rename_i e
    simpa [one_apply_ne e] using h

theorem isIdentityE_sharp {R : M3 ℝ} (h : SharpRot R) : isIdentityE R = true ↔ R = 1 := by
  refine ⟨fun h' => ?_, fun h' => h' ▸ isIdentityE_one⟩
  rcases h with h | ⟨i, j, h⟩
  · exact h
  · exact absurd (isIdentityE_near h' i j) (not_le.2 h)

theorem isZeroE_sharp {v : V3 ℝ} (h : SharpVec v) : isZeroE v = true ↔ v = 0 := by
  refine ⟨fun h' => ?_, fun h' => h' ▸ isZeroE_zero⟩
  rcases h with h | ⟨i, h⟩
  · exact h
  · exact absurd (of_decide_eq_true h' i) (not_le.2 h)

theorem GTS.run_snoc (r : Robot ℝ) (s : GTS) (l : List GTOp) (o : GTOp) : s.run r (l ++ [o]) = (s.run r l).step r o := by
  simp [GTS.run]

/-- State after a sequence of calls -/
structure GTS.After (r : Robot ℝ) (s0 : GTS) (l : List GTOp) (s : GTS) : Prop where
  rel : s.g.rel = s0.g.rel
  pos : s.g.pos = s0.g.pos
  ori : s.g.ori = s0.g.ori
  ose3 : s.g.ose3 = s0.g.ose3
  mask : s.g.mask = s0.g.mask
  j1 : s.g.joint1 = if s0.g.rel then ((lastJoint1 l).getD none).filter (fun j => decide (0 < j)) else none
  j2 : s.g.joint2 = (lastJoint2 l).getD none
  F1 : s.g.F1 = (lastFrame1 l).getD SE3.one
  F2 : s.g.F2 = (lastFrame2 l).getD SE3.one
  R1 : s.R1isID = isIdentityE s.g.F1.R
  R2 : s.R2isID = isIdentityE s.g.F2.R
  t1 : s.t1isZero = isZeroE s.g.F1.p
  t2 : s.t2isZero = isZeroE s.g.F2.p
  active : s.active = if lastJoint1 l = none ∧ lastJoint2 l = none then (List.replicate r.nq true, List.replicate r.nv true)
    else r.activeBits (s.g.joint1.getD 0) (s.g.joint2.getD 0)

theorem GTS.after_run (r : Robot ℝ) (rel pos ori ose3 : Bool) (mask : List Bool) (l : List GTOp) :
    GTS.After r (GTS.new r rel pos ori ose3 mask) l ((GTS.new r rel pos ori ose3 mask).run r l) := by
  induction l using List.reverseRecOn with
  | nil =>
    refine ⟨rfl, rfl, rfl, rfl, rfl, ?_, rfl, rfl, rfl, isIdentityE_one.symm, isIdentityE_one.symm, isZeroE_zero.symm,
      isZeroE_zero.symm, ?_⟩
    · cases rel <;> rfl
    · rfl
  | append_singleton l o ih =>
    rw [GTS.run_snoc]
    generalize (GTS.new r rel pos ori ose3 mask).run r l = s at ih
    obtain ⟨h1, h2, h3, h4, h5, h6, h7, h8, h9, h10, h11, h12, h13, h14⟩ := ih
    cases o with
    | reference M =>
      refine ⟨h1, h2, h3, h4, h5, ?_, ?_, ?_, ?_, rfl, rfl, rfl, rfl, ?_⟩ <;>
        simp_all [GTS.step, GTS.checkIsIdentity1, GTS.checkIsIdentity2, lastJoint1, lastJoint2, lastFrame1, lastFrame2]
    | joint1 j =>
      have e1 : lastJoint1 (l ++ [.joint1 j]) = some j := by simp [lastJoint1]
      have e2 : lastJoint2 (l ++ [.joint1 j]) = lastJoint2 l := by simp [lastJoint2]
      have e3 : lastFrame1 (l ++ [.joint1 j]) = lastFrame1 l := by simp [lastFrame1]
      have e4 : lastFrame2 (l ++ [.joint1 j]) = lastFrame2 l := by simp [lastFrame2]
      have hr : s.g.rel = rel := h1
      have h6' : rel = false → s.g.joint1 = none := fun hh => by
        rw [h6, if_neg]
        simp [GTS.new, hh]
      cases rel with
      | true =>
        have e : s.step r (.joint1 j) = GTS.computeActiveParams r
            { s with g := { s.g with joint1 := j.filter (fun j => decide (0 < j)) } } := by
          simp [GTS.step, GTS.setJoint1, hr]
        rw [e]
        refine ⟨h1, h2, h3, h4, h5, ?_, ?_, ?_, ?_, h10, h11, h12, h13, ?_⟩
        · rw [e1]; rfl
        · rw [e2]; exact h7
        · rw [e3]; exact h8
        · rw [e4]; exact h9
        · rw [e1, if_neg (by simp)]; rfl
      | false =>
        have e : s.step r (.joint1 j) = GTS.computeActiveParams r s := by
          simp [GTS.step, GTS.setJoint1, hr]
        rw [e]
        refine ⟨h1, h2, h3, h4, h5, ?_, ?_, ?_, ?_, h10, h11, h12, h13, ?_⟩
        · exact h6' rfl
        · rw [e2]; exact h7
        · rw [e3]; exact h8
        · rw [e4]; exact h9
        · rw [e1, if_neg (by simp)]; rfl
    | joint2 j =>
      have e1 : lastJoint1 (l ++ [.joint2 j]) = lastJoint1 l := by simp [lastJoint1]
      have e2 : lastJoint2 (l ++ [.joint2 j]) = some j := by simp [lastJoint2]
      have e3 : lastFrame1 (l ++ [.joint2 j]) = lastFrame1 l := by simp [lastFrame1]
      have e4 : lastFrame2 (l ++ [.joint2 j]) = lastFrame2 l := by simp [lastFrame2]
      refine ⟨h1, h2, h3, h4, h5, ?_, ?_, ?_, ?_, h10, h11, h12, h13, ?_⟩
      · rw [e1]; exact h6
      · rw [e2]; rfl
      · rw [e3]; exact h8
      · rw [e4]; exact h9
      · rw [e2, if_neg (by simp)]; rfl
    | frame1 M =>
      refine ⟨h1, h2, h3, h4, h5, ?_, ?_, ?_, ?_, rfl, h11, rfl, h13, ?_⟩ <;>
        simp_all [GTS.step, GTS.checkIsIdentity1, lastJoint1, lastJoint2, lastFrame1, lastFrame2]
    | frame2 M =>
      refine ⟨h1, h2, h3, h4, h5, ?_, ?_, ?_, ?_, h10, rfl, h12, rfl, ?_⟩ <;>
        simp_all [GTS.step, GTS.checkIsIdentity2, lastJoint1, lastJoint2, lastFrame1, lastFrame2]

theorem GTS.After.getJ1 {r : Robot ℝ} {rel pos ori ose3 : Bool} {mask : List Bool} {l : List GTOp} {s : GTS}
    (h : GTS.After r (GTS.new r rel pos ori ose3 mask) l s) : s.g.j1 = s.g.joint1 := by
  have hr : s.g.rel = rel := h.rel
  have h1 : s.g.joint1 = if rel then ((lastJoint1 l).getD none).filter (fun j => decide (0 < j)) else none := h.j1
  unfold GT.j1
  rw [hr, h1]
  cases rel
  · rfl
  · simp [Option.filter_filter]

/-- **C103.** After any sequence of calls to the setters of a new function:
the joints and the frames are those given by the last call that concerns them (a joint of index 0 and, for an absolute
function, any first joint is the world; setting the reference resets the second frame);
and, once a joint was set, the active parameters are exactly the variables of the joints between the current ones, whatever
was active before. -/
theorem C103_state {r : Robot ℝ} (ok : r.Ok) (rel pos ori ose3 : Bool) (mask : List Bool) (l : List GTOp) (s : GTS)
    (hs : s = (GTS.new r rel pos ori ose3 mask).run r l) :
    s.g.j1 = (if rel then ((lastJoint1 l).getD none).filter (fun j => decide (0 < j)) else none) ∧
    s.g.joint2 = (lastJoint2 l).getD none ∧
    s.g.F1 = (lastFrame1 l).getD SE3.one ∧ s.g.F2 = (lastFrame2 l).getD SE3.one ∧
    ((lastJoint1 l ≠ none ∨ lastJoint2 l ≠ none) → s.g.j1.getD 0 < r.njoints → s.g.joint2.getD 0 < r.njoints → ∀ k,
      (s.active.1[k]? = some true ↔ ∃ a, r.OnPath (s.g.j1.getD 0) (s.g.joint2.getD 0) a ∧ r.QVar a k) ∧
      (s.active.2[k]? = some true ↔ ∃ a, r.OnPath (s.g.j1.getD 0) (s.g.joint2.getD 0) a ∧ r.VVar a k)) := by
  have h := GTS.after_run r rel pos ori ose3 mask l
  rw [← hs] at h
  refine ⟨h.getJ1.trans h.j1, h.j2, h.F1, h.F2, fun hl b1 b2 k => ?_⟩
  have ha := h.active
  rw [if_neg (by tauto), ← h.getJ1] at ha
  rw [ha]
  exact C51_active ok b1 b2 k

/-- The value does not depend on the variables that are not active, after any sequence of calls that sets a joint. -/
theorem C103_active {r : Robot ℝ} (ok : r.Ok) (rel pos ori ose3 : Bool) (mask : List Bool) (l : List GTOp) (s : GTS)
    (hs : s = (GTS.new r rel pos ori ose3 mask).run r l) (hl : lastJoint1 l ≠ none ∨ lastJoint2 l ≠ none)
    (b1 : s.g.j1.getD 0 < r.njoints) (b2 : s.g.joint2.getD 0 < r.njoints) (quat : M3 ℝ → List ℝ) {q q' : Nat → ℝ}
    (he : ∀ k, s.active.1[k]? = some true → q k = q' k) : s.value quat (r.fk q) = s.value quat (r.fk q') := by
  have h := GTS.after_run r rel pos ori ose3 mask l
  rw [← hs] at h
  have ha := h.active
  rw [if_neg (by tauto), ← h.getJ1] at ha
  rw [ha] at he
  have hc := Robot.rel_congr ok (q := q) (q' := q') (i := s.g.j1.getD 0) (j := s.g.joint2.getD 0) fun a ha k hk =>
    he k (((C51_active ok b1 b2 k).1).2 ⟨a, ha, hk⟩)
  have ht : ∀ q : Nat → ℝ, s.origin (r.fk q) =
      (((r.fk q (s.g.j1.getD 0)).actInv (r.fk q (s.g.joint2.getD 0))).mul s.g.F2).p := fun q => by
    have h0 : r.fk q 0 = SE3.one := rfl
    have h2 : s.g.M2 (r.fk q) = r.fk q (s.g.joint2.getD 0) := by
      unfold GT.M2
      cases s.g.joint2 <;> rfl
    unfold GTS.origin
    rw [h2]
    cases s.g.j1 with
    | none => simp [h0, SE3.one, SE3.actInv, SE3.mul, SE3.act]
    | some j =>
      simp only [Option.getD_some, SE3.actInv, SE3.mul, SE3.act, mulVec_sub, mulVec_add, mulVec_mulVec]
      abel
  have hraw : s.rawValue quat (r.fk q) = s.rawValue quat (r.fk q') := by
    unfold GTS.rawValue
    split
    · rename_i ho
      have hr : ∀ q, s.g.relative (r.fk q) =
          s.g.F1.actInv (((r.fk q (s.g.j1.getD 0)).actInv (r.fk q (s.g.joint2.getD 0))).mul s.g.F2) := fun q => by
        have hoM : ∀ (q : Nat → ℝ) (j : Option Nat), optM (r.fk q) j = r.fk q (j.getD 0) := fun q j => by
          cases j <;> rfl
        rw [s.g.relative_eq (Robot.fk_rot ok q), hoM, hoM]
        simp only [SE3.actInv_eq, SE3.mul_assoc]
      unfold GT.rawValue
      simp only [ho, if_true, s.g.transform_eq (Robot.fk_rot ok q), s.g.transform_eq (Robot.fk_rot ok q'), hr, hc]
    · unfold GTS.translation
      simp only [ht, hc]
  unfold GTS.value
  rw [hraw]

/-- The four ways of creating a function give the function defined by the joints and the frames; a reference is the pose of
the first frame. -/
theorem C103_create (r : Robot ℝ) (rel pos ori ose3 : Bool) (mask : List Bool) (j1 j2 : Option Nat) (A B : SE3 ℝ) :
    (∀ s, s = GTS.createAbsRef r rel pos ori ose3 j2 A mask →
      s.g.j1 = none ∧ s.g.joint2 = j2 ∧ s.g.F1 = A ∧ s.g.F2 = SE3.one ∧ s.active = r.activeBits 0 (j2.getD 0)) ∧
    (∀ s, s = GTS.createAbs r rel pos ori ose3 j2 B A mask →
      s.g.j1 = none ∧ s.g.joint2 = j2 ∧ s.g.F1 = A ∧ s.g.F2 = B ∧ s.active = r.activeBits 0 (j2.getD 0)) ∧
    (∀ s, s = GTS.createRelRef r true pos ori ose3 j1 j2 A mask →
      s.g.j1.getD 0 = j1.getD 0 ∧ s.g.joint2 = j2 ∧ s.g.F1 = A ∧ s.g.F2 = SE3.one ∧
        s.active = r.activeBits (j1.getD 0) (j2.getD 0)) ∧
    (∀ s, s = GTS.createRel r true pos ori ose3 j1 j2 A B mask →
      s.g.j1.getD 0 = j1.getD 0 ∧ s.g.joint2 = j2 ∧ s.g.F1 = A ∧ s.g.F2 = B ∧
        s.active = r.activeBits (j1.getD 0) (j2.getD 0)) := by
  have hj : ∀ j : Option Nat, (j.filter (fun j => decide (0 < j))).getD 0 = j.getD 0 := by
    rintro (_ | _ | j) <;> rfl
  refine ⟨fun s hs => hs ▸ ?_, fun s hs => hs ▸ ?_, fun s hs => hs ▸ ?_, fun s hs => hs ▸ ?_⟩
  · have h := GTS.after_run r rel pos ori ose3 mask [.joint1 none, .joint2 j2, .reference A]
    have e1 := h.getJ1.trans h.j1
    have e2 := h.active
    rw [if_neg (by simp [lastJoint1, lastJoint2]), h.j1, h.j2] at e2
    refine ⟨e1.trans ?_, rfl, rfl, rfl, e2.trans ?_⟩ <;> cases rel <;> rfl
  · have h := GTS.after_run r rel pos ori ose3 mask [.joint1 none, .joint2 j2, .frame1 A, .frame2 B]
    have e1 := h.getJ1.trans h.j1
    have e2 := h.active
    rw [if_neg (by simp [lastJoint1, lastJoint2]), h.j1, h.j2] at e2
    refine ⟨e1.trans ?_, rfl, rfl, rfl, e2.trans ?_⟩ <;> cases rel <;> rfl
  · have h := GTS.after_run r true pos ori ose3 mask [.joint1 j1, .joint2 j2, .reference A]
    have e1 := h.getJ1.trans h.j1
    have e2 := h.active
    rw [if_neg (by simp [lastJoint1, lastJoint2]), h.j1, h.j2] at e2
    refine ⟨(congrArg (fun j : Option Nat => j.getD 0) e1).trans (hj j1), rfl, rfl, rfl, e2.trans ?_⟩
    exact congrArg (fun j => r.activeBits j (j2.getD 0)) (hj j1)
  · have h := GTS.after_run r true pos ori ose3 mask [.joint1 j1, .joint2 j2, .frame1 A, .frame2 B]
    have e1 := h.getJ1.trans h.j1
    have e2 := h.active
    rw [if_neg (by simp [lastJoint1, lastJoint2]), h.j1, h.j2] at e2
    refine ⟨(congrArg (fun j : Option Nat => j.getD 0) e1).trans (hj j1), rfl, rfl, rfl, e2.trans ?_⟩
    exact congrArg (fun j => r.activeBits j (j2.getD 0)) (hj j1)

theorem SE3.actInv_eq_one {A B : SE3 ℝ} (hA : IsRot A.R) : A.actInv B = SE3.one ↔ B = A := by
  constructor
  · intro h
    have := congrArg (A.mul ·) h
    simp only [SE3.actInv_eq, ← SE3.mul_assoc, SE3.mul_inv hA, SE3.one_mul, SE3.mul_one] at this
    exact this
  · rintro rfl
    rw [SE3.actInv_eq, SE3.inv_mul hA]

/-- After the reference was set to `ref`, whatever happened before, the relative pose of the frames is the identity exactly
where the pose of the second joint in the first one is `ref`. -/
theorem C103_reference {r : Robot ℝ} (rel pos ori ose3 : Bool) (mask : List Bool) (l l' : List GTOp) {ref : SE3 ℝ}
    (hr : IsRot ref.R) (hl : ∀ o ∈ l', ∃ j, o = .joint1 j ∨ o = .joint2 j) (s : GTS)
    (hs : s = (GTS.new r rel pos ori ose3 mask).run r (l ++ .reference ref :: l')) {M : Nat → SE3 ℝ}
    (hM : ∀ j, IsRot (M j).R) (h0 : M 0 = SE3.one) :
    s.g.relative M = SE3.one ↔ (M (s.g.j1.getD 0)).inv.mul (M (s.g.joint2.getD 0)) = ref := by
  have h := GTS.after_run r rel pos ori ose3 mask (l ++ .reference ref :: l')
  rw [← hs] at h
  have hf : ∀ {β : Type} (f : GTOp → Option β) (b : β), (∀ j, f (.joint1 j) = none) → (∀ j, f (.joint2 j) = none) →
      f (.reference ref) = some b → (l ++ .reference ref :: l').reverse.findSome? f = some b := by
    intro β f b f1 f2 fr
    rw [List.reverse_append, List.reverse_cons, List.findSome?_append, List.findSome?_append]
    have : l'.reverse.findSome? f = none := by
      rw [List.findSome?_eq_none_iff]
      intro o ho
      obtain ⟨j, rfl | rfl⟩ := hl o (List.mem_reverse.1 ho)
      · exact f1 j
      · exact f2 j
    rw [this]
    simp [fr]
  have e1 : s.g.F1 = ref := by
    rw [h.F1, show lastFrame1 (l ++ .reference ref :: l') = some ref from hf _ _ (fun _ => rfl) (fun _ => rfl) rfl]
    rfl
  have e2 : s.g.F2 = SE3.one := by
    rw [h.F2, show lastFrame2 (l ++ .reference ref :: l') = some SE3.one from hf _ _ (fun _ => rfl) (fun _ => rfl) rfl]
    rfl
  have ho : ∀ (j : Option Nat), optM M j = M (j.getD 0) := fun j => by
    cases j with
    | none => exact h0.symm
    | some j => rfl
  rw [s.g.relative_eq hM, ho, ho, e1, e2]
  rw [← SE3.actInv_eq (M _), SE3.mul_one, SE3.actInv_eq_one hr]

/-- The getter returns the pose of the second frame in the first one when the joints coincide, which is the inverse of the
reference that was set. -/
theorem C103_getter_partial {r : Robot ℝ} (s : GTS) (ref : SE3 ℝ) :
    (s.step r (.reference ref)).getReference = ref.inv := by
  show ref.actInv SE3.one = ref.inv
  rw [SE3.actInv_eq, SE3.mul_one]

/-- "The reference that is read is the reference that was set" is false: after `f.reference (ref)`, `f.reference ()` is not `ref`,
and setting the reference to the value read changes the function: the configurations that satisfied it do not any more. -/
theorem C103_getter_refuted (r : Robot ℝ) : ∃ (s s' : GTS) (ref : SE3 ℝ) (M : Nat → SE3 ℝ),
    s = (GTS.createRelRef r true true true false (some 1) (some 2) ref (List.replicate 6 true)) ∧
    s.getReference ≠ ref ∧ s' = s.step r (.reference s.getReference) ∧
    s.g.relative M = SE3.one ∧ s'.g.relative M ≠ SE3.one := by
  have hfil : Option.filter (fun j => decide (0 < j)) (some 1) = some 1 := rfl
  refine ⟨_, _, ⟨1, ![1, 0, 0]⟩, fun j => if j = 2 then ⟨1, ![1, 0, 0]⟩ else SE3.one, rfl, ?_, rfl, ?_, ?_⟩
  · intro h
    have h : (SE3.actInv ⟨1, ![1, 0, 0]⟩ SE3.one : SE3 ℝ) = ⟨1, ![1, 0, 0]⟩ := h
    have := congrFun (congrArg SE3.p h) 0
    simp [SE3.actInv, SE3.one] at this
    norm_num at this
  · refine SE3.ext' ?_ ?_ <;>
      simp [GTS.createRelRef, GTS.new, GTS.step, GTS.setJoint1, GTS.computeActiveParams, GTS.checkIsIdentity1,
        GTS.checkIsIdentity2, GT.relative, GT.frame1, GT.frame2, GT.j1, SE3.mul, SE3.inv, SE3.one, hfil]
  · intro h
    have := congrFun (congrArg SE3.p h) 0
    simp [GTS.createRelRef, GTS.new, GTS.step, GTS.setJoint1, GTS.computeActiveParams, GTS.checkIsIdentity1,
        GTS.checkIsIdentity2, GT.relative, GT.frame1, GT.frame2, GT.j1, SE3.mul, SE3.inv, SE3.one, GTS.getReference,
        SE3.actInv, hfil] at this

/-! ### Flags -/

theorem GTS.exact_translation {r : Robot ℝ} {s0 s : GTS} {l : List GTOp} (h : GTS.After r s0 l s) (hR : SharpRot s.g.F1.R)
    (hp : SharpVec s.g.F1.p) (M : Nat → SE3 ℝ) : s.translation M = s.g.translation M := by
  have e1 : s.R1isID = s.g.R1isID := by
    rw [h.R1, Bool.eq_iff_iff, isIdentityE_sharp hR]
    simp [GT.R1isID]
  have e2 : s.t1isZero = s.g.t1isZero := by
    rw [h.t1, Bool.eq_iff_iff, isZeroE_sharp hp]
    simp [GT.t1isZero]
  unfold GTS.translation GT.translation GTS.origin
  simp only [e1, e2]
  cases s.g.j1 <;> rfl

/-- After any sequence of calls, if each part of the frames is exactly the identity or differs from it by more than `1e-12`,
the value and the blocks of the Jacobian are those computed with exact tests: the flags stored by the setters are those of
the current frames. -/
theorem C103_exact {r : Robot ℝ} (rel pos ori ose3 : Bool) (mask : List Bool) (l : List GTOp) (s : GTS)
    (hs : s = (GTS.new r rel pos ori ose3 mask).run r l) (hR : SharpRot s.g.F1.R) (hp : SharpVec s.g.F1.p)
    (hp2 : SharpVec s.g.F2.p) (quat : M3 ℝ → List ℝ) (K : Kin n) :
    s.value quat K.M = s.g.value quat K.M ∧ s.jtranslation K = s.g.jtranslation K ∧
      s.jorientation K = s.g.jorientation K := by
  have h := GTS.after_run r rel pos ori ose3 mask l
  rw [← hs] at h
  have e1 : s.R1isID = s.g.R1isID := by
    rw [h.R1, Bool.eq_iff_iff, isIdentityE_sharp hR]
    simp [GT.R1isID]
  have e3 : s.t2isZero = s.g.t2isZero := by
    rw [h.t2, Bool.eq_iff_iff, isZeroE_sharp hp2]
    simp [GT.t2isZero]
  refine ⟨?_, ?_, ?_⟩
  · unfold GTS.value GT.value
    congr 1
    unfold GTS.rawValue
    split
    · rfl
    · rename_i ho
      rw [GTS.exact_translation h hR hp]
      simp [GT.rawValue, ho]
  · unfold GTS.jtranslation GT.jtranslation GTS.cross2 GT.cross2
    simp only [e1, e3]
    cases s.g.j1 <;> cases s.g.joint2 <;> rfl
  · unfold GTS.jorientation GT.jorientation GTS.jlogFrom1 GT.jlogFrom1
    simp only [e1]
    cases s.g.j1 <;> cases s.g.joint2 <;> rfl

theorem rot_entry {R : M3 ℝ} (h : IsRot R) (i j : Fin 3) : |R i j| ≤ 1 := by
  have h1 := congrFun (congrFun h.1 j) j
  rw [Matrix.mul_apply, Fin.sum_univ_three, one_apply_eq] at h1
  simp only [transpose_apply] at h1
  apply abs_le_one_iff_mul_self_le_one.2
  have q0 := mul_self_nonneg (R 0 j)
  have q1 := mul_self_nonneg (R 1 j)
  have q2 := mul_self_nonneg (R 2 j)
  fin_cases i <;> simp <;> linarith

theorem abs_mulVec_le {A : M3 ℝ} {x : V3 ℝ} {e d : ℝ} (hA : ∀ i j, |A i j| ≤ e) (hd : |x 0| + |x 1| + |x 2| ≤ d) (he : 0 ≤ e)
    (i : Fin 3) : |(A *ᵥ x) i| ≤ e * d := by
  simp only [mulVec, dotProduct, Fin.sum_univ_three]
  refine (abs_add_three _ _ _).trans ?_
  rw [abs_mul, abs_mul, abs_mul]
  have a0 := mul_le_mul_of_nonneg_right (hA i 0) (abs_nonneg (x 0))
  have a1 := mul_le_mul_of_nonneg_right (hA i 1) (abs_nonneg (x 1))
  have a2 := mul_le_mul_of_nonneg_right (hA i 2) (abs_nonneg (x 2))
  have := mul_le_mul_of_nonneg_left hd he
  nlinarith

/-- After any sequence of calls, and whatever the frames are, the translation computed by a position function is at distance at
most `3e-12 (1 + |x| + |y| + |z|)` of the position `(x, y, z)` of the second frame in the first one. -/
theorem C103_small {r : Robot ℝ} (rel pos ori ose3 : Bool) (mask : List Bool) (l : List GTOp) (s : GTS)
    (hs : s = (GTS.new r rel pos ori ose3 mask).run r l) (hF : IsRot s.g.F1.R) {M : Nat → SE3 ℝ} (hM : ∀ j, IsRot (M j).R)
    (x : V3 ℝ) (hx : x = (s.g.relative M).p) (i : Fin 3) :
    |s.translation M i - x i| ≤ 3e-12 * (1 + (|x 0| + |x 1| + |x 2|)) := by
  have h := GTS.after_run r rel pos ori ose3 mask l
  rw [← hs] at h
  have hex : x = s.g.F1.Rᵀ *ᵥ (s.origin M - s.g.F1.p) := by
    rw [hx, ← s.g.transform_eq hM]
    unfold GT.transform GTS.origin
    cases s.g.j1 <;> simp [SE3.actInv, SE3.act, SE3.mul]
  have hv : s.origin M - s.g.F1.p = s.g.F1.R *ᵥ x := by
    rw [hex, mulVec_mulVec, hF.mul_transpose, one_mulVec]
  have hp0 := dummyPrec_pos
  have hpe : dummyPrec = 1e-12 := rfl
  set d := |x 0| + |x 1| + |x 2| with hd
  have hd0 : 0 ≤ d := by positivity
  have hw : ∀ i, |(s.origin M - s.g.F1.p) i| ≤ 1 * d := by
    rw [hv]
    exact abs_mulVec_le (rot_entry hF) le_rfl zero_le_one
  have hsum : |(s.origin M - s.g.F1.p) 0| + |(s.origin M - s.g.F1.p) 1| + |(s.origin M - s.g.F1.p) 2| ≤ 3 * d := by
    have := hw 0; have := hw 1; have := hw 2
    linarith
  -- the vector before the rotation
  obtain ⟨w, hw1, hw2⟩ : ∃ w : V3 ℝ, (s.translation M = if s.R1isID then s.origin M - s.g.F1.p + w else
      s.g.F1.Rᵀ *ᵥ (s.origin M - s.g.F1.p + w)) ∧ ∀ i, |w i| ≤ dummyPrec := by
    unfold GTS.translation
    cases ht : s.t1isZero
    · exact ⟨0, by simp, fun i => by simp [hp0.le]⟩
    · rw [h.t1] at ht
      exact ⟨s.g.F1.p, by simp, of_decide_eq_true ht⟩
  have hws : |w 0| + |w 1| + |w 2| ≤ 3 * dummyPrec := by
    have := hw2 0; have := hw2 1; have := hw2 2
    linarith
  rw [hw1]
  cases hR : s.R1isID
  · simp only [Bool.false_eq_true, if_false]
    have : (s.g.F1.Rᵀ *ᵥ (s.origin M - s.g.F1.p + w)) i - x i = (s.g.F1.Rᵀ *ᵥ w) i := by
      rw [mulVec_add, ← hex, Pi.add_apply]
      ring
    rw [this]
    have := abs_mulVec_le (A := s.g.F1.Rᵀ) (fun i j => rot_entry hF j i) hws zero_le_one i
    rw [hpe] at this
    refine this.trans ?_
    nlinarith
  · simp only [if_true]
    rw [h.R1] at hR
    have hnear := isIdentityE_near hR
    have e : (s.origin M - s.g.F1.p + w) i - x i = (((1 : M3 ℝ) - s.g.F1.Rᵀ) *ᵥ (s.origin M - s.g.F1.p)) i + w i := by
      rw [sub_mulVec, one_mulVec, ← hex, Pi.sub_apply, Pi.add_apply]
      ring
    rw [e]
    have h1 := abs_mulVec_le (A := (1 : M3 ℝ) - s.g.F1.Rᵀ) (e := dummyPrec) (fun i j => by
      have := hnear j i
      rw [abs_sub_comm] at this
      simpa [Matrix.sub_apply, one_apply, eq_comm] using this) hsum hp0.le i
    have h2 := hw2 i
    refine (abs_add_le _ _).trans ?_
    rw [hpe] at h1 h2
    nlinarith

/-- "A position function computes the position of the second frame in the first one" is false for frames that differ from the
identity by less than `1e-12`: the position differs, and differs from the one computed by the function that also has the
orientation. -/
theorem C103_small_refuted (r : Robot ℝ) : ∃ (A : SE3 ℝ) (s s' : GTS) (M : Nat → SE3 ℝ) (quat : M3 ℝ → List ℝ), IsRot A.R ∧
    s = GTS.createAbsRef r false true false false (some 1) A [true, true, true] ∧
    s' = GTS.createAbsRef r false true true false (some 1) A [true, true, true, true, true, true] ∧
    s.g.relative M = s'.g.relative M ∧
    s.translation M ≠ (s.g.relative M).p ∧ (s.value quat M).getD 0 0 ≠ (s'.value quat M).getD 0 0 := by
  have hz : isZeroE ![1e-13, 0, 0] = true := by
    refine decide_eq_true fun i => ?_
    fin_cases i <;> simp [dummyPrec] <;> norm_num [abs_of_pos]
  have ht : ∀ s, s = GTS.createAbsRef r false true false false (some 1) ⟨1, ![1e-13, 0, 0]⟩ [true, true, true] →
      s.translation (fun _ => SE3.one) = 0 := by
    rintro s rfl
    have h1 : isIdentityE 1 = true := isIdentityE_one
    simp [GTS.translation, GTS.origin, GTS.createAbsRef, GTS.new, GTS.step, GTS.setJoint1, GTS.computeActiveParams,
      GTS.checkIsIdentity1, GTS.checkIsIdentity2, GT.j1, GT.M2, SE3.act, SE3.one, hz, h1]
  refine ⟨⟨1, ![1e-13, 0, 0]⟩, _, _, fun _ => SE3.one, fun _ => [1, 0, 0, 0], one_isRot, rfl, rfl, rfl, ?_, ?_⟩
  · rw [ht _ rfl]
    intro h
    have := congrFun h 0
    simp [GTS.createAbsRef, GTS.new, GTS.step, GTS.setJoint1, GTS.computeActiveParams, GTS.checkIsIdentity1,
        GTS.checkIsIdentity2, GT.relative, GT.frame1, GT.frame2, GT.j1, SE3.mul, SE3.inv, SE3.one] at this
    norm_num at this
  · have e1 : (GTS.createAbsRef r false true false false (some 1) ⟨1, ![1e-13, 0, 0]⟩ [true, true, true]).value
        (fun _ => [1, 0, 0, 0]) (fun _ => SE3.one) = [0, 0, 0] := by
      have h0 := ht _ rfl
      unfold GTS.value GTS.rawValue
      rw [h0]
      rfl
    have e2 : ((GTS.createAbsRef r false true true false (some 1) ⟨1, ![1e-13, 0, 0]⟩
        [true, true, true, true, true, true]).value (fun _ => [1, 0, 0, 0]) (fun _ => SE3.one)).getD 0 0 = -1e-13 := by
      set s := GTS.createAbsRef r false true true false (some 1) ⟨1, ![1e-13, 0, 0]⟩ [true, true, true, true, true, true]
      have hok : s.g.Ok := ⟨rfl, .inl rfl, (fun h => nomatch h), one_isRot, one_isRot⟩
      have h := C52_value hok (quat := fun _ => [1, 0, 0, 0]) (fun _ => rfl) (M := fun _ => SE3.one) (fun _ => one_isRot)
      have h' : s.value (fun _ => [1, 0, 0, 0]) (fun _ => SE3.one) = s.g.value (fun _ => [1, 0, 0, 0]) (fun _ => SE3.one) := rfl
      rw [h', h]
      have hv : s.g.valueMask = [true, true, true, true, true, true] := rfl
      have hf : s.g.full (fun _ => [1, 0, 0, 0]) (fun _ => SE3.one) =
        list3 (s.g.relative fun _ => SE3.one).p ++ list3 (logSO3 (s.g.relative fun _ => SE3.one).R) := rfl
      rw [hv, hf]
      simp [list3, select, s, GTS.createAbsRef, GTS.new, GTS.step, GTS.setJoint1, GTS.computeActiveParams, GTS.checkIsIdentity1,
        GTS.checkIsIdentity2, GT.relative, GT.frame1, GT.frame2, GT.j1, SE3.mul, SE3.inv, SE3.one]
    rw [e1, e2]
    norm_num

/-! ### Concrete cases -/

/-- A relative function the joints and the reference of which are changed: only the last ones count. -/
noncomputable def demoSetters : List GTOp :=
  [.joint1 (some 1), .joint2 (some 2), .frame2 ⟨1, ![0, 0, 3]⟩, .reference ⟨1, ![1, 0, 0]⟩, .joint1 (some 3), .joint2 (some 2)]

example : (lastJoint1 demoSetters).getD none = some 3 ∧ (lastJoint2 demoSetters).getD none = some 2 ∧
    lastFrame1 demoSetters = some ⟨1, ![1, 0, 0]⟩ ∧ lastFrame2 demoSetters = some SE3.one := ⟨rfl, rfl, rfl, rfl⟩

/-- The variable of joint 1 was active after the first two calls; it is not any more. -/
example : ((GTS.new demoRobot true true true false (List.replicate 6 true)).run demoRobot demoSetters).active =
    ([false, true, true], [false, true, true]) := by
  have h := (GTS.after_run demoRobot true true true false (List.replicate 6 true) demoSetters).active
  rw [h, if_neg (by simp [lastJoint1, demoSetters])]
  show demoRobot.activeBits 3 2 = _
  decide

/-- The hypotheses of `C103_exact`: the rotation is the identity, the translation is not small. -/
example : SharpRot (1 : M3 ℝ) ∧ SharpVec ![1, 0, 0] ∧ SharpVec 0 :=
  ⟨.inl rfl, .inr ⟨0, by simp [dummyPrec]; norm_num⟩, .inl rfl⟩

/-- The hypotheses of `C103_reference` -/
example : demoSetters = [.joint1 (some 1), .joint2 (some 2), .frame2 ⟨1, ![0, 0, 3]⟩] ++
    .reference ⟨1, ![1, 0, 0]⟩ :: [.joint1 (some 3), .joint2 (some 2)] ∧
    ∀ o ∈ [GTOp.joint1 (some 3), GTOp.joint2 (some 2)], ∃ j, o = .joint1 j ∨ o = .joint2 j :=
  ⟨rfl, by simp⟩

end Hpp.Pose
