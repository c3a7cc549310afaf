import Verif.Contact.ExplicitLemmas

/-!
# Pose of the object computed by an explicit contact constraint
-/

namespace Hpp.Contact

open Matrix Hpp.Sym Hpp.Pose Hpp.Log

variable {isFF : Nat → Bool} {robot : Robot ℝ} {fs os : List JShape} {margin : ℝ} {E : Expl} {j2 : Nat} {o : SE3Ops}
  {expq : V3 ℝ → List ℝ} {F O : JShape} {c co : CShape}

theorem relative_poseOf {g : GT} (hrel : g.rel = true) (h0 : g.joint1 ≠ some 0) (M : Nat → SE3 ℝ) :
    g.relative M = ((poseOf M g.joint1).mul g.F1).inv.mul ((poseOf M g.joint2).mul g.F2) := by
  have h1 : g.j1 = g.joint1 := by
    unfold GT.j1
    rw [hrel]
    cases h : g.joint1 with
    | none => rfl
    | some j =>
      have : 0 < j := by
        rcases Nat.eq_zero_or_pos j with e | e
        · exact absurd (by rw [h, e]) h0
        · exact e
      simp [Option.filter, this]
  unfold GT.relative GT.frame1 GT.frame2
  rw [h1]
  cases g.joint1 <;> cases g.joint2 <;> simp [poseOf, SE3.one_mul]

theorem poseOf_rot {M : Nat → SE3 ℝ} (hM : ∀ j, IsRot (M j).R) (j : Option Nat) : IsRot (poseOf M j).R := by
  cases j with
  | none => exact one_isRot
  | some j => exact hM j

theorem rhsPose_unit (hq : ExpqOk expq) (w : Fin 6 → ℝ) : Unit7 (rhsPose expq w) := by
  have := hq.unit ![w 3, w 4, w 5]
  simpa [Unit7, rhsPose] using this

theorem rhsPose_pose (hq : ExpqOk expq) (w : Fin 6 → ℝ) : pose7 (rhsPose expq w) = ⟨expSO3 ![w 3, w 4, w 5], ![w 0, w 1, w 2]⟩ := by
  have := hq.rot ![w 3, w 4, w 5]
  refine SE3.ext' ?_ ?_
  · simpa [pose7, rhsPose] using this
  · funext i
    fin_cases i <;> simp [pose7, rhsPose]

/-- The relative pose used for a pair of surfaces -/
def pairPose (robot : Robot ℝ) (margin : ℝ) (j2 : Nat) (c co : CShape) : RelTr :=
  ⟨robot, c.joint, j2, movedFrame margin c.shape.positionInJoint, co.shape.positionInJoint⟩

theorem Scene.pos (sc : Scene robot j2 fs os) (hO : O ∈ os) : 0 < j2 := by
  have h1 := (sc.surfaces.object O hO).2
  rw [sc.objectJoint O hO] at h1
  rcases Nat.eq_zero_or_pos j2 with e | e
  · exact absurd (by rw [e]) h1
  · exact e

theorem Scene.floor_id (sc : Scene robot j2 fs os) (hF : F ∈ fs) : F.1.getD 0 < robot.njoints ∧ ¬ robot.Anc j2 (F.1.getD 0) := by
  cases h : F.1 with
  | none =>
    refine ⟨sc.robot.pos, fun ha => ?_⟩
    have := ha.le sc.robot.parent_lt
    simp only [Option.getD_none] at this
    omega
  | some j => exact sc.floorJoint F hF j h

/-- Facts about the pair of surfaces `(i, k)` -/
structure PairOk (robot : Robot ℝ) (E : Expl) (margin : ℝ) (j2 : Nat) (i k : Nat) (F O : JShape) (c co : CShape) : Prop where
  k1 : Shape.new F.2.reverse = some c.shape
  k2 : c.joint = F.1
  k3 : Shape.new O.2 = some co.shape
  k4 : co.joint = O.1
  ok : (pairPose robot margin j2 c co).Ok
  anc : ¬ robot.Anc j2 (pairPose robot margin j2 c co).id1
  get : E.poses[i * E.nObjSurf + k]? = some (pairPose robot margin j2 c co)
  sub : ∀ x, Covers (pairPose robot margin j2 c co).inConf x → Covers E.inConf x
  subv : ∀ x, Covers (pairPose robot margin j2 c co).inVel x → Covers E.inVel x

theorem pair_ok (hE : Expl.create isFF robot fs os margin = .ok E) (sc : Scene robot j2 fs os) {i k : Nat}
    (hF : fs[i]? = some F) (hO : os[k]? = some O) (hc : E.fn.floors[i]? = some c) (hco : E.fn.objects[k]? = some co) :
    PairOk robot E margin j2 i k F O c co := by
  have cr := created hE sc.objectJoint
  obtain ⟨hb, -⟩ := build_built cr.fn
  have hFm := List.mem_of_getElem? hF
  have hOm := List.mem_of_getElem? hO
  obtain ⟨k1, k2⟩ := hb.floor i F c hF hc
  obtain ⟨k3, k4⟩ := hb.object k O co hO hco
  have hj := sc.objectJoint O hOm
  have hid : (pairPose robot margin j2 c co).id1 = F.1.getD 0 := by
    change c.joint.getD 0 = _
    rw [k2]
  obtain ⟨h1, h2⟩ := sc.floor_id hFm
  refine ⟨k1, k2, k3, k4, ⟨sc.robot, by rw [hid]; exact h1, sc.lt, sc.pos hOm,
    polygon_frame (sc.surfaces.floor F hFm).1.reverse k1, object_frame (sc.surfaces.object O hOm).1 k3⟩, by rw [hid]; exact h2, ?_, ?_, ?_⟩
  · rw [cr.poses, cr.nObj]
    have := product_get (fun (fl ob : CShape) => (⟨robot, fl.joint, ob.joint.getD 0, movedFrame margin fl.shape.positionInJoint,
      ob.shape.positionInJoint⟩ : RelTr)) E.fn.objects hco hc
    rw [this, k4, hj]
    rfl
  · intro x hx
    rw [cr.inConf]
    refine (robot.contact_covers j2 _ x).1.2 ⟨F.1.getD 0, List.mem_map.2 ⟨F, hFm, rfl⟩, ?_⟩
    rw [← hid]
    exact hx
  · intro x hx
    rw [cr.inVel]
    refine (robot.contact_covers j2 _ x).2.2 ⟨F.1.getD 0, List.mem_map.2 ⟨F, hFm, rfl⟩, ?_⟩
    rw [← hid]
    exact hx

theorem output_pose (ho : o.Lawful) (hq : ExpqOk expq) (hE : Expl.create isFF robot fs os margin = .ok E) (sc : Scene robot j2 fs os)
    (cur q : Nat → ℝ) {rhs : Fin 8 → ℝ} {i k : Nat} {w : Fin 6 → ℝ} (hd : decode E.fn.radius rhs = some (i, k, w))
    (hF : fs[i]? = some F) (hO : os[k]? = some O) (hc : E.fn.floors[i]? = some c) (hco : E.fn.objects[k]? = some co) :
    ∃ out, E.outputValue o expq cur (rview q E.inConf) rhs = .ok out ∧
      (relModel c co).relative (robot.fk (lview q E.outConf out)) = ⟨expSO3 ![w 3, w 4, w 5], ![w 0 - margin, w 1, w 2]⟩ := by
  have cr := created hE sc.objectJoint
  have P := pair_ok hE sc hF hO hc hco
  have hFm := List.mem_of_getElem? hF
  have hOm := List.mem_of_getElem? hO
  set g := pairPose robot margin j2 c co with hg
  have hn : (indices E.inConf).Nodup := by rw [cr.inConf]; exact fromLogical_nodup _
  have hx := relPoseInputs_eq hn P.sub q
  refine ⟨g.outputValue o cur (rview q g.inConf) (rhsPose expq w), ?_, ?_⟩
  · unfold Expl.outputValue
    rw [hd]
    dsimp only
    rw [P.get]
    dsimp only
    rw [hx, mapAll_some]
  · have hcur : g.outputValue o cur (rview q g.inConf) (rhsPose expq w) = g.outputValue o q (rview q g.inConf) (rhsPose expq w) := by
      unfold RelTr.outputValue
      dsimp only
      rw [C50_value P.ok cur q (by simp [rview, hg])]
    have sol := C49_solution ho P.ok P.anc sc.free sc.size q (rhsPose_unit hq w)
    rw [hcur, cr.outConf]
    change g.implicitFunction.relative (robot.fk (lview q (robot.outConf j2) (g.outputValue o q (rview q g.inConf) (rhsPose expq w)))) = _ at sol
    have hj0 : F.1 ≠ some 0 := (sc.surfaces.floor F hFm).2
    have hrot := Robot.fk_rot sc.robot (lview q (robot.outConf j2) (g.outputValue o q (rview q g.inConf) (rhsPose expq w)))
    generalize robot.fk (lview q (robot.outConf j2) (g.outputValue o q (rview q g.inConf) (rhsPose expq w))) = M at sol hrot
    rw [relative_poseOf rfl (by change c.joint ≠ some 0; rw [P.k2]; exact hj0)] at sol ⊢
    change ((poseOf M c.joint).mul (movedFrame margin c.shape.positionInJoint)).inv.mul ((poseOf M (some j2)).mul co.shape.positionInJoint) = _ at sol
    change ((poseOf M c.joint).mul c.shape.positionInJoint).inv.mul ((poseOf M co.joint).mul co.shape.positionInJoint) = _
    rw [P.k4, sc.objectJoint O hOm]
    have hr1 : IsRot c.shape.positionInJoint.R := P.ok.rot1
    rw [moved_relative margin (poseOf_rot hrot _) hr1, rhsPose_pose hq] at sol
    generalize ((poseOf M c.joint).mul c.shape.positionInJoint).inv.mul ((poseOf M (some j2)).mul co.shape.positionInJoint) = X at sol ⊢
    obtain ⟨R, p⟩ := X
    have e1 := congrArg SE3.R sol
    have e2 := congrArg SE3.p sol
    dsimp only at e1 e2
    refine SE3.ext' e1 ?_
    funext a
    have := congrFun e2 a
    fin_cases a
    · simp at this ⊢; linarith
    · simpa using this
    · simpa using this

/-! ### The right hand side -/

variable {M : Nat → SE3 ℝ} {f : Fn} {i k : Nat}

theorem relPos_eq (hM : ∀ j, IsRot (M j).R) (h : c.joint ≠ some 0) (a : Fin 3) :
    relPos (c.at M) (co.at M) a = ((relModel c co).relative M).p a := by
  rw [relModel_p h]
  change (fun i => c.shape.positionInJoint.R i a) ⬝ᵥ (actInv (c.joint.map M) (co.at M).center - c.shape.C) = _
  generalize (co.at M).center = x
  unfold Surface.center CShape.at
  cases hj : c.joint with
  | none => rfl
  | some j =>
    change (fun i => c.shape.positionInJoint.R i a) ⬝ᵥ ((M j).Rᵀ *ᵥ (x - (M j).p) - c.shape.C) =
      ((M j).R *ᵥ fun i => c.shape.positionInJoint.R i a) ⬝ᵥ (x - ((M j).R *ᵥ c.shape.C + (M j).p))
    have e : x - ((M j).R *ᵥ c.shape.C + (M j).p) = (M j).R *ᵥ ((M j).Rᵀ *ᵥ (x - (M j).p) - c.shape.C) := by
      rw [mulVec_sub, mulVec_mulVec, (hM j).mul_transpose, one_mulVec]
      abel
    rw [e]
    exact (rotate_dot (M := some (M j)) (fun _ h => Option.some.inj h ▸ hM j) _ _).symm

theorem radius_at (f : Fn) (M : Nat → SE3 ℝ) : Hpp.Contact.radius (f.floors.map (·.at M)) = f.radius := by
  unfold Fn.radius Hpp.Contact.radius
  rw [List.foldl_map, List.foldl_map]
  rfl

theorem hold_shift (margin r : ℝ) (b : Bool) (t : CType) (v : Fin 6 → ℝ) (i k : Nat) :
    holdValue margin r b t v i k = holdValue 0 r b t ![v 0 + margin, v 1, v 2, v 3, v 4, v 5] i k := by
  funext a
  cases t <;> cases b <;> fin_cases a <;> simp [holdValue, contactValue, complementValue]

theorem pick_select {p : Pick} (hp : f.pick M = .ok p) :
    Hpp.Contact.select (f.floors.map (·.at M)) (f.objects.map (·.at M)) = some p.sel := by
  unfold Fn.pick at hp
  split at hp
  · cases hp
  · rename_i s hs
    split at hp
    · split at hp
      · cases hp
      · split at hp
        · cases hp
        · rw [← Except.ok.inj hp]; exact hs
    · cases hp

/-- The value of the hold function is decoded as the nearest pair and its relative pose. -/
theorem hold_decode (hf : Fn.build fs os margin = some f) (hS : Surfaces fs os) (hM : ∀ j, IsRot (M j).R)
    (hn : Nearest fs os M i k F O) (h1 : O.2.length ≠ 1) :
    ∃ rhs c co, f.hold M = .ok rhs ∧ f.floors[i]? = some c ∧ f.objects[k]? = some co ∧
      decode f.radius rhs = some (i, k, ![((relModel c co).relative M).p 0 + margin, ((relModel c co).relative M).p 1,
        ((relModel c co).relative M).p 2, logSO3 ((relModel c co).relative M).R 0, logSO3 ((relModel c co).relative M).R 1,
        logSO3 ((relModel c co).relative M).R 2]) := by
  obtain ⟨p, hp, e1, e2, ht, -, k1, k2, k3, k4⟩ := nearest_pick hf hS hM hn
  obtain ⟨hb, hm⟩ := build_built hf
  have hf0 : fs ≠ [] := by
    rintro rfl
    have := hn.floor
    simp at this
  have ho0 : os ≠ [] := by
    rintro rfl
    have := hn.object
    simp at this
  obtain ⟨p', F1, O1, hp', hpk⟩ := hb.pick hS hM hf0 ho0
  obtain rfl : p = p' := by
    rw [hp] at hp'
    exact Except.ok.inj hp'
  obtain ⟨hF, hF0⟩ := hS.floor F (List.mem_of_getElem? hn.floor)
  have hO := (hS.object O (List.mem_of_getElem? hn.object)).1
  have hsel : Hpp.Contact.select (f.floors.map (·.at M)) (f.objects.map (·.at M)) = some p.sel := pick_select hp
  refine ⟨holdValue margin f.radius p.sel.isInside p.type (poseError p M) p.sel.ifloor p.sel.iobject, p.floor, p.object, ?_,
    e1 ▸ hpk.floor, e2 ▸ hpk.object, ?_⟩
  · unfold Fn.hold Fn.value Fn.complement
    rw [hp, hm]
    rfl
  · have ok := relModel_ok hF hO k1 k3
    have herr : poseError p M = _ := error_eq ok hM
    rw [hold_shift, herr, e1, e2]
    refine C55_round_trip_partial ?_ _ _ ?_ _ _ _ fun hin => ?_
    · have := (radius_ge (f.floors.map (·.at M))).1
      rw [radius_at] at this
      linarith
    · rw [ht]
      unfold typeOf
      intro h
      split at h
      · rename_i h'; exact h1 h'
      · cases h
      · cases h
    · have := offsets_lt_radius (hb.floors_valid hS hM) hsel (f := p.floor.at M) (o := p.object.at M)
        (by rw [List.getElem?_map, hpk.floor]; rfl) (by rw [List.getElem?_map, hpk.object]; rfl) hin
      rw [radius_at, relPos_eq hM (k2 ▸ hF0), relPos_eq hM (k2 ▸ hF0)] at this
      exact this

theorem exp_log_one {R : M3 ℝ} (h : IsRot R) (hl : R = 1 ∨ 1e-6 < angle R ∧ angle R < Real.pi) : expSO3 (logSO3 R) = R := by
  rcases hl with rfl | ⟨h1, h2⟩
  · rw [(log_one rfl).2]
    ext a b
    have : Log.norm3 (0 : V3 ℝ) = 0 := by simp [Log.norm3]
    unfold expSO3
    rw [this]
    fin_cases a <;> fin_cases b <;> simp [rodrigues_apply]
  · exact (exp_log h h1 h2).1

end Hpp.Contact
