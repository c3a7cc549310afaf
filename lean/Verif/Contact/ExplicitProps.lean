import Verif.Contact.ExplicitRigid
import Verif.Contact.FuncPoints

/-!
# Properties of explicit contact constraints (C86)
-/

namespace Hpp.Contact

open Matrix Hpp.Sym Hpp.Pose Hpp.Log

variable {isFF : Nat → Bool} {robot : Robot ℝ} {fs os : List JShape} {margin : ℝ} {E : Expl} {j2 : Nat} {o : SE3Ops}
  {expq : V3 ℝ → List ℝ} {F O : JShape} {c co : CShape} {M : Nat → SE3 ℝ} {f : Fn} {i k : Nat}

theorem frame_eq (hO : IsObject O.2) (h2 : O.2.length ≠ 2) {s : Shape} (hs : Shape.new O.2 = some s) {B : M3 ℝ} (hB : FrameOf O.2 B) :
    B = s.positionInJoint.R := by
  obtain ⟨jo, P⟩ := O
  dsimp only at *
  cases hO with
  | point p =>
    have h1 : s.positionInJoint.R = 1 := by
      rw [← Option.some.inj hs]
      have e : (Shape.positionInJoint ⟨[p], p, ![1, 0, 0], [] ++ [![0, 1, 0]], [] ++ [![0, 0, 1]], []⟩).R = 1 := by
        ext i j
        fin_cases i <;> fin_cases j <;> rfl
      exact e
    rw [h1]
    cases hB with
    | point => rfl
    | polygon _ _ p q c h1 =>
      have := h1.three
      simp at this
  | segment => simp at h2
  | polygon P hP =>
    obtain ⟨m, hm⟩ := id hP
    exact frame_unique hm.three hB (new_frame hP hs)

/-- The output value is the configuration of the freeflyer joint such that the object surface selected by the right hand side is in
the relative pose given by the right hand side with respect to the floor surface selected, for each right hand side that selects
existing surfaces and each configuration, whatever the configuration stored in the robot. -/
theorem C86_output (ho : o.Lawful) (hq : ExpqOk expq) (hE : Expl.create isFF robot fs os margin = .ok E) (sc : Scene robot j2 fs os)
    (cur q : Nat → ℝ) {rhs : Fin 8 → ℝ} {w : Fin 6 → ℝ} (hd : decode E.fn.radius rhs = some (i, k, w))
    (hF : fs[i]? = some F) (hO : os[k]? = some O) (h2 : O.2.length ≠ 2) :
    ∃ out, E.outputValue o expq cur (rview q E.inConf) rhs = .ok out ∧
      ∀ A B, FrameOf F.2.reverse A → FrameOf O.2 B →
        (jointR (robot.fk (lview q E.outConf out)) F.1 * A)ᵀ * (jointR (robot.fk (lview q E.outConf out)) O.1 * B) =
          expSO3 ![w 3, w 4, w 5] ∧
        (jointR (robot.fk (lview q E.outConf out)) F.1 * A)ᵀ *ᵥ
          (O.center (robot.fk (lview q E.outConf out)) - F.center (robot.fk (lview q E.outConf out))) = ![w 0 - margin, w 1, w 2] := by
  have cr := created hE sc.objectJoint
  obtain ⟨hb, -⟩ := build_built cr.fn
  obtain ⟨c, hc⟩ := get_of_lt hb.flen.symm hF
  obtain ⟨co, hco⟩ := get_of_lt hb.olen.symm hO
  have P := pair_ok hE sc hF hO hc hco
  obtain ⟨out, h, hr⟩ := output_pose ho hq hE sc cur q hd hF hO hc hco
  refine ⟨out, h, fun A B hA hB => ?_⟩
  generalize robot.fk (lview q E.outConf out) = M at hr
  have hFm := sc.surfaces.floor F (List.mem_of_getElem? hF)
  have hOm := sc.surfaces.object O (List.mem_of_getElem? hO)
  have hB' := frame_eq hOm.1 h2 P.k3 hB
  have hA' : A = c.shape.positionInJoint.R := by
    obtain ⟨m, hm⟩ := hFm.1.reverse
    exact frame_unique hm.three hA (new_frame hFm.1.reverse P.k1)
  have hj : c.joint ≠ some 0 := P.k2 ▸ hFm.2
  have e1 := congrArg SE3.R hr
  rw [relModel_R hj, P.k2, P.k4, ← hA', ← hB'] at e1
  refine ⟨e1, ?_⟩
  funext a
  have e2 := congrFun (congrArg SE3.p hr) a
  rw [relModel_p hj, object_center P.k3 P.k4, floor_center P.k1 P.k2, P.k2, ← frame_col, ← hA'] at e2
  exact e2

theorem relative_cancel {A B A' B' G H : SE3 ℝ} (hA : IsRot A.R) (hA' : IsRot A'.R) (hG : IsRot G.R) (hH : IsRot H.R)
    (h : (A.mul G).inv.mul (B.mul H) = (A'.mul G).inv.mul (B'.mul H)) : A.inv.mul B = A'.inv.mul B' := by
  have key : ∀ X Y : SE3 ℝ, IsRot X.R → X.inv.mul Y = G.mul (((X.mul G).inv.mul (Y.mul H)).mul H.inv) := by
    intro X Y hX
    have h1 : Y = (X.mul G).mul ((X.mul G).inv.mul (Y.mul H) |>.mul H.inv) := by
      rw [← SE3.mul_assoc, ← SE3.mul_assoc, SE3.mul_inv (SE3.mul_rot hX hG), SE3.one_mul, SE3.mul_assoc, SE3.mul_inv hH, SE3.mul_one]
    conv_lhs => rw [h1]
    rw [SE3.mul_assoc, ← SE3.mul_assoc, SE3.inv_mul hX, SE3.one_mul]
  rw [key A B hA, key A' B' hA', h]

theorem relative_rot (ok : (relModel c co).Ok) (h : c.joint ≠ some 0) (hM : ∀ j, IsRot (M j).R) : IsRot ((relModel c co).relative M).R := by
  rw [relative_poseOf rfl h]
  exact SE3.mul_rot (SE3.inv_rot (SE3.mul_rot (poseOf_rot hM _) ok.rot1)) (SE3.mul_rot (poseOf_rot hM _) ok.rot2)

/-- The right hand side computed from a configuration `q0` makes the constraint hold the object: for each configuration, the output
value is the configuration of the object for which its pose with respect to the floor is the same as in `q0`.  Object polygons. -/
theorem C86_hold_partial (ho : o.Lawful) (hq : ExpqOk expq) (hE : Expl.create isFF robot fs os margin = .ok E)
    (sc : Scene robot j2 fs os) (q0 : Nat → ℝ) (hn : Nearest fs os (robot.fk q0) i k F O) (h3 : 3 ≤ O.2.length)
    (hl : LogExact (robot.fk q0) F O) :
    ∃ rhs, E.fn.hold (robot.fk q0) = .ok rhs ∧ ∀ cur q, ∃ out, E.outputValue o expq cur (rview q E.inConf) rhs = .ok out ∧
      (poseOf (robot.fk (lview q E.outConf out)) F.1).inv.mul (robot.fk (lview q E.outConf out) j2) =
        (poseOf (robot.fk q0) F.1).inv.mul (robot.fk q0 j2) := by
  have cr := created hE sc.objectJoint
  have hM := Robot.fk_rot sc.robot q0
  obtain ⟨rhs, c, co, h1, hc, hco, hd⟩ := hold_decode cr.fn sc.surfaces hM hn (by omega)
  refine ⟨rhs, h1, fun cur q => ?_⟩
  have P := pair_ok hE sc hn.floor hn.object hc hco
  obtain ⟨out, h, hr⟩ := output_pose ho hq hE sc cur q hd hn.floor hn.object hc hco
  refine ⟨out, h, ?_⟩
  have hM' := Robot.fk_rot sc.robot (lview q E.outConf out)
  generalize robot.fk (lview q E.outConf out) = M' at hr hM'
  have hFm := sc.surfaces.floor F (List.mem_of_getElem? hn.floor)
  have hOm := sc.surfaces.object O (List.mem_of_getElem? hn.object)
  have ok := relModel_ok hFm.1 hOm.1 P.k1 P.k3
  have hj : c.joint ≠ some 0 := P.k2 ▸ hFm.2
  have hlog := log_exact hFm.2 hFm.1 hOm.1 (by omega) P.k1 P.k2 P.k3 P.k4 hl
  have hrel : (relModel c co).relative M' = (relModel c co).relative (robot.fk q0) := by
    rw [hr]
    refine SE3.ext' ?_ ?_
    · dsimp only
      have e : ![(![((relModel c co).relative (robot.fk q0)).p 0 + margin, ((relModel c co).relative (robot.fk q0)).p 1,
        ((relModel c co).relative (robot.fk q0)).p 2, logSO3 ((relModel c co).relative (robot.fk q0)).R 0,
        logSO3 ((relModel c co).relative (robot.fk q0)).R 1, logSO3 ((relModel c co).relative (robot.fk q0)).R 2] : Fin 6 → ℝ) 3,
        (![((relModel c co).relative (robot.fk q0)).p 0 + margin, ((relModel c co).relative (robot.fk q0)).p 1,
        ((relModel c co).relative (robot.fk q0)).p 2, logSO3 ((relModel c co).relative (robot.fk q0)).R 0,
        logSO3 ((relModel c co).relative (robot.fk q0)).R 1, logSO3 ((relModel c co).relative (robot.fk q0)).R 2] : Fin 6 → ℝ) 4,
        (![((relModel c co).relative (robot.fk q0)).p 0 + margin, ((relModel c co).relative (robot.fk q0)).p 1,
        ((relModel c co).relative (robot.fk q0)).p 2, logSO3 ((relModel c co).relative (robot.fk q0)).R 0,
        logSO3 ((relModel c co).relative (robot.fk q0)).R 1, logSO3 ((relModel c co).relative (robot.fk q0)).R 2] : Fin 6 → ℝ) 5] =
          logSO3 ((relModel c co).relative (robot.fk q0)).R := by
        funext a
        fin_cases a <;> rfl
      rw [e]
      exact exp_log_one (relative_rot ok hj hM) hlog
    · funext a
      fin_cases a <;> simp
  have e1 := relative_poseOf (g := relModel c co) rfl hj M'
  have e2 := relative_poseOf (g := relModel c co) rfl hj (robot.fk q0)
  rw [hrel, e2] at e1
  change ((poseOf (robot.fk q0) c.joint).mul _).inv.mul ((poseOf (robot.fk q0) co.joint).mul _) =
    ((poseOf M' c.joint).mul _).inv.mul ((poseOf M' co.joint).mul _) at e1
  rw [P.k2, P.k4, sc.objectJoint O (List.mem_of_getElem? hn.object)] at e1
  exact (relative_cancel (poseOf_rot hM _) (poseOf_rot hM' _) ok.rot1 ok.rot2 e1).symm

theorem pick_get (hf : Fn.build fs os margin = some f) (hS : Surfaces fs os) (hM : ∀ j, IsRot (M j).R)
    (hn : Nearest fs os M i k F O) : ∃ p, f.pick M = .ok p ∧ p.sel.ifloor = i ∧ p.sel.iobject = k ∧ p.type = typeOf O.2 ∧
      (p.sel.isInside = true ↔ Above M F O) ∧ f.floors[i]? = some p.floor ∧ f.objects[k]? = some p.object := by
  obtain ⟨p, hp, e1, e2, ht, hin, -⟩ := nearest_pick hf hS hM hn
  obtain ⟨hb, hm⟩ := build_built hf
  have hf0 : fs ≠ [] := by
    rintro rfl
    have := hn.floor
    simp at this
  have ho0 : os ≠ [] := by
    rintro rfl
    have := hn.object
    simp at this
  obtain ⟨p', F1, O1, hp', hpk⟩ := hb.pick hS hM hf0 ho0
  obtain rfl : p = p' := by
    rw [hp] at hp'
    exact Except.ok.inj hp'
  exact ⟨p, hp, e1, e2, ht, hin, e1 ▸ hpk.floor, e2 ▸ hpk.object⟩

/-- The value of the hold function is the same for two configurations where the same pair is selected in the same relative pose. -/
theorem hold_same {M' : Nat → SE3 ℝ} (hf : Fn.build fs os margin = some f) (hS : Surfaces fs os) (hM : ∀ j, IsRot (M j).R)
    (hM' : ∀ j, IsRot (M' j).R) (hn : Nearest fs os M i k F O) (hn' : Nearest fs os M' i k F O)
    (h : (poseOf M' F.1).inv.mul (poseOf M' O.1) = (poseOf M F.1).inv.mul (poseOf M O.1)) : f.hold M' = f.hold M := by
  obtain ⟨p, hp, e1, e2, ht, hin, g1, g2⟩ := pick_get hf hS hM hn
  obtain ⟨p', hp', e1', e2', ht', hin', g1', g2'⟩ := pick_get hf hS hM' hn'
  obtain ⟨hb, -⟩ := build_built hf
  have hfl : p'.floor = p.floor := by
    rw [g1] at g1'
    exact (Option.some.inj g1').symm
  have hob : p'.object = p.object := by
    rw [g2] at g2'
    exact (Option.some.inj g2').symm
  obtain ⟨T, hT, m1, m2⟩ := moved_exists hM hM' h
  have hins : p'.sel.isInside = p.sel.isInside := by
    rw [Bool.eq_iff_iff, hin, hin', moved_above hT m1 m2]
  obtain ⟨k1, k2⟩ := hb.floor i F _ hn.floor g1
  obtain ⟨k3, k4⟩ := hb.object k O _ hn.object g2
  have hFm := hS.floor F (List.mem_of_getElem? hn.floor)
  have hOm := hS.object O (List.mem_of_getElem? hn.object)
  have ok := relModel_ok hFm.1 hOm.1 k1 k3
  have hj : p.floor.joint ≠ some 0 := k2 ▸ hFm.2
  have hrel : (relModel p.floor p.object).relative M' = (relModel p.floor p.object).relative M := by
    rw [relative_poseOf rfl hj, relative_poseOf rfl hj]
    change ((poseOf M' p.floor.joint).mul _).inv.mul ((poseOf M' p.object.joint).mul _) =
      ((poseOf M p.floor.joint).mul _).inv.mul ((poseOf M p.object.joint).mul _)
    rw [k2, k4]
    have key : ∀ N : Nat → SE3 ℝ, (∀ j, IsRot (N j).R) → ∀ G H : SE3 ℝ, IsRot G.R →
        ((poseOf N F.1).mul G).inv.mul ((poseOf N O.1).mul H) = G.inv.mul (((poseOf N F.1).inv.mul (poseOf N O.1)).mul H) := by
      intro N hN G H hG
      have r := poseOf_rot hN F.1
      have e : ((poseOf N F.1).mul G).inv = G.inv.mul (poseOf N F.1).inv := by
        have h1 : ((poseOf N F.1).mul G).inv.mul (((poseOf N F.1).mul G).mul (G.inv.mul (poseOf N F.1).inv)) =
            G.inv.mul (poseOf N F.1).inv := by
          rw [← SE3.mul_assoc, SE3.inv_mul (SE3.mul_rot r hG), SE3.one_mul]
        have h2 : ((poseOf N F.1).mul G).mul (G.inv.mul (poseOf N F.1).inv) = SE3.one := by
          rw [SE3.mul_assoc, ← SE3.mul_assoc G, SE3.mul_inv hG, SE3.one_mul, SE3.mul_inv r]
        rw [h2, SE3.mul_one] at h1
        exact h1
      rw [e, SE3.mul_assoc, SE3.mul_assoc]
    rw [key M' hM' _ _ ok.rot1, key M hM _ _ ok.rot1, h]
  have herr : poseError p' M' = poseError p M := by
    have a1 : poseError p' M' = _ := error_eq (c := p'.floor) (co := p'.object) (by rw [hfl, hob]; exact ok) hM'
    have a2 : poseError p M = _ := error_eq ok hM
    rw [a1, a2, hfl, hob, hrel]
  unfold Fn.hold Fn.value Fn.complement
  rw [hp, hp']
  dsimp only
  rw [herr, hins, e1, e2, e1', e2', ht, ht']

theorem nearest_moved {M' : Nat → SE3 ℝ} (hT : ∃ T : SE3 ℝ, IsRot T.R ∧ (∀ s ∈ fs, MovedBy M M' T s.1) ∧ ∀ s ∈ os, MovedBy M M' T s.1)
    (hn : Nearest fs os M i k F O) : Nearest fs os M' i k F O := by
  obtain ⟨T, hT, h1, h2⟩ := hT
  refine ⟨hn.floor, hn.object, fun j' i' F' O' d d' a1 a2 a3 a4 => ?_⟩
  rw [moved_sqDist hT (h1 F (List.mem_of_getElem? hn.floor)) (h2 O (List.mem_of_getElem? hn.object))] at a3
  rw [moved_sqDist hT (h1 F' (List.mem_of_getElem? a1)) (h2 O' (List.mem_of_getElem? a2))] at a4
  exact hn.least j' i' F' O' d d' a1 a2 a3 a4

/-- The output value is a solution of the implicit constraint if the same surfaces are the nearest ones for the new configuration. -/
theorem C86_satisfied_partial (ho : o.Lawful) (hq : ExpqOk expq) (hE : Expl.create isFF robot fs os margin = .ok E)
    (sc : Scene robot j2 fs os) (q0 : Nat → ℝ) (hn : Nearest fs os (robot.fk q0) i k F O) (h3 : 3 ≤ O.2.length)
    (hl : LogExact (robot.fk q0) F O) :
    ∃ rhs, E.fn.hold (robot.fk q0) = .ok rhs ∧ ∀ cur q, ∃ out, E.outputValue o expq cur (rview q E.inConf) rhs = .ok out ∧
      (Nearest fs os (robot.fk (lview q E.outConf out)) i k F O → E.fn.hold (robot.fk (lview q E.outConf out)) = .ok rhs) := by
  obtain ⟨rhs, h1, h2⟩ := C86_hold_partial ho hq hE sc q0 hn h3 hl
  refine ⟨rhs, h1, fun cur q => ?_⟩
  obtain ⟨out, h4, h5⟩ := h2 cur q
  refine ⟨out, h4, fun hn' => ?_⟩
  rw [← h1]
  refine hold_same (created hE sc.objectJoint).fn sc.surfaces (Robot.fk_rot sc.robot q0) (Robot.fk_rot sc.robot _) hn hn' ?_
  rw [sc.objectJoint O (List.mem_of_getElem? hn.object)]
  exact h5

/-- The output value is a solution of the implicit constraint if the floors belong to the same joint. -/
theorem C86_same_joint_partial (ho : o.Lawful) (hq : ExpqOk expq) (hE : Expl.create isFF robot fs os margin = .ok E)
    (sc : Scene robot j2 fs os) {jf : Option Nat} (hjf : ∀ s ∈ fs, s.1 = jf) (q0 : Nat → ℝ) (hn : Nearest fs os (robot.fk q0) i k F O)
    (h3 : 3 ≤ O.2.length) (hl : LogExact (robot.fk q0) F O) :
    ∃ rhs, E.fn.hold (robot.fk q0) = .ok rhs ∧ ∀ cur q, ∃ out, E.outputValue o expq cur (rview q E.inConf) rhs = .ok out ∧
      E.fn.hold (robot.fk (lview q E.outConf out)) = .ok rhs := by
  obtain ⟨rhs, h1, h2⟩ := C86_hold_partial ho hq hE sc q0 hn h3 hl
  refine ⟨rhs, h1, fun cur q => ?_⟩
  obtain ⟨out, h4, h5⟩ := h2 cur q
  refine ⟨out, h4, ?_⟩
  have h5' : (poseOf (robot.fk (lview q E.outConf out)) F.1).inv.mul (poseOf (robot.fk (lview q E.outConf out)) (some j2)) =
        (poseOf (robot.fk q0) F.1).inv.mul (poseOf (robot.fk q0) (some j2)) := h5
  have hF := hjf F (List.mem_of_getElem? hn.floor)
  rw [← h1]
  refine hold_same (created hE sc.objectJoint).fn sc.surfaces (Robot.fk_rot sc.robot q0) (Robot.fk_rot sc.robot _) hn
    (nearest_moved ?_ hn) ?_
  · obtain ⟨T, hT, m1, m2⟩ := moved_exists (Robot.fk_rot sc.robot q0) (Robot.fk_rot sc.robot _) h5'
    exact ⟨T, hT, fun s hs => by rw [hjf s hs, ← hF]; exact m1, fun s hs => by rw [sc.objectJoint s hs]; exact m2⟩
  · rw [sc.objectJoint O (List.mem_of_getElem? hn.object)]
    exact h5

end Hpp.Contact
