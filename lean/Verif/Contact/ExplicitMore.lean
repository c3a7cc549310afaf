import Verif.Contact.ExplicitProps

/-!
# Construction, inputs and Jacobian of explicit contact constraints; counterexamples (C86)
-/

namespace Hpp.Contact

open Matrix Hpp.Sym Hpp.Pose Hpp.Log

variable {isFF : Nat → Bool} {robot : Robot ℝ} {fs os : List JShape} {margin : ℝ} {E : Expl} {j2 : Nat} {o : SE3Ops}
  {expq : V3 ℝ → List ℝ} {F O : JShape} {c co : CShape} {M : Nat → SE3 ℝ} {f : Fn} {i k : Nat}

/-! ### Construction -/

theorem checkLoop_some (j : Nat) (l : List JShape) : checkLoop isFF (some j) l = .ok () ↔ ∀ s ∈ l, s.1 = some j := by
  induction l with
  | nil => simp [checkLoop]
  | cons s l ih =>
    obtain ⟨a, P⟩ := s
    cases a with
    | none => simp [checkLoop]
    | some b =>
      simp only [checkLoop]
      split
      · rename_i h
        simp [h]
      · rename_i h
        rw [ih]
        have : b = j := not_not.1 h
        simp [this]

/-- The constraint is built exactly if there are objects, they are all fixed to the same joint, and this joint is a freeflyer. -/
theorem C86_check (hS : Surfaces fs os) :
    (∃ E, Expl.create isFF robot fs os margin = .ok E) ↔ os ≠ [] ∧ ∃ j, isFF j = true ∧ ∀ s ∈ os, s.1 = some j := by
  obtain ⟨f, hf⟩ := build_defined (fs := fs) (os := os) (fun s hs => by
    obtain ⟨m, hm⟩ := (hS.floor s hs).1
    have := hm.three
    intro e
    rw [e] at this
    simp at this) (fun s hs => by
    have := (hS.object s hs).1
    generalize s.2 = P at this
    cases this with
    | point => simp
    | segment => simp
    | polygon _ h =>
      obtain ⟨m, hm⟩ := h
      have := hm.three
      rintro rfl
      simp at this) margin
  unfold Expl.create checkContactSurfaces
  cases os with
  | nil => simp [checkLoop]
  | cons s l =>
    obtain ⟨a, P⟩ := s
    cases a with
    | none => simp [checkLoop]
    | some j =>
      simp only [checkLoop, hf]
      by_cases hj : isFF j = true
      · rw [if_pos hj]
        by_cases hl : checkLoop isFF (some j) l = .ok ()
        · rw [hl]
          have := (checkLoop_some j l).1 hl
          refine ⟨fun _ => ⟨by simp, j, hj, ?_⟩, fun _ => ⟨_, rfl⟩⟩
          intro s hs
          rcases List.mem_cons.1 hs with rfl | hs
          · rfl
          · exact this s hs
        · constructor
          · rintro ⟨E, hE⟩
            cases hc : checkLoop isFF (some j) l with
            | error e => rw [hc] at hE; cases hE
            | ok u => exact absurd hc hl
          · rintro ⟨-, j', -, h⟩
            refine absurd ((checkLoop_some j l).2 fun s hs => ?_) hl
            have h0 := h _ List.mem_cons_self
            rw [h s (List.mem_cons_of_mem _ hs), ← h0]
      · rw [if_neg hj]
        constructor
        · rintro ⟨E, hE⟩
          cases hE
        · rintro ⟨-, j', h1, h2⟩
          have h0 := Option.some.inj (h2 _ List.mem_cons_self)
          rw [h0] at hj
          exact absurd h1 hj

/-- The inputs are the variables of the joints between the joint of a floor and the joint of the object, apart from the joint of the
object; the output variables are not inputs. -/
theorem C86_inputs (hE : Expl.create isFF robot fs os margin = .ok E) (sc : Scene robot j2 fs os) (x : Nat) :
    (Covers E.inConf x ↔ ∃ s ∈ fs, ∃ a, robot.OnPath (s.1.getD 0) j2 a ∧ a ≠ j2 ∧ robot.QVar a x) ∧
    (Covers E.inVel x ↔ ∃ s ∈ fs, ∃ a, robot.OnPath (s.1.getD 0) j2 a ∧ a ≠ j2 ∧ robot.VVar a x) ∧
    (Covers E.outConf x → robot.QVar j2 x ∧ ¬ Covers E.inConf x) := by
  have cr := created hE sc.objectJoint
  have hos : os ≠ [] := by
    rintro rfl
    unfold Expl.create checkContactSurfaces at hE
    simp [checkLoop] at hE
  obtain ⟨O, hO⟩ := List.exists_mem_of_ne_nil _ hos
  have hp := sc.pos hO
  have key : ∀ s ∈ fs, (Covers (robot.inConf (s.1.getD 0) j2) x ↔ ∃ a, robot.OnPath (s.1.getD 0) j2 a ∧ a ≠ j2 ∧ robot.QVar a x) ∧
      (Covers (robot.inVel (s.1.getD 0) j2) x ↔ ∃ a, robot.OnPath (s.1.getD 0) j2 a ∧ a ≠ j2 ∧ robot.VVar a x) := by
    intro s hs
    obtain ⟨h1, h2⟩ := sc.floor_id hs
    have := C50_inputs sc.robot h1 sc.lt hp x
    simp only [C50_path sc.robot hp h2, and_assoc] at this
    exact this
  rw [cr.inConf, cr.inVel, (robot.contact_covers j2 _ x).1, (robot.contact_covers j2 _ x).2, cr.outConf]
  refine ⟨?_, ?_, ?_⟩
  · constructor
    · rintro ⟨j, hj, hc⟩
      obtain ⟨s, hs, rfl⟩ := List.mem_map.1 hj
      exact ⟨s, hs, (key s hs).1.1 hc⟩
    · rintro ⟨s, hs, hc⟩
      exact ⟨_, List.mem_map.2 ⟨s, hs, rfl⟩, (key s hs).1.2 hc⟩
  · constructor
    · rintro ⟨j, hj, hc⟩
      obtain ⟨s, hs, rfl⟩ := List.mem_map.1 hj
      exact ⟨s, hs, (key s hs).2.1 hc⟩
    · rintro ⟨s, hs, hc⟩
      exact ⟨_, List.mem_map.2 ⟨s, hs, rfl⟩, (key s hs).2.2 hc⟩
  · intro h
    refine ⟨?_, ?_⟩
    · obtain ⟨s, hs, h1, h2⟩ := h
      rw [Robot.outConf, List.mem_singleton] at hs
      subst hs
      exact ⟨h1, h2⟩
    · rintro ⟨j, hj, hc⟩
      obtain ⟨s, hs, rfl⟩ := List.mem_map.1 hj
      obtain ⟨h1, h2⟩ := sc.floor_id hs
      exact (C50_outputs sc.robot h1 sc.lt hp h2 x).1 h hc

/-! ### Jacobian -/

theorem bits_ext {a b : List Bool} (hl : a.length = b.length) (h : ∀ k : Nat, a[k]? = some true ↔ b[k]? = some true) : a = b := by
  apply List.ext_getElem hl
  intro k h1 h2
  have := h k
  rw [List.getElem?_eq_getElem h1, List.getElem?_eq_getElem h2] at this
  cases ha : a[k] <;> cases hb : b[k] <;> simp_all

/-- The floors are fixed to the same joint: the inputs of the constraint are those of each relative pose. -/
theorem inVel_same (hE : Expl.create isFF robot fs os margin = .ok E) (sc : Scene robot j2 fs os) {jf : Option Nat} (hjf : ∀ s ∈ fs, s.1 = jf)
    (hne : fs ≠ []) : E.inVel = robot.inVel (jf.getD 0) j2 := by
  have cr := created hE sc.objectJoint
  rw [cr.inVel, ← (C50_rel_pose_variables robot (jf.getD 0) j2).2]
  congr 1
  have hsp := Robot.contactBits_spec (n := robot.nv) (bits := fun j1 => robot.relPoseVelVariables j1 j2)
    (fs := fs.map fun s => s.1.getD 0) (fun f _ => by simp [Robot.relPoseVelVariables, Robot.toggleLoop_length])
  refine bits_ext (by rw [hsp.1]; simp [Robot.relPoseVelVariables, Robot.toggleLoop_length]) fun x => ?_
  rw [hsp.2]
  constructor
  · rintro ⟨j, hj, h⟩
    obtain ⟨s, hs, rfl⟩ := List.mem_map.1 hj
    rw [hjf s hs] at h
    exact h
  · intro h
    obtain ⟨s, hs⟩ := List.exists_mem_of_ne_nil _ hne
    exact ⟨_, List.mem_map.2 ⟨s, hs, rfl⟩, by rw [hjf s hs]; exact h⟩

/-- Value and Jacobian of the pair of surfaces selected -/
theorem jacobian_pair (hE : Expl.create isFF robot fs os margin = .ok E) (sc : Scene robot j2 fs os) {jf : Option Nat}
    (hjf : ∀ s ∈ fs, s.1 = jf) {rhs : Fin 8 → ℝ} {w : Fin 6 → ℝ} (hd : decode E.fn.radius rhs = some (i, k, w))
    (hF : fs[i]? = some F) (hO : os[k]? = some O) (hc : E.fn.floors[i]? = some c) (hco : E.fn.objects[k]? = some co)
    {n : Nat} (K : Kin n) :
    E.jacobianOutputValue o expq K rhs = .ok ((pairPose robot margin j2 c co).jacobianOutputValue o K (rhsPose expq w)) ∧
      E.inVel = (pairPose robot margin j2 c co).inVel := by
  have P := pair_ok hE sc hF hO hc hco
  have hne : fs ≠ [] := by
    rintro rfl
    simp at hF
  have hj : c.joint = jf := by rw [P.k2]; exact hjf F (List.mem_of_getElem? hF)
  have hv : E.inVel = (pairPose robot margin j2 c co).inVel := by
    rw [inVel_same hE sc hjf hne, ← hj]
    rfl
  refine ⟨?_, hv⟩
  unfold Expl.jacobianOutputValue
  rw [hd]
  dsimp only
  rw [P.get]
  dsimp only
  split
  · rename_i h
    have hpar : robot.parent j2 = 0 := by
      have := h.1
      simp only [RelTr.hasParent, pairPose] at this
      have := of_decide_eq_false this
      omega
    have hid : (pairPose robot margin j2 c co).id1 = 0 := by
      have : c.joint = none := h.2
      change c.joint.getD 0 = 0
      rw [this]; rfl
    have hempty : indices (pairPose robot margin j2 c co).inVel = [] := by
      rw [List.eq_nil_iff_forall_not_mem]
      intro x hx
      rw [mem_indices] at hx
      have hx' : Covers (robot.inVel 0 j2) x := by
        have e : (pairPose robot margin j2 c co).inVel = robot.inVel (pairPose robot margin j2 c co).id1 j2 := rfl
        rwa [e, hid] at hx
      rw [(C50_inputs sc.robot sc.robot.pos sc.lt P.ok.pos2 x).2, hpar] at hx'
      obtain ⟨a, ha, -⟩ := hx'
      rcases ha with ⟨h1, h2⟩ | ⟨h1, h2⟩ <;> exact h2 h1
    rw [hv, hempty]
    congr 1
    unfold RelTr.jacobianOutputValue
    dsimp only
    split
    · rw [hempty]; rfl
    · unfold RelTr.jacobian RelTr.viewRow
      rw [hempty]; rfl
  · rw [if_neg]
    rw [hv]
    simp

/-- The Jacobian of the output value is right if the floors are fixed to the same joint and the freeflyer joint has no parent. `K`:
positions and Jacobians of the joints; at time `t` the output variables have been set to the value of the explicit function. -/
theorem C86_jacobian_partial (ho : o.Lawful) (hq : ExpqOk expq) (hE : Expl.create isFF robot fs os margin = .ok E)
    (sc : Scene robot j2 fs os) {jf : Option Nat} (hjf : ∀ s ∈ fs, s.1 = jf) (hp : robot.parent j2 = 0)
    {rhs : Fin 8 → ℝ} {w : Fin 6 → ℝ} (hd : decode E.fn.radius rhs = some (i, k, w)) (hF : fs[i]? = some F) (hO : os[k]? = some O)
    {n : Nat} (q : ℝ → Nat → ℝ) (K : ℝ → Kin n) (qd : Fin n → ℝ) (t : ℝ) :
    ∃ (g : RelTr) (out : ℝ → List ℝ) (J : (Fin 3 → List ℝ) × (Fin 3 → List ℝ)), E.poses[i * E.nObjSurf + k]? = some g ∧
      (∀ s, E.outputValue o expq (q s) (rview (q s) E.inConf) rhs = .ok (out s)) ∧
      E.jacobianOutputValue o expq (K t) rhs = .ok J ∧
      (KMoves K qd t → (∀ t j, (K t).M j = robot.fk (q t) j) →
        ((K t).M j2 = (robot.placement j2).mul (g.compute (q t) (rview (q t) g.inConf))) →
        (∀ c : Fin n, ¬ Covers E.inVel c → qd c = 0) →
        SE3.Moves (fun t => pose7 (out t)) (fun i => dot (J.1 i) (viewVel E.inVel qd)) (fun i => dot (J.2 i) (viewVel E.inVel qd)) t) := by
  have cr := created hE sc.objectJoint
  obtain ⟨hb, -⟩ := build_built cr.fn
  obtain ⟨c, hc⟩ := get_of_lt hb.flen.symm hF
  obtain ⟨co, hco⟩ := get_of_lt hb.olen.symm hO
  have P := pair_ok hE sc hF hO hc hco
  obtain ⟨hJ, hv⟩ := jacobian_pair (o := o) (expq := expq) hE sc hjf hd hF hO hc hco (K t)
  have hn : (indices E.inConf).Nodup := by rw [cr.inConf]; exact fromLogical_nodup _
  refine ⟨pairPose robot margin j2 c co,
    fun s => (pairPose robot margin j2 c co).outputValue o (q s) (rview (q s) (pairPose robot margin j2 c co).inConf) (rhsPose expq w), _,
    P.get, fun s => ?_, hJ, fun h1 h2 h3 h4 => ?_⟩
  · unfold Expl.outputValue
    rw [hd]
    dsimp only
    rw [P.get]
    dsimp only
    rw [relPoseInputs_eq hn P.sub (q s), mapAll_some]
  · rw [hv] at h4 ⊢
    refine C87_no_parent_partial o ho P.ok hp (rhsPose_unit hq w) q K qd t h1 h2 ?_ h4
    have e : (K t).M (robot.parent j2) = SE3.one := by
      rw [h2, hp]
      rfl
    change (K t).M j2 = ((K t).M (robot.parent j2)).mul _
    rw [e, SE3.one_mul]
    exact h3

/-! ### Counterexamples -/

open Classical in
/-- Joints 1 and 3 are vertical translations, joint 2 is a freeflyer; all of them are attached to the universe. -/
noncomputable def liftRobot : Robot ℝ where
  njoints := 4
  nq := 9
  nv := 8
  parent := fun _ => 0
  idxq := fun j => if j = 1 then 0 else if j = 2 then 1 else 8
  jnq := fun j => if j = 2 then 7 else 1
  idxv := fun j => if j = 1 then 0 else if j = 2 then 1 else 7
  jnv := fun j => if j = 2 then 6 else 1
  placement := fun _ => SE3.one
  jt := fun j v => if j = 2 then (if Unit7 v then pose7 v else SE3.one) else ⟨1, ![0, 0, v.getD 0 0]⟩

theorem liftRobot_ok : liftRobot.Ok where
  pos := by decide
  parent_lt := fun j hj => hj
  qin := fun j h h' => by
    simp only [liftRobot] at *
    obtain rfl | rfl | rfl : j = 1 ∨ j = 2 ∨ j = 3 := by omega
    all_goals decide
  vin := fun j h h' => by
    simp only [liftRobot] at *
    obtain rfl | rfl | rfl : j = 1 ∨ j = 2 ∨ j = 3 := by omega
    all_goals decide
  qdisj := fun i j k _ _ _ _ _ _ _ _ => by
    simp only [liftRobot] at *
    obtain rfl | rfl | rfl : i = 1 ∨ i = 2 ∨ i = 3 := by omega
    all_goals obtain rfl | rfl | rfl : j = 1 ∨ j = 2 ∨ j = 3 := by omega
    all_goals simp_all
    all_goals omega
  vdisj := fun i j k _ _ _ _ _ _ _ _ => by
    simp only [liftRobot] at *
    obtain rfl | rfl | rfl : i = 1 ∨ i = 2 ∨ i = 3 := by omega
    all_goals obtain rfl | rfl | rfl : j = 1 ∨ j = 2 ∨ j = 3 := by omega
    all_goals simp_all
    all_goals omega
  rotp := fun _ => one_isRot
  rotj := fun j v => by
    simp only [liftRobot]
    split
    · split
      · rename_i h; exact pose7_isRot h
      · exact one_isRot
    · exact one_isRot

theorem lift_fk (q : Nat → ℝ) {j : Nat} (hj : 0 < j) : liftRobot.fk q j = liftRobot.jt j (liftRobot.slice q j) := by
  rw [Robot.fk_step liftRobot_ok _ hj]
  have h0 : liftRobot.fk q (liftRobot.parent j) = SE3.one := rfl
  rw [h0, SE3.one_mul]
  exact SE3.one_mul _

theorem lift_fk1 (q : Nat → ℝ) : liftRobot.fk q 1 = ⟨1, ![0, 0, q 0]⟩ := by
  rw [lift_fk q (by omega)]
  simp [liftRobot, Robot.slice]

theorem lift_fk3 (q : Nat → ℝ) : liftRobot.fk q 3 = ⟨1, ![0, 0, q 8]⟩ := by
  rw [lift_fk q (by omega)]
  simp [liftRobot, Robot.slice]

theorem lift_fk2 (q : Nat → ℝ) (h : q 4 = 0 ∧ q 5 = 0 ∧ q 6 = 0 ∧ q 7 = 1) : liftRobot.fk q 2 = ⟨1, ![q 1, q 2, q 3]⟩ := by
  rw [lift_fk q (by omega)]
  have hs : liftRobot.slice q 2 = [q 1, q 2, q 3, 0, 0, 0, 1] := by
    simp [liftRobot, Robot.slice, List.range', h]
  rw [hs]
  have hu : Unit7 [q 1, q 2, q 3, 0, 0, 0, 1] := by simp [Unit7]
  have e : liftRobot.jt 2 [q 1, q 2, q 3, 0, 0, 0, 1] = pose7 [q 1, q 2, q 3, 0, 0, 0, 1] := by
    simp only [liftRobot, if_true, if_pos hu]
  rw [e]
  refine SE3.ext' ?_ ?_
  · ext a b
    fin_cases a <;> fin_cases b <;> simp [pose7, quatToRot]
  · funext a
    fin_cases a <;> simp [pose7]

/-- Floors on both lifts, the object is the square turned over. -/
def liftFloor (j : Nat) : JShape := (some j, square)

def liftObj : JShape := (some 2, square.reverse)

theorem lift_anc {a j : Nat} (h : liftRobot.Anc a j) : a = j := by
  cases h with
  | self => rfl
  | up h1 h2 =>
    have h3 : liftRobot.Anc a 0 := h2
    have := h3.le liftRobot_ok.parent_lt
    cases h3 with
    | self h => omega
    | up h => omega

theorem liftObj_object : IsObject liftObj.2 := .polygon _ square_convex.reverse

theorem lift_scene : Scene liftRobot 2 [liftFloor 1, liftFloor 3] [liftObj] where
  robot := liftRobot_ok
  surfaces := by
    refine ⟨fun s hs => ?_, fun s hs => ?_⟩
    · rcases List.mem_cons.1 hs with rfl | hs
      · exact ⟨square_convex, by simp [liftFloor]⟩
      · rw [List.mem_singleton.1 hs]
        exact ⟨square_convex, by simp [liftFloor]⟩
    · rw [List.mem_singleton.1 hs]
      exact ⟨liftObj_object, by simp [liftObj]⟩
  floorJoint := by
    intro s hs j hj
    have : j = 1 ∨ j = 3 := by
      rcases List.mem_cons.1 hs with rfl | hs
      · exact .inl (Option.some.inj hj).symm
      · rw [List.mem_singleton.1 hs] at hj
        exact .inr (Option.some.inj hj).symm
    have h4 : liftRobot.njoints = 4 := rfl
    refine ⟨by omega, fun h => ?_⟩
    have := lift_anc h
    omega
  objectJoint := fun s hs => by rw [List.mem_singleton.1 hs]; rfl
  lt := by decide
  size := rfl
  free := fun v hv => by simp only [liftRobot, if_true, if_pos hv]

theorem region_square {x : V3 ℝ} (h : x ∈ region square) : x 2 = 0 := by
  have hc : region square ⊆ { x | x 2 = 0 } := by
    refine convexHull_min ?_ ?_
    · intro p hp
      have : p ∈ square := hp
      simp only [square, List.mem_cons, List.not_mem_nil, or_false] at this
      rcases this with rfl | rfl | rfl | rfl <;> rfl
    · intro a ha b hb r t _ _ _
      have ha' : a 2 = 0 := ha
      have hb' : b 2 = 0 := hb
      change r * a 2 + t * b 2 = 0
      rw [ha', hb']
      ring
  exact hc h

theorem square_dist {a b : ℝ} (hp : ∀ x, place M F.1 x = x + ![0, 0, a]) (h2 : F.2 = square) (hO : O.center M = ![1 / 2, 1 / 2, b]) :
    F.IsSqDist M O ((b - a) ^ 2) := by
  have hed : ∀ x y : V3 ℝ, edist x y ^ 2 = (x 0 - y 0) ^ 2 + (x 1 - y 1) ^ 2 + (x 2 - y 2) ^ 2 := by
    intro x y
    unfold edist
    rw [Real.sq_sqrt]
    · simp only [dotProduct, Fin.sum_univ_three, Pi.sub_apply]
      ring
    · simp only [dotProduct, Fin.sum_univ_three, Pi.sub_apply]
      nlinarith [mul_self_nonneg (x 0 - y 0), mul_self_nonneg (x 1 - y 1), mul_self_nonneg (x 2 - y 2)]
  constructor
  · refine ⟨_, ⟨![1 / 2, 1 / 2, 0], ?_, rfl⟩, ?_⟩
    · rw [h2]
      exact square_mem (by norm_num) (by norm_num)
    · rw [hed, hp, hO]
      simp
  · rintro r ⟨x, ⟨y, hy, rfl⟩, rfl⟩
    rw [h2] at hy
    have := region_square hy
    rw [hed, hp, hO]
    simp only [Pi.add_apply, cons_val, this]
    have e : b - (0 + a) = b - a := by ring
    rw [e]
    have h1 := sq_nonneg (1 / 2 - (y 0 + 0))
    have h3 := sq_nonneg (1 / 2 - (y 1 + 0))
    linarith

theorem nearest_two {F1 F3 : JShape} {d1 d3 : ℝ} (h1 : F1.IsSqDist M O d1) (h3 : F3.IsSqDist M O d3) :
    (d1 < d3 → Nearest [F1, F3] [O] M 0 0 F1 O) ∧ (d3 < d1 → Nearest [F1, F3] [O] M 1 0 F3 O) := by
  have hidx : ∀ (j' i' : Nat) (F' O' : JShape), [F1, F3][j']? = some F' → [O][i']? = some O' →
      i' = 0 ∧ O' = O ∧ (j' = 0 ∧ F' = F1 ∨ j' = 1 ∧ F' = F3) := by
    intro j' i' F' O' hF hO
    have l1 := (List.getElem?_eq_some_iff.1 hF).1
    have l2 := (List.getElem?_eq_some_iff.1 hO).1
    simp only [List.length_cons, List.length_nil] at l1 l2
    obtain rfl : i' = 0 := by omega
    obtain rfl | rfl : j' = 0 ∨ j' = 1 := by omega
    · exact ⟨rfl, (Option.some.inj hO).symm, .inl ⟨rfl, (Option.some.inj hF).symm⟩⟩
    · exact ⟨rfl, (Option.some.inj hO).symm, .inr ⟨rfl, (Option.some.inj hF).symm⟩⟩
  constructor
  · intro h
    refine ⟨rfl, rfl, fun j' i' F' O' d d' hF hO hd hd' => ?_⟩
    obtain ⟨rfl, rfl, ⟨rfl, rfl⟩ | ⟨rfl, rfl⟩⟩ := hidx _ _ _ _ hF hO
    · exact ⟨(hd.unique hd').le, fun h => by omega⟩
    · rw [hd.unique h1, hd'.unique h3]
      exact ⟨h.le, fun h => by omega⟩
  · intro h
    refine ⟨rfl, rfl, fun j' i' F' O' d d' hF hO hd hd' => ?_⟩
    obtain ⟨rfl, rfl, ⟨rfl, rfl⟩ | ⟨rfl, rfl⟩⟩ := hidx _ _ _ _ hF hO
    · rw [hd.unique h3, hd'.unique h1]
      exact ⟨h.le, fun _ => h⟩
    · exact ⟨(hd.unique hd').le, fun h => by omega⟩

theorem log_facing (hM : ∀ j, IsRot (M j).R) (hr : jointR M F.1 = jointR M O.1) (hO : O.2 = F.2.reverse) (h3 : 3 ≤ O.2.length) :
    LogExact M F O := by
  intro A B hA hB
  left
  rw [hO] at hB h3
  have e : A = B := frame_unique h3 hA hB
  have hr' : IsRot A := by
    generalize F.2.reverse = P at hA h3
    cases hA with
    | point p => simp at h3
    | polygon _ _ p q c h1 h2 => exact h2
  have hj : IsRot (jointR M O.1) := by
    cases O.1 with
    | none => exact one_isRot
    | some j => exact hM j
  subst e
  rw [hr]
  exact (IsRot.mul hj hr').1

/-- Configuration: lift 1 at height 0, lift 3 at height `h`, object at height 1 -/
noncomputable def liftConf (h : ℝ) : Nat → ℝ := fun n => if n = 3 ∨ n = 7 then 1 else if n = 8 then h else 0

theorem lift_place1 {q : Nat → ℝ} (x : V3 ℝ) : place (liftRobot.fk q) (liftFloor 1).1 x = x + ![0, 0, q 0] := by
  change (liftRobot.fk q 1).R *ᵥ x + (liftRobot.fk q 1).p = _
  rw [lift_fk1, one_mulVec]

theorem lift_place3 {q : Nat → ℝ} (x : V3 ℝ) : place (liftRobot.fk q) (liftFloor 3).1 x = x + ![0, 0, q 8] := by
  change (liftRobot.fk q 3).R *ᵥ x + (liftRobot.fk q 3).p = _
  rw [lift_fk3, one_mulVec]

theorem lift_center {q : Nat → ℝ} {b : ℝ} (h : liftRobot.fk q 2 = ⟨1, ![0, 0, b]⟩) : liftObj.center (liftRobot.fk q) = ![1 / 2, 1 / 2, b] := by
  change (liftRobot.fk q 2).R *ᵥ _ + (liftRobot.fk q 2).p = _
  rw [h, one_mulVec]
  funext a
  fin_cases a <;> simp [liftObj, square] <;> norm_num

theorem lift_create (margin : ℝ) : ∃ E, Expl.create (fun j => decide (j = 2)) liftRobot [liftFloor 1, liftFloor 3] [liftObj] margin = .ok E :=
  (C86_check lift_scene.surfaces).2 ⟨by simp, 2, by decide, fun s hs => by rw [List.mem_singleton.1 hs]; rfl⟩

/-- The object is held on the floor of lift 1 at height 1.  When lift 3 moves to height 1, its floor is nearer to the object: the
output value is not a solution of the implicit constraint. -/
theorem C86_satisfied_refuted (ho : o.Lawful) (hq : ExpqOk expq) : ∃ (robot : Robot ℝ) (j2 : Nat) (fs os : List JShape) (E : Expl) (F O : JShape)
    (q0 q : Nat → ℝ) (rhs : Fin 8 → ℝ) (out : List ℝ), Expl.create (fun j => decide (j = 2)) robot fs os 0 = .ok E ∧ Scene robot j2 fs os ∧
      robot.parent j2 = 0 ∧ Nearest fs os (robot.fk q0) 0 0 F O ∧ 3 ≤ O.2.length ∧ LogExact (robot.fk q0) F O ∧
      E.fn.hold (robot.fk q0) = .ok rhs ∧ E.outputValue o expq q (rview q E.inConf) rhs = .ok out ∧
      E.fn.hold (robot.fk (lview q E.outConf out)) ≠ .ok rhs := by
  obtain ⟨E, hE⟩ := lift_create 0
  have sc := lift_scene
  have cr := created hE sc.objectJoint
  have c2 : ∀ h, liftRobot.fk (liftConf h) 2 = ⟨1, ![0, 0, 1]⟩ := by
    intro h
    rw [lift_fk2 _ (by simp [liftConf])]
    simp [liftConf]
  have d1 := square_dist (F := liftFloor 1) (O := liftObj) (M := liftRobot.fk (liftConf 10)) lift_place1 rfl (lift_center (c2 10))
  have d3 := square_dist (F := liftFloor 3) (O := liftObj) (M := liftRobot.fk (liftConf 10)) lift_place3 rfl (lift_center (c2 10))
  have hn := (nearest_two d1 d3).1 (by simp [liftConf]; norm_num)
  have hl : LogExact (liftRobot.fk (liftConf 10)) (liftFloor 1) liftObj := by
    refine log_facing (Robot.fk_rot liftRobot_ok _) ?_ rfl (by simp [liftObj, square])
    change (liftRobot.fk (liftConf 10) 1).R = (liftRobot.fk (liftConf 10) 2).R
    rw [lift_fk1, c2]
  obtain ⟨rhs, h1, h2⟩ := C86_hold_partial ho hq hE sc _ hn (by simp [liftObj, square]) hl
  obtain ⟨out, h3, h4⟩ := h2 (liftConf 1) (liftConf 1)
  refine ⟨liftRobot, 2, _, _, E, _, _, liftConf 10, liftConf 1, rhs, out, hE, sc, rfl, hn, by simp [liftObj, square], hl, h1, h3, fun h5 => ?_⟩
  set q' := lview (liftConf 1) E.outConf out with hq'
  have hout : ∀ n, n = 0 ∨ n = 8 → q' n = liftConf 1 n := by
    intro n hn
    rw [hq', cr.outConf]
    refine lview_not_mem _ _ _ _ fun hmem => ?_
    rw [mem_indices] at hmem
    obtain ⟨s, hs, a, b⟩ := hmem
    rw [Robot.outConf, List.mem_singleton] at hs
    subst hs
    have : liftRobot.idxq 2 = 1 := rfl
    have : liftRobot.jnq 2 = 7 := rfl
    dsimp only at a b
    omega
  have e1 : liftRobot.fk q' 1 = SE3.one := by
    rw [lift_fk1, hout 0 (.inl rfl)]
    refine SE3.ext' rfl ?_
    funext a
    fin_cases a <;> simp [liftConf, SE3.one]
  have e0 : liftRobot.fk (liftConf 10) 1 = SE3.one := by
    rw [lift_fk1]
    refine SE3.ext' rfl ?_
    funext a
    fin_cases a <;> simp [liftConf, SE3.one]
  have e2 : liftRobot.fk q' 2 = ⟨1, ![0, 0, 1]⟩ := by
    have : (liftRobot.fk q' 1).inv.mul (liftRobot.fk q' 2) = (liftRobot.fk (liftConf 10) 1).inv.mul (liftRobot.fk (liftConf 10) 2) := h4
    have hi : (SE3.one : SE3 ℝ).inv = SE3.one := by
      refine SE3.ext' ?_ ?_ <;> simp [SE3.inv, SE3.one]
    rw [e1, e0, hi, SE3.one_mul, SE3.one_mul, c2] at this
    exact this
  have d1' := square_dist (F := liftFloor 1) (O := liftObj) (M := liftRobot.fk q') lift_place1 rfl (lift_center e2)
  have d3' := square_dist (F := liftFloor 3) (O := liftObj) (M := liftRobot.fk q') lift_place3 rfl (lift_center e2)
  have hn' := (nearest_two d1' d3').2 (by rw [hout 0 (.inl rfl), hout 8 (.inr rfl)]; simp [liftConf])
  obtain ⟨r1, c, co, a1, -, -, a2⟩ := hold_decode cr.fn sc.surfaces (Robot.fk_rot liftRobot_ok _) hn (by simp [liftObj, square])
  obtain ⟨r2, c', co', b1, -, -, b2⟩ := hold_decode cr.fn sc.surfaces (Robot.fk_rot liftRobot_ok _) hn' (by simp [liftObj, square])
  rw [h1] at a1
  rw [h5] at b1
  have x1 := Except.ok.inj a1
  have x2 := Except.ok.inj b1
  rw [← x1] at a2
  rw [← x2, a2] at b2
  have := congrArg Prod.fst (Option.some.inj b2)
  simp at this

/-- The Jacobian is not defined when the floors are on joints that do not depend on the same variables: the number of inputs of the
relative pose is not the number of inputs of the constraint. -/
theorem C86_jacobian_refuted : ∃ (robot : Robot ℝ) (j2 : Nat) (fs os : List JShape) (E : Expl) (rhs : Fin 8 → ℝ),
    Expl.create (fun j => decide (j = 2)) robot fs os 0 = .ok E ∧ Scene robot j2 fs os ∧ robot.parent j2 = 0 ∧
    (∀ (o : SE3Ops) (expq : V3 ℝ → List ℝ), o.Lawful → ExpqOk expq → ∀ cur q, ∃ out, E.outputValue o expq cur (rview q E.inConf) rhs = .ok out) ∧
    ∀ (o : SE3Ops) (expq : V3 ℝ → List ℝ) (n : Nat) (K : Kin n), E.jacobianOutputValue o expq K rhs = .error .ub := by
  obtain ⟨E, hE⟩ := lift_create 0
  have sc := lift_scene
  have cr := created hE sc.objectJoint
  obtain ⟨hb, -⟩ := build_built cr.fn
  obtain ⟨c, hc⟩ := get_of_lt hb.flen.symm (show [liftFloor 1, liftFloor 3][0]? = some (liftFloor 1) from rfl)
  obtain ⟨co, hco⟩ := get_of_lt hb.olen.symm (show [liftObj][0]? = some liftObj from rfl)
  have hd : decode E.fn.radius 0 = some (0, 0, ![0, 0, 0, 0, 0, 0]) := by
    simp [decode]
    norm_num
  have P := pair_ok hE sc (show [liftFloor 1, liftFloor 3][0]? = some (liftFloor 1) from rfl)
    (show [liftObj][0]? = some liftObj from rfl) hc hco
  refine ⟨liftRobot, 2, _, _, E, 0, hE, sc, rfl, fun o expq ho hq cur q => ?_, fun o expq n K => ?_⟩
  · obtain ⟨out, h, -⟩ := output_pose ho hq hE sc cur q hd rfl rfl hc hco
    exact ⟨out, h⟩
  · unfold Expl.jacobianOutputValue
    rw [hd]
    dsimp only
    rw [P.get]
    dsimp only
    rw [if_neg, if_pos]
    · have e1 : (pairPose liftRobot 0 2 c co).inVel = liftRobot.inVel 1 2 := by
        change liftRobot.inVel (c.joint.getD 0) 2 = _
        rw [P.k2]
        rfl
      rw [e1, cr.inVel]
      decide
    · rintro ⟨-, h⟩
      have : c.joint = none := h
      rw [P.k2] at this
      cases this

theorem lift_decode_zero {r : ℝ} : decode r 0 = some (0, 0, ![0, 0, 0, 0, 0, 0]) := by
  simp [decode]
  norm_num

/-! ### Contacts of a point -/

theorem hold_point (margin r : ℝ) (b : Bool) (v : Fin 6 → ℝ) (i k : Nat) :
    holdValue margin r b .pointOnPlane v i k = holdValue 0 r b .planeOnPlane ![v 0 + margin, v 1, v 2, v 3, 0, 0] i k := by
  funext a
  cases b <;> fin_cases a <;> simp [holdValue, contactValue, complementValue]

/-- The value of the hold function for a point: the last components of the orientation are lost. -/
theorem hold_decode_point (hf : Fn.build fs os margin = some f) (hS : Surfaces fs os) (hM : ∀ j, IsRot (M j).R)
    (hn : Nearest fs os M i k F O) (h1 : O.2.length = 1) :
    ∃ rhs w, f.hold M = .ok rhs ∧ decode f.radius rhs = some (i, k, w) ∧ w 4 = 0 ∧ w 5 = 0 := by
  obtain ⟨p, hp, e1, e2, ht, -, g1, g2⟩ := pick_get hf hS hM hn
  obtain ⟨hb, hm⟩ := build_built hf
  have hsel : Hpp.Contact.select (f.floors.map (·.at M)) (f.objects.map (·.at M)) = some p.sel := pick_select hp
  obtain ⟨k1, k2⟩ := hb.floor i F _ hn.floor g1
  obtain ⟨k3, k4⟩ := hb.object k O _ hn.object g2
  obtain ⟨hF, hF0⟩ := hS.floor F (List.mem_of_getElem? hn.floor)
  have hO := (hS.object O (List.mem_of_getElem? hn.object)).1
  have ok := relModel_ok hF hO k1 k3
  have herr : poseError p M = _ := error_eq ok hM
  refine ⟨holdValue margin f.radius p.sel.isInside p.type (poseError p M) p.sel.ifloor p.sel.iobject,
    ![poseError p M 0 + margin, poseError p M 1, poseError p M 2, poseError p M 3, 0, 0], ?_, ?_⟩
  · unfold Fn.hold Fn.value Fn.complement
    rw [hp, hm]
    rfl
  · have ht' : p.type = .pointOnPlane := by
      rw [ht]
      unfold typeOf
      rw [h1]
      rfl
    refine ⟨?_, rfl, rfl⟩
    rw [ht', hold_point, e1, e2]
    refine C55_round_trip_partial ?_ _ _ (by decide) _ _ _ fun hin => ?_
    · have := (radius_ge (f.floors.map (·.at M))).1
      rw [radius_at] at this
      linarith
    · have := offsets_lt_radius (hb.floors_valid hS hM) hsel (f := p.floor.at M) (o := p.object.at M)
        (by rw [List.getElem?_map, e1, g1]; rfl) (by rw [List.getElem?_map, e2, g2]; rfl) hin
      rw [radius_at, relPos_eq hM (k2 ▸ hF0), relPos_eq hM (k2 ▸ hF0)] at this
      rw [herr]
      exact this

theorem exp_axis (a : ℝ) : expSO3 ![a, 0, 0] *ᵥ ![1, 0, 0] = ![1, 0, 0] := by
  have hn : Log.norm3 ![a, 0, 0] = |a| := by
    simp [Log.norm3, Real.sqrt_mul_self_eq_abs]
  unfold expSO3
  rw [hn]
  by_cases ha : a = 0
  · subst ha
    funext i
    fin_cases i <;> simp [mulVec, dotProduct, Fin.sum_univ_three, rodrigues_apply]
  · have h1 : (|a|⁻¹ * a) * (|a|⁻¹ * a) = 1 := by
      have h2 : |a| ≠ 0 := abs_ne_zero.2 ha
      have h3 : a * a = |a| * |a| := (abs_mul_abs_self a).symm
      field_simp
      nlinarith
    funext i
    fin_cases i <;> simp [mulVec, dotProduct, Fin.sum_univ_three, rodrigues_apply]
    rw [h1]
    ring

/-- Contact of a point: the position of the object with respect to the floor is imposed, with the first axis of its joint along the
normal to the floor, toward the floor, whatever its orientation when the right hand side has been computed. -/
theorem C86_point (ho : o.Lawful) (hq : ExpqOk expq) (hE : Expl.create isFF robot fs os margin = .ok E) (sc : Scene robot j2 fs os)
    (q0 : Nat → ℝ) (hn : Nearest fs os (robot.fk q0) i k F O) (h1 : O.2.length = 1) :
    ∃ rhs, E.fn.hold (robot.fk q0) = .ok rhs ∧ ∀ cur q, ∃ out, E.outputValue o expq cur (rview q E.inConf) rhs = .ok out ∧
      ∀ u, F.IsNormal (robot.fk (lview q E.outConf out)) u → orient (robot.fk (lview q E.outConf out)) O.1 ![1, 0, 0] = -u := by
  have cr := created hE sc.objectJoint
  obtain ⟨rhs, w, h2, hd, w4, w5⟩ := hold_decode_point cr.fn sc.surfaces (Robot.fk_rot sc.robot q0) hn h1
  refine ⟨rhs, h2, fun cur q => ?_⟩
  obtain ⟨out, h3, h4⟩ := C86_output ho hq hE sc cur q hd hn.floor hn.object (by omega)
  refine ⟨out, h3, fun u hu => ?_⟩
  have hFm := sc.surfaces.floor F (List.mem_of_getElem? hn.floor)
  obtain ⟨⟨hb, -⟩, -⟩ : (Built fs os E.fn ∧ True) ∧ True := ⟨⟨(build_built cr.fn).1, trivial⟩, trivial⟩
  obtain ⟨c, hc⟩ := get_of_lt hb.flen.symm hn.floor
  obtain ⟨k1, k2⟩ := hb.floor i F c hn.floor hc
  have hA := new_frame hFm.1.reverse k1
  have hB : FrameOf O.2 1 := by
    obtain ⟨p, hp⟩ := List.length_eq_one_iff.1 h1
    rw [hp]
    exact .point p
  have hM' := Robot.fk_rot sc.robot (lview q E.outConf out)
  have e1 := (h4 _ _ hA hB).1
  generalize robot.fk (lview q E.outConf out) = M at *
  rw [w4, w5, Matrix.mul_one] at e1
  have hr : IsRot (jointR M F.1 * c.shape.positionInJoint.R) := by
    refine IsRot.mul ?_ (polygon_frame hFm.1.reverse k1)
    cases F.1 with
    | none => exact one_isRot
    | some j => exact hM' j
  have e2 := congrArg (fun R => (jointR M F.1 * c.shape.positionInJoint.R) *ᵥ (R *ᵥ ![1, 0, 0])) e1
  simp only [exp_axis, mulVec_mulVec] at e2
  rw [← Matrix.mul_assoc, hr.mul_transpose, Matrix.one_mul, ← mulVec_mulVec] at e2
  rw [orient_jointR, e2, ← orient_jointR]
  obtain ⟨m, hm, hm1, rfl⟩ := hu
  have hN : c.shape.N = -m := by
    obtain ⟨-, -, hN, -⟩ := hm.reverse.geo k1
    rw [hN, normalize_unit (by rw [neg_dotProduct, dotProduct_neg, neg_neg, hm1])]
  have hcol : c.shape.positionInJoint.R *ᵥ ![1, 0, 0] = -m := by
    rw [← hN]
    funext a
    simp [mulVec, dotProduct, Fin.sum_univ_three]
    rfl
  rw [hcol]
  cases F.1 with
  | none => rfl
  | some j => exact mulVec_neg _ _

theorem lift_scene1 : Scene liftRobot 2 [liftFloor 1] [liftObj] where
  robot := liftRobot_ok
  surfaces := ⟨fun s hs => lift_scene.surfaces.floor s (by rw [List.mem_singleton.1 hs]; simp), lift_scene.surfaces.object⟩
  floorJoint := fun s hs => lift_scene.floorJoint s (by rw [List.mem_singleton.1 hs]; simp)
  objectJoint := lift_scene.objectJoint
  lt := lift_scene.lt
  size := lift_scene.size
  free := lift_scene.free

/-- A point fixed to the freeflyer joint -/
noncomputable def liftPt : JShape := (some 2, [![1 / 2, 1 / 2, 0]])

theorem liftPt_scene : Scene liftRobot 2 [liftFloor 1] [liftPt] where
  robot := liftRobot_ok
  surfaces := by
    refine ⟨fun s hs => ?_, fun s hs => ?_⟩
    · exact lift_scene.surfaces.floor s (by rw [List.mem_singleton.1 hs]; simp)
    · rw [List.mem_singleton.1 hs]
      exact ⟨.point _, by simp [liftPt]⟩
  floorJoint := fun s hs => lift_scene.floorJoint s (by rw [List.mem_singleton.1 hs]; simp)
  objectJoint := fun s hs => by rw [List.mem_singleton.1 hs]; rfl
  lt := by decide
  size := rfl
  free := lift_scene.free

theorem nearest_one (F O : JShape) : Nearest [F] [O] M 0 0 F O := by
  refine ⟨rfl, rfl, ?_⟩
  intro j' i' F' O' d d' hF hO hd hd'
  have h1 := (List.getElem?_eq_some_iff.1 hF).1
  have h2 := (List.getElem?_eq_some_iff.1 hO).1
  simp only [List.length_cons, List.length_nil] at h1 h2
  have e1 : j' = 0 := by omega
  have e2 : i' = 0 := by omega
  subst e1 e2
  cases hF
  cases hO
  exact ⟨(hd.unique hd').le, fun h => by omega⟩

/-- The orientation of the object is not held for the contact of a point. -/
theorem C86_point_refuted (ho : o.Lawful) (hq : ExpqOk expq) : ∃ (robot : Robot ℝ) (fs os : List JShape) (E : Expl) (F O : JShape)
    (q0 : Nat → ℝ) (rhs : Fin 8 → ℝ), Expl.create (fun j => decide (j = 2)) robot fs os 0 = .ok E ∧ Scene robot 2 fs os ∧
      Nearest fs os (robot.fk q0) 0 0 F O ∧ E.fn.hold (robot.fk q0) = .ok rhs ∧
      ∃ out, E.outputValue o expq q0 (rview q0 E.inConf) rhs = .ok out ∧
        (poseOf (robot.fk (lview q0 E.outConf out)) F.1).inv.mul (robot.fk (lview q0 E.outConf out) 2) ≠
          (poseOf (robot.fk q0) F.1).inv.mul (robot.fk q0 2) := by
  obtain ⟨E, hE⟩ : ∃ E, Expl.create (fun j => decide (j = 2)) liftRobot [liftFloor 1] [liftPt] 0 = .ok E :=
    (C86_check liftPt_scene.surfaces).2 ⟨by simp, 2, by decide, fun s hs => by rw [List.mem_singleton.1 hs]; rfl⟩
  obtain ⟨rhs, h1, h2⟩ := C86_point ho hq hE liftPt_scene (liftConf 0) (nearest_one _ _) rfl
  obtain ⟨out, h3, h4⟩ := h2 (liftConf 0) (liftConf 0)
  refine ⟨liftRobot, _, _, E, liftFloor 1, liftPt, liftConf 0, rhs, hE, liftPt_scene, nearest_one _ _, h1, out, h3, fun h5 => ?_⟩
  generalize lview (liftConf 0) E.outConf out = q' at h4 h5
  have h6 : (liftRobot.fk q' 1).inv.mul (liftRobot.fk q' 2) = (liftRobot.fk (liftConf 0) 1).inv.mul (liftRobot.fk (liftConf 0) 2) := h5
  have c2 : liftRobot.fk (liftConf 0) 2 = ⟨1, ![0, 0, 1]⟩ := by
    rw [lift_fk2 _ (by simp [liftConf])]
    simp [liftConf]
  have h7 := congrArg SE3.R h6
  rw [c2, lift_fk1, lift_fk1] at h7
  have h8 : (liftRobot.fk q' 2).R = 1 := by simpa [SE3.mul, SE3.inv] using h7
  obtain ⟨m, hm, hm1, hu⟩ := square_normal (liftRobot.fk q')
  have hmz : m = ![0, 0, 1] := by rw [hu]; rfl
  have h9 := h4 _ ⟨m, hm, hm1, rfl⟩
  have h10 := congrFun h9 0
  change ((liftRobot.fk q' 2).R *ᵥ ![1, 0, 0]) 0 = -(((liftRobot.fk q' 1).R *ᵥ m) 0) at h10
  rw [h8, lift_fk1, hmz] at h10
  simp at h10

/-- An object on a freeflyer joint attached to another joint is accepted, although this is not supported
(convex-shape-contact.cc:61-68: the test is not reached). -/
theorem C86_parent_refuted : ∃ (robot : Robot ℝ) (fs os : List JShape) (E : Expl), Scene robot 2 fs os ∧ 0 < robot.parent 2 ∧
    Expl.create (fun j => decide (j = 2)) robot fs os 0 = .ok E := by
  have hS : Surfaces [demoFloor] [liftObj] := demo_surfaces liftObj_object (by simp [liftObj])
  obtain ⟨E, hE⟩ : ∃ E, Expl.create (fun j => decide (j = 2)) exRobot [demoFloor] [liftObj] 0 = .ok E :=
    (C86_check hS).2 ⟨by simp, 2, by decide, fun s hs => by rw [List.mem_singleton.1 hs]; rfl⟩
  refine ⟨exRobot, _, _, E, ⟨exRobot_ok, hS, ?_, fun s hs => by rw [List.mem_singleton.1 hs]; rfl, by decide, rfl,
    fun v hv => by simp [exRobot, hv]⟩, by decide, hE⟩
  intro s hs j hj
  rw [List.mem_singleton.1 hs] at hj
  simp [demoFloor] at hj

/-! ### Examples -/

/-- Exponential of `SO(3)` as a quaternion -/
noncomputable def expqEx (w : V3 ℝ) : List ℝ :=
  [Real.sin (Log.norm3 w / 2) * ((Log.norm3 w)⁻¹ * w 0), Real.sin (Log.norm3 w / 2) * ((Log.norm3 w)⁻¹ * w 1),
    Real.sin (Log.norm3 w / 2) * ((Log.norm3 w)⁻¹ * w 2), Real.cos (Log.norm3 w / 2)]

theorem expqEx_ok : ExpqOk expqEx := by
  have hu : ∀ w : V3 ℝ, Log.norm3 w ≠ 0 → ((Log.norm3 w)⁻¹ * w 0) * ((Log.norm3 w)⁻¹ * w 0) +
      ((Log.norm3 w)⁻¹ * w 1) * ((Log.norm3 w)⁻¹ * w 1) + ((Log.norm3 w)⁻¹ * w 2) * ((Log.norm3 w)⁻¹ * w 2) = 1 := by
    intro w h
    have e : Log.norm3 w * Log.norm3 w = w 0 * w 0 + w 1 * w 1 + w 2 * w 2 := by
      unfold Log.norm3
      rw [Real.mul_self_sqrt]
      · try simp [dotProduct, Fin.sum_univ_three]
      · exact Log.dot_self_nonneg w
    field_simp
    nlinarith
  refine ⟨fun w => rfl, fun w => ?_, fun w => ?_⟩
  · simp only [expqEx, List.getD_cons_zero, List.getD_cons_succ]
    have hc := Real.sin_sq_add_cos_sq (Log.norm3 w / 2)
    by_cases h : Log.norm3 w = 0
    · simp [h]
    · have := hu w h
      generalize (Log.norm3 w)⁻¹ * w 0 = a at *
      generalize (Log.norm3 w)⁻¹ * w 1 = b at *
      generalize (Log.norm3 w)⁻¹ * w 2 = c at *
      generalize Real.sin (Log.norm3 w / 2) = s at *
      generalize Real.cos (Log.norm3 w / 2) = d at *
      linear_combination s ^ 2 * this + hc
  · simp only [expqEx, List.getD_cons_zero, List.getD_cons_succ]
    unfold expSO3
    rw [rodrigues_apply]
    simp only [Pi.smul_apply, smul_eq_mul]
    by_cases h : Log.norm3 w = 0
    · rw [h]
      simp [quatToRot]
    · have h1 := hu w h
      have hc := Real.sin_sq_add_cos_sq (Log.norm3 w / 2)
      have h2 : Real.cos (Log.norm3 w) = 1 - 2 * Real.sin (Log.norm3 w / 2) ^ 2 := by
        have := Real.cos_two_mul (Log.norm3 w / 2)
        rw [mul_div_cancel₀ _ (two_ne_zero)] at this
        linarith
      have h3 : Real.sin (Log.norm3 w) = 2 * Real.sin (Log.norm3 w / 2) * Real.cos (Log.norm3 w / 2) := by
        have := Real.sin_two_mul (Log.norm3 w / 2)
        rw [mul_div_cancel₀ _ (two_ne_zero)] at this
        exact this
      rw [h2, h3]
      generalize (Log.norm3 w)⁻¹ * w 0 = a at *
      generalize (Log.norm3 w)⁻¹ * w 1 = b at *
      generalize (Log.norm3 w)⁻¹ * w 2 = c at *
      generalize Real.sin (Log.norm3 w / 2) = s at *
      generalize Real.cos (Log.norm3 w / 2) = d at *
      unfold quatToRot
      ext i j
      fin_cases i <;> fin_cases j <;> simp
      · linear_combination -2 * s ^ 2 * h1
      · ring
      · ring
      · ring
      · linear_combination -2 * s ^ 2 * h1
      · ring
      · ring
      · ring
      · linear_combination -2 * s ^ 2 * h1

/-- The hypotheses of `C86_hold_partial`, `C86_satisfied_partial` and `C86_same_joint_partial` hold: the object is carried by the lift. -/
example (o : SE3Ops) (ho : o.Lawful) (E : Expl) (hE : Expl.create (fun j => decide (j = 2)) liftRobot [liftFloor 1] [liftObj] 0 = .ok E) :
    ∃ rhs, E.fn.hold (liftRobot.fk (liftConf 0)) = .ok rhs ∧ ∀ cur q, ∃ out, E.outputValue o expqEx cur (rview q E.inConf) rhs = .ok out ∧
      E.fn.hold (liftRobot.fk (lview q E.outConf out)) = .ok rhs := by
  refine C86_same_joint_partial (jf := some 1) ho expqEx_ok hE lift_scene1 (fun s hs => by rw [List.mem_singleton.1 hs]; rfl) _
    (nearest_one _ _) (by simp [liftObj, square]) ?_
  refine log_facing (Robot.fk_rot liftRobot_ok _) ?_ rfl (by simp [liftObj, square])
  change (liftRobot.fk (liftConf 0) 1).R = (liftRobot.fk (liftConf 0) 2).R
  rw [lift_fk1, lift_fk2 _ (by simp [liftConf])]

example : ∃ E, Expl.create (fun j => decide (j = 2)) liftRobot [liftFloor 1] [liftObj] 0 = .ok E :=
  (C86_check lift_scene1.surfaces).2 ⟨by simp, 2, by decide, fun s hs => by rw [List.mem_singleton.1 hs]; rfl⟩

/-- The hypotheses of `C86_output` hold. -/
example (o : SE3Ops) (ho : o.Lawful) (E : Expl) (hE : Expl.create (fun j => decide (j = 2)) liftRobot [liftFloor 1] [liftObj] 0 = .ok E)
    (cur q : Nat → ℝ) : ∃ out, E.outputValue o expqEx cur (rview q E.inConf) 0 = .ok out := by
  obtain ⟨out, h, -⟩ := C86_output ho expqEx_ok hE lift_scene1 cur q lift_decode_zero rfl rfl (by simp [liftObj, square])
  exact ⟨out, h⟩

/-- The hypotheses of `C86_jacobian_partial` hold. -/
example (o : SE3Ops) (ho : o.Lawful) (E : Expl) (hE : Expl.create (fun j => decide (j = 2)) liftRobot [liftFloor 1] [liftObj] 0 = .ok E)
    (K : Kin 8) : ∃ J, E.jacobianOutputValue o expqEx K 0 = .ok J := by
  obtain ⟨g, out, J, -, -, h, -⟩ := C86_jacobian_partial (jf := some 1) ho expqEx_ok hE lift_scene1
    (fun s hs => by rw [List.mem_singleton.1 hs]; rfl) rfl lift_decode_zero rfl rfl (fun _ => liftConf 0) (fun _ => K) 0 0
  exact ⟨J, h⟩

end Hpp.Contact
