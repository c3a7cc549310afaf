import Verif.Contact.ActiveProps
import Verif.Pose.Columns
import Verif.Contact.FuncPoints
import Mathlib.Tactic.IntervalCases

/-!
# Columns of the Jacobian of contact functions that are not active (C107)
-/

namespace Hpp.Contact

open Matrix Hpp.Sym Hpp.Pose Hpp.Log Hpp.RelPose

variable {n e : Nat}

/-- The six rows of the Jacobian of the relative transformation -/
theorem relModel_rows (floor object : CShape) {K : Kin n} {C : Rows n} {T T' : Rows2 n e}
    (h : (relModel floor object).jacobian K C T = some T') :
    ∃ Bp Bo, (relModel floor object).jtranslation K = some Bp ∧ (relModel floor object).jorientation K = some Bo ∧
      ∀ k, k < 6 → ∀ c, T' k (.inl c) = if k < 3 then blockRow Bp k c else blockRow Bo (k - 3) c := by
  obtain ⟨s, h1, h⟩ := Option.bind_eq_some_iff.1 h
  obtain ⟨s', h2, h⟩ := Option.map_eq_some_iff.1 h
  subst h
  simp only [GT.writeTranslation, show (relModel floor object).pos = true from rfl, if_true] at h1
  obtain ⟨Bp, e1, h1⟩ := Option.map_eq_some_iff.1 h1
  simp only [GT.writeOrientation, show (relModel floor object).ori = true from rfl, if_true] at h2
  obtain ⟨Bo, e2, h2⟩ := Option.map_eq_some_iff.1 h2
  rw [show (relModel floor object).fullPos = true from rfl, if_pos rfl] at h1
  rw [show (relModel floor object).fullOri = true from rfl, Bool.or_true, if_pos rfl] at h2
  subst h1
  subst h2
  refine ⟨Bp, Bo, e1, e2, fun k hk c => ?_⟩
  have hr : (relModel floor object).rowOri = 3 := rfl
  simp only [GT.finish, show (relModel floor object).fullPos = true from rfl, show (relModel floor object).fullOri = true from rfl,
    if_true, hr, writeLeft]
  unfold blockRow
  interval_cases k <;> simp

/-- Contact functions: the columns of the Jacobian of the velocities that are not declared active are zero, in every configuration
where the Jacobian is computed, whichever surfaces are selected. -/
theorem C107_contact {r : Robot ℝ} (ok : r.Ok) {fs os : List JShape} {b : Bits} (hb : activeOf r .contact fs os = some b)
    (bf : ∀ s ∈ fs, s.1.getD 0 < r.njoints) (bo : ∀ s ∈ os, s.1.getD 0 < r.njoints) (margin : ℝ) {f : Fn}
    (hf : Fn.build fs os margin = some f) {q : Nat → ℝ} {K : Kin n} (hK : r.Kinematic q K) {c : Fin n} (hc : b.2[c.val]? ≠ some true)
    (C : Rows n) (T : Rows2 n e) {J : Matrix (Fin 5) (Fin n ⊕ Fin e) ℝ} (hJ : f.jacobian K C T = .ok J) (k : Fin 5) :
    J k (.inl c) = 0 := by
  have hpath : ∀ s ∈ fs, ∀ t ∈ os, ∀ a, r.OnPath (s.1.getD 0) (t.1.getD 0) a → ¬ r.VVar a c := fun s hs t ht a ha hv =>
    hc ((C105_active ok hb bf bo c.val).2.1.2 ⟨s, hs, t, ht, a, ha, hv⟩)
  obtain ⟨ts, h1, h2⟩ := Option.bind_eq_some_iff.1 hf
  obtain ⟨us, h2, hf⟩ := Option.map_eq_some_iff.1 h2
  have j1 := mapAll_joints (fun _ _ => newFloor_joint) h1
  have j2 := mapAll_joints (fun _ _ => newObject_joint) h2
  have e1 : f.floors = ts := by rw [← hf]
  have e2 : f.objects = us := by rw [← hf]
  unfold Fn.jacobian at hJ
  split at hJ
  · exact absurd hJ (by simp)
  · rename_i p T' hi
    unfold Fn.internalJacobian at hi
    split at hi
    · exact absurd hi (by simp)
    · rename_i p' hp
      split at hi
      · exact absurd hi (by simp)
      · rename_i T'' hT
        injection hi with hi
        injection hi with ep eT
        subst ep
        subst eT
        obtain ⟨⟨s, hs, hj⟩, hob⟩ := pick_joints hp
        rw [e1] at hs
        rw [e2] at hob
        have m1 : p'.floor.joint ∈ fs.map (·.1) := by rw [← j1, hj]; exact List.mem_map_of_mem hs
        have m2 : p'.object.joint ∈ os.map (·.1) := by rw [← j2]; exact List.mem_map_of_mem hob
        obtain ⟨s1, hs1, E1⟩ := List.mem_map.1 m1
        obtain ⟨s2, hs2, E2⟩ := List.mem_map.1 m2
        have hg1 : (relModel p'.floor p'.object).j1.getD 0 = s1.1.getD 0 := by
          rw [E1]
          change (p'.floor.joint.filter fun j => decide (0 < j)).getD 0 = _
          cases p'.floor.joint with
          | none => rfl
          | some j =>
            rw [Option.filter_some]
            split
            · rfl
            · rename_i hj0
              simp only [decide_eq_true_eq] at hj0
              simp; omega
        have hg2 : (relModel p'.floor p'.object).joint2.getD 0 = s2.1.getD 0 := by rw [E2]; rfl
        obtain ⟨u, w, ht⟩ := hK.together ok (GTS.exact (relModel p'.floor p'.object) ([], [])) (c := c) (fun a ha => by
          refine hpath s1 hs1 s2 hs2 a ?_
          rw [← hg1, ← hg2]
          exact ha)
        obtain ⟨Bp, Bo, ebp, ebo, hrow⟩ := relModel_rows _ _ hT
        have z : ∀ k, k < 6 → T'' k (.inl c) = 0 := fun k hk => by
          have hbl : ∀ (B : Matrix (Fin 3) (Fin n) ℝ) (i : Nat), (∀ i, B i c = 0) → blockRow B i c = 0 := fun B i h => by
            unfold blockRow
            split_ifs <;> first | rfl | exact h _
          rw [hrow k hk c]
          split
          · exact hbl _ _ fun i => GTS.jtranslation_zero ht ebp i
          · exact hbl _ _ fun i => GTS.jorientation_zero ht ebo i
        have z0 := z 0 (by omega)
        have z1 := z 1 (by omega)
        have z2 := z 2 (by omega)
        have z4 := z 4 (by omega)
        have z5 := z 5 (by omega)
        dsimp only at hJ
        split at hJ
        · injection hJ with hJ
          subst hJ
          split <;> fin_cases k <;> simp [z0, z1, z2]
        · exact absurd hJ (by simp)
        · injection hJ with hJ
          subst hJ
          split <;> fin_cases k <;> simp [z0, z1, z2, z4, z5]

/-- A point of joint 2 of `demoRobot` above a floor fixed in the world: the Jacobian is computed, the variable of joint 3 is not active,
those of joints 1 and 2 are. -/
example (C : Rows 3) (T : Rows2 3 1) : ∃ f b J, Fn.build [demoFloor] [(some 2, [![1 / 2, -3 / 2, 1]])] 0 = some f ∧
    activeOf demoRobot .contact [demoFloor] [(some 2, [![1 / 2, -3 / 2, 1]])] = some b ∧
    b.2[0]? = some true ∧ b.2[1]? = some true ∧ b.2[2]? ≠ some true ∧
    f.jacobian (demoCols fun _ => 0) C T = .ok J ∧ ∀ k, J k (.inl 2) = 0 := by
  obtain ⟨f, hf⟩ := build_defined (fs := [demoFloor]) (os := [(some 2, [![1 / 2, -3 / 2, 1]])]) (by simp [demoFloor, square])
    (by simp) 0
  have hs := C105_surfaces demoRobot [demoFloor] [(some 2, [![1 / 2, -3 / 2, 1]])] 0
  rw [hf] at hs
  obtain ⟨st, hst, -⟩ := Option.map_eq_some_iff.1 hs.symm
  have hc : activeOf demoRobot .contact [demoFloor] [(some 2, [![1 / 2, -3 / 2, 1]])] = some st.bits := by
    simp only [activeOf, hst, Option.map_some]
  have hbits := C105_active demoRobot_ok hc (by simp [demoRobot, demoFloor]) (by simp [demoRobot])
  have hb : ∀ k : Nat, st.bits.2[k]? = some true ↔ (demoRobot.activeBits 0 2).2[k]? = some true := by
    intro k
    rw [(hbits k).2.1, (C51_active demoRobot_ok (by decide) (by decide) k).2]
    simp [demoFloor]
  have ha : demoRobot.activeBits 0 2 = ([true, true, false], [true, true, false]) := by decide
  have hR : ∀ j, ((demoCols fun _ => 0).M j).R = 1 := fun j => demoRobot_fkR _ j j
  have hM : KMoves (fun _ => demoCols fun _ => 0) 0 0 := by
    refine ⟨fun t j => by rw [hR]; exact one_isRot, fun j => ?_⟩
    rw [mulVec_zero, mulVec_zero]
    refine ⟨by rw [hR]; exact one_isRot, fun a b => ?_, fun a => ?_⟩
    · rw [show hat (0 : V3 ℝ) = 0 from by ext a b; fin_cases a <;> fin_cases b <;> simp [hat], Matrix.mul_zero]
      exact hasDerivAt_const _ _
    · rw [mulVec_zero]
      exact hasDerivAt_const _ _
  have hcen : JShape.center (demoCols fun _ => 0).M (some 2, [![1 / 2, -3 / 2, 1]]) = ![1 / 2, 1 / 2, 1] := by
    funext i
    fin_cases i <;> simp [JShape.center, place, hR] <;>
      simp [demoCols, Robot.fk, Robot.fkLoop, Robot.local_, Robot.slice, demoRobot, SE3.mul, SE3.one] <;> norm_num
  obtain ⟨-, J, -, h2, -⟩ := C83_contact_partial hf (demo_surfaces (.point _) (by simp)) hM (demo_clear hcen) (.inr (by simp)) (by simp)
    (fun h => absurd rfl h) C T
  refine ⟨f, st.bits, J, hf, hc, ?_, ?_, ?_, h2, ?_⟩
  · rw [hb, ha]; rfl
  · rw [hb, ha]; rfl
  · rw [ne_eq, hb, ha]; simp
  · refine C107_contact demoRobot_ok hc (by simp [demoRobot, demoFloor]) (by simp [demoRobot]) 0 hf (demoCols_ok _) ?_ C T h2
    change st.bits.2[2]? ≠ _
    rw [ne_eq, hb, ha]; simp

end Hpp.Contact
