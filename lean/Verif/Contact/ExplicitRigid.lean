import Verif.Contact.ExplicitPose

/-!
# The selection of contact surfaces is invariant by a rigid motion of the floor and of the object
-/

namespace Hpp.Contact

open Matrix Hpp.Sym Hpp.Pose Hpp.Log

variable {M M' : Nat → SE3 ℝ} {F O : JShape} {T : SE3 ℝ}

/-- The joint `j` moves with the rigid motion `T`. -/
def MovedBy (M M' : Nat → SE3 ℝ) (T : SE3 ℝ) (j : Option Nat) : Prop := ∀ x, place M' j x = act (some T) (place M j x)

theorem place_poseOf (M : Nat → SE3 ℝ) (j : Option Nat) (x : V3 ℝ) : place M j x = act (some (poseOf M j)) x := by
  cases j with
  | none => simp [place, act, poseOf, SE3.one]
  | some j => rfl

theorem act_mul (A B : SE3 ℝ) (x : V3 ℝ) : act (some (A.mul B)) x = act (some A) (act (some B) x) := by
  simp only [act, SE3.mul, mulVec_add, mulVec_mulVec]
  abel

theorem moved_exists {jf jo : Option Nat} (hM : ∀ j, IsRot (M j).R) (hM' : ∀ j, IsRot (M' j).R)
    (h : (poseOf M' jf).inv.mul (poseOf M' jo) = (poseOf M jf).inv.mul (poseOf M jo)) :
    ∃ T : SE3 ℝ, IsRot T.R ∧ MovedBy M M' T jf ∧ MovedBy M M' T jo := by
  have r := poseOf_rot hM jf
  have r' := poseOf_rot hM' jf
  refine ⟨(poseOf M' jf).mul (poseOf M jf).inv, SE3.mul_rot r' (SE3.inv_rot r), fun x => ?_, fun x => ?_⟩
  · rw [place_poseOf, place_poseOf, ← act_mul, SE3.mul_assoc, SE3.inv_mul r, SE3.mul_one]
  · rw [place_poseOf, place_poseOf, ← act_mul, SE3.mul_assoc, ← h, ← SE3.mul_assoc, SE3.mul_inv r', SE3.one_mul]

section

variable (hT : IsRot T.R)
include hT

theorem some_rot : ∀ A, some T = some A → IsRot A.R := fun _ h => Option.some.inj h ▸ hT

omit hT in
theorem moved_center (h : MovedBy M M' T O.1) : O.center M' = act (some T) (O.center M) := h _

omit hT in
theorem moved_polygon (h : MovedBy M M' T F.1) : F.polygon M' = act (some T) '' F.polygon M := by
  unfold JShape.polygon
  rw [Set.image_image]
  exact Set.image_congr fun x _ => h x

omit hT in
theorem moved_outline (h : MovedBy M M' T F.1) : F.outline M' = act (some T) '' F.outline M := by
  unfold JShape.outline
  rw [Set.image_image]
  exact Set.image_congr fun x _ => h x

theorem moved_sqDist (h : MovedBy M M' T F.1) (h' : MovedBy M M' T O.1) (d : ℝ) : F.IsSqDist M' O d ↔ F.IsSqDist M O d := by
  unfold JShape.IsSqDist
  have e : { r | ∃ x ∈ F.polygon M', r = edist (O.center M') x ^ 2 } = { r | ∃ x ∈ F.polygon M, r = edist (O.center M) x ^ 2 } := by
    ext r
    simp only [Set.mem_ofPred_eq]
    rw [moved_polygon h, moved_center h', Set.exists_mem_image]
    simp only [edist_act (some_rot hT)]
  rw [e]

theorem act_inj {x y : V3 ℝ} (h : act (some T) x = act (some T) y) : x = y := by
  have h1 : T.R *ᵥ x = T.R *ᵥ y := add_right_cancel h
  have h2 := congrArg (fun z => T.Rᵀ *ᵥ z) h1
  simpa only [mulVec_mulVec, hT.1, one_mulVec] using h2

theorem moved_mem {S : Set (V3 ℝ)} (y : V3 ℝ) : act (some T) y ∈ act (some T) '' S ↔ y ∈ S := by
  constructor
  · rintro ⟨z, hz, e⟩
    rwa [← act_inj hT e]
  · exact fun h => ⟨y, h, rfl⟩

theorem moved_proj (h : MovedBy M M' T F.1) (x y : V3 ℝ) : F.IsProj M' (act (some T) x) (act (some T) y) ↔ F.IsProj M x y := by
  have hr := some_rot hT
  have key : ∀ z : V3 ℝ, rotate (some T) (T.Rᵀ *ᵥ z) = z := by
    intro z
    simp only [rotate, mulVec_mulVec, hT.mul_transpose, one_mulVec]
  constructor
  · rintro ⟨h1, h2⟩
    refine ⟨fun m hm p hp => ?_, fun p hp q hq => ?_⟩
    · obtain ⟨p, hp', rfl⟩ := List.mem_map.1 hp
      have := h1 (rotate (some T) m) ?_ (place M' F.1 p) (List.mem_map.2 ⟨p, hp', rfl⟩)
      · rw [h p, act_sub, rotate_dot hr] at this
        exact this
      · intro a ha b hb
        obtain ⟨a, ha', rfl⟩ := List.mem_map.1 ha
        obtain ⟨b, hb', rfl⟩ := List.mem_map.1 hb
        rw [h a, h b, act_sub, rotate_dot hr]
        exact hm _ (List.mem_map.2 ⟨a, ha', rfl⟩) _ (List.mem_map.2 ⟨b, hb', rfl⟩)
    · have := h2 p hp q hq
      rw [h p, h q, act_sub, act_sub, rotate_dot hr] at this
      exact this
  · rintro ⟨h1, h2⟩
    refine ⟨fun m hm p hp => ?_, fun p hp q hq => ?_⟩
    · obtain ⟨p, hp', rfl⟩ := List.mem_map.1 hp
      have := h1 (T.Rᵀ *ᵥ m) ?_ (place M F.1 p) (List.mem_map.2 ⟨p, hp', rfl⟩)
      · rw [h p, act_sub, ← key m, rotate_dot hr]
        exact this
      · intro a ha b hb
        obtain ⟨a, ha', rfl⟩ := List.mem_map.1 ha
        obtain ⟨b, hb', rfl⟩ := List.mem_map.1 hb
        have := hm _ (List.mem_map.2 ⟨a, ha', rfl⟩) _ (List.mem_map.2 ⟨b, hb', rfl⟩)
        rw [h a, h b, act_sub, ← key m, rotate_dot hr] at this
        exact this
    · rw [h p, h q, act_sub, act_sub, rotate_dot hr]
      exact h2 p hp q hq

theorem moved_above (h : MovedBy M M' T F.1) (h' : MovedBy M M' T O.1) : Above M' F O ↔ Above M F O := by
  unfold Above
  rw [moved_center h', moved_polygon h, moved_outline h]
  constructor
  · intro H y hy
    have := H (act (some T) y) ((moved_proj hT h _ _).2 hy)
    rw [moved_mem hT, moved_mem hT] at this
    exact this
  · intro H y hy
    obtain ⟨z, rfl⟩ : ∃ z, y = act (some T) z := ⟨actInv (some T) y, (act_actInv (some_rot hT) y).symm⟩
    rw [moved_mem hT, moved_mem hT]
    exact H z ((moved_proj hT h _ _).1 hy)

end

end Hpp.Contact
