import Verif.Contact.Explicit

/-!
# Lemmas about explicit contact constraints
-/

namespace Hpp.Pose

variable {α : Type}

theorem toggleRange_length (v : List Bool) (first n : Nat) : (toggleRange v first n).length = v.length := by
  induction n with
  | zero => rfl
  | succ n ih => simp [toggleRange, ih]

theorem Robot.toggleLoop_length (r : Robot α) (idx size : Nat → Nat) (n j : Nat) (s : List Bool) :
    (r.toggleLoop idx size n j s).length = s.length := by
  induction n generalizing j s with
  | zero => rfl
  | succ n ih =>
    simp only [Robot.toggleLoop]
    split
    · rfl
    · rw [ih, toggleRange_length]

theorem Robot.contactBits_spec {n : Nat} {bits : Nat → List Bool} {fs : List Nat} (h : ∀ f ∈ fs, (bits f).length = n) :
    (Robot.contactBits n bits fs).length = n ∧
    ∀ k : Nat, (Robot.contactBits n bits fs)[k]? = some true ↔ ∃ f : Nat, f ∈ fs ∧ (bits f)[k]? = some true := by
  induction fs with
  | nil =>
    refine ⟨by simp [Robot.contactBits], fun k => ?_⟩
    simp [Robot.contactBits, List.getElem?_replicate]
  | cons f fs ih =>
    obtain ⟨h1, h2⟩ := ih fun g hg => h g (List.mem_cons_of_mem _ hg)
    have hf := h f List.mem_cons_self
    refine ⟨by simp [Robot.contactBits, h1, hf], fun k => ?_⟩
    simp only [Robot.contactBits, List.getElem?_zipWith, List.mem_cons, exists_eq_or_imp, ← h2]
    by_cases hk : k < n
    · have e1 : k < (Robot.contactBits n bits fs).length := by omega
      have e2 : k < (bits f).length := by omega
      rw [List.getElem?_eq_getElem e1, List.getElem?_eq_getElem e2]
      cases (Robot.contactBits n bits fs)[k] <;> cases (bits f)[k] <;> simp
    · have e1 : (Robot.contactBits n bits fs)[k]? = none := List.getElem?_eq_none (by omega)
      have e2 : (bits f)[k]? = none := List.getElem?_eq_none (by omega)
      rw [e1, e2]
      simp

/-- Variables selected by `contact::inputConfVariables`: union of those of the relative poses -/
theorem Robot.contact_covers (r : Robot ℝ) (j2 : Nat) (fs : List Nat) (k : Nat) :
    (Covers (fromLogical (Robot.contactBits r.nq (fun j1 => r.relPoseConfVariables j1 j2) fs)) k ↔
      ∃ j1 ∈ fs, Covers (r.inConf j1 j2) k) ∧
    (Covers (fromLogical (Robot.contactBits r.nv (fun j1 => r.relPoseVelVariables j1 j2) fs)) k ↔
      ∃ j1 ∈ fs, Covers (r.inVel j1 j2) k) := by
  constructor
  · rw [(C08_mask_to_intervals _).2.1, (Robot.contactBits_spec fun f _ => by
      simp [Robot.relPoseConfVariables, Robot.toggleLoop_length]).2]
    simp only [← (C50_rel_pose_variables r _ j2).1, (C08_mask_to_intervals _).2.1]
  · rw [(C08_mask_to_intervals _).2.1, (Robot.contactBits_spec fun f _ => by
      simp [Robot.relPoseVelVariables, Robot.toggleLoop_length]).2]
    simp only [← (C50_rel_pose_variables r _ j2).2, (C08_mask_to_intervals _).2.1]

end Hpp.Pose

namespace Hpp.Contact

open Matrix Hpp.Sym Hpp.Pose Hpp.Log

theorem mapAll_some {β : Type} (l : List β) : mapAll id (l.map some) = some l := by
  induction l with
  | nil => rfl
  | cons b l ih => simp [mapAll, ih]

theorem relPoseInputs_eq {a b : Segs} (hn : (indices a).Nodup) (h : ∀ k, Covers b k → Covers a k) (q : Nat → ℝ) :
    relPoseInputs a b (rview q a) = (rview q b).map some := by
  unfold relPoseInputs
  have hv := rview_lview (fun _ => (none : Option ℝ)) a ((rview q a).map some) hn (by simp [rview])
  have key : ∀ k ∈ indices a, lview (fun _ => (none : Option ℝ)) a ((rview q a).map some) k = some (q k) := by
    have e : ((indices a).map fun k => lview (fun _ => (none : Option ℝ)) a ((rview q a).map some) k) =
        (indices a).map fun k => some (q k) := by
      refine hv.trans ?_
      simp [rview]
    exact fun k hk => List.map_inj_left.1 e k hk
  change (indices b).map _ = ((indices b).map q).map some
  rw [List.map_map]
  refine List.map_inj_left.2 fun k hk => ?_
  exact key k ((mem_indices _ _).2 (h k ((mem_indices _ _).1 hk)))

theorem product_get {α β γ : Type} (g : α → β → γ) (B : List β) {b : β} {k : Nat} (hb : B[k]? = some b) :
    ∀ {A : List α} {i : Nat} {a : α}, A[i]? = some a → (A.flatMap fun a => B.map (g a))[i * B.length + k]? = some (g a b) := by
  intro A
  have hk : k < B.length := by
    by_contra h
    rw [List.getElem?_eq_none (by omega)] at hb
    cases hb
  induction A with
  | nil => intro i a h; simp at h
  | cons a0 A ih =>
    intro i a h
    rw [List.flatMap_cons]
    cases i with
    | zero =>
      simp only [List.getElem?_cons_zero, Option.some.injEq] at h
      subst h
      rw [List.getElem?_append_left (by simp; omega), Nat.zero_mul, Nat.zero_add, List.getElem?_map, hb]
      rfl
    | succ i =>
      simp only [List.getElem?_cons_succ] at h
      rw [List.getElem?_append_right (by simp; nlinarith)]
      rw [← ih h]
      congr 1
      simp only [List.length_map]
      have : (i + 1) * B.length = i * B.length + B.length := by ring
      omega

/-- The surface moved by the margin along the first axis of its frame -/
theorem moved_relative {A F B : SE3 ℝ} (m : ℝ) (hA : IsRot A.R) (hF : IsRot F.R) :
    (A.mul (movedFrame m F)).inv.mul B = ⟨((A.mul F).inv.mul B).R, ((A.mul F).inv.mul B).p + m • ![1, 0, 0]⟩ := by
  refine SE3.ext' rfl ?_
  have hAF : IsRot (A.R * F.R) := IsRot.mul hA hF
  have hcol : (A.R * F.R)ᵀ *ᵥ (A.R *ᵥ fun i => F.R i 0) = ![1, 0, 0] := by
    have e : (A.R *ᵥ fun i => F.R i 0) = (A.R * F.R) *ᵥ ![1, 0, 0] := by
      rw [← mulVec_mulVec]
      congr 1
      funext i
      simp [mulVec, dotProduct, Fin.sum_univ_three]
    rw [e, mulVec_mulVec, hAF.1, one_mulVec]
  change (A.R * F.R)ᵀ *ᵥ B.p + -((A.R * F.R)ᵀ *ᵥ (A.R *ᵥ (F.p - m • fun i => F.R i 0) + A.p)) =
    (A.R * F.R)ᵀ *ᵥ B.p + -((A.R * F.R)ᵀ *ᵥ (A.R *ᵥ F.p + A.p)) + m • ![1, 0, 0]
  rw [mulVec_sub, mulVec_smul, mulVec_add, mulVec_sub, mulVec_smul, hcol, mulVec_add]
  abel

variable {isFF : Nat → Bool} {robot : Robot ℝ} {fs os : List JShape} {margin : ℝ} {E : Expl} {j2 : Nat}

/-- What the constructor builds -/
structure Created (r : Robot ℝ) (fs os : List JShape) (margin : ℝ) (j2 : Nat) (E : Expl) : Prop where
  robot : E.robot = r
  fn : Fn.build fs os margin = some E.fn
  poses : E.poses = E.fn.floors.flatMap fun fl => E.fn.objects.map fun ob =>
    ⟨r, fl.joint, ob.joint.getD 0, movedFrame margin fl.shape.positionInJoint, ob.shape.positionInJoint⟩
  nObj : E.nObjSurf = E.fn.objects.length
  inConf : E.inConf = fromLogical (Robot.contactBits r.nq (fun j1 => r.relPoseConfVariables j1 j2) (fs.map fun s => s.1.getD 0))
  inVel : E.inVel = fromLogical (Robot.contactBits r.nv (fun j1 => r.relPoseVelVariables j1 j2) (fs.map fun s => s.1.getD 0))
  outConf : E.outConf = r.outConf j2

theorem created (hE : Expl.create isFF robot fs os margin = .ok E) (h : ∀ s ∈ os, s.1 = some j2) : Created robot fs os margin j2 E := by
  unfold Expl.create at hE
  split at hE
  · cases hE
  · split at hE
    · cases hE
    · cases hE
    · rename_i j2' _ _ _
      have hj : j2' = j2 := Option.some.inj (h _ List.mem_cons_self)
      subst hj
      split at hE
      · cases hE
      · rename_i f hf
        have := Except.ok.inj hE
        subst this
        exact ⟨rfl, hf, rfl, rfl, rfl, rfl, rfl⟩

end Hpp.Contact
