import Verif.RelPose.Model
import Verif.Log.Inject

/-!
# Lemmas on relative poses
-/

namespace Hpp.RelPose

open Matrix Hpp.Sym Hpp.Pose Hpp.Contact Hpp.Log

variable {r : Robot ℝ}

theorem poseOf_fk (q : Nat → ℝ) (j : Option Nat) : poseOf (r.fk q) j = r.fk q (j.getD 0) := by cases j <;> rfl

theorem inv_unique {A B : SE3 ℝ} (h : IsRot A.R) (e : A.mul B = SE3.one) : B = A.inv := by
  rw [← SE3.one_mul B, ← SE3.inv_mul h, SE3.mul_assoc, e, SE3.mul_one]

theorem relPose_flip {M : Nat → SE3 ℝ} (hM : ∀ j, IsRot (M j).R) (a b : Option Nat) : relPose M (b, a) = (relPose M (a, b)).inv := by
  have ha := poseOf_rot hM a
  have hb := poseOf_rot hM b
  refine inv_unique (SE3.mul_rot (SE3.inv_rot ha) hb) ?_
  unfold relPose
  dsimp only
  rw [SE3.mul_assoc, ← SE3.mul_assoc (poseOf M b), SE3.mul_inv hb, SE3.one_mul, SE3.inv_mul ha]

theorem ordered_le (a b : Option Nat) : jindex (ordered a b).1 ≤ jindex (ordered a b).2 := by
  unfold ordered
  split <;> dsimp only <;> omega

theorem relPose_ordered {M M' : Nat → SE3 ℝ} (hM : ∀ j, IsRot (M j).R) (hM' : ∀ j, IsRot (M' j).R) (a b : Option Nat) :
    relPose M (ordered a b) = relPose M' (ordered a b) ↔ relPose M (a, b) = relPose M' (a, b) := by
  unfold ordered
  split
  · exact Iff.rfl
  · constructor
    · intro h
      rw [relPose_flip hM b a, relPose_flip hM' b a, h]
    · intro h
      rw [relPose_flip hM a b, relPose_flip hM' a b, h]

/-- The pose measured by a generic transformation from the relative pose of its joints -/
theorem relative_relPose (ok : r.Ok) (g : GT) (q : Nat → ℝ) :
    g.relative (r.fk q) = g.F1.inv.mul ((relPose (r.fk q) (g.j1, g.joint2)).mul g.F2) := by
  have ho : ∀ (q : Nat → ℝ) (j : Option Nat), optM (r.fk q) j = poseOf (r.fk q) j := fun q j => by
    cases j <;> rfl
  rw [g.relative_eq (Robot.fk_rot ok q), ho, ho]
  simp only [SE3.actInv_eq, SE3.mul_assoc, relPose]

theorem value_congr (ok : r.Ok) (g : GT) (quat : M3 ℝ → List ℝ) {q q' : Nat → ℝ}
    (h : g.relative (r.fk q) = g.relative (r.fk q')) : g.rawValue quat (r.fk q) = g.rawValue quat (r.fk q') := by
  unfold GT.rawValue
  simp only [g.transform_eq (Robot.fk_rot ok q), g.transform_eq (Robot.fk_rot ok q'),
    g.translation_eq (Robot.fk_rot ok q), g.translation_eq (Robot.fk_rot ok q'), h]

/-! ### Contact surfaces that move together -/

section

variable {M M' : Nat → SE3 ℝ} {T : SE3 ℝ}

theorem at_center {s : CShape} (h : MovedBy M M' T s.joint) : (s.at M').center = act (some T) (s.at M).center := by
  unfold Surface.center CShape.at
  rw [act_place, act_place]
  exact h _

theorem rotate_sub (A : Option (SE3 ℝ)) (x : V3 ℝ) : rotate A x = act A x - act A 0 := by
  rw [act_sub, sub_zero]

theorem at_normal {s : CShape} (h : MovedBy M M' T s.joint) : (s.at M').normal = rotate (some T) (s.at M).normal := by
  unfold Surface.normal CShape.at
  dsimp only
  rw [rotate_sub, act_place, act_place, h, h, act_sub, ← act_place, ← act_place, ← rotate_sub]

theorem at_actInv (hM : ∀ j, IsRot (M j).R) (hM' : ∀ j, IsRot (M' j).R) {s : CShape} (h : MovedBy M M' T s.joint) (x : V3 ℝ) :
    actInv (s.at M').pose (act (some T) x) = actInv (s.at M).pose x := by
  unfold CShape.at
  dsimp only
  obtain ⟨y, rfl⟩ : ∃ y, x = act (s.joint.map M) y := ⟨actInv (s.joint.map M) x, (act_actInv (pose_rot hM _) x).symm⟩
  rw [actInv_act (pose_rot hM _), act_place, ← h, ← act_place, actInv_act (pose_rot hM' _)]

theorem line_act (hT : IsRot T.R) (A u P n : V3 ℝ) :
    linePlaneIntersection (act (some T) A) (rotate (some T) u) (act (some T) P) (rotate (some T) n) =
      act (some T) (linePlaneIntersection A u P n) := by
  unfold linePlaneIntersection
  rw [act_sub, rotate_dot (some_rot hT), rotate_dot (some_rot hT)]
  simp only [act, rotate, mulVec_add, mulVec_smul]
  abel

theorem step_moved (hM : ∀ j, IsRot (M j).R) (hM' : ∀ j, IsRot (M' j).R) (hT : IsRot T.R) {f o : CShape}
    (hf : MovedBy M M' T f.joint) (ho : MovedBy M M' T o.joint) (st : Option Sel) (j i : Nat) :
    selectStep st (f.at M') j (o.at M') i = selectStep st (f.at M) j (o.at M) i := by
  have h1 : (f.at M').distance ((f.at M').intersection (o.at M').center (f.at M').normal) =
      (f.at M).distance ((f.at M).intersection (o.at M).center (f.at M).normal) := by
    unfold Surface.distance Surface.intersection
    rw [at_center hf, at_center ho, at_normal hf, line_act hT, at_actInv hM hM' hf]
    rfl
  have h2 : (f.at M').normal ⬝ᵥ ((o.at M').center - (f.at M').center) =
      (f.at M).normal ⬝ᵥ ((o.at M).center - (f.at M).center) := by
    rw [at_center hf, at_center ho, at_normal hf, act_sub, rotate_dot (some_rot hT)]
  unfold selectStep
  rw [h1, h2]

theorem select_moved (hM : ∀ j, IsRot (M j).R) (hM' : ∀ j, IsRot (M' j).R) (hT : IsRot T.R) {floors objects : List CShape}
    (hf : ∀ f ∈ floors, MovedBy M M' T f.joint) (ho : ∀ o ∈ objects, MovedBy M M' T o.joint) :
    Contact.select (floors.map (·.at M')) (objects.map (·.at M')) = Contact.select (floors.map (·.at M)) (objects.map (·.at M)) := by
  unfold Contact.select
  simp only [List.zipIdx_map, List.foldl_map]
  refine List.foldl_ext _ _ _ fun st f hfm => ?_
  refine List.foldl_ext _ _ _ fun st o hom => ?_
  have h1 := List.mem_zipIdx_iff_getElem?.1 hfm
  have h2 := List.mem_zipIdx_iff_getElem?.1 hom
  exact step_moved hM hM' hT (hf _ (List.mem_of_getElem? h1)) (ho _ (List.mem_of_getElem? h2)) st _ _

end

/-- All the floor surfaces are on joints of the same index, all the object surfaces too. -/
theorem ofContact_ne_null {f : Contact.Fn} (h : ofContact f ≠ nullPair) :
    ∃ a b : Option Nat, ofContact f = ordered a b ∧ (∀ s ∈ f.floors, s.joint.getD 0 = a.getD 0) ∧
      (∀ s ∈ f.objects, s.joint.getD 0 = b.getD 0) := by
  unfold ofContact at h ⊢
  cases hf : f.floors with
  | nil => rw [hf] at h; exact absurd rfl h
  | cons f0 fs =>
    cases ho : f.objects with
    | nil => rw [hf, ho] at h; exact absurd rfl h
    | cons o0 os =>
      rw [hf, ho] at h
      dsimp only at h ⊢
      split at h
      · exact absurd rfl h
      · rename_i h1
        split at h
        · exact absurd rfl h
        · rename_i h2
          refine ⟨f0.joint, o0.joint, ?_, fun s hs => ?_, fun s hs => ?_⟩
          · rw [if_neg h1, if_neg h2]
          · by_contra hne
            exact h1 (List.any_eq_true.2 ⟨s, hs, decide_eq_true hne⟩)
          · by_contra hne
            exact h2 (List.any_eq_true.2 ⟨s, hs, decide_eq_true hne⟩)

theorem pick_joints {f : Contact.Fn} {M : Nat → SE3 ℝ} {p : Pick} (h : f.pick M = .ok p) :
    (∃ s ∈ f.floors, p.floor.joint = s.joint) ∧ p.object ∈ f.objects := by
  unfold Fn.pick at h
  split at h
  · exact absurd h (by simp)
  · split at h
    · rename_i h1 h2
      split at h
      · exact absurd h (by simp)
      · split at h
        · exact absurd h (by simp)
        · injection h with h
          subst h
          exact ⟨⟨_, List.mem_of_getElem? h1, rfl⟩, List.mem_of_getElem? h2⟩
    · exact absurd h (by simp)

theorem contact_moved (ok : r.Ok) {f : Contact.Fn} (h : ofContact f ≠ nullPair) {q q' : Nat → ℝ}
    (he : relPose (r.fk q) (ofContact f) = relPose (r.fk q') (ofContact f)) :
    f.pick (r.fk q) = f.pick (r.fk q') ∧ ∀ p, f.pick (r.fk q) = .ok p → poseError p (r.fk q) = poseError p (r.fk q') := by
  obtain ⟨a, b, hp, hf, ho⟩ := ofContact_ne_null h
  have hM := Robot.fk_rot ok q
  have hM' := Robot.fk_rot ok q'
  rw [hp, relPose_ordered hM hM'] at he
  constructor
  · obtain ⟨T, hT, h1, h2⟩ := moved_exists (jf := a) (jo := b) hM' hM he
    have hs : ∀ (j j' : Option Nat), j.getD 0 = j'.getD 0 → MovedBy (r.fk q') (r.fk q) T j' → MovedBy (r.fk q') (r.fk q) T j := by
      intro j j' e hm x
      have := hm x
      rw [place_poseOf, place_poseOf, poseOf_fk, poseOf_fk] at this ⊢
      rw [e, this]
    unfold Fn.pick
    rw [select_moved hM' hM hT (fun s hs' => hs _ _ (hf s hs') h1) (fun s hs' => hs _ _ (ho s hs') h2)]
  · intro p hpk
    obtain ⟨⟨s, hs, hj⟩, hob⟩ := pick_joints hpk
    unfold poseError
    rw [value_congr ok (relModel p.floor p.object) (fun _ => []) (q := q) (q' := q')]
    rw [relative_relPose ok, relative_relPose ok]
    have e1 : (relModel p.floor p.object).j1.getD 0 = a.getD 0 := by
      rw [← hf s hs, ← hj]
      change (p.floor.joint.filter fun j => decide (0 < j)).getD 0 = _
      cases hfj : p.floor.joint with
      | none => rfl
      | some j =>
        rw [Option.filter_some]
        split
        · rfl
        · rename_i hj0
          simp only [decide_eq_true_eq] at hj0
          simp; omega
    have e2 : (relModel p.floor p.object).joint2.getD 0 = b.getD 0 := ho _ hob
    have : ∀ q, relPose (r.fk q) ((relModel p.floor p.object).j1, (relModel p.floor p.object).joint2) = relPose (r.fk q) (a, b) := by
      intro q
      unfold relPose
      dsimp only
      rw [poseOf_fk, poseOf_fk, poseOf_fk, poseOf_fk, e1, e2]
    rw [this, this, he]

/-! ### Constraints -/

theorem all_active {κ : Type} {fn : Hpp.Fn ℝ κ} {mask : List Bool} {comp : List Comp} {c : Impl ℝ κ} (h : Impl.Built fn mask comp c)
    {p : JPair} (hp : constrains c p ≠ nullPair) :
    constrains c p = p ∧ fn.space.nv = 6 ∧ comp.length = 6 ∧ ∀ i, i < 6 → mask = [] ∨ mask[i]? = some true := by
  obtain ⟨hok, hfn, hcomp, hm⟩ := h.ok
  unfold constrains at hp ⊢
  split at hp
  · exact absurd rfl hp
  · rename_i hc
    push Not at hc
    rw [if_neg (by push Not; exact hc)]
    rw [hfn] at hc
    refine ⟨rfl, hc.1, by rw [← hcomp, hok.comp_len, hfn, hc.1], fun i hi => ?_⟩
    by_contra hne
    push Not at hne
    have hlen := hok.mask_len
    rw [hfn, hc.1, hm] at hlen
    unfold fullMask at hlen
    rw [if_neg hne.1] at hlen
    have hf : mask[i]? = some false := by
      rw [List.getElem?_eq_getElem (by omega)]
      have := hne.2
      rw [List.getElem?_eq_getElem (by omega)] at this
      cases hb : mask[i]
      · rfl
      · rw [hb] at this; exact absurd rfl this
    have hcov := (hok.rows.inact_iff i).2 (by rw [hm]; unfold fullMask; rw [if_neg hne.1]; exact hf)
    have h0 := hok.rows.inact_nb
    rw [hc.2] at h0
    have := (mem_indices _ _).2 hcov
    rw [List.length_eq_zero_iff.1 ((cardinal_eq_length _).symm.trans h0.symm)] at this
    simp at this

end Hpp.RelPose
