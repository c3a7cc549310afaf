import Verif.RelPose.Props

/-!
# C97: joints whose relative pose is fully constrained
-/

namespace Hpp.RelPose

open Matrix Hpp.Sym Hpp.Pose Hpp.Contact Hpp.Log

variable {r : Robot ℝ} {κ : Type}

/-! ### Lemmas -/

theorem select_true {β : Type} : ∀ (n : Nat) (l : List β), l.length = n → Pose.select (List.replicate n true) l = l
  | 0, [], _ => rfl
  | n + 1, x :: l, h => by
    rw [List.replicate_succ, Pose.select, select_true n l (by simpa using h)]

/-- C51 for the function as constraints see it: the value does not depend on the variables that are not active, and the active variables
are those of the joints between the two joints. -/
theorem C51_function (ok : r.Ok) (key : κ) (g : GT) (quat : M3 ℝ → List ℝ) (sp : Space ℝ) (jac : (Nat → ℝ) → Jac ℝ)
    (h1 : g.j1.getD 0 < r.njoints) (h2 : g.joint2.getD 0 < r.njoints) :
    let f := gtFn key r g quat sp jac
    (∀ q q' : Nat → ℝ, (∀ k, f.activeQ[k]? = some true → q k = q' k) → f.value q = f.value q') ∧
    ∀ k, (f.activeQ[k]? = some true ↔ ∃ a, r.OnPath (g.j1.getD 0) (g.joint2.getD 0) a ∧ r.QVar a k) ∧
      (f.active[k]? = some true ↔ ∃ a, r.OnPath (g.j1.getD 0) (g.joint2.getD 0) a ∧ r.VVar a k) :=
  ⟨fun _ _ he => C51_value ok g quat h1 h2 he, fun k => C51_active ok h1 h2 k⟩

/-- The mask selects 6 rows: position and orientation, all the rows -/
theorem mask_six {g : GT} (ok : g.Ok) (h : g.mask.count true = 6) :
    g.pos = true ∧ g.ori = true ∧ g.mask = List.replicate 6 true := by
  have h1 := ok.mask
  have h2 : g.mask.count true ≤ g.mask.length := List.count_le_length
  have h3 : g.pos = true ∧ g.ori = true := by
    unfold GT.lPos GT.lOri at h1
    cases hp : g.pos <;> cases ho : g.ori <;> rw [hp, ho] at h1 <;> simp only [if_true, Bool.false_eq_true, if_false] at h1 <;> simp <;> omega
  refine ⟨h3.1, h3.2, ?_⟩
  have h4 : g.mask.length = 6 := by rw [h1]; simp [GT.lPos, GT.lOri, h3.1, h3.2]
  rw [List.eq_replicate_iff]
  refine ⟨h4, fun b hb => ?_⟩
  exact (List.count_eq_length.1 (h.trans h4.symm) b hb).symm

theorem value_six {g : GT} (ok : g.Ok) {quat : M3 ℝ → List ℝ} (hq : ∀ R, (quat R).length = 4) (h : g.mask.count true = 6) {M : Nat → SE3 ℝ}
    (hM : ∀ j, IsRot (M j).R) :
    g.value quat M = list3 (g.relative M).p ++ (if g.ose3 then quat (g.relative M).R else list3 (logSO3 (g.relative M).R)) := by
  obtain ⟨hp, ho, hm⟩ := mask_six ok h
  have hl := g.full_length ok hq M
  unfold GT.value
  rw [GT.rawValue_eq ok quat hM, lread_fromLogical _ _ hl]
  have : g.valueMask = List.replicate g.valueMask.length true := by
    unfold GT.valueMask
    rw [hm]
    cases g.ose3 <;> rfl
  rw [this, select_true _ _ hl]
  simp [GT.full, hp, ho]

/-- The relative pose of the joints from the pose measured by the generic transformation -/
theorem relPose_relative (ok : r.Ok) {g : GT} (gok : g.Ok) {q q' : Nat → ℝ} (h : g.relative (r.fk q) = g.relative (r.fk q')) :
    relPose (r.fk q) (ofGT g) = relPose (r.fk q') (ofGT g) := by
  refine (relPose_ordered (Robot.fk_rot ok q) (Robot.fk_rot ok q') _ _).2 ?_
  rw [relative_relPose ok, relative_relPose ok] at h
  have h1 := congrArg (fun X => (g.F1.mul X).mul g.F2.inv) h
  simpa only [← SE3.mul_assoc, SE3.mul_inv gok.rot1, SE3.one_mul, SE3.mul_assoc _ g.F2, SE3.mul_inv gok.rot2, SE3.mul_one] using h1

theorem relative_rot (ok : r.Ok) {g : GT} (gok : g.Ok) (q : Nat → ℝ) : IsRot (g.relative (r.fk q)).R := by
  rw [relative_relPose ok]
  exact SE3.mul_rot (SE3.inv_rot gok.rot1) (SE3.mul_rot (SE3.mul_rot (SE3.inv_rot (poseOf_rot (Robot.fk_rot ok q) _))
    (poseOf_rot (Robot.fk_rot ok q) _)) gok.rot2)

theorem list3_inj {u v : V3 ℝ} (h : list3 u = list3 v) : u = v := by
  unfold list3 at h
  injection h with h0 h
  injection h with h1 h
  injection h with h2 h
  funext i
  fin_cases i <;> assumption

theorem rotToQuat_length (R : M3 ℝ) : (rotToQuat R).length = 4 := by
  unfold rotToQuat
  dsimp only
  split
  · rfl
  · split
    · rfl
    · split <;> rfl

/-- Rows compared with equality -/
theorem meets_zero {fn : Hpp.Fn ℝ κ} {mask : List Bool} {comp : List Comp} {rhs : List ℝ} {q : Nat → ℝ}
    (hm : ∀ i, i < 6 → mask = [] ∨ mask[i]? = some true) (hl : comp.length = 6)
    (hc : ∀ t ∈ comp, t = .equality ∨ t = .equalToZero) (hs : (fn.space.sub (fn.value q) rhs).length = 6)
    (h : Meets fn mask comp rhs q) : fn.space.sub (fn.value q) rhs = List.replicate 6 0 := by
  rw [List.eq_replicate_iff]
  refine ⟨hs, fun x hx => ?_⟩
  obtain ⟨i, hi⟩ := List.getElem?_of_mem hx
  have hi6 : i < 6 := by
    rw [← hs]
    exact (List.getElem?_eq_some_iff.1 hi).1
  have hci : comp[i]? = some comp[i] := List.getElem?_eq_getElem (by omega)
  have := h i _ x (hm i hi6) hci hi
  rcases hc _ (List.mem_of_getElem? hci) with e | e <;> rw [e] at this <;> exact this

theorem zipWith_sub_zero : ∀ {x y : List ℝ}, x.length = y.length → (∀ d ∈ List.zipWith (· - ·) x y, d = 0) → x = y
  | [], [], _, _ => rfl
  | a :: x, b :: y, hl, h => by
    have h0 := h (a - b) (by simp)
    have ht := zipWith_sub_zero (x := x) (y := y) (by simpa using hl) fun d hd => h d (by simp [hd])
    rw [sub_eq_zero.1 h0, ht]

/-! ### Transformations -/

/-- C97 (partial: all the rows are compared with `Equality` or `EqualToZero`, see `C97_inequality_refuted`, and the angles are less
than π, see `C97_half_turn_refuted`). Constraint on a generic transformation with vector values: if a pair of joints is returned,
it is the pair of the function, and all the configurations that satisfy the constraint for a right hand side have the same
relative pose of these joints. -/
theorem C97_transformation_partial (ok : r.Ok) {g : GT} (gok : g.Ok) (h3 : g.ose3 = false) {quat : M3 ℝ → List ℝ}
    (hq : ∀ R, (quat R).length = 4) {key : κ}
    {jac : (Nat → ℝ) → Jac ℝ} {mask : List Bool} {comp : List Comp} {c : Impl ℝ κ}
    (hb : Impl.Built (gtFn key r g quat (vspace (g.mask.count true)) jac) mask comp c)
    (hn : constrains c (ofGT g) ≠ nullPair) (hc : ∀ t ∈ comp, t = .equality ∨ t = .equalToZero) {rhs : List ℝ} (hr : rhs.length = 6) :
    constrains c (ofGT g) = ofGT g ∧
    Fixes r (fun q => angle (g.relative (r.fk q)).R < Real.pi ∧
      Meets (gtFn key r g quat (vspace (g.mask.count true)) jac) mask comp rhs q) (constrains c (ofGT g)) := by
  obtain ⟨he, hnv, hcl, hma⟩ := all_active hb hn
  refine ⟨he, ?_⟩
  rw [he]
  have hcount : g.mask.count true = 6 := hnv
  have hval : ∀ q, (angle (g.relative (r.fk q)).R < Real.pi ∧
      Meets (gtFn key r g quat (vspace (g.mask.count true)) jac) mask comp rhs q) →
      list3 (g.relative (r.fk q)).p ++ list3 (logSO3 (g.relative (r.fk q)).R) = rhs := by
    rintro q ⟨-, h⟩
    have hv := value_six gok hq hcount (Robot.fk_rot ok q)
    rw [h3] at hv
    simp only [Bool.false_eq_true, if_false] at hv
    have hsub : (gtFn key r g quat (vspace (g.mask.count true)) jac).space.sub
        ((gtFn key r g quat (vspace (g.mask.count true)) jac).value q) rhs =
        List.zipWith (· - ·) (list3 (g.relative (r.fk q)).p ++ list3 (logSO3 (g.relative (r.fk q)).R)) rhs := by
      rw [← hv]
      change List.zipWith (· - ·) (g.value quat (r.fk q)) rhs = _
      rfl
    have hlen : (list3 (g.relative (r.fk q)).p ++ list3 (logSO3 (g.relative (r.fk q)).R)).length = 6 := by
      simp only [list3, List.length_append, List.length_cons, List.length_nil]
    have hz := meets_zero hma hcl hc (by rw [hsub, List.length_zipWith, hr, hlen, min_self]) h
    refine zipWith_sub_zero (hlen.trans hr.symm) fun d hd => ?_
    rw [← hsub, hz] at hd
    exact List.eq_of_mem_replicate hd
  intro q q' h h'
  refine relPose_relative ok gok ?_
  have e := (hval q h).trans (hval q' h').symm
  have e' := List.append_inj e (by simp only [list3, List.length_cons, List.length_nil])
  refine SE3.ext' ?_ (list3_inj e'.1)
  exact C76_injective (relative_rot ok gok q) (relative_rot ok gok q') h.1 h'.1 (list3_inj e'.2)

/-- C97 (partial: all the rows are compared with `Equality` or `EqualToZero`). Constraint on a generic transformation with values in
`R^3 x SO(3)`: same property, for all angles.  `sp` is the external output space: the difference of two elements is zero only if
they represent the same pose. -/
theorem C97_transformation_so3_partial (ok : r.Ok) {g : GT} (gok : g.Ok) (h3 : g.ose3 = true) {key : κ} {sp : Space ℝ}
    (hnv : sp.nv = g.mask.count true)
    (hlen : ∀ x y, (sp.sub x y).length = sp.nv)
    (hsp : ∀ x y : List ℝ, x.length = 7 → y.length = 7 → Unit7 x → Unit7 y → sp.sub x y = List.replicate 6 0 → pose7 x = pose7 y)
    {jac : (Nat → ℝ) → Jac ℝ} {mask : List Bool} {comp : List Comp} {c : Impl ℝ κ}
    (hb : Impl.Built (gtFn key r g rotToQuat sp jac) mask comp c)
    (hn : constrains c (ofGT g) ≠ nullPair) (hc : ∀ t ∈ comp, t = .equality ∨ t = .equalToZero) {rhs : List ℝ} (hr : rhs.length = 7)
    (hu : Unit7 rhs) :
    constrains c (ofGT g) = ofGT g ∧
    Fixes r (Meets (gtFn key r g rotToQuat sp jac) mask comp rhs) (constrains c (ofGT g)) := by
  obtain ⟨he, hnv6, hcl, hma⟩ := all_active hb hn
  have hnv' : sp.nv = 6 := hnv6
  refine ⟨he, ?_⟩
  rw [he]
  have hcount : g.mask.count true = 6 := hnv.symm.trans hnv'
  have hval : ∀ q, Meets (gtFn key r g rotToQuat sp jac) mask comp rhs q → g.relative (r.fk q) = pose7 rhs := by
    intro q h
    have hv := value_six (quat := rotToQuat) gok rotToQuat_length hcount (Robot.fk_rot ok q)
    rw [h3, if_pos rfl] at hv
    have hsub : (gtFn key r g rotToQuat sp jac).space.sub ((gtFn key r g rotToQuat sp jac).value q) rhs =
        sp.sub (config7 (g.relative (r.fk q))) rhs := by
      change sp.sub (g.value rotToQuat (r.fk q)) rhs = _
      rw [hv]; rfl
    have hz := meets_zero hma hcl hc (by rw [hsub, hlen, hnv']) h
    rw [hsub] at hz
    have hrot := relative_rot ok gok q
    rw [← hsp _ _ (config7_spec hrot).1 hr (config7_spec hrot).2.1 hu hz, pose_config hrot]
  intro q q' h h'
  exact relPose_relative ok gok ((hval q h).trans (hval q' h').symm)

/-! ### Constant explicit constraints and locked joints -/

theorem parent_pose (ok : r.Ok) (q : Nat → ℝ) {j : Nat} (hj : 0 < j) : relPose (r.fk q) (parentJoint r j, some j) = r.local_ q j := by
  have hp : poseOf (r.fk q) (parentJoint r j) = r.fk q (r.parent j) := by
    rw [poseOf_fk]
    unfold parentJoint
    split
    · rename_i h0; rw [h0]; rfl
    · rfl
  unfold relPose
  dsimp only
  rw [hp]
  change (r.fk q (r.parent j)).inv.mul (r.fk q j) = _
  rw [Robot.fk_step ok q hj, ← SE3.mul_assoc, SE3.inv_mul (Robot.fk_rot ok q _), SE3.one_mul]

theorem parent_index (ok : r.Ok) {j : Nat} (hj : 0 < j) : jindex (parentJoint r j) < j := by
  have := ok.parent_lt j hj
  unfold parentJoint
  split
  · exact hj
  · exact this

theorem ordered_parent (ok : r.Ok) {j : Nat} (hj : 0 < j) :
    ordered (some j) (parentJoint r j) = (parentJoint r j, some j) ∧ ordered (parentJoint r j) (some j) = (parentJoint r j, some j) := by
  have := parent_index ok hj
  unfold ordered
  constructor
  · rw [if_neg (by change ¬ j ≤ _; omega)]
  · rw [if_pos (by change _ ≤ j; omega)]

/-- C97 (partial: the output variables are those of a joint, see `C97_shifted_refuted`, and the rows are compared with `Equality` or
`EqualToZero`). Constant explicit constraint on all the variables of a joint with 6 degrees of freedom: the pair returned is the
parent of the joint and the joint, and all the configurations that satisfy the constraint for a right hand side have the same
relative pose of these joints.  `hd`: two configurations of the joint, in a domain, with the same difference to the value place it
identically (for a joint that rotates freely, the domain excludes half turns). -/
theorem C97_constant_partial (ok : r.Ok) {j : Nat} (hj : 0 < j) (hjn : j < r.njoints) (hpos : 0 < r.jnq j) {sp : JSpace ℝ} (h6 : sp.nv = 6) {value : List ℝ}
    (hl : ∀ x, (sp.diff x value).length = 6)
    {dom : List ℝ → Prop} (hd : ∀ x x', dom x → dom x' → sp.diff x value = sp.diff x' value → r.jt j x = r.jt j x') {key : κ}
    {jac : (Nat → ℝ) → Jac ℝ} {a b : List Bool} {mask : List Bool} (hma : mask = [] ∨ mask = List.replicate 6 true) {comp : List Comp}
    {c : Impl ℝ κ} (hb : Impl.Built (constFn key r sp [⟨r.idxq j, r.jnq j⟩] value jac a b) mask comp c)
    (hc : ∀ t ∈ comp, t = .equality ∨ t = .equalToZero) {rhs : List ℝ} (hr : rhs.length = 6) :
    constrains c (ofImplicitFn r 0 [⟨r.idxq j, r.jnq j⟩]) = (parentJoint r j, some j) ∧
    Fixes r (fun q => dom (r.slice q j) ∧ Meets (constFn key r sp [⟨r.idxq j, r.jnq j⟩] value jac a b) mask comp rhs q)
      (constrains c (ofImplicitFn r 0 [⟨r.idxq j, r.jnq j⟩])) := by
  have hp : ofImplicitFn r 0 [⟨r.idxq j, r.jnq j⟩] = (parentJoint r j, some j) := by
    unfold ofImplicitFn
    rw [if_neg (by omega)]
    dsimp only
    rw [rank_joint ok hj hjn (le_refl _) (by omega)]
    dsimp only
    rw [if_neg (by omega), (ordered_parent ok hj).1]
  obtain ⟨hok, hfn, hcomp, hm⟩ := hb.ok
  have hnb : c.inactiveRows.nb = 0 := by
    rw [hok.rows.inact_nb, cardinal_eq_length, List.length_eq_zero_iff, List.eq_nil_iff_forall_not_mem]
    intro i hi
    have := (hok.rows.inact_iff i).1 ((mem_indices _ _).1 hi)
    rw [hm] at this
    have hfm : fullMask (constFn key r sp [⟨r.idxq j, r.jnq j⟩] value jac a b) mask = List.replicate 6 true := by
      unfold fullMask
      rcases hma with rfl | rfl
      · rw [if_pos rfl]
        change List.replicate sp.nv true = _
        rw [h6]
      · rw [if_neg (by simp)]
    rw [hfm, List.getElem?_replicate] at this
    split at this <;> simp at this
  have hcon : constrains c (ofImplicitFn r 0 [⟨r.idxq j, r.jnq j⟩]) = (parentJoint r j, some j) := by
    unfold constrains
    rw [if_neg, hp]
    rw [hfn, hnb]
    change ¬ (sp.nv ≠ 6 ∨ _)
    rw [h6]
    simp
  refine ⟨hcon, ?_⟩
  rw [hcon]
  have hma' : ∀ i, i < 6 → mask = [] ∨ mask[i]? = some true := by
    intro i hi
    refine hma.imp_right ?_
    rintro rfl
    rw [List.getElem?_replicate, if_pos hi]
  have hcl : comp.length = 6 := by
    rw [← hcomp, hok.comp_len, hfn]; exact h6
  have hval : ∀ q, Meets (constFn key r sp [⟨r.idxq j, r.jnq j⟩] value jac a b) mask comp rhs q →
      sp.diff (r.slice q j) value = rhs := by
    intro q h
    have hsub : (constFn key r sp [⟨r.idxq j, r.jnq j⟩] value jac a b).space.sub
        ((constFn key r sp [⟨r.idxq j, r.jnq j⟩] value jac a b).value q) rhs = List.zipWith (· - ·) (sp.diff (r.slice q j) value) rhs := by
      have : rview q [⟨r.idxq j, r.jnq j⟩] = r.slice q j := by
        simp [rview, Robot.slice, indices]
      rw [← this]; rfl
    have hz := meets_zero hma' hcl hc (by rw [hsub, List.length_zipWith, hr, hl, min_self]) h
    refine zipWith_sub_zero ((hl _).trans hr.symm) fun d hdm => ?_
    rw [← hsub, hz] at hdm
    exact List.eq_of_mem_replicate hdm
  intro q q' h h'
  rw [parent_pose ok q hj, parent_pose ok q' hj]
  unfold Robot.local_
  rw [hd (r.slice q j) (r.slice q' j) h.1 h'.1 ((hval q h.2).trans (hval q' h'.2).symm)]

/-- C97. Locked joint: the pair returned is the parent of the joint and the joint; two configurations that satisfy the constraint for
the same right hand side (values of the implicit function equal) have the same relative pose of these joints.  `hd`: as above. -/
theorem C97_locked (ok : r.Ok) {j : Nat} (hj : 0 < j) {names : List String} {name : String} (hname : name ∈ names)
    {lj : LJoint ℝ} (hq : lj.rankInConfiguration = r.idxq j) (hs : lj.space.nq = r.jnq j) {value : List ℝ}
    {dom : List ℝ → Prop} (hd : ∀ x x', dom x → dom x' → lj.space.diff x value = lj.space.diff x' value → r.jt j x = r.jt j x')
    (key : κ) (rhs : List ℝ) :
    ofLocked r names name (some j) = some (parentJoint r j, some j) ∧
    Fixes r (fun q => dom (r.slice q j) ∧ (lockedJoint key lj value).h q = rhs) (parentJoint r j, some j) := by
  constructor
  · unfold ofLocked
    rw [if_neg (by simpa using hname)]
    simp only [Option.map_some, (ordered_parent ok hj).2]
  · intro q q' h h'
    have hv : ∀ q, (lockedJoint key lj value).h q = lj.space.diff (r.slice q j) value := by
      intro q
      have : rview q [⟨lj.rankInConfiguration, lj.space.nq⟩] = r.slice q j := by
        simp [rview, Robot.slice, indices, hq, hs]
      rw [← this]; rfl
    rw [parent_pose ok q hj, parent_pose ok q' hj]
    unfold Robot.local_
    rw [hd (r.slice q j) (r.slice q' j) h.1 h'.1 (by rw [← hv, ← hv]; exact h.2.trans h'.2.symm)]

end Hpp.RelPose
