import Verif.Contact.Frames
import Verif.Contact.ExplicitMore
import Verif.Log.Inject

/-!
# Contact and complement constraints together (C122)

Source: `/repo/src/convex-shape-contact.cc` (`impl_compute` of the contact, of the complement and of the hold functions, lines
205-223, 405-423 and 490-496) and `/repo/src/explicit/convex-shape-contact.cc:90-112` (`createConstraintAndComplement`).
The functions are modelled in `Contact/Func.lean`: no new definition of the code here.

Two configurations where the two constraints have the same right hand side should have the same position of the object with respect
to the floor (definition of a leaf of a foliation).
-/

namespace Hpp.Contact

open Matrix Hpp.Sym Hpp.Pose Hpp.Log Hpp.Explicit

variable {fs os : List JShape} {margin : ℝ} {f : Fn} {M M' : Nat → SE3 ℝ} {i k i' k' : Nat} {F O F' O' : JShape}

/-! ### Rotations about the normal -/

theorem about_x {R : M3 ℝ} (h : IsRot R) (h0 : R 0 0 = 1) :
    R 0 1 = 0 ∧ R 0 2 = 0 ∧ R 1 0 = 0 ∧ R 2 0 = 0 ∧ R 2 2 = R 1 1 ∧ R 2 1 = -R 1 2 ∧ R 1 1 ^ 2 + R 1 2 ^ 2 = 1 := by
  have e := eqs h
  have r := e.r00
  have c := e.c00
  rw [h0] at r c
  have a1 : R 0 1 = 0 := by nlinarith [sq_nonneg (R 0 1), sq_nonneg (R 0 2)]
  have a2 : R 0 2 = 0 := by nlinarith [sq_nonneg (R 0 1), sq_nonneg (R 0 2)]
  have a3 : R 1 0 = 0 := by nlinarith [sq_nonneg (R 1 0), sq_nonneg (R 2 0)]
  have a4 : R 2 0 = 0 := by nlinarith [sq_nonneg (R 1 0), sq_nonneg (R 2 0)]
  have m1 := e.m11
  have m2 := e.m21
  have r1 := e.r11
  rw [h0, a2] at m1
  rw [h0, a2] at m2
  rw [a3] at r1
  exact ⟨a1, a2, a3, a4, by linarith, by linarith, by linarith⟩

/-- The logarithm determines the rotation for the rotations about the first axis, half turn included. -/
theorem about_x_injective {R R' : M3 ℝ} (h : IsRot R) (h' : IsRot R') (h0 : R 0 0 = 1) (h0' : R' 0 0 = 1)
    (he : logSO3 R = logSO3 R') : R = R' := by
  have hpi := Real.pi_gt_three
  have half : ∀ {R : M3 ℝ}, IsRot R → R 0 0 = 1 → angle R = Real.pi → R 1 1 = -1 ∧ R 1 2 = 0 := by
    intro R h h0 hp
    obtain ⟨-, -, -, -, a5, -, a7⟩ := about_x h h0
    have hc := cos_angle h
    rw [hp, Real.cos_pi] at hc
    unfold cosOf at hc
    rw [h0, a5] at hc
    have e1 : R 1 1 = -1 := by linarith
    rw [e1] at a7
    exact ⟨e1, by nlinarith⟩
  have lhalf : ∀ {R : M3 ℝ}, IsRot R → R 0 0 = 1 → angle R = Real.pi → logSO3 R ⬝ᵥ logSO3 R = Real.pi ^ 2 := by
    intro R h h0 hp
    obtain ⟨h1, h2⟩ := half h h0 hp
    obtain ⟨-, -, -, -, a5, a6, -⟩ := about_x h h0
    have hl := (log_fix h).2 h0
    rw [dot_three, hl.1, hl.2]
    have : logSO3 R 0 = -Real.pi := by
      unfold logSO3
      dsimp only
      rw [hp, if_neg (by norm_num), sub_self, Real.cos_zero]
      simp only [cons_val_zero]
      have e : (R 0 0 + 1) * (Real.pi * Real.pi / (1 + 1)) = Real.pi ^ 2 := by rw [h0]; ring
      rw [e, if_neg (by rw [a6, h2]; simp), if_pos (by positivity), Real.sqrt_sq (by linarith)]
      ring
    rw [this]
    ring
  have notboth : ∀ {R R' : M3 ℝ}, IsRot R → IsRot R' → R' 0 0 = 1 → angle R < Real.pi → angle R' = Real.pi →
      logSO3 R ≠ logSO3 R' := by
    intro R R' h h' h0' hp hp' he
    have h1 := logSO3_norm h hp
    rw [he, lhalf h' h0' hp'] at h1
    have a0 := angle_nonneg h
    split at h1
    · nlinarith
    · have := Real.sin_sq_le_one (angle R)
      nlinarith
  rcases (angle_bounds R).2.lt_or_eq with hp | hp <;> rcases (angle_bounds R').2.lt_or_eq with hp' | hp'
  · exact C76_injective h h' hp hp' he
  · exact absurd he (notboth h h' h0' hp hp')
  · exact absurd he.symm (notboth h' h h0 hp' hp)
  · obtain ⟨a1, a2, a3, a4, a5, a6, -⟩ := about_x h h0
    obtain ⟨b1, b2, b3, b4, b5, b6, -⟩ := about_x h' h0'
    obtain ⟨c1, c2⟩ := half h h0 hp
    obtain ⟨d1, d2⟩ := half h' h0' hp'
    ext a b
    fin_cases a <;> fin_cases b <;> simp [*]

/-! ### The right hand sides determine the pose -/

theorem decode_parts {r : ℝ} {rhs : Fin 8 → ℝ} {w : Fin 6 → ℝ} (h : decode r rhs = some (i, k, w)) : w 4 = rhs 3 ∧ w 5 = rhs 4 := by
  unfold decode at h
  dsimp only at h
  split at h
  · cases h
  · have e := (Prod.mk.inj (Prod.mk.inj (Option.some.inj h)).2).2
    rw [← e]
    exact ⟨rfl, rfl⟩

theorem hold_split {a : Fin 5 → ℝ} {b : V3 ℝ} (ha : f.value M = .ok a) (hb : f.complement M = .ok b) :
    f.hold M = .ok ![a 0, a 1, a 2, a 3, a 4, b 0, b 1, b 2] := by
  unfold Fn.hold
  rw [ha, hb]

/-- Same values of the two functions: same pair of surfaces, same position and same logarithm of the orientation. -/
theorem leaf_core (hf : Fn.build fs os margin = some f) (hS : Surfaces fs os) (hM : ∀ j, IsRot (M j).R) (hM' : ∀ j, IsRot (M' j).R)
    (hn : Nearest fs os M i k F O) (hn' : Nearest fs os M' i' k' F' O') (h1 : O.2.length ≠ 1) (h1' : O'.2.length ≠ 1)
    {a : Fin 5 → ℝ} {b : V3 ℝ} (ha : f.value M = .ok a) (ha' : f.value M' = .ok a) (hb : f.complement M = .ok b)
    (hb' : f.complement M' = .ok b) :
    i' = i ∧ k' = k ∧ ∃ c co, f.floors[i]? = some c ∧ f.objects[k]? = some co ∧
      ((relModel c co).relative M').p = ((relModel c co).relative M).p ∧
      logSO3 ((relModel c co).relative M').R = logSO3 ((relModel c co).relative M).R ∧
      logSO3 ((relModel c co).relative M).R 1 = a 3 ∧ logSO3 ((relModel c co).relative M).R 2 = a 4 := by
  obtain ⟨rhs, c, co, e1, e2, e3, e4⟩ := hold_decode hf hS hM hn h1
  obtain ⟨rhs', c', co', e1', e2', e3', e4'⟩ := hold_decode hf hS hM' hn' h1'
  rw [hold_split ha hb] at e1
  rw [hold_split ha' hb'] at e1'
  have hr := Except.ok.inj e1
  have hr' := Except.ok.inj e1'
  rw [← hr'] at e4'
  rw [← hr] at e4
  have hp := decode_parts e4
  rw [e4] at e4'
  have q := Prod.mk.inj (Option.some.inj e4')
  have q2 := Prod.mk.inj q.2
  obtain rfl := q.1
  obtain rfl := q2.1
  rw [e2] at e2'
  rw [e3] at e3'
  obtain rfl := Option.some.inj e2'
  obtain rfl := Option.some.inj e3'
  have v := fun n => congrFun q2.2 n
  refine ⟨rfl, rfl, c, co, e2, e3, ?_, ?_, hp.1, hp.2⟩
  · funext n
    fin_cases n
    · have := v 0
      simp at this
      exact this.symm
    · exact (v 1).symm
    · exact (v 2).symm
  · funext n
    fin_cases n
    · exact (v 3).symm
    · exact (v 4).symm
    · exact (v 5).symm

/-- Same relative pose of the frames of the surfaces: same relative pose of the joints. -/
theorem leaf_joints (hf : Fn.build fs os margin = some f) (hS : Surfaces fs os) (hM : ∀ j, IsRot (M j).R) (hM' : ∀ j, IsRot (M' j).R)
    (hF : fs[i]? = some F) (hO : os[k]? = some O) {c co : CShape} (hc : f.floors[i]? = some c) (hco : f.objects[k]? = some co)
    (h : (relModel c co).relative M' = (relModel c co).relative M) :
    (poseOf M' F.1).inv.mul (poseOf M' O.1) = (poseOf M F.1).inv.mul (poseOf M O.1) := by
  obtain ⟨hb, -⟩ := build_built hf
  obtain ⟨k1, k2⟩ := hb.floor i F _ hF hc
  obtain ⟨k3, k4⟩ := hb.object k O _ hO hco
  have hFm := hS.floor F (List.mem_of_getElem? hF)
  have hOm := hS.object O (List.mem_of_getElem? hO)
  have ok := relModel_ok hFm.1 hOm.1 k1 k3
  have hj : c.joint ≠ some 0 := k2 ▸ hFm.2
  have e1 := relative_poseOf (g := relModel c co) rfl hj M'
  have e2 := relative_poseOf (g := relModel c co) rfl hj M
  rw [h, e2] at e1
  change ((poseOf M c.joint).mul _).inv.mul ((poseOf M co.joint).mul _) =
    ((poseOf M' c.joint).mul _).inv.mul ((poseOf M' co.joint).mul _) at e1
  rw [k2, k4] at e1
  exact (relative_cancel (poseOf_rot hM _) (poseOf_rot hM' _) ok.rot1 ok.rot2 e1).symm

theorem leaf_rot (hf : Fn.build fs os margin = some f) (hS : Surfaces fs os) (hM : ∀ j, IsRot (M j).R)
    (hF : fs[i]? = some F) (hO : os[k]? = some O) {c co : CShape} (hc : f.floors[i]? = some c) (hco : f.objects[k]? = some co) :
    IsRot ((relModel c co).relative M).R := by
  obtain ⟨hb, -⟩ := build_built hf
  obtain ⟨k1, k2⟩ := hb.floor i F _ hF hc
  obtain ⟨k3, k4⟩ := hb.object k O _ hO hco
  have hFm := hS.floor F (List.mem_of_getElem? hF)
  have hOm := hS.object O (List.mem_of_getElem? hO)
  exact relative_rot (relModel_ok hFm.1 hOm.1 k1 k3) (k2 ▸ hFm.2) hM

/-- C122. Two configurations in contact with the same value of the complement: the same surfaces are in contact, and the object has
the same pose with respect to the floor. -/
theorem C122_leaf_partial (hf : Fn.build fs os margin = some f) (hS : Surfaces fs os) (hM : ∀ j, IsRot (M j).R)
    (hM' : ∀ j, IsRot (M' j).R) (hn : Nearest fs os M i k F O) (hn' : Nearest fs os M' i' k' F' O') (h1 : O.2.length ≠ 1)
    (h1' : O'.2.length ≠ 1) (hv : f.value M = .ok 0) (hv' : f.value M' = .ok 0) (hc : f.complement M' = f.complement M) :
    i' = i ∧ k' = k ∧ (poseOf M' F.1).inv.mul (poseOf M' O.1) = (poseOf M F.1).inv.mul (poseOf M O.1) := by
  obtain ⟨b, hb⟩ : ∃ b, f.complement M = .ok b := by
    obtain ⟨p, hp, -⟩ := pick_get hf hS hM hn
    unfold Fn.complement
    rw [hp]
    exact ⟨_, rfl⟩
  obtain ⟨rfl, rfl, c, co, g1, g2, hp, hl, l1, l2⟩ := leaf_core hf hS hM hM' hn hn' h1 h1' hv hv' hb (hc.trans hb)
  refine ⟨rfl, rfl, leaf_joints hf hS hM hM' hn.floor hn.object g1 g2 (SE3.ext' ?_ hp)⟩
  have r := leaf_rot hf hS hM hn.floor hn.object g1 g2
  have r' := leaf_rot hf hS hM' hn.floor hn.object g1 g2
  refine about_x_injective r' r ?_ ?_ hl
  · rw [← log_fix r', hl]
    exact ⟨l1, l2⟩
  · rw [← log_fix r]
    exact ⟨l1, l2⟩

/-- The angle between the frames of the two surfaces is less than a half turn. -/
def BelowHalfTurn (M : Nat → SE3 ℝ) (F O : JShape) : Prop :=
  ∀ A B, FrameOf F.2.reverse A → FrameOf O.2 B → angle ((jointR M F.1 * A)ᵀ * (jointR M O.1 * B)) < Real.pi

theorem below_half_turn (hf : Fn.build fs os margin = some f) (hS : Surfaces fs os) (hF : fs[i]? = some F) (hO : os[k]? = some O)
    (h3 : 3 ≤ O.2.length) {c co : CShape} (hc : f.floors[i]? = some c) (hco : f.objects[k]? = some co) (h : BelowHalfTurn M F O) :
    angle ((relModel c co).relative M).R < Real.pi := by
  obtain ⟨hb, -⟩ := build_built hf
  obtain ⟨k1, k2⟩ := hb.floor i F _ hF hc
  obtain ⟨k3, k4⟩ := hb.object k O _ hO hco
  have hFm := hS.floor F (List.mem_of_getElem? hF)
  have hOm := hS.object O (List.mem_of_getElem? hO)
  rw [relModel_R (k2 ▸ hFm.2), k2, k4]
  refine h _ _ (new_frame hFm.1.reverse k1) ?_
  obtain ⟨jo, P⟩ := O
  dsimp only at *
  cases hOm.1 with
  | point p => simp at h3
  | segment p q _ => simp at h3
  | polygon _ hP => exact new_frame hP k3

/-- C122. The same when the contact is not reached: any right hand side, for polygons whose frames differ by less than a half turn. -/
theorem C122_any_partial (hf : Fn.build fs os margin = some f) (hS : Surfaces fs os) (hM : ∀ j, IsRot (M j).R)
    (hM' : ∀ j, IsRot (M' j).R) (hn : Nearest fs os M i k F O) (hn' : Nearest fs os M' i' k' F' O') (h3 : 3 ≤ O.2.length)
    (h3' : 3 ≤ O'.2.length) (hl : BelowHalfTurn M F O) (hl' : BelowHalfTurn M' F' O') (hv : f.value M' = f.value M)
    (hc : f.complement M' = f.complement M) :
    i' = i ∧ k' = k ∧ (poseOf M' F.1).inv.mul (poseOf M' O.1) = (poseOf M F.1).inv.mul (poseOf M O.1) := by
  obtain ⟨p, hp, -⟩ := pick_get hf hS hM hn
  obtain ⟨b, hb⟩ : ∃ b, f.complement M = .ok b := by
    unfold Fn.complement
    rw [hp]
    exact ⟨_, rfl⟩
  obtain ⟨a, ha⟩ : ∃ a, f.value M = .ok a := by
    unfold Fn.value
    rw [hp]
    exact ⟨_, rfl⟩
  obtain ⟨rfl, rfl, c, co, g1, g2, hp, hlog, -⟩ :=
    leaf_core hf hS hM hM' hn hn' (by omega) (by omega) ha (hv.trans ha) hb (hc.trans hb)
  have eF : F' = F := Option.some.inj (hn'.floor.symm.trans hn.floor)
  have eO : O' = O := Option.some.inj (hn'.object.symm.trans hn.object)
  subst eF eO
  refine ⟨rfl, rfl, leaf_joints hf hS hM hM' hn.floor hn.object g1 g2 (SE3.ext' ?_ hp)⟩
  exact C76_injective (leaf_rot hf hS hM' hn.floor hn.object g1 g2) (leaf_rot hf hS hM hn.floor hn.object g1 g2)
    (below_half_turn hf hS hn.floor hn.object h3 g1 g2 hl') (below_half_turn hf hS hn.floor hn.object h3 g1 g2 hl) hlog

/-- C122. Conversely, the two functions depend only on the pair of nearest surfaces and on their relative pose. -/
theorem C122_converse (hf : Fn.build fs os margin = some f) (hS : Surfaces fs os) (hM : ∀ j, IsRot (M j).R)
    (hM' : ∀ j, IsRot (M' j).R) (hn : Nearest fs os M i k F O) (hn' : Nearest fs os M' i k F O)
    (h : (poseOf M' F.1).inv.mul (poseOf M' O.1) = (poseOf M F.1).inv.mul (poseOf M O.1)) :
    f.value M' = f.value M ∧ f.complement M' = f.complement M := by
  have hh := hold_same hf hS hM hM' hn hn' h
  obtain ⟨p, hp, -⟩ := pick_get hf hS hM hn
  obtain ⟨p', hp', -⟩ := pick_get hf hS hM' hn'
  unfold Fn.hold at hh
  obtain ⟨a, ha⟩ : ∃ a, f.value M = .ok a := by
    unfold Fn.value
    rw [hp]
    exact ⟨_, rfl⟩
  obtain ⟨a', ha'⟩ : ∃ a, f.value M' = .ok a := by
    unfold Fn.value
    rw [hp']
    exact ⟨_, rfl⟩
  obtain ⟨b, hb⟩ : ∃ a, f.complement M = .ok a := by
    unfold Fn.complement
    rw [hp]
    exact ⟨_, rfl⟩
  obtain ⟨b', hb'⟩ : ∃ a, f.complement M' = .ok a := by
    unfold Fn.complement
    rw [hp']
    exact ⟨_, rfl⟩
  rw [ha, hb, ha', hb'] at hh
  have e := Except.ok.inj hh
  rw [ha, hb, ha', hb']
  refine ⟨congrArg _ ?_, congrArg _ ?_⟩
  · funext n
    fin_cases n
    · exact congrFun e 0
    · exact congrFun e 1
    · exact congrFun e 2
    · exact congrFun e 3
    · exact congrFun e 4
  · funext n
    fin_cases n
    · exact congrFun e 5
    · exact congrFun e 6
    · exact congrFun e 7

/-! ### Where the pose is not determined -/

/-- Joint 1 at `p` with orientation `R`, the other joints at the origin -/
noncomputable def turned (R : M3 ℝ) (p : V3 ℝ) (j : Nat) : SE3 ℝ := if j = 1 then ⟨R, p⟩ else SE3.one

theorem turned_rot {R : M3 ℝ} (h : IsRot R) (p : V3 ℝ) (j : Nat) : IsRot (turned R p j).R := by
  unfold turned
  split
  · exact h
  · exact one_isRot

/-- The value of the two functions for the pair of surfaces `F`, `O` -/
theorem pair_values {f : Fn} (hf : Fn.build [demoFloor] [O] margin = some f) (hS : Surfaces [demoFloor] [O]) (hM : ∀ j, IsRot (M j).R) :
    ∃ p, f.pick M = .ok p ∧ p.sel.ifloor = 0 ∧ p.sel.iobject = 0 ∧ p.type = typeOf O.2 ∧ (p.sel.isInside = true ↔ Above M demoFloor O) ∧
      f.floors[0]? = some p.floor ∧ f.objects[0]? = some p.object ∧
      poseError p M = ![((relModel p.floor p.object).relative M).p 0, ((relModel p.floor p.object).relative M).p 1,
        ((relModel p.floor p.object).relative M).p 2, logSO3 ((relModel p.floor p.object).relative M).R 0,
        logSO3 ((relModel p.floor p.object).relative M).R 1, logSO3 ((relModel p.floor p.object).relative M).R 2] := by
  have hn := demo_nearest (M := M) O
  obtain ⟨p, hp, e1, e2, ht, hin, g1, g2⟩ := pick_get hf hS hM hn
  obtain ⟨hb, -⟩ := build_built hf
  obtain ⟨k1, k2⟩ := hb.floor 0 demoFloor _ rfl g1
  obtain ⟨k3, k4⟩ := hb.object 0 O _ rfl g2
  have hFm := hS.floor demoFloor (by simp)
  have hOm := hS.object O (by simp)
  exact ⟨p, hp, e1, e2, ht, hin, g1, g2, error_eq (relModel_ok hFm.1 hOm.1 k1 k3) hM⟩

theorem demo_frame : ∃ A : M3 ℝ, FrameOf demoFloor.2.reverse A ∧ IsRot A := by
  obtain ⟨s, hs⟩ : ∃ s, Shape.new square.reverse = some s := new_defined (by simp [square]) _ _
  exact ⟨_, new_frame square_convex.reverse hs, polygon_frame square_convex.reverse hs⟩

theorem turned_center {O : JShape} (hj : O.1 = some 1) (R : M3 ℝ) (c : V3 ℝ) :
    O.center (turned R (c - R *ᵥ ((O.2.length : ℝ)⁻¹ • O.2.sum))) = c := by
  unfold JShape.center
  rw [hj]
  change (turned R _ 1).R *ᵥ _ + (turned R _ 1).p = _
  unfold turned
  rw [if_pos rfl]
  exact add_sub_cancel _ _

/-- An object that turns about its center, at a given place above the floor: the values differ only by the logarithm. -/
theorem turned_values {f : Fn} (hf : Fn.build [demoFloor] [O] margin = some f) (hS : Surfaces [demoFloor] [O]) (hj : O.1 = some 1)
    (h2 : O.2.length ≠ 2) {A B : M3 ℝ} (hA : FrameOf demoFloor.2.reverse A) (hB : FrameOf O.2 B) (rB : IsRot B) (rA : IsRot A)
    {Q Q' : M3 ℝ} (hQ : IsRot Q) (hQ' : IsRot Q') (h : ℝ) (h0 : logSO3 Q 0 = logSO3 Q' 0)
    (h12 : O.2.length = 1 ∨ logSO3 Q 1 = logSO3 Q' 1 ∧ logSO3 Q 2 = logSO3 Q' 2) :
    ∃ M M' : Nat → SE3 ℝ, (∀ j, IsRot (M j).R) ∧ (∀ j, IsRot (M' j).R) ∧ O.center M = ![1 / 2, 1 / 2, h] ∧
      O.center M' = ![1 / 2, 1 / 2, h] ∧ f.value M' = f.value M ∧ f.complement M' = f.complement M ∧
      (Q ≠ Q' → (poseOf M' demoFloor.1).inv.mul (poseOf M' O.1) ≠ (poseOf M demoFloor.1).inv.mul (poseOf M O.1)) := by
  have hr : ∀ Q, IsRot Q → IsRot (A * Q * Bᵀ) := fun Q h => (rA.mul h).mul rB.transpose
  have hRel : ∀ Q, Aᵀ * (A * Q * Bᵀ * B) = Q := by
    intro Q
    rw [Matrix.mul_assoc _ Bᵀ, rB.1, Matrix.mul_one, ← Matrix.mul_assoc, rA.1, Matrix.one_mul]
  set N : M3 ℝ → Nat → SE3 ℝ := fun Q => turned (A * Q * Bᵀ)
    (![1 / 2, 1 / 2, h] - (A * Q * Bᵀ) *ᵥ ((O.2.length : ℝ)⁻¹ • O.2.sum)) with hN
  have hc : ∀ Q, O.center (N Q) = ![1 / 2, 1 / 2, h] := fun Q => turned_center hj _ _
  have hrot : ∀ Q, IsRot Q → ∀ j, IsRot (N Q j).R := fun Q h j => turned_rot (hr Q h) _ j
  refine ⟨N Q, N Q', hrot Q hQ, hrot Q' hQ', hc Q, hc Q', ?_⟩
  obtain ⟨p, hp, e1, e2, ht, hin, g1, g2, he⟩ := pair_values hf hS (hrot Q hQ)
  obtain ⟨p', hp', e1', e2', ht', hin', g1', g2', he'⟩ := pair_values hf hS (hrot Q' hQ')
  have hfl : p'.floor = p.floor := Option.some.inj (g1'.symm.trans g1)
  have hob : p'.object = p.object := Option.some.inj (g2'.symm.trans g2)
  rw [hfl, hob] at he'
  have b1 : p.sel.isInside = true := hin.2 (demo_above (hc Q))
  have b2 : p'.sel.isInside = true := hin'.2 (demo_above (hc Q'))
  obtain ⟨hb, -⟩ := build_built hf
  obtain ⟨k1, k2⟩ := hb.floor 0 demoFloor _ rfl g1
  obtain ⟨k3, k4⟩ := hb.object 0 O _ rfl g2
  have hFm := hS.floor demoFloor (by simp)
  have hOm := hS.object O (by simp)
  have hj0 : p.floor.joint ≠ some 0 := k2 ▸ hFm.2
  have eA : A = p.floor.shape.positionInJoint.R := by
    refine frame_unique ?_ hA (new_frame hFm.1.reverse k1)
    simp [demoFloor, square]
  have eB : B = p.object.shape.positionInJoint.R := frame_eq hOm.1 h2 k3 hB
  have hR : ∀ Q, ((relModel p.floor p.object).relative (N Q)).R = Q := by
    intro Q
    rw [relModel_R hj0, k2, k4, hj, ← eA, ← eB]
    change (1 * A)ᵀ * ((turned _ _ 1).R * B) = Q
    unfold turned
    rw [if_pos rfl, Matrix.one_mul]
    exact hRel Q
  have hP : ((relModel p.floor p.object).relative (N Q')).p = ((relModel p.floor p.object).relative (N Q)).p := by
    funext a
    rw [relModel_p hj0, relModel_p hj0, object_center k3 k4, object_center k3 k4, floor_center k1 k2, floor_center k1 k2, hc, hc, k2]
    rfl
  rw [hR] at he he'
  rw [hP] at he'
  refine ⟨?_, ?_, fun hne heq => hne ?_⟩
  · unfold Fn.value
    rw [hp, hp']
    dsimp only
    rw [he, he', b1, b2, ht, ht', h0]
    rcases h12 with h1 | ⟨h1, h2⟩
    · have : typeOf O.2 = .pointOnPlane := by simp [typeOf, h1]
      rw [this]
      simp [contactValue]
    · rw [h1, h2]
  · unfold Fn.complement
    rw [hp, hp']
    dsimp only
    rw [he, he', b1, b2, e1, e1', e2, e2', h0]
    simp [complementValue]
  · have := congrArg SE3.R heq
    rw [hj] at this
    change (1 : M3 ℝ)ᵀ * (turned _ _ 1).R = (1 : M3 ℝ)ᵀ * (turned _ _ 1).R at this
    unfold turned at this
    rw [if_pos rfl, if_pos rfl, transpose_one, Matrix.one_mul, Matrix.one_mul] at this
    have e := congrArg (fun X => Aᵀ * (X * B)) this
    simp only [hRel] at e
    exact e.symm

/-- C122. When the object is reduced to a point, its orientation is not determined by the contact and the complement. -/
theorem C122_point_refuted : ∃ (O : JShape) (f : Fn) (M M' : Nat → SE3 ℝ), Surfaces [demoFloor] [O] ∧ O.2.length = 1 ∧
    Fn.build [demoFloor] [O] 0 = some f ∧ (∀ j, IsRot (M j).R) ∧ (∀ j, IsRot (M' j).R) ∧ f.value M = .ok 0 ∧ f.value M' = .ok 0 ∧
    f.complement M' = f.complement M ∧
    (poseOf M' demoFloor.1).inv.mul (poseOf M' O.1) ≠ (poseOf M demoFloor.1).inv.mul (poseOf M O.1) := by
  obtain ⟨f, hf⟩ := build_defined (fs := [demoFloor]) (os := [demoPt 0]) (by simp [demoFloor, square]) (by simp [demoPt]) 0
  have hS : Surfaces [demoFloor] [demoPt 0] := demo_surfaces (.point _) (by simp [demoPt])
  obtain ⟨A, hA, rA⟩ := demo_frame
  have hpi := Real.pi_gt_three
  have hn : ∀ b : ℝ, 0 ≤ b → Log.norm3 ![0, b, 0] = b := by
    intro b hb
    unfold Log.norm3
    rw [dot_three]
    simp [Real.sqrt_mul_self hb]
  obtain ⟨r1, l1, -⟩ := C76_log_exp ![0, 1, 0] (by rw [hn 1 (by norm_num)]; norm_num) (by rw [hn 1 (by norm_num)]; linarith)
  obtain ⟨r2, l2, -⟩ := C76_log_exp ![0, 2, 0] (by rw [hn 2 (by norm_num)]; norm_num) (by rw [hn 2 (by norm_num)]; linarith)
  obtain ⟨M, M', hM, hM', c, c', hv, hc, hne⟩ := turned_values hf hS rfl (by simp [demoPt]) hA (.point _) one_isRot rA r1 r2 0
    (by rw [l1, l2]; rfl) (.inl rfl)
  have hv0 : f.value M = .ok 0 := by
    refine (C84_point hf hS hM (demo_nearest _) (square_normal _) rfl).2 ⟨demo_above c, ?_⟩
    rw [c, demoFloor_center, sub_self, dotProduct_zero]
  refine ⟨_, f, M, M', hS, rfl, hf, hM, hM', hv0, hv.trans hv0, hc, hne fun h => ?_⟩
  have := congrFun (congrArg logSO3 h) 1
  rw [l1, l2] at this
  simp at this

/-- Half turns about two axes -/
def halfTurn (s : ℝ) : M3 ℝ := !![-1, 0, 0; 0, 0, s; 0, s, 0]

theorem halfTurn_rot {s : ℝ} (h : s * s = 1) : IsRot (halfTurn s) := by
  constructor
  · ext a b
    fin_cases a <;> fin_cases b <;> simp [halfTurn, Matrix.mul_apply, Fin.sum_univ_three, h]
  · simp [halfTurn, det_fin_three, h]

theorem halfTurn_log (s : ℝ) : logSO3 (halfTurn s) = logSO3 (halfTurn 1) := by
  have ha : ∀ s, angle (halfTurn s) = Real.pi := by
    intro s
    unfold angle halfTurn
    dsimp only
    simp
    norm_num
  unfold logSO3
  rw [ha, ha]
  dsimp only
  rw [if_neg (show ¬ Real.pi < Real.pi - 1e-2 by norm_num), if_neg (show ¬ Real.pi < Real.pi - 1e-2 by norm_num)]
  simp [halfTurn]

/-- C122. When the frames of the surfaces differ by a half turn, the orientation is not determined by the values of the two
functions. -/
theorem C122_half_turn_refuted : ∃ (O : JShape) (f : Fn) (M M' : Nat → SE3 ℝ), Surfaces [demoFloor] [O] ∧ 3 ≤ O.2.length ∧
    Fn.build [demoFloor] [O] 0 = some f ∧ (∀ j, IsRot (M j).R) ∧ (∀ j, IsRot (M' j).R) ∧ f.value M' = f.value M ∧
    f.complement M' = f.complement M ∧
    (poseOf M' demoFloor.1).inv.mul (poseOf M' O.1) ≠ (poseOf M demoFloor.1).inv.mul (poseOf M O.1) := by
  obtain ⟨f, hf⟩ := build_defined (fs := [demoFloor]) (os := [demoObj]) (by simp [demoFloor, square]) (by simp [demoObj, square]) 0
  have hS : Surfaces [demoFloor] [demoObj] := demo_surfaces demoObj_object (by simp [demoObj])
  obtain ⟨A, hA, rA⟩ := demo_frame
  obtain ⟨M, M', hM, hM', c, c', hv, hc, hne⟩ := turned_values hf hS rfl (by simp [demoObj, square]) hA (B := A) hA rA rA
    (halfTurn_rot (s := -1) (by norm_num)) (halfTurn_rot (s := 1) (by norm_num)) 0
    (by rw [halfTurn_log]) (.inr (by rw [halfTurn_log]; exact ⟨rfl, rfl⟩))
  refine ⟨_, f, M, M', hS, by simp [demoObj, square], hf, hM, hM', hv, hc, hne fun h => ?_⟩
  have := congrFun (congrFun h 1) 2
  simp [halfTurn] at this
  norm_num at this

/-! ### Example: the floor and the object move together -/

/-- All the joints at height `h` -/
def together (h : ℝ) (_ : Nat) : SE3 ℝ := ⟨1, ![0, 0, h]⟩

/-- The hypotheses of the theorems are met by two different configurations. -/
example : ∃ f, Fn.build [liftFloor 1] [liftObj] 0 = some f ∧ Surfaces [liftFloor 1] [liftObj] ∧
    f.value (together 0) = .ok 0 ∧ f.value (together 7) = .ok 0 ∧ f.complement (together 7) = f.complement (together 0) := by
  obtain ⟨f, hf⟩ := build_defined (fs := [liftFloor 1]) (os := [liftObj]) (by simp [liftFloor, square]) (by simp [liftObj, square]) 0
  have hS := lift_scene1.surfaces
  have hM : ∀ h j, IsRot (together h j).R := fun _ _ => one_isRot
  have hpl : ∀ (j : Option Nat) (x : V3 ℝ), place (together 0) j x = x := by
    intro j x
    cases j with
    | none => rfl
    | some j =>
      change (1 : M3 ℝ) *ᵥ x + ![0, 0, 0] = x
      rw [one_mulVec]
      funext i
      fin_cases i <;> simp
  have hor : ∀ (j : Option Nat) (x : V3 ℝ), orient (together 0) j x = x := by
    intro j x
    cases j with
    | none => rfl
    | some j => exact one_mulVec x
  obtain ⟨m, hm, h1, hu⟩ := square_normal (together 0)
  have hmz : m = ![0, 0, 1] := by rw [hu]; rfl
  have n1 : (liftFloor 1).IsNormal (together 0) ![0, 0, 1] := ⟨m, hm, h1, by rw [hor, hmz]⟩
  have n2 : liftObj.IsNormal (together 0) ![0, 0, -1] :=
    ⟨-m, hm.reverse, by rw [neg_dotProduct, dotProduct_neg, neg_neg, h1], by rw [hor, hmz]; simp⟩
  have hc1 : (liftFloor 1).center (together 0) = ![1 / 2, 1 / 2, 0] := by
    unfold JShape.center
    rw [hpl]
    funext i
    fin_cases i <;> simp [liftFloor, square] <;> norm_num
  have hc2 : liftObj.center (together 0) = ![1 / 2, 1 / 2, 0] := by
    unfold JShape.center
    rw [hpl]
    funext i
    fin_cases i <;> simp [liftObj, square] <;> norm_num
  have habove : Above (together 0) (liftFloor 1) liftObj := by
    have e : ∀ x y, (liftFloor 1).IsProj (together 0) x y ↔ demoFloor.IsProj (together 0) x y := by
      intro x y
      have e1 : (liftFloor 1).2.map (place (together 0) (liftFloor 1).1) = demoFloor.2.map (place (together 0) demoFloor.1) :=
        List.map_congr_left fun a _ => by rw [hpl, hpl]
      constructor
      · rintro ⟨h1, h2⟩
        refine ⟨e1 ▸ h1, fun p hp q hq => ?_⟩
        have := h2 p hp q hq
        rwa [hpl, hpl] at this
      · rintro ⟨h1, h2⟩
        refine ⟨e1 ▸ h1, fun p hp q hq => ?_⟩
        have := h2 p hp q hq
        rwa [hpl, hpl]
    intro y hy
    have := demo_above hc2 y ((e _ _).1 hy)
    have e2 : place (together 0) (liftFloor 1).1 = place (together 0) demoFloor.1 := by
      funext x
      rw [hpl, hpl]
    unfold JShape.polygon JShape.outline at this ⊢
    rw [e2]
    exact this
  have hv : f.value (together 0) = .ok 0 :=
    (C84_plane hf hS (hM 0) (nearest_one _ _) n1 n2).2 ⟨habove, by rw [hc1, hc2, sub_self, dotProduct_zero], by simp⟩
  obtain ⟨e1, e2⟩ := C122_converse hf hS (hM 0) (hM 7) (nearest_one (liftFloor 1) liftObj) (nearest_one _ _) (by
    simp [SE3.mul, SE3.inv, together, poseOf, liftFloor, liftObj])
  exact ⟨f, hf, hS, hv, e1.trans hv, e2⟩

end Hpp.Contact
