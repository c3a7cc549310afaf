import Verif.Contact.FuncProps

/-!
# Configurations in contact
-/

namespace Hpp.Log

open Matrix Hpp.Sym Hpp.Pose

theorem angle_bounds (R : M3 ℝ) : 0 ≤ angle R ∧ angle R ≤ Real.pi := by
  have := Real.pi_pos
  unfold angle
  dsimp only
  split
  · exact ⟨le_refl _, this.le⟩
  · split
    · exact ⟨this.le, le_refl _⟩
    · exact ⟨Real.arccos_nonneg _, Real.arccos_le_pi _⟩

/-- The first axis is fixed. -/
theorem Eqs.fix {R : M3 ℝ} (e : Eqs R) (h : R 0 0 = 1) : R 0 1 = 0 ∧ R 0 2 = 0 ∧ R 1 0 = 0 ∧ R 2 0 = 0 ∧ R 1 1 = R 2 2 := by
  have c := e.c00
  have r := e.r00
  rw [h] at c r
  have h01 : R 0 1 = 0 := by nlinarith [sq_nonneg (R 0 1), sq_nonneg (R 0 2)]
  have h02 : R 0 2 = 0 := by nlinarith [sq_nonneg (R 0 1), sq_nonneg (R 0 2)]
  have h10 : R 1 0 = 0 := by nlinarith [sq_nonneg (R 1 0), sq_nonneg (R 2 0)]
  have h20 : R 2 0 = 0 := by nlinarith [sq_nonneg (R 1 0), sq_nonneg (R 2 0)]
  refine ⟨h01, h02, h10, h20, ?_⟩
  have := e.m11
  rw [h, h02] at this
  linarith

/-- The two last components of the logarithm are zero exactly when the first axis is fixed, whatever the formula used. -/
theorem log_fix {R : M3 ℝ} (h : IsRot R) : (logSO3 R 1 = 0 ∧ logSO3 R 2 = 0) ↔ R 0 0 = 1 := by
  have e := eqs h
  have hc := cos_angle h
  obtain ⟨h0, hpi⟩ := angle_bounds R
  have hp3 := Real.pi_gt_three
  have hle : R 1 1 ≤ 1 ∧ R 2 2 ≤ 1 ∧ R 0 0 ≤ 1 := by
    refine ⟨?_, ?_, ?_⟩
    · nlinarith [e.c11, sq_nonneg (R 0 1), sq_nonneg (R 2 1)]
    · nlinarith [e.c22, sq_nonneg (R 0 2), sq_nonneg (R 1 2)]
    · nlinarith [e.c00, sq_nonneg (R 1 0), sq_nonneg (R 2 0)]
  have hcos : cosOf R = (R 0 0 + R 1 1 + R 2 2 - 1) / 2 := rfl
  unfold logSO3
  dsimp only
  by_cases hb : angle R < Real.pi - 1e-2
  · rw [if_pos hb]
    have ht : 0 < (if 1e-6 < angle R then angle R / Real.sin (angle R) else 1) / 2 := by
      split
      · rename_i h6
        have hpos : 0 < angle R := lt_trans (by norm_num) h6
        have := Real.sin_pos_of_pos_of_lt_pi hpos (lt_trans hb (by norm_num))
        positivity
      · norm_num
    generalize (if 1e-6 < angle R then angle R / Real.sin (angle R) else 1) / 2 = s at ht
    change (s * (R 0 2 - R 2 0) = 0 ∧ s * (R 1 0 - R 0 1) = 0) ↔ _
    constructor
    · rintro ⟨a1, a2⟩
      replace a1 := (mul_eq_zero.1 a1).resolve_left ht.ne'
      replace a2 := (mul_eq_zero.1 a2).resolve_left ht.ne'
      rcases h0.eq_or_lt with hz | hp
      · rw [← hz, Real.cos_zero] at hc
        rw [← hc] at hcos
        linarith [hle.1, hle.2.1, hle.2.2]
      · have hlt : angle R < Real.pi := lt_trans hb (by norm_num)
        obtain ⟨u, hu, hax, hR⟩ := rotation_eq h hp hlt
        have hs := Real.sin_pos_of_pos_of_lt_pi hp hlt
        have u1 : u 1 = 0 := by
          have := congrFun hax 1
          change R 0 2 - R 2 0 = 2 * Real.sin (angle R) * u 1 at this
          rw [a1] at this
          rcases mul_eq_zero.1 this.symm with k | k
          · linarith
          · exact k
        have u2 : u 2 = 0 := by
          have := congrFun hax 2
          change R 1 0 - R 0 1 = 2 * Real.sin (angle R) * u 2 at this
          rw [a2] at this
          rcases mul_eq_zero.1 this.symm with k | k
          · linarith
          · exact k
        rw [dotProduct, Fin.sum_univ_three, u1, u2] at hu
        have h00 := congrFun (congrFun hR 0) 0
        rw [h00]
        simp only [rodrigues, Matrix.add_apply, Matrix.smul_apply, Matrix.one_apply_eq, vecMulVec_apply, smul_eq_mul]
        have : hat u 0 0 = 0 := rfl
        rw [this]
        linear_combination (1 - Real.cos (angle R)) * hu
    · intro h00
      obtain ⟨h01, h02, h10, h20, -⟩ := e.fix h00
      rw [h01, h02, h10, h20]
      simp
  · rw [if_neg hb]
    have hcp : Real.cos (angle R - Real.pi) = -cosOf R := by rw [Real.cos_sub_pi, hc]
    rw [hcp]
    have hneg : cosOf R < 0 := by
      rw [← hc]
      refine Real.cos_neg_of_pi_div_two_lt_of_lt ?_ ?_
      · norm_num at hb ⊢
        linarith
      · linarith
    have hbeta : 0 < angle R * angle R / (1 + -cosOf R) := by
      have : 0 < angle R := by
        norm_num at hb ⊢
        linarith
      have h2 : 0 < 1 + -cosOf R := by linarith
      positivity
    generalize angle R * angle R / (1 + -cosOf R) = b at hbeta
    have key : ∀ (σ x : ℝ), σ ≠ 0 → (σ * (if 0 < x * b then Real.sqrt (x * b) else 0) = 0 ↔ x ≤ 0) := by
      intro σ x hσ
      rw [mul_eq_zero, or_iff_right hσ]
      split
      · rename_i hx
        rw [Real.sqrt_eq_zero hx.le]
        have : 0 < x := (pos_iff_pos_of_mul_pos hx).2 hbeta
        constructor
        · intro h; linarith
        · intro h; linarith
      · rename_i hx
        refine ⟨fun _ => ?_, fun _ => rfl⟩
        by_contra hgt
        exact hx (mul_pos (not_le.1 hgt) hbeta)
    have hσ : ∀ p : Prop, ∀ [Decidable p], (if p then (1 : ℝ) else -1) ≠ 0 := by
      intro p _
      split <;> norm_num
    change ((if R 2 0 < R 0 2 then (1 : ℝ) else -1) * (if 0 < (R 1 1 + -cosOf R) * b then √((R 1 1 + -cosOf R) * b) else 0) = 0 ∧
      (if R 0 1 < R 1 0 then (1 : ℝ) else -1) * (if 0 < (R 2 2 + -cosOf R) * b then √((R 2 2 + -cosOf R) * b) else 0) = 0) ↔ _
    rw [key _ _ (hσ _), key _ _ (hσ _)]
    constructor
    · rintro ⟨a1, a2⟩
      linarith [hle.2.2]
    · intro h00
      obtain ⟨-, -, -, -, h12⟩ := e.fix h00
      rw [h00, h12] at hcos
      constructor <;> linarith

end Hpp.Log

namespace Hpp.Contact

open Matrix Hpp.Sym Hpp.Pose Hpp.Log

variable {M : Nat → SE3 ℝ} {F O : JShape} {c co : CShape}

theorem orient_jointR (M : Nat → SE3 ℝ) (j : Option Nat) (x : V3 ℝ) : orient M j x = jointR M j *ᵥ x := by
  cases j with
  | none => exact (one_mulVec x).symm
  | some j => rfl

theorem orient_dot (hM : ∀ j, IsRot (M j).R) (j : Option Nat) (x y : V3 ℝ) : orient M j x ⬝ᵥ orient M j y = x ⬝ᵥ y := by
  rw [← rotate_orient, ← rotate_orient, rotate_dot (pose_rot hM j)]

/-- Column of the frame of a surface, in the world frame -/
theorem frame_col (M : Nat → SE3 ℝ) (j : Option Nat) (A : M3 ℝ) (k : Fin 3) :
    (fun i => (jointR M j * A) i k) = orient M j fun i => A i k := by
  rw [orient_jointR]
  rfl

/-- Position of the object in the frame of the floor -/
theorem relModel_p (h : c.joint ≠ some 0) (k : Fin 3) : ((relModel c co).relative M).p k =
    orient M c.joint (fun i => c.shape.positionInJoint.R i k) ⬝ᵥ ((co.at M).center - (c.at M).center) := by
  rw [← frame_col]
  unfold GT.relative GT.frame1 GT.frame2
  rw [relModel_j1 h]
  have e2 : (relModel c co).joint2 = co.joint := rfl
  rw [e2]
  have key : ∀ A B : SE3 ℝ, (A.inv.mul B).p k = (fun i => A.R i k) ⬝ᵥ (B.p - A.p) := by
    intro A B
    change (A.Rᵀ *ᵥ B.p + -(A.Rᵀ *ᵥ A.p)) k = _
    rw [← sub_eq_add_neg, ← mulVec_sub]
    rfl
  rw [key]
  unfold Surface.center CShape.at
  cases c.joint <;> cases co.joint <;> simp only [SE3.mul, jointR, relModel, act, Option.map_none, Option.map_some, Matrix.one_mul] <;> rfl

theorem relModel_R00 (h : c.joint ≠ some 0) :
    ((relModel c co).relative M).R 0 0 = (c.at M).normal ⬝ᵥ (co.at M).normal := by
  rw [relModel_R h]
  change (fun i => (jointR M c.joint * c.shape.positionInJoint.R) i 0) ⬝ᵥ
    (fun i => (jointR M co.joint * co.shape.positionInJoint.R) i 0) = _
  rw [frame_col, frame_col, ← rotate_orient, ← rotate_orient]
  rfl

/-- Unit vectors are equal when their scalar product is 1. -/
theorem unit_eq {u v : V3 ℝ} (hu : u ⬝ᵥ u = 1) (hv : v ⬝ᵥ v = 1) : u ⬝ᵥ v = 1 ↔ v = u := by
  constructor
  · intro h
    by_contra hne
    have := dot_self_pos (sub_ne_zero.2 hne)
    rw [sub_dotProduct, dotProduct_sub, dotProduct_sub, hu, hv, dotProduct_comm v u, h] at this
    linarith
  · rintro rfl
    exact hv

/-- The barycenter is strictly inside. -/
theorem Geo.center_interior {P : List (V3 ℝ)} {U E : Nat → V3 ℝ} {L : Nat → ℝ} {N : V3 ℝ} (g : Geo P.length (at3 P) U E L N) {i : Nat}
    (hi : i < P.length) : E i ⬝ᵥ ((P.length : ℝ)⁻¹ • P.sum - at3 P i) < 0 := by
  have h3 := g.three
  have hlen : (0 : ℝ) < P.length := by positivity
  have hsum : ∀ l : List (V3 ℝ), (∀ p ∈ l, E i ⬝ᵥ (p - at3 P i) ≤ 0) →
      E i ⬝ᵥ l.sum - l.length * (E i ⬝ᵥ at3 P i) ≤ 0 ∧
      ((∃ p ∈ l, E i ⬝ᵥ (p - at3 P i) < 0) → E i ⬝ᵥ l.sum - l.length * (E i ⬝ᵥ at3 P i) < 0) := by
    intro l
    induction l with
    | nil => intro _; simp
    | cons a l ih =>
      intro hl
      obtain ⟨i1, i2⟩ := ih fun p hp => hl p (by simp [hp])
      have ha := hl a (by simp)
      rw [dotProduct_sub] at ha
      rw [List.sum_cons, dotProduct_add, List.length_cons]
      push_cast
      refine ⟨by linarith, ?_⟩
      rintro ⟨p, hp, hlt⟩
      rcases List.mem_cons.1 hp with rfl | hp
      · rw [dotProduct_sub] at hlt
        linarith
      · have := i2 ⟨p, hp, hlt⟩
        linarith
  have hall : ∀ p ∈ P, E i ⬝ᵥ (p - at3 P i) ≤ 0 := by
    intro p hp
    obtain ⟨k, hk⟩ := List.mem_iff_getElem?.1 hp
    have hk' := (List.getElem?_eq_some_iff.1 hk).1
    have : p = at3 P k := Option.some.inj (hk.symm.trans (at3_some hk'))
    rw [this]
    exact g.half i k hi hk'
  have hlt : ∃ p ∈ P, E i ⬝ᵥ (p - at3 P i) < 0 := by
    have hi1 : (i + 1) % P.length < P.length := Nat.mod_lt _ (by omega)
    have hi2 : ((i + 1) % P.length + 1) % P.length < P.length := Nat.mod_lt _ (by omega)
    refine ⟨_, at3_mem hi2, ?_⟩
    rw [g.step _ hi1, g.step i hi]
    have e : at3 P i + L i • U i + L ((i + 1) % P.length) • U ((i + 1) % P.length) - at3 P i =
        L i • U i + L ((i + 1) % P.length) • U ((i + 1) % P.length) := by abel
    rw [e, dotProduct_add, dotProduct_smul, dotProduct_smul, g.EU hi, smul_zero, zero_add]
    exact mul_neg_of_pos_of_neg (g.len _ hi1) (g.turn i hi)
  have := (hsum P hall).2 hlt
  rw [dotProduct_sub, dotProduct_smul, smul_eq_mul]
  have e : (P.length : ℝ)⁻¹ * (E i ⬝ᵥ P.sum) - E i ⬝ᵥ at3 P i =
      (P.length : ℝ)⁻¹ * (E i ⬝ᵥ P.sum - P.length * (E i ⬝ᵥ at3 P i)) := by
    field_simp
  rw [e]
  exact mul_neg_of_pos_of_neg (inv_pos.2 hlen) this

/-- If the center of the object is on the normal of the floor at its center, its projection is strictly inside. -/
theorem foot_center (hM : ∀ j, IsRot (M j).R) (hP : IsConvexPolygon F.2)
    (k1 : Shape.new F.2.reverse = some c.shape) (k2 : c.joint = F.1) (k3 : Shape.new O.2 = some co.shape) (k4 : co.joint = O.1)
    (h0 : F.1 ≠ some 0) (h1 : ((relModel c co).relative M).p 1 = 0) (h2 : ((relModel c co).relative M).p 2 = 0) :
    ∀ y, F.IsProj M (O.center M) y → y ∈ F.polygon M ∧ y ∉ F.outline M := by
  rw [(localFoot_spec hM hP k1 k2 k3 k4).2.2.1]
  obtain ⟨m, hm⟩ := hP.reverse
  obtain ⟨-, hC, -, g⟩ := hm.geo k1
  have hlen : 0 < F.2.reverse.length := by have := g.three; omega
  have hcc : (co.at M).center = act (c.joint.map M) (localCenter c co M) := (act_actInv (pose_rot hM c.joint) _).symm
  have hloc : ∀ x : V3 ℝ, orient M c.joint x ⬝ᵥ ((co.at M).center - (c.at M).center) = x ⬝ᵥ (localCenter c co M - c.shape.C) := by
    intro x
    rw [hcc]
    change orient M c.joint x ⬝ᵥ (act (c.joint.map M) (localCenter c co M) - act (c.joint.map M) c.shape.C) = _
    rw [act_sub, ← rotate_orient, rotate_dot (pose_rot hM c.joint)]
  rw [relModel_p (k2 ▸ h0), hloc] at h1 h2
  change at3 c.shape.Ns 0 ⬝ᵥ _ = 0 at h1
  change at3 c.shape.Us 0 ⬝ᵥ _ = 0 at h2
  have hfoot : localFoot c co M = c.shape.C := by
    unfold localFoot
    have hd : localCenter c co M = c.shape.C + (localCenter c co M - c.shape.C) := by abel
    generalize localCenter c co M - c.shape.C = x at *
    have hw : c.shape.N ⬝ᵥ (x - (c.shape.N ⬝ᵥ x) • c.shape.N) = 0 := by
      rw [dotProduct_sub, dotProduct_smul, g.NN]
      simp
    have := coords (g.UU 0 hlen) g.NN (g.NU 0 hlen) hw
    rw [← g.E_def 0 hlen, dotProduct_sub, dotProduct_sub, h1, h2, dotProduct_smul, dotProduct_smul,
      dotProduct_comm (at3 c.shape.Ns 0) c.shape.N, g.EN hlen, dotProduct_comm (at3 c.shape.Us 0) c.shape.N, g.NU 0 hlen] at this
    simp only [smul_zero, sub_zero, zero_smul, add_zero] at this
    rw [hd]
    rw [sub_eq_zero] at this
    nth_rewrite 1 [this]
    abel
  rw [hfoot]
  rw [g.interior_iff]
  · intro i hi
    rw [hC]
    exact g.center_interior hi
  · intro i hi
    rw [hC]
    exact g.center_plane hi

/-! ### Specification -/

/-- The pair `(j, i)` is the first one, in lexicographic order, of minimal distance from the center of the object to the floor. -/
structure Nearest (fs os : List JShape) (M : Nat → SE3 ℝ) (j i : Nat) (F O : JShape) : Prop where
  floor : fs[j]? = some F
  object : os[i]? = some O
  least : ∀ (j' i' : Nat) (F' O' : JShape) (d d' : ℝ), fs[j']? = some F' → os[i']? = some O' → F.IsSqDist M O d →
    F'.IsSqDist M O' d' → d ≤ d' ∧ ((j' < j ∨ (j' = j ∧ i' < i)) → d < d')

/-- The projection of the center of the object on the plane of the floor is inside the floor polygon, outline excluded. -/
def Above (M : Nat → SE3 ℝ) (F O : JShape) : Prop :=
  ∀ y, F.IsProj M (O.center M) y → y ∈ F.polygon M ∧ y ∉ F.outline M

/-! ### C84 -/

variable {fs os : List JShape} {f : Fn} {margin : ℝ} {j i : Nat}

theorem nearest_pick (hf : Fn.build fs os margin = some f) (hS : Surfaces fs os) (hM : ∀ j, IsRot (M j).R)
    (hn : Nearest fs os M j i F O) :
    ∃ p, f.pick M = .ok p ∧ p.sel.ifloor = j ∧ p.sel.iobject = i ∧ p.type = typeOf O.2 ∧ (p.sel.isInside = true ↔ Above M F O) ∧
      Shape.new F.2.reverse = some p.floor.shape ∧ p.floor.joint = F.1 ∧ Shape.new O.2 = some p.object.shape ∧ p.object.joint = O.1 := by
  obtain ⟨hb, -⟩ := build_built hf
  have hf0 : fs ≠ [] := by
    rintro rfl
    have := hn.floor
    simp at this
  have ho0 : os ≠ [] := by
    rintro rfl
    have := hn.object
    simp at this
  obtain ⟨p, F1, O1, hp, hpk⟩ := hb.pick hS hM hf0 ho0
  obtain ⟨c, hcf⟩ := get_of_lt hb.flen.symm hn.floor
  obtain ⟨co, hco⟩ := get_of_lt hb.olen.symm hn.object
  obtain ⟨k1, k2⟩ := hb.floor j F c hn.floor hcf
  obtain ⟨k3, k4⟩ := hb.object i O co hn.object hco
  have hP := (hS.floor F (List.mem_of_getElem? hn.floor)).1
  obtain ⟨dp, -, q, -⟩ := select_quantities (o := co.at M) (floor_valid hM hP k1)
  have hd := (sqDist_iff k1 k2 k3 k4 _).1 q
  have h1 := hn.least _ _ _ _ _ _ hpk.ffl hpk.oob hd hpk.dist
  have h2 := hpk.least j i F O _ hn.floor hn.object hd
  have hji : p.sel.ifloor = j ∧ p.sel.iobject = i := by
    by_contra hne
    rcases lt_or_ge p.sel.ifloor j with h | h
    · have := h1.2 (.inl h)
      linarith [h2.1]
    · rcases h.lt_or_eq with h | h
      · have := h2.2 (.inl h)
        linarith [h1.1]
      · rcases lt_trichotomy p.sel.iobject i with h' | h' | h'
        · have := h1.2 (.inr ⟨h.symm, h'⟩)
          linarith [h2.1]
        · exact hne ⟨h.symm, h'⟩
        · have := h2.2 (.inr ⟨h, h'⟩)
          linarith [h1.1]
  obtain ⟨e1, e2⟩ := hji
  have hF : F1 = F := by
    have := hpk.ffl
    rw [e1, hn.floor] at this
    exact (Option.some.inj this).symm
  have hO : O1 = O := by
    have := hpk.oob
    rw [e2, hn.object] at this
    exact (Option.some.inj this).symm
  rw [hF, hO] at hpk
  obtain ⟨l1, l2⟩ := hb.floor _ F p.floor hpk.ffl hpk.floor
  obtain ⟨l3, l4⟩ := hb.object _ O p.object hpk.oob hpk.object
  exact ⟨p, hp, e1, e2, hpk.type, hpk.inside, l1, l2, l3, l4⟩

/-- The value is zero exactly if the pair selected is in contact; `N` is the first axis of the frame of the object surface. -/
theorem zero_iff (hf : Fn.build fs os margin = some f) (hS : Surfaces fs os) (hM : ∀ j, IsRot (M j).R)
    (hn : Nearest fs os M j i F O) {u : V3 ℝ} (hu : F.IsNormal M u) :
    ∃ s, Shape.new O.2 = some s ∧ (f.value M = .ok 0 ↔
      Above M F O ∧ u ⬝ᵥ (O.center M - F.center M) = margin ∧ (O.2.length = 1 ∨ orient M O.1 s.N = -u)) := by
  obtain ⟨p, hp, e1, e2, ht, hin, k1, k2, k3, k4⟩ := nearest_pick hf hS hM hn
  refine ⟨p.object.shape, k3, ?_⟩
  obtain ⟨hF, hF0⟩ := hS.floor F (List.mem_of_getElem? hn.floor)
  obtain ⟨hO, hO0⟩ := hS.object O (List.mem_of_getElem? hn.object)
  have ok := relModel_ok hF hO k1 k3
  have hmargin := (build_built hf).2
  have herr := error_eq (M := M) ok hM
  have hval : f.value M = .ok (contactValue margin p.sel.isInside p.type (poseError p M)) := by
    unfold Fn.value
    rw [hp, ← hmargin]
  rw [hval]
  have hN : (p.floor.at M).normal = -u := floor_normal k1 k2 hu
  have hv0 : ((relModel p.floor p.object).relative M).p 0 = -(u ⬝ᵥ (O.center M - F.center M)) := by
    rw [relModel_p (k2 ▸ hF0), object_center k3 k4, floor_center k1 k2, ← rotate_orient]
    change (p.floor.at M).normal ⬝ᵥ _ = _
    rw [hN, neg_dotProduct]
  have hfix : (logSO3 ((relModel p.floor p.object).relative M).R 1 = 0 ∧ logSO3 ((relModel p.floor p.object).relative M).R 2 = 0) ↔
      orient M O.1 p.object.shape.N = -u := by
    have hrot : IsRot ((relModel p.floor p.object).relative M).R := by
      rw [GT.relative_eq _ hM]
      exact IsRot.mul ok.rot1.transpose (IsRot.mul (optM_rot hM _).transpose (IsRot.mul (optM_rot hM _) ok.rot2))
    rw [log_fix hrot, relModel_R00 (k2 ▸ hF0), hN]
    have e : (p.object.at M).normal = orient M O.1 p.object.shape.N := by
      rw [← rotate_orient, ← k4]
      rfl
    rw [e]
    refine unit_eq ?_ ?_
    · rw [← hN]
      change rotate (p.floor.joint.map M) p.floor.shape.N ⬝ᵥ rotate (p.floor.joint.map M) p.floor.shape.N = 1
      rw [rotate_dot (pose_rot hM p.floor.joint)]
      obtain ⟨m, hm⟩ := hF.reverse
      exact (hm.geo k1).2.2.2.NN
    · rw [orient_dot hM]
      have := congrFun (congrFun (object_frame hO k3).1 0) 0
      exact this
  have hcen : ((relModel p.floor p.object).relative M).p 1 = 0 → ((relModel p.floor p.object).relative M).p 2 = 0 →
      p.sel.isInside = true := fun a b => hin.2 (foot_center hM hF k1 k2 k3 k4 hF0 a b)
  rw [← hin, ← hfix]
  have hpe : poseError p M = _ := herr
  rw [hpe]
  generalize ((relModel p.floor p.object).relative M).p = P at *
  generalize logSO3 ((relModel p.floor p.object).relative M).R = W at *
  have hok : ∀ v : Fin 5 → ℝ, (Except.ok v : Except Fail (Fin 5 → ℝ)) = .ok 0 ↔ v 0 = 0 ∧ v 1 = 0 ∧ v 2 = 0 ∧ v 3 = 0 ∧ v 4 = 0 := by
    intro v
    constructor
    · intro h
      cases h
      exact ⟨rfl, rfl, rfl, rfl, rfl⟩
    · rintro ⟨h0, h1, h2, h3, h4⟩
      congr 1
      funext k
      fin_cases k
      · exact h0
      · exact h1
      · exact h2
      · exact h3
      · exact h4
  rw [hok]
  have hm0 : P 0 + margin = 0 ↔ u ⬝ᵥ (O.center M - F.center M) = margin := by
    rw [hv0]
    constructor <;> intro h <;> linarith
  by_cases h1 : O.2.length = 1
  · have ht1 : p.type = .pointOnPlane := by
      rw [ht]
      unfold typeOf
      rw [h1]
      rfl
    rw [ht1]
    cases hb : p.sel.isInside
    · simp only [contactValue, Bool.false_eq_true, if_false, false_and, iff_false]
      rintro ⟨-, a, b, -⟩
      have := hcen a b
      rw [hb] at this
      cases this
    · simp only [h1, true_or, and_true, true_and]
      rw [← hm0]
      simp [contactValue]
  · have ht1 : ∀ v, contactValue margin p.sel.isInside p.type v = contactValue margin p.sel.isInside .planeOnPlane v := by
      intro v
      rw [ht]
      unfold typeOf
      have h0 := hO.ne_nil
      generalize O.2 = P at h0 h1 ⊢
      rcases P with _ | ⟨a, _ | ⟨b, _ | ⟨d, l⟩⟩⟩
      · exact absurd rfl h0
      · exact absurd rfl h1
      · rfl
      · rfl
    rw [ht1]
    simp only [h1, false_or]
    cases hb : p.sel.isInside
    · simp only [contactValue, Bool.false_eq_true, if_false, false_and, iff_false]
      rintro ⟨-, a, b, -⟩
      have := hcen a b
      rw [hb] at this
      cases this
    · rw [← hm0]
      simp [contactValue]

/-- Contact of a polygon: the constraint is satisfied exactly if the center of the object is above the floor, inside its outline,
at a height equal to the margin, and the normals are opposite. -/
theorem C84_plane (hf : Fn.build fs os margin = some f) (hS : Surfaces fs os) (hM : ∀ j, IsRot (M j).R)
    (hn : Nearest fs os M j i F O) {u w : V3 ℝ} (hu : F.IsNormal M u) (hw : O.IsNormal M w) :
    f.value M = .ok 0 ↔ Above M F O ∧ u ⬝ᵥ (O.center M - F.center M) = margin ∧ w = -u := by
  obtain ⟨s, hs, h⟩ := zero_iff hf hS hM hn hu
  rw [h]
  obtain ⟨m, hm, h1, rfl⟩ := hw
  have hN : s.N = m := by
    obtain ⟨-, -, hN, -⟩ := hm.geo hs
    rw [hN, normalize_unit h1]
  have h3 := hm.three
  rw [hN]
  have : ¬ O.2.length = 1 := by omega
  simp only [this, false_or]

/-- The value exists whatever the configuration exactly if there are floors and objects; otherwise there is undefined behaviour. -/
theorem C84_defined (hf : Fn.build fs os margin = some f) (hS : Surfaces fs os) (hM : ∀ j, IsRot (M j).R) :
    (fs ≠ [] ∧ os ≠ [] → ∃ v, f.value M = .ok v) ∧ (fs = [] ∨ os = [] → f.value M = .error .ub) := by
  obtain ⟨hb, -⟩ := build_built hf
  refine ⟨fun h => ?_, fun h => ?_⟩
  · obtain ⟨p, F, O, hp, -⟩ := hb.pick hS hM h.1 h.2
    exact ⟨_, by unfold Fn.value; rw [hp]⟩
  · have : Hpp.Contact.select (f.floors.map (·.at M)) (f.objects.map (·.at M)) = none := by
      refine (C54_defined (hb.floors_valid hS hM)).2 ?_
      rcases h with h | h
      · left
        have := hb.flen
        rw [h, List.length_nil] at this
        rw [List.length_eq_zero_iff.1 (by omega : f.floors.length = 0)]
        rfl
      · right
        have := hb.olen
        rw [h, List.length_nil] at this
        rw [List.length_eq_zero_iff.1 (by omega : f.objects.length = 0)]
        rfl
    unfold Fn.value Fn.pick
    rw [this]

/-- Contact of a point: the orientation does not matter. -/
theorem C84_point (hf : Fn.build fs os margin = some f) (hS : Surfaces fs os) (hM : ∀ j, IsRot (M j).R)
    (hn : Nearest fs os M j i F O) {u : V3 ℝ} (hu : F.IsNormal M u) (h1 : O.2.length = 1) :
    f.value M = .ok 0 ↔ Above M F O ∧ u ⬝ᵥ (O.center M - F.center M) = margin := by
  obtain ⟨s, -, h⟩ := zero_iff hf hS hM hn hu
  rw [h]
  simp [h1]

/-- Contact of a segment: the direction, fixed to the joint, that should be opposite to the normal of the floor is computed in the
frame of the joint, orthogonal to the segment: its last coordinate is zero unless the first coordinates of the ends of the segment
are equal. -/
theorem C84_line_partial (hf : Fn.build fs os margin = some f) (hS : Surfaces fs os) (hM : ∀ j, IsRot (M j).R)
    (hn : Nearest fs os M j i F O) {u : V3 ℝ} (hu : F.IsNormal M u) (h2 : O.2.length = 2) :
    ∃ w : V3 ℝ, w ⬝ᵥ w = 1 ∧ (∀ p ∈ O.2, ∀ q ∈ O.2, w ⬝ᵥ (p - q) = 0) ∧ ((∀ p ∈ O.2, ∀ q ∈ O.2, p 0 = q 0) ∨ w 2 = 0) ∧
      (f.value M = .ok 0 ↔ Above M F O ∧ u ⬝ᵥ (O.center M - F.center M) = margin ∧ orient M O.1 w = -u) := by
  obtain ⟨s, hs, h⟩ := zero_iff hf hS hM hn hu
  have hO := (hS.object O (List.mem_of_getElem? hn.object)).1
  have hrot := object_frame hO hs
  have hNN : s.N ⬝ᵥ s.N = 1 := congrFun (congrFun hrot.1 0) 0
  have hNU : s.N ⬝ᵥ at3 s.Us 0 = 0 := congrFun (congrFun hrot.1 0) 2
  obtain ⟨jo, P⟩ := O
  dsimp only at *
  cases hO with
  | point p => cases h2
  | polygon _ hP =>
    obtain ⟨m, hm⟩ := hP
    have := hm.three
    omega
  | segment p q hne =>
    have hpos : 0 < (q - p) ⬝ᵥ (q - p) := dot_self_pos (sub_ne_zero.2 (Ne.symm hne))
    have hs' := Option.some.inj hs
    have hU : at3 s.Us 0 = (norm3 (q - p))⁻¹ • (q - p) := by
      rw [← hs']
      change normalize (q - p) = _
      unfold normalize
      rw [if_pos hpos]
    have hne0 : (norm3 (q - p))⁻¹ ≠ 0 := inv_ne_zero (Real.sqrt_pos.2 hpos).ne'
    have horth : s.N ⬝ᵥ (q - p) = 0 := by
      rw [hU, dotProduct_smul, smul_eq_mul] at hNU
      exact (mul_eq_zero.1 hNU).resolve_left hne0
    refine ⟨s.N, hNN, ?_, ?_, ?_⟩
    · intro a ha b hb
      simp only [List.mem_cons, List.not_mem_nil, or_false] at ha hb
      rcases ha with rfl | rfl <;> rcases hb with rfl | rfl
      · rw [sub_self, dotProduct_zero]
      · rw [← neg_sub, dotProduct_neg, horth, neg_zero]
      · exact horth
      · rw [sub_self, dotProduct_zero]
    · by_cases h0 : at3 s.Us 0 0 = 0
      · left
        have : p 0 = q 0 := by
          rw [hU] at h0
          have := (mul_eq_zero.1 h0).resolve_left hne0
          change q 0 - p 0 = 0 at this
          linarith
        intro a ha b hb
        simp only [List.mem_cons, List.not_mem_nil, or_false] at ha hb
        rcases ha with rfl | rfl <;> rcases hb with rfl | rfl
        · rfl
        · exact this
        · exact this.symm
        · rfl
      · right
        have e : s.N = normalize ![-at3 s.Us 0 1, at3 s.Us 0 0, 0] := by
          have h3 : s.N = normalize (if at3 s.Us 0 0 ≠ 0 then ![-at3 s.Us 0 1, at3 s.Us 0 0, 0] else
              ![0, -at3 s.Us 0 2, at3 s.Us 0 1]) := by
            rw [← hs']
            rfl
          rw [h3, if_pos h0]
        rw [e]
        unfold normalize
        split
        · simp
        · simp
    · rw [h]
      simp

end Hpp.Contact
