import Verif.Contact.FuncPoints
import Verif.Log.ScrewSmall

/-!
# Accuracy of contact constraints (C126)

Source: `/repo/src/convex-shape-contact.cc:192-223` (`impl_compute`), modelled in `Contact/Select.lean` (`contactValue`) and
`Contact/Func.lean` (`Fn.value`): no new definition of the code here.

A solver accepts a configuration when the norm of the value of a contact function is less than an error threshold `t`. C84 is about
configurations where the value is zero. Here the value is only small.
-/

namespace Hpp.Log

open Matrix Hpp.Sym Hpp.Pose

theorem rodrigues_00 (c s : ℝ) (u : V3 ℝ) : rodrigues c s u 0 0 = c + (1 - c) * (u 0 * u 0) := by
  simp only [rodrigues, Matrix.add_apply, Matrix.smul_apply, Matrix.one_apply_eq, vecMulVec_apply, smul_eq_mul]
  have : hat u 0 0 = 0 := rfl
  rw [this]
  ring

/-- Entries of the logarithm of a half turn -/
theorem log_half_entry {R : M3 ℝ} (h : IsRot R) (hp : angle R = Real.pi) :
    R 0 0 + R 1 1 + R 2 2 = -1 ∧ logSO3 R 1 ^ 2 = (R 1 1 + 1) * (Real.pi ^ 2 / 2) ∧
      logSO3 R 2 ^ 2 = (R 2 2 + 1) * (Real.pi ^ 2 / 2) := by
  have hc : cosOf R = -1 := by rw [← cos_angle h, hp, Real.cos_pi]
  have htr : R 0 0 + R 1 1 + R 2 2 = -1 := by
    unfold cosOf at hc
    linarith
  have e := eqs h
  have h1 : -1 ≤ R 1 1 := by nlinarith [e.c11, sq_nonneg (R 0 1), sq_nonneg (R 2 1)]
  have h2 : -1 ≤ R 2 2 := by nlinarith [e.c22, sq_nonneg (R 0 2), sq_nonneg (R 1 2)]
  have sq1 : ∀ (P : Prop) [Decidable P] (y : ℝ), 0 ≤ y →
      ((if P then (1 : ℝ) else -1) * (if 0 < y then Real.sqrt y else 0)) ^ 2 = y := by
    intro P _ y hy
    have hs := Real.sq_sqrt hy
    have e : (if 0 < y then Real.sqrt y else 0) = Real.sqrt y := by
      split
      · rfl
      · rename_i h
        rw [le_antisymm (not_lt.1 h) hy, Real.sqrt_zero]
    rw [e]
    split <;> linarith
  have hnn : ∀ x : ℝ, -1 ≤ x → 0 ≤ (x + 1) * (Real.pi * Real.pi / (1 + 1)) := fun x hx =>
    mul_nonneg (by linarith) (by positivity)
  refine ⟨htr, ?_⟩
  unfold logSO3
  simp only [hp, sub_self, Real.cos_zero]
  rw [if_neg (by norm_num)]
  simp only [cons_val_zero, cons_val_one, cons_val_two, head_cons, tail_cons, cons_val]
  rw [sq1 _ _ (hnn _ h1), sq1 _ _ (hnn _ h2)]
  constructor <;> ring

/-- The two last components of the logarithm and the displacement of the first axis, whatever the formula used: `2 - 2 R 0 0` is the
square of the length of this displacement. -/
theorem log_tilt {R : M3 ℝ} (h : IsRot R) :
    2 - 2 * R 0 0 ≤ (1 + 1e-12) * (logSO3 R 1 ^ 2 + logSO3 R 2 ^ 2) ∧
    logSO3 R 1 ^ 2 + logSO3 R 2 ^ 2 ≤ (Real.pi / 2) ^ 2 * (2 - 2 * R 0 0) := by
  have hp3 := Real.pi_gt_three
  obtain ⟨h0, hpi⟩ := angle_bounds R
  rcases hpi.lt_or_eq with hlt | heq
  · rcases h0.eq_or_lt with hz | hpos
    · have hR := rot_angle_zero h hz.symm
      rw [(log_one hR).2, hR]
      simp
    · by_cases h6 : 1e-6 < angle R
      · obtain ⟨u, hu, -, hl, hR⟩ := logSO3_axis h h6 hlt
        have e00 : R 0 0 = Real.cos (angle R) + (1 - Real.cos (angle R)) * (u 0 * u 0) := by
          rw [← rodrigues_00 _ (Real.sin (angle R)), ← hR]
        rw [dot_three] at hu
        have c1 := Real.one_sub_sq_div_two_le_cos (x := angle R)
        have c2 := Real.sin_sq_add_cos_sq (angle R / 2)
        have c3 : Real.cos (angle R) = 1 - 2 * Real.sin (angle R / 2) ^ 2 := by
          have := Real.cos_sq (angle R / 2)
          rw [mul_div_cancel₀ _ (two_ne_zero)] at this
          linarith
        have c4 : 2 / Real.pi * (angle R / 2) ≤ Real.sin (angle R / 2) := Real.mul_le_sin (by linarith) (by linarith)
        have c5 : angle R ^ 2 ≤ Real.pi ^ 2 * Real.sin (angle R / 2) ^ 2 := by
          have : angle R ≤ Real.pi * Real.sin (angle R / 2) := by
            calc angle R = Real.pi * (2 / Real.pi * (angle R / 2)) := by field_simp
              _ ≤ _ := mul_le_mul_of_nonneg_left c4 (by linarith)
          rw [← mul_pow]
          exact pow_le_pow_left₀ h0 this 2
        have w1 : logSO3 R 1 = angle R * u 1 := congrFun hl 1
        have w2 : logSO3 R 2 = angle R * u 2 := congrFun hl 2
        rw [w1, w2, e00]
        generalize angle R = th at *
        have k : 2 - 2 * (Real.cos th + (1 - Real.cos th) * (u 0 * u 0)) = 2 * (1 - Real.cos th) * (u 1 ^ 2 + u 2 ^ 2) := by
          linear_combination -2 * (1 - Real.cos th) * hu
        rw [k]
        have hy : 0 ≤ u 1 ^ 2 + u 2 ^ 2 := by positivity
        have m1 : 2 * (1 - Real.cos th) * (u 1 ^ 2 + u 2 ^ 2) ≤ th ^ 2 * (u 1 ^ 2 + u 2 ^ 2) :=
          mul_le_mul_of_nonneg_right (by linarith) hy
        have m2 : th ^ 2 * (u 1 ^ 2 + u 2 ^ 2) ≤ Real.pi ^ 2 * Real.sin (th / 2) ^ 2 * (u 1 ^ 2 + u 2 ^ 2) :=
          mul_le_mul_of_nonneg_right c5 hy
        have m3 : 0 ≤ th ^ 2 * (u 1 ^ 2 + u 2 ^ 2) := by positivity
        constructor
        · norm_num
          nlinarith
        · rw [c3]
          nlinarith
      · have h6' := not_lt.1 h6
        obtain ⟨u, hu, ha, hR⟩ := rotation_eq h hpos hlt
        have e00 : R 0 0 = Real.cos (angle R) + (1 - Real.cos (angle R)) * (u 0 * u 0) := by
          rw [← rodrigues_00 _ (Real.sin (angle R)), ← hR]
        have hl : logSO3 R = Real.sin (angle R) • u := by
          rw [logSO3_small h6', ha, smul_smul]
          congr 1
          ring
        rw [dot_three] at hu
        have w1 : logSO3 R 1 = Real.sin (angle R) * u 1 := congrFun hl 1
        have w2 : logSO3 R 2 = Real.sin (angle R) * u 2 := congrFun hl 2
        have c1 := Real.one_sub_sq_div_two_le_cos (x := angle R)
        have c2 := Real.sin_sq_add_cos_sq (angle R)
        have c3 := Real.cos_le_one (angle R)
        have c4 : angle R ^ 2 ≤ (1e-6) ^ 2 := pow_le_pow_left₀ h0 h6' 2
        rw [w1, w2, e00]
        generalize angle R = th at *
        have k : 2 - 2 * (Real.cos th + (1 - Real.cos th) * (u 0 * u 0)) = 2 * (1 - Real.cos th) * (u 1 ^ 2 + u 2 ^ 2) := by
          linear_combination -2 * (1 - Real.cos th) * hu
        rw [k]
        have k2 : (Real.sin th * u 1) ^ 2 + (Real.sin th * u 2) ^ 2 = (1 + Real.cos th) * ((1 - Real.cos th) * (u 1 ^ 2 + u 2 ^ 2)) := by
          linear_combination (u 1 ^ 2 + u 2 ^ 2) * c2
        rw [k2]
        have hy : 0 ≤ (1 - Real.cos th) * (u 1 ^ 2 + u 2 ^ 2) := mul_nonneg (by linarith) (by positivity)
        generalize hY : (1 - Real.cos th) * (u 1 ^ 2 + u 2 ^ 2) = Y at *
        have k3 : 2 * (1 - Real.cos th) * (u 1 ^ 2 + u 2 ^ 2) = 2 * Y := by rw [← hY]; ring
        rw [k3]
        norm_num at c4
        constructor
        · have : (2 : ℝ) ≤ (1 + 1e-12) * (1 + Real.cos th) := by
            norm_num
            linarith
          calc 2 * Y ≤ ((1 + 1e-12) * (1 + Real.cos th)) * Y := mul_le_mul_of_nonneg_right this hy
            _ = _ := by ring
        · have : 1 + Real.cos th ≤ (Real.pi / 2) ^ 2 * 2 := by nlinarith
          calc (1 + Real.cos th) * Y ≤ ((Real.pi / 2) ^ 2 * 2) * Y := mul_le_mul_of_nonneg_right this hy
            _ = _ := by ring
  · obtain ⟨htr, w1, w2⟩ := log_half_entry h heq
    rw [w1, w2]
    have e : R 0 0 = -1 - R 1 1 - R 2 2 := by linarith
    have q1 : 0 ≤ R 1 1 + 1 := by
      by_contra hn
      have : (R 1 1 + 1) * (Real.pi ^ 2 / 2) < 0 := mul_neg_of_neg_of_pos (not_le.1 hn) (by positivity)
      nlinarith [sq_nonneg (logSO3 R 1)]
    have q2 : 0 ≤ R 2 2 + 1 := by
      by_contra hn
      have : (R 2 2 + 1) * (Real.pi ^ 2 / 2) < 0 := mul_neg_of_neg_of_pos (not_le.1 hn) (by positivity)
      nlinarith [sq_nonneg (logSO3 R 2)]
    rw [e]
    have q3 : (4 : ℝ) ≤ Real.pi ^ 2 := by nlinarith
    constructor
    · norm_num
      nlinarith
    · nlinarith

end Hpp.Log

namespace Hpp.Contact

open Matrix Hpp.Sym Hpp.Pose Hpp.Log

variable {M : Nat → SE3 ℝ} {F O : JShape} {c co : CShape}

/-- A point of the plane that is not strictly inside is at least as far from the center as some point of the outline. -/
theorem Geo.reach {P : List (V3 ℝ)} {U E : Nat → V3 ℝ} {L : Nat → ℝ} {N : V3 ℝ} (g : Geo P.length (at3 P) U E L N) {a : V3 ℝ}
    (ha : ∀ i, i < P.length → N ⬝ᵥ (a - at3 P i) = 0) (hn : ¬ (a ∈ region P ∧ a ∉ boundary P)) :
    ∃ z ∈ boundary P, edist z ((P.length : ℝ)⁻¹ • P.sum) ≤ edist a ((P.length : ℝ)⁻¹ • P.sum) := by
  have hC : ∀ i, i < P.length → E i ⬝ᵥ ((P.length : ℝ)⁻¹ • P.sum - at3 P i) < 0 := fun i hi => g.center_interior hi
  have hpC : ∀ i, i < P.length → N ⬝ᵥ ((P.length : ℝ)⁻¹ • P.sum - at3 P i) = 0 := fun i hi => g.center_plane hi
  generalize (P.length : ℝ)⁻¹ • P.sum = C at hC hpC ⊢
  rw [g.interior_iff ha] at hn
  push Not at hn
  obtain ⟨j, hj, hout⟩ := hn
  have hsplit : ∀ k, E k ⬝ᵥ (a - C) = E k ⬝ᵥ (a - at3 P k) - E k ⬝ᵥ (C - at3 P k) := by
    intro k
    rw [← dotProduct_sub]
    congr 1
    abel
  have hv : N ⬝ᵥ (a - C) = 0 := by
    have e : a - C = (a - at3 P j) - (C - at3 P j) := by abel
    rw [e, dotProduct_sub, ha j hj, hpC j hj, sub_zero]
  have hjv : 0 < E j ⬝ᵥ (a - C) := by
    rw [hsplit]
    linarith [hC j hj]
  obtain ⟨i, s, d, hi, hs, -, h0, hL, hb, hmin, -⟩ := g.exit (fun k hk => (hC k hk).le) hpC hv hj hjv
  refine ⟨C + s • (a - C), (g.boundary_iff rfl _).2 ⟨i, d, hi, h0, hL, hb⟩, ?_⟩
  have hs1 : s ≤ 1 := by
    have h1 := hmin j hj hjv
    have h2 := hsplit j
    by_contra hgt
    push Not at hgt
    nlinarith
  rw [edist_eq, edist_eq, add_sub_cancel_left, norm3_smul, abs_of_nonneg hs]
  exact mul_le_of_le_one_left (norm3_nonneg _) hs1

theorem place_edist (hM : ∀ j, IsRot (M j).R) (j : Option Nat) (x y : V3 ℝ) : edist (place M j x) (place M j y) = edist x y := by
  unfold edist
  rw [← act_place, ← act_place, act_sub, rotate_dot (pose_rot hM j)]

/-- Coordinates of the projection of the center of the object along the two last axes of the frame of the floor -/
theorem foot_norm (hM : ∀ j, IsRot (M j).R) (hP : IsConvexPolygon F.2)
    (k1 : Shape.new F.2.reverse = some c.shape) (k2 : c.joint = F.1) (k3 : Shape.new O.2 = some co.shape) (k4 : co.joint = O.1)
    (h0 : F.1 ≠ some 0) : edist (place M F.1 (localFoot c co M)) (F.center M) ^ 2 =
      ((relModel c co).relative M).p 1 ^ 2 + ((relModel c co).relative M).p 2 ^ 2 := by
  obtain ⟨m, hm⟩ := hP.reverse
  obtain ⟨-, hC, -, g⟩ := hm.geo k1
  have hlen : 0 < F.2.reverse.length := by have := g.three; omega
  have hcc : (co.at M).center = act (c.joint.map M) (localCenter c co M) := (act_actInv (pose_rot hM c.joint) _).symm
  have hloc : ∀ x : V3 ℝ, orient M c.joint x ⬝ᵥ ((co.at M).center - (c.at M).center) = x ⬝ᵥ (localCenter c co M - c.shape.C) := by
    intro x
    rw [hcc]
    change orient M c.joint x ⬝ᵥ (act (c.joint.map M) (localCenter c co M) - act (c.joint.map M) c.shape.C) = _
    rw [act_sub, ← rotate_orient, rotate_dot (pose_rot hM c.joint)]
  rw [relModel_p (k2 ▸ h0), relModel_p (k2 ▸ h0), hloc, hloc]
  change _ = (at3 c.shape.Ns 0 ⬝ᵥ _) ^ 2 + (at3 c.shape.Us 0 ⬝ᵥ _) ^ 2
  have hce : F.center M = place M F.1 c.shape.C := by
    rw [← floor_center k1 k2, ← k2]
    exact act_place M c.joint _
  rw [hce, place_edist hM, edist_eq, norm3_sq]
  unfold localFoot
  have e : localCenter c co M - (c.shape.N ⬝ᵥ (localCenter c co M - c.shape.C)) • c.shape.N - c.shape.C =
      (localCenter c co M - c.shape.C) - (c.shape.N ⬝ᵥ (localCenter c co M - c.shape.C)) • c.shape.N := by abel
  rw [e]
  generalize localCenter c co M - c.shape.C = x
  have hw : c.shape.N ⬝ᵥ (x - (c.shape.N ⬝ᵥ x) • c.shape.N) = 0 := by
    rw [dotProduct_sub, dotProduct_smul, g.NN]
    simp
  rw [dot_coords (g.UU 0 hlen) g.NN (g.NU 0 hlen) hw, ← g.E_def 0 hlen, dotProduct_sub, dotProduct_sub, dotProduct_smul, dotProduct_smul,
    dotProduct_comm (at3 c.shape.Ns 0) c.shape.N, g.EN hlen, dotProduct_comm (at3 c.shape.Us 0) c.shape.N, g.NU 0 hlen]
  simp only [smul_zero, sub_zero]
  ring

variable {fs os : List JShape} {f : Fn} {margin : ℝ} {j i : Nat}

/-- Components of the value for the pair selected; `s.N` is the first axis of the frame of the object surface. -/
theorem value_parts (hf : Fn.build fs os margin = some f) (hS : Surfaces fs os) (hM : ∀ j, IsRot (M j).R)
    (hn : Nearest fs os M j i F O) {u : V3 ℝ} (hu : F.IsNormal M u) {v : Fin 5 → ℝ} (hv : f.value M = .ok v) :
    ∃ s, Shape.new O.2 = some s ∧ v 0 = margin - u ⬝ᵥ (O.center M - F.center M) ∧
      (Above M F O → v 1 = 0 ∧ v 2 = 0) ∧
      (¬ Above M F O → ∃ y, F.IsProj M (O.center M) y ∧ v 1 ^ 2 + v 2 ^ 2 = edist y (F.center M) ^ 2 ∧
        ∃ z ∈ F.outline M, edist z (F.center M) ≤ edist y (F.center M)) ∧
      (O.2.length = 1 → v 3 = 0 ∧ v 4 = 0) ∧
      (O.2.length ≠ 1 → edist (orient M O.1 s.N) (-u) ^ 2 ≤ (1 + 1e-12) * (v 3 ^ 2 + v 4 ^ 2) ∧
        v 3 ^ 2 + v 4 ^ 2 ≤ (Real.pi / 2) ^ 2 * edist (orient M O.1 s.N) (-u) ^ 2) := by
  obtain ⟨p, hp, e1, e2, ht, hin, k1, k2, k3, k4⟩ := nearest_pick hf hS hM hn
  refine ⟨p.object.shape, k3, ?_⟩
  obtain ⟨hF, hF0⟩ := hS.floor F (List.mem_of_getElem? hn.floor)
  obtain ⟨hO, hO0⟩ := hS.object O (List.mem_of_getElem? hn.object)
  have ok := relModel_ok hF hO k1 k3
  have hmargin := (build_built hf).2
  have herr := error_eq (M := M) ok hM
  have hval : f.value M = .ok (contactValue margin p.sel.isInside p.type (poseError p M)) := by
    unfold Fn.value
    rw [hp, ← hmargin]
  rw [hval] at hv
  have hv' := (Except.ok.inj hv).symm
  clear hv hval
  have hN : (p.floor.at M).normal = -u := floor_normal k1 k2 hu
  have hv0 : ((relModel p.floor p.object).relative M).p 0 = -(u ⬝ᵥ (O.center M - F.center M)) := by
    rw [relModel_p (k2 ▸ hF0), object_center k3 k4, floor_center k1 k2, ← rotate_orient]
    change (p.floor.at M).normal ⬝ᵥ _ = _
    rw [hN, neg_dotProduct]
  have hrot : IsRot ((relModel p.floor p.object).relative M).R := by
    rw [GT.relative_eq _ hM]
    exact IsRot.mul ok.rot1.transpose (IsRot.mul (optM_rot hM _).transpose (IsRot.mul (optM_rot hM _) ok.rot2))
  have htilt := log_tilt hrot
  have hch : 2 - 2 * ((relModel p.floor p.object).relative M).R 0 0 = edist (orient M O.1 p.object.shape.N) (-u) ^ 2 := by
    rw [relModel_R00 (k2 ▸ hF0), hN]
    have e : (p.object.at M).normal = orient M O.1 p.object.shape.N := by
      rw [← rotate_orient, ← k4]
      rfl
    have n1 : (-u) ⬝ᵥ (-u) = 1 := by
      rw [← hN]
      change rotate (p.floor.joint.map M) p.floor.shape.N ⬝ᵥ rotate (p.floor.joint.map M) p.floor.shape.N = 1
      rw [rotate_dot (pose_rot hM p.floor.joint)]
      obtain ⟨m, hm⟩ := hF.reverse
      exact (hm.geo k1).2.2.2.NN
    have n2 : orient M O.1 p.object.shape.N ⬝ᵥ orient M O.1 p.object.shape.N = 1 := by
      rw [orient_dot hM]
      have := congrFun (congrFun (object_frame hO k3).1 0) 0
      exact this
    rw [e, edist_eq, norm3_sq, sub_dotProduct, dotProduct_sub, dotProduct_sub, n1, n2, dotProduct_comm (-u)]
    ring
  rw [hch] at htilt
  have hfoot := foot_norm hM hF k1 k2 k3 k4 hF0
  obtain ⟨hpl, hpr, hab, -⟩ := localFoot_spec hM hF k1 k2 k3 k4
  have hreach : ¬ Above M F O → ∃ z ∈ F.outline M,
      edist z (F.center M) ≤ edist (place M F.1 (localFoot p.floor p.object M)) (F.center M) := by
    intro hna
    obtain ⟨m, hm⟩ := hF.reverse
    obtain ⟨-, -, -, g⟩ := hm.geo k1
    obtain ⟨z, hz, hle⟩ := g.reach hpl fun h => hna (hab.2 h)
    rw [boundary_reverse] at hz
    refine ⟨place M F.1 z, ⟨z, hz, rfl⟩, ?_⟩
    unfold JShape.center
    rw [place_edist hM, place_edist hM]
    rwa [List.length_reverse, List.sum_reverse] at hle
  have hpe : poseError p M = _ := herr
  rw [hpe] at hv'
  rw [← hin]
  rw [← hin] at hreach
  generalize edist (orient M O.1 p.object.shape.N) (-u) ^ 2 = ch at htilt ⊢
  generalize ((relModel p.floor p.object).relative M).p = P at *
  generalize logSO3 ((relModel p.floor p.object).relative M).R = W at *
  have hm0 : P 0 + margin = margin - u ⬝ᵥ (O.center M - F.center M) := by
    rw [hv0]
    ring
  have hproj : p.sel.isInside ≠ true → ∃ y, F.IsProj M (O.center M) y ∧ P 1 ^ 2 + P 2 ^ 2 = edist y (F.center M) ^ 2 ∧
      ∃ z ∈ F.outline M, edist z (F.center M) ≤ edist y (F.center M) := fun h => ⟨_, hpr, hfoot.symm, hreach h⟩
  by_cases h1 : O.2.length = 1
  · have ht1 : p.type = .pointOnPlane := by
      rw [ht]
      unfold typeOf
      rw [h1]
      rfl
    rw [ht1] at hv'
    cases hb : p.sel.isInside
    · rw [hb] at hv' hproj
      subst hv'
      exact ⟨hm0, (fun h => by cases h), fun h => hproj h, fun _ => ⟨rfl, rfl⟩, fun h => absurd h1 h⟩
    · rw [hb] at hv'
      subst hv'
      exact ⟨hm0, fun _ => ⟨rfl, rfl⟩, fun h => absurd rfl h, fun _ => ⟨rfl, rfl⟩, fun h => absurd h1 h⟩
  · have ht1 : ∀ v, contactValue margin p.sel.isInside p.type v = contactValue margin p.sel.isInside .planeOnPlane v := by
      intro v
      rw [ht]
      unfold typeOf
      have h0 := hO.ne_nil
      generalize O.2 = P at h0 h1 ⊢
      rcases P with _ | ⟨a, _ | ⟨b, _ | ⟨d, l⟩⟩⟩
      · exact absurd rfl h0
      · exact absurd rfl h1
      · rfl
      · rfl
    rw [ht1] at hv'
    cases hb : p.sel.isInside
    · rw [hb] at hv' hproj
      subst hv'
      exact ⟨hm0, (fun h => by cases h), fun h => hproj h, fun h => absurd h h1, fun _ => htilt⟩
    · rw [hb] at hv'
      subst hv'
      exact ⟨hm0, fun _ => ⟨rfl, rfl⟩, fun h => absurd rfl h, fun h => absurd h h1, fun _ => htilt⟩

theorem five_sq (v : Fin 5 → ℝ) : v ⬝ᵥ v = v 0 ^ 2 + (v 1 ^ 2 + v 2 ^ 2) + (v 3 ^ 2 + v 4 ^ 2) := by
  simp only [dotProduct, Fin.sum_univ_five]
  ring

theorem edist_nonneg' (x y : V3 ℝ) : 0 ≤ edist x y := Real.sqrt_nonneg _

/-- If the norm of the value is at most `t`, then the height of the center of the object is the margin up to `t`, its projection is
inside the floor polygon or at distance at most `t` from the center of the polygon, and the normals are opposite up to `t`. If
the outline of the floor is farther than `t` from its center, the projection is inside. -/
theorem C126_plane (hf : Fn.build fs os margin = some f) (hS : Surfaces fs os) (hM : ∀ j, IsRot (M j).R)
    (hn : Nearest fs os M j i F O) {u w : V3 ℝ} (hu : F.IsNormal M u) (hw : O.IsNormal M w) {v : Fin 5 → ℝ} {t : ℝ} (ht : 0 ≤ t)
    (hv : f.value M = .ok v) (hvt : v ⬝ᵥ v ≤ t ^ 2) :
    |u ⬝ᵥ (O.center M - F.center M) - margin| ≤ t ∧
    (Above M F O ∨ ∃ y, F.IsProj M (O.center M) y ∧ edist y (F.center M) ≤ t) ∧
    ((∀ z ∈ F.outline M, t < edist z (F.center M)) → Above M F O) ∧
    edist w (-u) ≤ (1 + 1e-12) * t := by
  obtain ⟨s, hs, h0, hin, hout, -, hpl⟩ := value_parts hf hS hM hn hu hv
  obtain ⟨m, hm, h1, rfl⟩ := hw
  have hN : s.N = m := by
    obtain ⟨-, -, hN, -⟩ := hm.geo hs
    rw [hN, normalize_unit h1]
  have h3 := hm.three
  obtain ⟨hpl, -⟩ := hpl (by omega)
  rw [hN] at hpl
  rw [five_sq] at hvt
  have q1 := sq_nonneg (v 0)
  have q2 := sq_nonneg (v 1)
  have q3 := sq_nonneg (v 2)
  have q4 := sq_nonneg (v 3)
  have q5 := sq_nonneg (v 4)
  have hfar : ¬ Above M F O → ∃ y, F.IsProj M (O.center M) y ∧ edist y (F.center M) ≤ t ∧
      ∃ z ∈ F.outline M, edist z (F.center M) ≤ t := by
    intro hna
    obtain ⟨y, hy, he, z, hz, hle⟩ := hout hna
    have : edist y (F.center M) ≤ t := abs_le_of_sq_le_sq' (by linarith) ht |>.2
    exact ⟨y, hy, this, z, hz, hle.trans this⟩
  refine ⟨?_, ?_, ?_, ?_⟩
  · have e : u ⬝ᵥ (O.center M - F.center M) - margin = -v 0 := by rw [h0]; ring
    rw [e, abs_neg]
    exact abs_le_of_sq_le_sq (by linarith) ht
  · by_cases ha : Above M F O
    · exact .inl ha
    · obtain ⟨y, hy, hd, -⟩ := hfar ha
      exact .inr ⟨y, hy, hd⟩
  · intro hz
    by_contra ha
    obtain ⟨-, -, -, z, hzm, hle⟩ := hfar ha
    exact absurd (hz z hzm) (not_lt.2 hle)
  · refine (abs_le_of_sq_le_sq' ?_ (by positivity)).2
    have : (1 + 1e-12) * (v 3 ^ 2 + v 4 ^ 2) ≤ (1 + 1e-12) * t ^ 2 := mul_le_mul_of_nonneg_left (by linarith) (by norm_num)
    refine hpl.trans (this.trans ?_)
    rw [mul_pow]
    exact mul_le_mul_of_nonneg_right (by norm_num) (sq_nonneg t)

/-- The same for the contact of a point: the orientation does not matter. -/
theorem C126_point (hf : Fn.build fs os margin = some f) (hS : Surfaces fs os) (hM : ∀ j, IsRot (M j).R)
    (hn : Nearest fs os M j i F O) {u : V3 ℝ} (hu : F.IsNormal M u) (h1 : O.2.length = 1) {v : Fin 5 → ℝ} {t : ℝ} (ht : 0 ≤ t)
    (hz : ∀ z ∈ F.outline M, t < edist z (F.center M)) (hv : f.value M = .ok v) :
    v ⬝ᵥ v ≤ t ^ 2 ↔ Above M F O ∧ |u ⬝ᵥ (O.center M - F.center M) - margin| ≤ t := by
  obtain ⟨s, hs, h0, hin, hout, hpt, -⟩ := value_parts hf hS hM hn hu hv
  obtain ⟨h3, h4⟩ := hpt h1
  have e : u ⬝ᵥ (O.center M - F.center M) - margin = -v 0 := by rw [h0]; ring
  rw [five_sq, e, abs_neg, h3, h4]
  constructor
  · intro hvt
    have q1 := sq_nonneg (v 0)
    have q2 := sq_nonneg (v 1)
    have q3 := sq_nonneg (v 2)
    refine ⟨?_, abs_le_of_sq_le_sq (by linarith) ht⟩
    by_contra ha
    obtain ⟨y, hy, he, z, hzm, hle⟩ := hout ha
    have : edist y (F.center M) ≤ t := (abs_le_of_sq_le_sq' (by linarith) ht).2
    exact absurd (hz z hzm) (not_lt.2 (hle.trans this))
  · rintro ⟨ha, hb⟩
    obtain ⟨h1, h2⟩ := hin ha
    rw [h1, h2]
    have := sq_le_sq' (abs_le.1 hb).1 (abs_le.1 hb).2
    linarith

/-- Conversely, the value is small when the projection is inside, the height close to the margin and the normals almost opposite. -/
theorem C126_converse (hf : Fn.build fs os margin = some f) (hS : Surfaces fs os) (hM : ∀ j, IsRot (M j).R)
    (hn : Nearest fs os M j i F O) {u w : V3 ℝ} (hu : F.IsNormal M u) (hw : O.IsNormal M w) (ha : Above M F O) :
    ∃ v, f.value M = .ok v ∧
      v ⬝ᵥ v ≤ (u ⬝ᵥ (O.center M - F.center M) - margin) ^ 2 + (Real.pi / 2) ^ 2 * edist w (-u) ^ 2 := by
  have hfs : fs ≠ [] ∧ os ≠ [] := by
    constructor <;> rintro rfl
    · have := hn.floor
      simp at this
    · have := hn.object
      simp at this
  obtain ⟨v, hv⟩ := (C84_defined hf hS hM).1 hfs
  refine ⟨v, hv, ?_⟩
  obtain ⟨s, hs, h0, hin, -, -, hpl⟩ := value_parts hf hS hM hn hu hv
  obtain ⟨m, hm, h1, rfl⟩ := hw
  have hN : s.N = m := by
    obtain ⟨-, -, hN, -⟩ := hm.geo hs
    rw [hN, normalize_unit h1]
  have h3 := hm.three
  obtain ⟨-, hpl⟩ := hpl (by omega)
  obtain ⟨h1, h2⟩ := hin ha
  rw [hN] at hpl
  rw [five_sq, h0, h1, h2]
  linarith [sq_nonneg (u ⬝ᵥ (O.center M - F.center M) - margin)]

end Hpp.Contact
