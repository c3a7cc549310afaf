import Verif.Contact.FuncZero

/-!
# Contact points (C85) and examples for contact functions
-/

namespace Hpp.Contact

open Matrix Hpp.Sym Hpp.Pose Hpp.Log

variable {M : Nat → SE3 ℝ} {fs os : List JShape} {f : Fn} {margin : ℝ}

theorem floor_inside {F O : JShape} {c co : CShape} (hM : ∀ j, IsRot (M j).R) (hP : IsConvexPolygon F.2)
    (k1 : Shape.new F.2.reverse = some c.shape) (k2 : c.joint = F.1) (k3 : Shape.new O.2 = some co.shape) (k4 : co.joint = O.1) :
    (c.at M).isInside ((c.at M).intersection (co.at M).center (c.at M).normal) = true ↔
      ∀ y, F.IsProj M (O.center M) y → y ∈ F.polygon M := by
  obtain ⟨s1, -, -, -, s5, s6⟩ := localFoot_spec (O := O) (co := co) hM hP k1 k2 k3 k4
  rw [s6, s5, ← act_place, ← k2]
  have e : (c.at M).isInside (act (c.joint.map M) (localFoot c co M)) = c.shape.isInsideLocal (localFoot c co M) := by
    unfold Surface.isInside
    congr 1
    exact actInv_act (pose_rot hM c.joint) _
  rw [e]
  obtain ⟨m, hm⟩ := hP.reverse
  obtain ⟨-, -, -, g⟩ := hm.geo k1
  exact C53_inside_polygon ⟨m, hm⟩ k1 ((g.inPlane_iff _).2 s1)

/-- The list is made, for each object surface and each floor surface such that the projection of the center of the object is in the
floor polygon and the height of the center above the floor is more than the opposite of the margin, of the points of the object
surface and of the direction opposite to the normal of the floor, each expressed in the frame of its joint. -/
theorem C85_points (hf : Fn.build fs os margin = some f) (hS : Surfaces fs os) (hM : ∀ j, IsRot (M j).R) (nm : ℝ) (d : ForceData) :
    d ∈ f.contactPoints M nm ↔ ∃ F ∈ fs, ∃ O ∈ os, ∃ m, ConvexFor F.2 m ∧ m ⬝ᵥ m = 1 ∧
      (∀ y, F.IsProj M (O.center M) y → y ∈ F.polygon M) ∧ -nm < orient M F.1 m ⬝ᵥ (O.center M - F.center M) ∧
      d = ⟨O.1, O.2, -m, F.1⟩ := by
  obtain ⟨hb, -⟩ := build_built hf
  have hunit : ∀ F ∈ fs, ∃ m, ConvexFor F.2 m ∧ m ⬝ᵥ m = 1 := by
    intro F hF
    obtain ⟨m, hm⟩ := (hS.floor F hF).1
    obtain ⟨jf, P⟩ := F
    dsimp only at *
    obtain ⟨s, hs⟩ := new_defined (P := P) (by
      intro e
      have := hm.three
      rw [e] at this
      simp at this) [] []
    have hfr := new_frame ⟨m, hm⟩ hs
    have h3 := hm.three
    generalize s.positionInJoint.R = L at hfr
    cases hfr with
    | polygon _ _ _ _ _ h1 h2 => exact ⟨_, h1, congrFun (congrFun h2.1 0) 0⟩
    | point p => simp at h3
  unfold Fn.contactPoints
  simp only [List.mem_flatMap]
  -- one pair
  have pair : ∀ {F O : JShape} {c co : CShape}, F ∈ fs → Shape.new F.2.reverse = some c.shape → c.joint = F.1 →
      Shape.new O.2 = some co.shape → co.joint = O.1 → ∀ m, ConvexFor F.2 m → m ⬝ᵥ m = 1 →
      ((d ∈ if (c.at M).isInside ((c.at M).intersection (co.at M).center (c.at M).normal) = true then
        (if (c.at M).normal ⬝ᵥ ((co.at M).center - (c.at M).center) < nm then
          [(⟨co.joint, co.shape.Pts, c.shape.N, c.joint⟩ : ForceData)] else []) else []) ↔
      (∀ y, F.IsProj M (O.center M) y → y ∈ F.polygon M) ∧ -nm < orient M F.1 m ⬝ᵥ (O.center M - F.center M) ∧
        d = ⟨O.1, O.2, -m, F.1⟩) := by
    intro F O c co hF k1 k2 k3 k4 m hm h1
    have hP := (hS.floor F hF).1
    have hin := floor_inside (O := O) hM hP k1 k2 k3 k4
    have hN : (c.at M).normal = -orient M F.1 m := floor_normal k1 k2 ⟨m, hm, h1, rfl⟩
    have hN' : c.shape.N = -m := by
      obtain ⟨-, -, hN, -⟩ := hm.reverse.geo k1
      rw [hN, normalize_neg, normalize_unit h1]
    rw [object_center k3 k4] at hin ⊢
    rw [floor_center k1 k2] 
    have hht : ((c.at M).normal ⬝ᵥ (O.center M - F.center M) < nm) ↔ -nm < orient M F.1 m ⬝ᵥ (O.center M - F.center M) := by
      rw [hN, neg_dotProduct]
      exact neg_lt
    rw [hN', init_pts k3, k2, k4]
    by_cases a : (c.at M).isInside ((c.at M).intersection (O.center M) (c.at M).normal) = true
    · rw [if_pos a]
      by_cases b : (c.at M).normal ⬝ᵥ (O.center M - F.center M) < nm
      · rw [if_pos b, List.mem_singleton]
        exact ⟨fun h => ⟨hin.1 a, hht.1 b, h⟩, fun h => h.2.2⟩
      · rw [if_neg b]
        exact ⟨fun h => by simp at h, fun h => absurd (hht.2 h.2.1) b⟩
    · rw [if_neg a]
      exact ⟨fun h => by simp at h, fun h => absurd (hin.2 h.1) a⟩
  constructor
  · rintro ⟨co, hco, c, hc, hd⟩
    obtain ⟨i, hi⟩ := List.mem_iff_getElem?.1 hco
    obtain ⟨j, hj⟩ := List.mem_iff_getElem?.1 hc
    obtain ⟨F, hF⟩ := get_of_lt hb.flen hj
    obtain ⟨O, hO⟩ := get_of_lt hb.olen hi
    obtain ⟨k1, k2⟩ := hb.floor _ F c hF hj
    obtain ⟨k3, k4⟩ := hb.object _ O co hO hi
    have hF' := List.mem_of_getElem? hF
    obtain ⟨m, hm, h1⟩ := hunit F hF'
    exact ⟨F, hF', O, List.mem_of_getElem? hO, m, hm, h1, (pair hF' k1 k2 k3 k4 m hm h1).1 hd⟩
  · rintro ⟨F, hF', O, hO', m, hm, h1, h⟩
    obtain ⟨j, hF⟩ := List.mem_iff_getElem?.1 hF'
    obtain ⟨i, hO⟩ := List.mem_iff_getElem?.1 hO'
    obtain ⟨c, hc⟩ := get_of_lt hb.flen.symm hF
    obtain ⟨co, hco⟩ := get_of_lt hb.olen.symm hO
    obtain ⟨k1, k2⟩ := hb.floor _ F c hF hc
    obtain ⟨k3, k4⟩ := hb.object _ O co hO hco
    exact ⟨co, List.mem_of_getElem? hco, c, List.mem_of_getElem? hc, (pair hF' k1 k2 k3 k4 m hm h1).2 h⟩

/-! ### Examples: a square fixed in the world and an object on a joint that translates -/

def demoFloor : JShape := (none, square)

theorem square_normal (M : Nat → SE3 ℝ) : demoFloor.IsNormal M ![0, 0, 1] := by
  refine ⟨![0, 0, 1], ⟨by decide, ?_, ?_⟩, by simp [dotProduct, Fin.sum_univ_three], rfl⟩
  · intro p hp q hq
    simp only [demoFloor, square, List.mem_cons, List.not_mem_nil, or_false] at hp hq
    rcases hp with rfl | rfl | rfl | rfl <;> rcases hq with rfl | rfl | rfl | rfl <;>
      simp [dotProduct, Fin.sum_univ_three]
  · intro i j k hj hi hk h1 h2 p q r hp hq hr
    simp only [demoFloor, square, List.length_cons, List.length_nil] at hj hi hk
    subst hj
    have h5 : i = 0 ∨ i = 1 ∨ i = 2 ∨ i = 3 := by omega
    have h6 : k = 0 ∨ k = 1 ∨ k = 2 ∨ k = 3 := by omega
    rcases h5 with rfl | rfl | rfl | rfl <;> rcases h6 with rfl | rfl | rfl | rfl <;> first
      | exact absurd rfl h1
      | exact absurd rfl h2
      | (cases hp; cases hq; cases hr
         simp [dotProduct, Fin.sum_univ_three, cross_apply])

theorem square_proj {x y : V3 ℝ} (h : demoFloor.IsProj M x y) : y = ![x 0, x 1, 0] := by
  have h1 := h.orth ![1, 0, 0] (by simp [demoFloor, square]) ![0, 0, 0] (by simp [demoFloor, square])
  have h2 := h.orth ![0, 1, 0] (by simp [demoFloor, square]) ![0, 0, 0] (by simp [demoFloor, square])
  obtain ⟨m, hm, -, hu⟩ := square_normal M
  have h3 := h.plane ![0, 0, 1] (by
    have e : demoFloor.2.map (place M demoFloor.1) = square := List.map_id _
    rw [e, hu]
    exact hm.plane) ![0, 0, 0] (by
      have e : demoFloor.2.map (place M demoFloor.1) = square := List.map_id _
      rw [e]
      simp [square])
  simp [dotProduct, Fin.sum_univ_three, place, demoFloor] at h1 h2 h3
  funext i
  fin_cases i
  · exact (sub_eq_zero.1 h1).symm
  · exact (sub_eq_zero.1 h2).symm
  · exact h3

theorem square_outline {y : V3 ℝ} (h : y ∈ boundary square) : y 0 = 0 ∨ y 0 = 1 ∨ y 1 = 0 ∨ y 1 = 1 := by
  obtain ⟨i, p, q, hp, hq, a, b, ha, hb, hab, rfl⟩ := h
  have hi := (List.getElem?_eq_some_iff.1 hp).1
  have h5 : i = 0 ∨ i = 1 ∨ i = 2 ∨ i = 3 := by
    simp only [square, List.length_cons, List.length_nil] at hi
    omega
  rcases h5 with rfl | rfl | rfl | rfl <;> cases hp <;> cases hq
  · right; right; left
    simp
  · right; left
    simpa using hab
  · right; right; right
    simpa using hab
  · left
    simp

theorem square_mem {a b : ℝ} (ha : 0 ≤ a ∧ a ≤ 1) (hb : 0 ≤ b ∧ b ≤ 1) : ![a, b, 0] ∈ region square := by
  have hc : Convex ℝ (region square) := convex_convexHull ℝ _
  have hp : ∀ p ∈ square, p ∈ region square := fun p hp => subset_convexHull ℝ _ hp
  have h1 : ![a, 0, 0] ∈ region square := by
    have := hc (hp ![0, 0, 0] (by simp [square])) (hp ![1, 0, 0] (by simp [square])) (sub_nonneg.2 ha.2) ha.1 (by ring)
    convert this using 1
    funext i
    fin_cases i <;> simp
  have h2 : ![a, 1, 0] ∈ region square := by
    have := hc (hp ![0, 1, 0] (by simp [square])) (hp ![1, 1, 0] (by simp [square])) (sub_nonneg.2 ha.2) ha.1 (by ring)
    convert this using 1
    funext i
    fin_cases i <;> simp
  have := hc h1 h2 (sub_nonneg.2 hb.2) hb.1 (by ring)
  convert this using 1
  funext i
  fin_cases i <;> simp <;> ring

/-- An object whose center is above the middle of the square -/
theorem demo_above {O : JShape} {h : ℝ} (hO : O.center M = ![1 / 2, 1 / 2, h]) : Above M demoFloor O := by
  intro y hy
  have hy' := square_proj hy
  rw [hO] at hy'
  have e : y = ![1 / 2, 1 / 2, 0] := hy'
  rw [e]
  refine ⟨⟨_, square_mem (a := 1 / 2) (b := 1 / 2) (by norm_num) (by norm_num), rfl⟩, ?_⟩
  rintro ⟨x, hx, hx'⟩
  change x = _ at hx'
  rw [hx'] at hx
  have := square_outline hx
  norm_num at this

theorem demo_clear {O : JShape} {h : ℝ} (hO : O.center M = ![1 / 2, 1 / 2, h]) : Clear [demoFloor] [O] M 0 0 demoFloor O := by
  refine ⟨rfl, rfl, ?_, fun y hy => (demo_above hO y hy).2⟩
  intro j' i' F' O' d d' hne hF hO
  have h1 := (List.getElem?_eq_some_iff.1 hF).1
  have h2 := (List.getElem?_eq_some_iff.1 hO).1
  simp only [List.length_cons, List.length_nil] at h1 h2
  exact absurd (by rw [show j' = 0 by omega, show i' = 0 by omega]) hne

theorem demo_nearest (O : JShape) : Nearest [demoFloor] [O] M 0 0 demoFloor O := by
  refine ⟨rfl, rfl, ?_⟩
  intro j' i' F' O' d d' hF hO hd hd'
  have h1 := (List.getElem?_eq_some_iff.1 hF).1
  have h2 := (List.getElem?_eq_some_iff.1 hO).1
  simp only [List.length_cons, List.length_nil] at h1 h2
  have e1 : j' = 0 := by omega
  have e2 : i' = 0 := by omega
  subst e1 e2
  cases hF
  cases hO
  exact ⟨(hd.unique hd').le, fun h => by omega⟩

theorem demo_surfaces {O : JShape} (h : IsObject O.2) (h0 : O.1 ≠ some 0) : Surfaces [demoFloor] [O] := by
  constructor
  · intro s hs
    rw [List.mem_singleton.1 hs]
    exact ⟨square_convex, by simp [demoFloor]⟩
  · intro s hs
    rw [List.mem_singleton.1 hs]
    exact ⟨h, h0⟩

/-- The joints have not moved. -/
theorem demoKin_place (j : Option Nat) (x : V3 ℝ) : place (demoKin 0).M j x = x := by
  cases j with
  | none => rfl
  | some j =>
    change (1 : M3 ℝ) *ᵥ x + ![0, 0, 0] = x
    rw [one_mulVec]
    funext i
    fin_cases i <;> simp

theorem demoKin_orient (j : Option Nat) (x : V3 ℝ) : orient (demoKin 0).M j x = x := by
  cases j with
  | none => rfl
  | some j => exact one_mulVec x

/-- The square turned over, fixed to joint 1 -/
def demoObj : JShape := (some 1, square.reverse)

/-- A point and a segment fixed to joint 1 -/
noncomputable def demoPt (h : ℝ) : JShape := (some 1, [![1 / 2, 1 / 2, h]])

noncomputable def demoSeg : JShape := (some 1, [![0, 0, 0], ![1, 1, 0]])

theorem demoObj_center : demoObj.center (demoKin 0).M = ![1 / 2, 1 / 2, 0] := by
  unfold JShape.center
  rw [demoKin_place]
  funext i
  fin_cases i <;> simp [demoObj, square] <;> norm_num

theorem demoPt_center (h : ℝ) : (demoPt h).center (demoKin 0).M = ![1 / 2, 1 / 2, h] := by
  unfold JShape.center
  rw [demoKin_place]
  simp [demoPt]

theorem demoSeg_center : demoSeg.center (demoKin 0).M = ![1 / 2, 1 / 2, 0] := by
  unfold JShape.center
  rw [demoKin_place]
  funext i
  fin_cases i <;> simp [demoSeg]

theorem demoSeg_object : IsObject demoSeg.2 := by
  refine .segment _ _ fun h => ?_
  have := congrFun h 0
  simp at this

theorem demoObj_object : IsObject demoObj.2 := .polygon _ square_convex.reverse

/-- The frame of a polygon is unique. -/
theorem frame_unique {P : List (V3 ℝ)} (h3 : 3 ≤ P.length) {A B : M3 ℝ} (hA : FrameOf P A) (hB : FrameOf P B) : A = B := by
  have key : ∀ L, FrameOf P L → ∀ s, Shape.new P = some s → L = s.positionInJoint.R := by
    intro L hL s hs
    cases hL with
    | point p => simp at h3
    | polygon _ _ p q c h1 h2 hp hq hc hpq =>
      obtain ⟨-, -, hN, g⟩ := h1.geo hs
      have hrot := polygon_frame ⟨_, h1⟩ hs
      have n1 : (fun i => L i 0) = s.N := by
        have hll : (fun i => L i 0) ⬝ᵥ (fun i => L i 0) = 1 := congrFun (congrFun h2.1 0) 0
        rw [hN, normalize_unit hll]
      have u1 : (fun i => L i 2) = at3 s.Us 0 := by
        have hs0 := g.step 0 (by omega)
        rw [Nat.mod_eq_of_lt (by omega)] at hs0
        have ep : p = at3 P 0 := Option.some.inj (hp.symm.trans (at3_some (by omega)))
        have eq : q = at3 P 1 := Option.some.inj (hq.symm.trans (at3_some (by omega)))
        rw [eq, ep, hs0, add_sub_cancel_left] at hpq
        have hl := g.len 0 (by omega)
        have huu := g.UU 0 (by omega)
        have hll : (fun i => L i 2) ⬝ᵥ (fun i => L i 2) = 1 := congrFun (congrFun h2.1 2) 2
        generalize (fun i => L i 2) = v at *
        generalize at3 s.Us 0 = w at *
        generalize s.Ls.getD 0 0 = l at *
        have e := congrArg (fun z => z ⬝ᵥ z) hpq
        simp only [smul_dotProduct, dotProduct_smul, smul_eq_mul, huu, hll, mul_one] at e
        have hlc : l = c := by nlinarith
        rw [hlc] at hpq
        exact (smul_right_injective _ hc.ne' hpq).symm
      have el := eqs h2
      have es := eqs hrot
      have m0 : ∀ i, L i 0 = s.positionInJoint.R i 0 := fun i => congrFun n1 i
      have m2 : ∀ i, L i 2 = s.positionInJoint.R i 2 := fun i => congrFun u1 i
      ext i k
      fin_cases k
      · exact m0 i
      · fin_cases i
        · change L 0 1 = s.positionInJoint.R 0 1
          rw [el.m01, es.m01, m0, m2, m0, m2]
        · change L 1 1 = s.positionInJoint.R 1 1
          rw [el.m11, es.m11, m0, m2, m0, m2]
        · change L 2 1 = s.positionInJoint.R 2 1
          rw [el.m21, es.m21, m0, m2, m0, m2]
      · exact m2 i
  obtain ⟨s, hs⟩ := new_defined (P := P) (by
    rintro rfl
    simp at h3) [] []
  rw [key A hA s hs, key B hB s hs]

theorem demo_log : LogExact (demoKin 0).M demoFloor demoObj := by
  intro A B hA hB
  left
  have e : A = B := frame_unique (P := square.reverse) (by decide) hA hB
  have hr : IsRot A := by
    generalize hP : demoFloor.2.reverse = P at hA
    cases hA with
    | point p =>
      have := congrArg List.length hP
      simp [demoFloor, square] at this
    | polygon _ _ p q c h1 h2 => exact h2
  subst e
  change ((1 : M3 ℝ) * A)ᵀ * ((1 : M3 ℝ) * A) = 1
  rw [Matrix.one_mul]
  exact hr.1

/-- The hypotheses of the theorems on Jacobians are met, for the plane and for the point. -/
example (C : Rows 1) (T : Rows2 1 1) : ∃ f, Fn.build [demoFloor] [demoObj] 0 = some f ∧
    ∃ (v : ℝ → Fin 5 → ℝ) (J : Matrix (Fin 5) (Fin 1 ⊕ Fin 1) ℝ), f.jacobian (demoKin 0) C T = .ok J ∧
      ∀ r, HasDerivAt (fun s => v s r) (∑ a, J r (.inl a) * ![1] a) 0 := by
  obtain ⟨f, hf⟩ := build_defined (fs := [demoFloor]) (os := [demoObj]) (by simp [demoFloor, square])
    (by simp [demoObj, square]) 0
  obtain ⟨v, J, -, h2, h3⟩ := C83_contact_partial hf (demo_surfaces demoObj_object (by simp [demoObj])) (demoKin_moves 0)
    (demo_clear demoObj_center) (.inr (by simp [demoObj])) (by simp [demoObj, square]) (fun _ => demo_log) C T
  exact ⟨f, hf, v, J, h2, fun r => (h3 r).1⟩

example (C : Rows 1) (T : Rows2 1 1) : ∃ f, Fn.build [demoFloor] [demoObj] 0 = some f ∧
    ∃ J : Matrix (Fin 3) (Fin 1 ⊕ Fin 1) ℝ, f.complementJacobian (demoKin 0) C T = .ok J := by
  obtain ⟨f, hf⟩ := build_defined (fs := [demoFloor]) (os := [demoObj]) (by simp [demoFloor, square])
    (by simp [demoObj, square]) 0
  obtain ⟨v, J, -, h2, -⟩ := C83_complement_partial hf (demo_surfaces demoObj_object (by simp [demoObj])) (demoKin_moves 0)
    (demo_clear demoObj_center) (.inr (by simp [demoObj])) (by simp [demoObj, square]) demo_log C T
  exact ⟨f, hf, J, h2⟩

/-- The hypotheses of the refutation for segments are met. -/
example (C : Rows 1) (T : Rows2 1 1) : ∃ f, Fn.build [demoFloor] [demoSeg] 0 = some f ∧
    (∃ v, f.value (demoKin 0).M = .ok v) ∧ f.jacobian (demoKin 0) C T = .error .exn := by
  obtain ⟨f, hf⟩ := build_defined (fs := [demoFloor]) (os := [demoSeg]) (by simp [demoFloor, square])
    (by simp [demoSeg]) 0
  exact ⟨f, hf, C83_line_refuted hf (demo_surfaces demoSeg_object (by simp [demoSeg])) (demoKin_moves 0)
    (demo_clear demoSeg_center) (.inr (by simp [demoSeg])) rfl C T⟩

theorem demoObj_normal : demoObj.IsNormal (demoKin 0).M ![0, 0, -1] := by
  obtain ⟨m, hm, h1, hu⟩ := square_normal (demoKin 0).M
  refine ⟨-m, hm.reverse, by rw [neg_dotProduct, dotProduct_neg, neg_neg, h1], ?_⟩
  rw [demoKin_orient]
  have : m = ![0, 0, 1] := by rw [hu]; rfl
  rw [this]
  simp

/-- The turned over square on the square is in contact. -/
example : ∃ f, Fn.build [demoFloor] [demoObj] 0 = some f ∧ f.value (demoKin 0).M = .ok 0 := by
  obtain ⟨f, hf⟩ := build_defined (fs := [demoFloor]) (os := [demoObj]) (by simp [demoFloor, square])
    (by simp [demoObj, square]) 0
  refine ⟨f, hf, (C84_plane hf (demo_surfaces demoObj_object (by simp [demoObj])) ((demoKin_moves 0).rot 0) (demo_nearest _)
    (square_normal _) demoObj_normal).2 ⟨demo_above demoObj_center, ?_, by simp⟩⟩
  rw [demoObj_center]
  have : demoFloor.center (demoKin 0).M = ![1 / 2, 1 / 2, 0] := by
    unfold JShape.center
    rw [demoKin_place]
    funext i
    fin_cases i <;> simp [demoFloor, square] <;> norm_num
  rw [this, sub_self, dotProduct_zero]

theorem demoFloor_center (M : Nat → SE3 ℝ) : demoFloor.center M = ![1 / 2, 1 / 2, 0] := by
  unfold JShape.center
  change ((square.length : ℝ))⁻¹ • square.sum = _
  funext i
  fin_cases i <;> simp [square] <;> norm_num

/-- The hypotheses of the theorem for points are met. -/
example (h : ℝ) : ∃ f, Fn.build [demoFloor] [demoPt h] h = some f ∧ f.value (demoKin 0).M = .ok 0 := by
  obtain ⟨f, hf⟩ := build_defined (fs := [demoFloor]) (os := [demoPt h]) (by simp [demoFloor, square])
    (by simp [demoPt]) h
  refine ⟨f, hf, (C84_point hf (demo_surfaces (.point _) (by simp [demoPt])) ((demoKin_moves 0).rot 0) (demo_nearest _)
    (square_normal _) rfl).2 ⟨demo_above (demoPt_center h), ?_⟩⟩
  rw [demoPt_center, demoFloor_center]
  simp [dotProduct, Fin.sum_univ_three]

/-- A segment that lies in the floor, its center strictly inside: the constraint is not satisfied. -/
theorem C84_line_refuted : ∃ f : Fn, Fn.build [demoFloor] [demoSeg] 0 = some f ∧
    (∀ x ∈ segment ℝ ![0, 0, 0] ![1, 1, 0], place (demoKin 0).M demoSeg.1 x ∈ demoFloor.polygon (demoKin 0).M) ∧
    Above (demoKin 0).M demoFloor demoSeg ∧ f.value (demoKin 0).M ≠ .ok 0 := by
  obtain ⟨f, hf⟩ := build_defined (fs := [demoFloor]) (os := [demoSeg]) (by simp [demoFloor, square])
    (by simp [demoSeg]) 0
  refine ⟨f, hf, ?_, demo_above demoSeg_center, ?_⟩
  · rintro x ⟨a, b, ha, hb, hab, rfl⟩
    rw [demoKin_place]
    refine ⟨_, square_mem (a := b) (b := b) ⟨hb, by linarith⟩ ⟨hb, by linarith⟩, ?_⟩
    change ![b, b, 0] = _
    funext i
    fin_cases i <;> simp
  · intro h
    obtain ⟨w, -, -, h2, h3⟩ := C84_line_partial hf (demo_surfaces demoSeg_object (by simp [demoSeg])) ((demoKin_moves 0).rot 0)
      (demo_nearest _) (square_normal _) rfl
    have h4 := (h3.1 h).2.2
    rw [demoKin_orient] at h4
    rcases h2 with h2 | h2
    · have := h2 ![0, 0, 0] (by simp [demoSeg]) ![1, 1, 0] (by simp [demoSeg])
      simp at this
    · have := congrFun h4 2
      rw [h2] at this
      simp at this

/-- A point of an object as high as wanted above the floor is reported as in contact. -/
theorem C85_far_refuted (h nm : ℝ) (hnm : 0 < nm) (hh : nm ≤ h) : ∃ (F O : JShape) (f : Fn) (u : V3 ℝ),
    Fn.build [F] [O] 0 = some f ∧ Surfaces [F] [O] ∧ F.IsNormal (demoKin 0).M u ∧
    u ⬝ᵥ (O.center (demoKin 0).M - F.center (demoKin 0).M) = h ∧ f.contactPoints (demoKin 0).M nm ≠ [] := by
  obtain ⟨f, hf⟩ := build_defined (fs := [demoFloor]) (os := [demoPt h]) (by simp [demoFloor, square])
    (by simp [demoPt]) 0
  have hS : Surfaces [demoFloor] [demoPt h] := demo_surfaces (.point _) (by simp [demoPt])
  have hht : ![0, 0, 1] ⬝ᵥ ((demoPt h).center (demoKin 0).M - demoFloor.center (demoKin 0).M) = h := by
    rw [demoPt_center, demoFloor_center]
    simp [dotProduct, Fin.sum_univ_three]
  refine ⟨demoFloor, demoPt h, f, ![0, 0, 1], hf, hS, square_normal _, hht, fun he => ?_⟩
  obtain ⟨m, hm, h1, hu⟩ := square_normal (demoKin 0).M
  have := (C85_points hf hS ((demoKin_moves 0).rot 0) nm ⟨(demoPt h).1, (demoPt h).2, -m, demoFloor.1⟩).2
    ⟨demoFloor, by simp, demoPt h, by simp, m, hm, h1, fun y hy => (demo_above (demoPt_center h) y hy).1, by
      rw [← hu, hht]
      linarith, rfl⟩
  rw [he] at this
  simp at this

end Hpp.Contact
