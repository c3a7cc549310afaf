import Verif.Contact.LineProps

/-!
# Frames attached to a surface, closest point of a segment (C120, C121)

Source: `/repo/include/hpp/constraints/convex-shape.hh`.
-/

namespace Hpp.Contact

open Matrix Hpp.Sym Hpp.Pose Hpp.Log

/-- `v.isZero ()` (Eigen): all the coefficients are at most `1e-12` in absolute value -/
noncomputable def isZero (v : V3 ℝ) : Bool := decide (∀ i, |v i| ≤ 1e-12)

/-- `ConvexShapeData::alignedPositionInJoint` (convex-shape.hh:362-379).  For a null joint `oMj_` is the identity. -/
noncomputable def Surface.alignedPositionInJoint (s : Surface) (yaxis : V3 ℝ) : SE3 ℝ :=
  let y := actInv s.pose yaxis
  let yproj := y - (y ⬝ᵥ s.shape.N) • s.shape.N
  if isZero yproj then s.shape.positionInJoint
  else ⟨(of ![s.shape.N, y, s.shape.N ⨯₃ y])ᵀ, s.shape.C⟩

/-- `closestPointToSegment` (convex-shape.hh:51-64): the value given to `B` -/
noncomputable def closestPointToSegment (P A v : V3 ℝ) : V3 ℝ :=
  let w := A - P
  let c1 := v ⬝ᵥ w
  let c2 := v ⬝ᵥ v
  if c1 ≤ 0 then A
  else if c2 ≤ c1 then A + v
  else A + (c1 / c2) • v

/-! ### Specification -/

/-- `M` is a frame of the shape with vertices `P`: a rigid body transformation, with the centre of the vertices as origin, the
first axis normal to the shape. -/
structure IsFrame (P : List (V3 ℝ)) (M : SE3 ℝ) : Prop where
  rot : IsRot M.R
  origin : M.p = (P.length : ℝ)⁻¹ • P.sum
  normal : ∀ p ∈ P, ∀ q ∈ P, (fun i => M.R i 0) ⬝ᵥ (p - q) = 0

/-- `b` is the point of the segment from `A` to `A + v` which is the closest to `P`. -/
structure IsClosest (P A v b : V3 ℝ) : Prop where
  mem : b ∈ segment ℝ A (A + v)
  least : ∀ x ∈ segment ℝ A (A + v), edist P b ≤ edist P x

/-! ### Frames (C120) -/

theorem segment_shape {p q : V3 ℝ} (hne : p ≠ q) {s : Shape} (hs : Shape.new [p, q] = some s) :
    s.C = (1 / 2 : ℝ) • (p + q) ∧ s.N ⬝ᵥ s.N = 1 ∧ s.N ⬝ᵥ (q - p) = 0 ∧ at3 s.Us 0 = normalize (q - p) := by
  cases hs
  have hU : normalize (q - p) ⬝ᵥ normalize (q - p) = 1 := normalize_dot_self (sub_ne_zero.2 (Ne.symm hne))
  have hqp : q - p = norm3 (q - p) • normalize (q - p) := (smul_normalize _).symm
  set U := normalize (q - p) with hUd
  set w : V3 ℝ := if U 0 ≠ 0 then ![-U 1, U 0, 0] else ![0, -U 2, U 1] with hw
  have hw0 : w ≠ 0 := by
    intro h0
    by_cases hz : U 0 = 0
    · rw [hw, if_neg (not_not.2 hz)] at h0
      have h1 := congrFun h0 1
      have h2 := congrFun h0 2
      simp at h1 h2
      simp [dotProduct, Fin.sum_univ_three, hz, h1, h2] at hU
    · rw [hw, if_pos hz] at h0
      have h1 := congrFun h0 1
      exact hz (by simpa using h1)
  have hwU : w ⬝ᵥ U = 0 := by
    rw [hw]
    split <;> (simp [dotProduct, Fin.sum_univ_three]; ring)
  have hN : normalize w ⬝ᵥ normalize w = 1 := normalize_dot_self hw0
  have hNU : normalize w ⬝ᵥ U = 0 := by
    unfold normalize
    rw [if_pos (dot_self_pos hw0), smul_dotProduct, hwU, smul_zero]
  refine ⟨rfl, hN, ?_, rfl⟩
  change normalize w ⬝ᵥ (q - p) = 0
  rw [hqp, dotProduct_smul, hNU, smul_zero]

theorem normalize_pos {v : V3 ℝ} (h : v ≠ 0) : ∃ k : ℝ, 0 < k ∧ normalize v = k • v :=
  ⟨(norm3 v)⁻¹, inv_pos.2 (norm3_pos h), by unfold normalize; rw [if_pos (dot_self_pos h)]⟩

/-- The frame of a point, of a segment or of a convex polygon is a rigid body transformation with the centre of the vertices as
origin; its first axis is normal to the shape, its third axis is directed by the first edge, and, for a polygon, its second axis
points out of the polygon through the first edge. -/
theorem C120_frame {P : List (V3 ℝ)} (hP : IsObject P) {s : Shape} (hs : Shape.new P = some s) :
    IsFrame P s.positionInJoint ∧
    (∀ p q, P[0]? = some p → P[1]? = some q → ∃ k : ℝ, 0 < k ∧ (fun i => s.positionInJoint.R i 2) = k • (q - p)) ∧
    (IsConvexPolygon P → ∀ p, P[0]? = some p → ∀ x ∈ region P, (fun i => s.positionInJoint.R i 1) ⬝ᵥ (x - p) ≤ 0) := by
  have hrot := object_frame hP hs
  have hpoly : IsConvexPolygon P → ∀ p, P[0]? = some p → ∀ x ∈ region P,
      (fun i => s.positionInJoint.R i 1) ⬝ᵥ (x - p) ≤ 0 := by
    rintro ⟨m, hm⟩ p hp x hx
    obtain ⟨-, -, -, g⟩ := hm.geo hs
    have h0 : 0 < P.length := by have := g.three; omega
    rw [g.region_eq rfl] at hx
    have := hx.1 0 h0
    rw [at3_some h0] at hp
    cases hp
    exact this
  cases hP with
  | point p =>
    cases hs
    refine ⟨⟨hrot, ?_, ?_⟩, ?_, hpoly⟩
    · simp [Shape.positionInJoint]
    · intro x hx y hy
      rw [List.mem_singleton] at hx hy
      rw [hx, hy, sub_self, dotProduct_zero]
    · intro x y _ hy
      cases hy
  | segment p q hne =>
    obtain ⟨h1, h2, h3, h4⟩ := segment_shape hne hs
    refine ⟨⟨hrot, ?_, ?_⟩, ?_, hpoly⟩
    · change s.C = _
      rw [h1]
      simp
    · intro x hx y hy
      change s.N ⬝ᵥ (x - y) = 0
      simp only [List.mem_cons, List.not_mem_nil, or_false] at hx hy
      rcases hx with rfl | rfl <;> rcases hy with rfl | rfl
      · simp
      · rw [← neg_sub, dotProduct_neg, h3, neg_zero]
      · exact h3
      · simp
    · intro x y hx hy
      cases hx
      cases hy
      obtain ⟨k, hk, e⟩ := normalize_pos (sub_ne_zero.2 (Ne.symm hne))
      exact ⟨k, hk, by rw [← e, ← h4]; rfl⟩
  | polygon P hP =>
    obtain ⟨m, hm⟩ := hP
    obtain ⟨-, hC, -, g⟩ := hm.geo hs
    have h3 := g.three
    have h0 : 0 < P.length := by omega
    refine ⟨⟨hrot, hC, fun p hp q hq => g.normal_diff p hp q hq⟩, ?_, hpoly⟩
    intro p q hp hq
    rw [at3_some h0] at hp
    rw [at3_some (by omega)] at hq
    cases hp
    cases hq
    have e1 : (0 + 1) % P.length = 1 := Nat.mod_eq_of_lt (by omega)
    have hst := g.step 0 h0
    have hl := g.len 0 h0
    rw [e1] at hst
    refine ⟨_, inv_pos.2 hl, ?_⟩
    rw [hst, add_sub_cancel_left, smul_smul, inv_mul_cancel₀ hl.ne', one_smul]
    rfl

theorem act_zero_sub (M : Option (SE3 ℝ)) (y : V3 ℝ) (hM : ∀ A, M = some A → IsRot A.R) :
    rotate M (actInv M y) = y - act M 0 := by
  cases M with
  | none => simp [rotate, actInv, act]
  | some A =>
    have h : A.R * A.Rᵀ = 1 := mul_eq_one_comm.1 (hM A rfl).1
    simp [rotate, actInv, act, mulVec_mulVec, h]

theorem aligned_else {s : Surface} {y : V3 ℝ}
    (h : isZero (actInv s.pose y - (actInv s.pose y ⬝ᵥ s.shape.N) • s.shape.N) = false) :
    s.alignedPositionInJoint y =
      ⟨(of ![s.shape.N, actInv s.pose y, s.shape.N ⨯₃ actInv s.pose y])ᵀ, s.shape.C⟩ := by
  unfold Surface.alignedPositionInJoint
  dsimp only
  rw [if_neg (by rw [h]; exact Bool.false_ne_true)]

theorem aligned_rot {N y : V3 ℝ} (hN : N ⬝ᵥ N = 1) :
    IsRot ((of ![N, y, N ⨯₃ y] : M3 ℝ)ᵀ) ↔ y ⬝ᵥ y = 1 ∧ N ⬝ᵥ y = 0 := by
  constructor
  · rintro ⟨h, -⟩
    exact ⟨congrFun (congrFun h 1) 1, congrFun (congrFun h 0) 1⟩
  · rintro ⟨hy, hNy⟩
    refine frame_rot ?_ hN (dot_self_cross N y) ?_
    · rw [cross_dot_cross, hN, hy, hNy, dotProduct_comm y, hNy]; ring
    · have e : (N ⨯₃ y) ⨯₃ N = (N ⬝ᵥ N) • y - (N ⬝ᵥ y) • N := by
        simp only [cross_apply]
        funext i
        fin_cases i <;> simp [dotProduct, Fin.sum_univ_three] <;> ring
      rw [e, hN, hNy, one_smul, zero_smul, sub_zero]

theorem objectShape_normal {P : List (V3 ℝ)} (hP : IsObject P) {s : Shape} (hs : Shape.new P = some s) : s.N ⬝ᵥ s.N = 1 := by
  have h := (object_frame hP hs).1
  exact congrFun (congrFun h 0) 0

/-- Unless the vector given is (nearly) taken as normal to the surface, the aligned frame is a rigid body transformation exactly if
the vector, *as a point*, is at distance 1 of the origin of the joint and in the plane through it parallel to the surface. -/
theorem C120_aligned_rigid {P : List (V3 ℝ)} (hP : IsObject P) {f : Surface} (hs : Shape.new P = some f.shape)
    (hM : ∀ A, f.pose = some A → IsRot A.R) (y : V3 ℝ)
    (h : isZero (actInv f.pose y - (actInv f.pose y ⬝ᵥ f.shape.N) • f.shape.N) = false) :
    IsRot (f.alignedPositionInJoint y).R ↔ edist y (act f.pose 0) = 1 ∧ f.normal ⬝ᵥ (y - act f.pose 0) = 0 := by
  rw [aligned_else h]
  dsimp only
  rw [aligned_rot (objectShape_normal hP hs)]
  unfold edist Surface.normal
  rw [← act_zero_sub f.pose y hM, rotate_dot hM, rotate_dot hM, Real.sqrt_eq_one]

/-- Aligned frame when the origin of the joint is the origin of the world: for a unit vector parallel to the surface, a frame
of the surface with this vector as second axis; for a vector normal to the surface, the frame of the surface.
Missing: other vectors and joints (`C120_aligned_refuted`, `C120_aligned_origin_refuted`). -/
theorem C120_aligned_partial {P : List (V3 ℝ)} (hP : IsObject P) {f : Surface} (hs : Shape.new P = some f.shape)
    (hM : ∀ A, f.pose = some A → IsRot A.R) (h0 : act f.pose 0 = 0) (y : V3 ℝ) :
    (y ⬝ᵥ y = 1 → f.normal ⬝ᵥ y = 0 → IsFrame P (f.alignedPositionInJoint y) ∧
      rotate f.pose (fun i => (f.alignedPositionInJoint y).R i 0) = f.normal ∧
      rotate f.pose (fun i => (f.alignedPositionInJoint y).R i 1) = y) ∧
    (∀ k : ℝ, y = k • f.normal → f.alignedPositionInJoint y = f.shape.positionInJoint) := by
  have hN := objectShape_normal hP hs
  obtain ⟨hfr, -, -⟩ := C120_frame hP hs
  have hrot := act_zero_sub f.pose y hM
  rw [h0, sub_zero] at hrot
  have hny : f.normal ⬝ᵥ y = f.shape.N ⬝ᵥ actInv f.pose y := by
    unfold Surface.normal
    conv_lhs => rw [← hrot]
    exact rotate_dot hM _ _
  have hyy : y ⬝ᵥ y = actInv f.pose y ⬝ᵥ actInv f.pose y := by
    conv_lhs => rw [← hrot]
    exact rotate_dot hM _ _
  constructor
  · intro h1 h2
    rw [hny] at h2
    rw [hyy] at h1
    have hz : isZero (actInv f.pose y - (actInv f.pose y ⬝ᵥ f.shape.N) • f.shape.N) = false := by
      rw [dotProduct_comm, h2, zero_smul, sub_zero]
      unfold isZero
      rw [decide_eq_false_iff_not]
      intro hle
      simp only [dotProduct, Fin.sum_univ_three] at h1
      have a0 := sq_le_sq' (abs_le.1 (hle 0)).1 (abs_le.1 (hle 0)).2
      have a1 := sq_le_sq' (abs_le.1 (hle 1)).1 (abs_le.1 (hle 1)).2
      have a2 := sq_le_sq' (abs_le.1 (hle 2)).1 (abs_le.1 (hle 2)).2
      norm_num at a0 a1 a2
      nlinarith
    have e := aligned_else hz
    rw [e]
    refine ⟨⟨(aligned_rot hN).2 ⟨h1, h2⟩, hfr.origin, hfr.normal⟩, rfl, hrot⟩
  · intro k hk
    unfold Surface.alignedPositionInJoint
    dsimp only
    rw [if_pos]
    have e : actInv f.pose y = k • f.shape.N := by
      have h3 : rotate f.pose (actInv f.pose y) = rotate f.pose (k • f.shape.N) := by
        rw [hrot, hk]
        unfold Surface.normal
        cases f.pose with
        | none => rfl
        | some A => simp [rotate, mulVec_smul]
      cases hp : f.pose with
      | none => rw [hp] at h3; exact h3
      | some A =>
        rw [hp] at h3
        have h4 := congrArg (fun x => A.Rᵀ *ᵥ x) h3
        simpa [rotate, mulVec_mulVec, (hM A hp).1] using h4
    rw [e, smul_dotProduct, hN]
    simp [isZero]
    positivity

theorem squareShape_normal {s : Shape} (hs : Shape.new square = some s) : s.N 0 = 0 ∧ s.N 1 = 0 ∧ s.N 2 * s.N 2 = 1 := by
  obtain ⟨m, hm⟩ := square_convex
  obtain ⟨-, -, -, g⟩ := hm.geo hs
  have d1 := g.normal_diff ![1, 0, 0] (by simp [square]) ![0, 0, 0] (by simp [square])
  have d2 := g.normal_diff ![0, 1, 0] (by simp [square]) ![0, 0, 0] (by simp [square])
  have d3 := g.NN
  simp [dotProduct, Fin.sum_univ_three] at d1 d2 d3
  rw [d1, d2] at d3
  exact ⟨d1, d2, by simpa using d3⟩

/-- The second axis is the vector itself and not its projection on the plane: for a surface fixed in the world and a slanted unit
vector, the result is not a rigid body transformation. -/
theorem C120_aligned_refuted : ∃ (f : Surface) (y : V3 ℝ), f.Valid ∧ f.pose = none ∧ y ⬝ᵥ y = 1 ∧
    ¬ IsRot (f.alignedPositionInJoint y).R := by
  have hs : ∃ s, Shape.new square = some s := ⟨_, rfl⟩
  obtain ⟨s, hs⟩ := hs
  obtain ⟨n0, n1, n2⟩ := squareShape_normal hs
  refine ⟨⟨s, none⟩, ![3 / 5, 0, 4 / 5], ⟨⟨square, square_convex, hs⟩, fun M h => by cases h⟩, rfl, ?_, ?_⟩
  · simp [dotProduct, Fin.sum_univ_three]; norm_num
  · rw [C120_aligned_rigid (.polygon _ square_convex) hs (fun M h => by cases h)]
    · rintro ⟨-, h⟩
      simp [Surface.normal, rotate, act, dotProduct, Fin.sum_univ_three, n0] at h
      rw [h] at n2
      simp at n2
    · unfold isZero
      rw [decide_eq_false_iff_not]
      intro h
      have := h 0
      simp [actInv, dotProduct, Fin.sum_univ_three, n0] at this
      norm_num [abs_of_pos] at this

/-- The vector is moved as a point by the pose of the joint: with a joint that is only translated, the result may be a rigid body
transformation the second axis of which is orthogonal to the vector. -/
theorem C120_aligned_origin_refuted : ∃ (f : Surface) (y : V3 ℝ) (p : V3 ℝ), f.Valid ∧ f.pose = some ⟨1, p⟩ ∧ y ⬝ᵥ y = 1 ∧
    f.normal ⬝ᵥ y = 0 ∧ IsRot (f.alignedPositionInJoint y).R ∧ (fun i => (f.alignedPositionInJoint y).R i 1) ⬝ᵥ y = 0 := by
  have hs : ∃ s, Shape.new square = some s := ⟨_, rfl⟩
  obtain ⟨s, hs⟩ := hs
  obtain ⟨n0, n1, n2⟩ := squareShape_normal hs
  have hA : ∀ A, some (⟨1, ![1, -1, 0]⟩ : SE3 ℝ) = some A → IsRot A.R := by
    intro A h
    cases h
    exact one_isRot
  have hz : isZero (actInv (some (⟨1, ![1, -1, 0]⟩ : SE3 ℝ)) ![1, 0, 0] -
      (actInv (some (⟨1, ![1, -1, 0]⟩ : SE3 ℝ)) ![1, 0, 0] ⬝ᵥ s.N) • s.N) = false := by
    unfold isZero
    rw [decide_eq_false_iff_not]
    intro h
    have := h 1
    simp [actInv, dotProduct, Fin.sum_univ_three, n1] at this
    norm_num at this
  refine ⟨⟨s, some ⟨1, ![1, -1, 0]⟩⟩, ![1, 0, 0], ![1, -1, 0], ⟨⟨square, square_convex, hs⟩, hA⟩, rfl, ?_, ?_, ?_, ?_⟩
  · simp [dotProduct, Fin.sum_univ_three]
  · simp [Surface.normal, rotate, dotProduct, Fin.sum_univ_three, n0]
  · rw [C120_aligned_rigid (.polygon _ square_convex) hs hA _ hz]
    constructor
    · simp [edist, act, dotProduct, Fin.sum_univ_three]
    · simp [Surface.normal, rotate, act, dotProduct, Fin.sum_univ_three, n1]
  · have e := aligned_else (s := ⟨s, some ⟨1, ![1, -1, 0]⟩⟩) (y := ![1, 0, 0]) hz
    rw [e]
    simp [actInv, dotProduct, Fin.sum_univ_three]

/-- A segment, and a square with a unit vector of its plane -/
example : IsObject [(![0, 0, 0] : V3 ℝ), ![0, 0, 2]] ∧ ∃ f : Surface, Shape.new square = some f.shape ∧
    act f.pose 0 = 0 ∧ f.normal ⬝ᵥ ![3 / 5, 4 / 5, 0] = 0 ∧ (![3 / 5, 4 / 5, 0] : V3 ℝ) ⬝ᵥ ![3 / 5, 4 / 5, 0] = 1 := by
  refine ⟨.segment _ _ ?_, ?_⟩
  · intro h
    have := congrFun h 2
    simp at this
  · obtain ⟨s, hs⟩ : ∃ s, Shape.new square = some s := ⟨_, rfl⟩
    obtain ⟨n0, n1, n2⟩ := squareShape_normal hs
    refine ⟨⟨s, none⟩, hs, rfl, ?_, ?_⟩
    · simp [Surface.normal, rotate, dotProduct, Fin.sum_univ_three, n0, n1]
    · simp [dotProduct, Fin.sum_univ_three]; norm_num

/-! ### Closest point of a segment (C121) -/

theorem edist_line (P A v : V3 ℝ) (s : ℝ) :
    edist P (A + s • v) = √((P - A) ⬝ᵥ (P - A) + (s ^ 2 * (v ⬝ᵥ v) - 2 * s * (v ⬝ᵥ (P - A)))) := by
  unfold edist
  congr 1
  simp [dotProduct, Fin.sum_univ_three]
  ring

theorem closest_iff (P A v : V3 ℝ) {s : ℝ} (h0 : 0 ≤ s) (h1 : s ≤ 1) :
    IsClosest P A v (A + s • v) ↔ ∀ r : ℝ, 0 ≤ r → r ≤ 1 →
      s ^ 2 * (v ⬝ᵥ v) - 2 * s * (v ⬝ᵥ (P - A)) ≤ r ^ 2 * (v ⬝ᵥ v) - 2 * r * (v ⬝ᵥ (P - A)) := by
  have hseg : ∀ x, x ∈ segment ℝ A (A + v) ↔ ∃ r : ℝ, (0 ≤ r ∧ r ≤ 1) ∧ A + r • v = x := by
    intro x
    rw [segment_eq_image']
    simp
  have hn : ∀ r : ℝ, 0 ≤ (P - A) ⬝ᵥ (P - A) + (r ^ 2 * (v ⬝ᵥ v) - 2 * r * (v ⬝ᵥ (P - A))) := by
    intro r
    have e : (P - A) ⬝ᵥ (P - A) + (r ^ 2 * (v ⬝ᵥ v) - 2 * r * (v ⬝ᵥ (P - A))) = (P - (A + r • v)) ⬝ᵥ (P - (A + r • v)) := by
      simp [dotProduct, Fin.sum_univ_three]
      ring
    rw [e]
    exact dot_self_nonneg _
  constructor
  · intro h r hr0 hr1
    have h2 := h.least (A + r • v) ((hseg _).2 ⟨r, ⟨hr0, hr1⟩, rfl⟩)
    rw [edist_line, edist_line, Real.sqrt_le_sqrt_iff (hn r)] at h2
    linarith
  · intro h
    refine ⟨(hseg _).2 ⟨s, ⟨h0, h1⟩, rfl⟩, fun x hx => ?_⟩
    obtain ⟨r, ⟨hr0, hr1⟩, rfl⟩ := (hseg x).1 hx
    rw [edist_line, edist_line]
    exact Real.sqrt_le_sqrt (by have := h r hr0 hr1; linarith)

/-- The parameter on the segment -/
theorem closest_param (P A v : V3 ℝ) : ∃ s : ℝ, 0 ≤ s ∧ s ≤ 1 ∧ closestPointToSegment P A v = A + s • v ∧
    (v ⬝ᵥ (A - P) ≤ 0 → s = 0) ∧ (0 < v ⬝ᵥ (A - P) → v ⬝ᵥ v ≤ v ⬝ᵥ (A - P) → s = 1) ∧
    (0 < v ⬝ᵥ (A - P) → v ⬝ᵥ (A - P) < v ⬝ᵥ v → s * (v ⬝ᵥ v) = v ⬝ᵥ (A - P)) := by
  unfold closestPointToSegment
  dsimp only
  by_cases h1 : v ⬝ᵥ (A - P) ≤ 0
  · rw [if_pos h1]
    exact ⟨0, le_refl _, zero_le_one, by simp, fun _ => rfl, fun h => absurd h1 (not_le.2 h), fun h => absurd h1 (not_le.2 h)⟩
  · rw [if_neg h1]
    have h1' := not_le.1 h1
    by_cases h2 : v ⬝ᵥ v ≤ v ⬝ᵥ (A - P)
    · rw [if_pos h2]
      exact ⟨1, zero_le_one, le_refl _, by simp, fun h => absurd h h1, fun _ _ => rfl, fun _ h => absurd h2 (not_le.2 h)⟩
    · rw [if_neg h2]
      have h2' := not_le.1 h2
      have h3 : 0 < v ⬝ᵥ v := h1'.trans h2'
      exact ⟨_, by positivity, (div_le_one h3).2 h2'.le, rfl, fun h => absurd h h1, fun _ h => absurd h h2,
        fun _ _ => div_mul_cancel₀ _ h3.ne'⟩

/-- What is computed: the point of the segment which is the closest to the point symmetric to `P` with respect to the first end of
the segment.  Missing: the closest point to `P` (`C121_closest_iff`, `C121_closest_refuted`). -/
theorem C121_mirror_partial (P A v : V3 ℝ) : IsClosest ((2 : ℝ) • A - P) A v (closestPointToSegment P A v) := by
  obtain ⟨s, h0, h1, e, c1, c2, c3⟩ := closest_param P A v
  have hv := dot_self_nonneg v
  rw [e, closest_iff _ _ _ h0 h1]
  have e2 : (2 : ℝ) • A - P - A = A - P := by
    rw [two_smul]; abel
  intro r hr0 hr1
  rw [e2]
  rcases le_or_gt (v ⬝ᵥ (A - P)) 0 with h | h
  · rw [c1 h]
    nlinarith [mul_nonneg (sq_nonneg r) hv, mul_nonneg hr0 (neg_nonneg.2 h)]
  · rcases le_or_gt (v ⬝ᵥ v) (v ⬝ᵥ (A - P)) with h' | h'
    · rw [c2 h h']
      nlinarith [mul_nonneg (sub_nonneg.2 hr1) (sub_nonneg.2 h'), mul_nonneg (mul_nonneg (sub_nonneg.2 hr1) (sub_nonneg.2 hr1)) hv]
    · rw [← c3 h h']
      nlinarith [mul_nonneg (sq_nonneg (r - s)) hv]

/-- The result is the closest point to `P` only if `P` projects onto the first end of the segment. -/
theorem C121_closest_iff (P A v : V3 ℝ) : IsClosest P A v (closestPointToSegment P A v) ↔ v ⬝ᵥ (P - A) = 0 := by
  obtain ⟨s, h0, h1, e, c1, c2, c3⟩ := closest_param P A v
  have hv := dot_self_nonneg v
  have en : v ⬝ᵥ (A - P) = -(v ⬝ᵥ (P - A)) := by rw [← neg_sub, dotProduct_neg]
  rw [e, closest_iff _ _ _ h0 h1]
  rw [en] at c1 c2 c3
  set t := v ⬝ᵥ (P - A)
  constructor
  · intro h
    by_contra hne
    rcases lt_or_gt_of_ne hne with ht | ht
    · have h2 := h 0 (le_refl _) zero_le_one
      rcases le_or_gt (v ⬝ᵥ v) (-t) with h' | h'
      · rw [c2 (by linarith) h'] at h2
        nlinarith
      · have h3 := c3 (by linarith) h'
        have hs : 0 < s := by
          rcases h0.lt_or_eq with h4 | h4
          · exact h4
          · rw [← h4] at h3; linarith
        nlinarith [mul_pos hs (neg_pos.2 ht)]
    · rw [c1 (by linarith)] at h
      have hd : 0 < v ⬝ᵥ v + t := by linarith
      have h2 := h (t / (v ⬝ᵥ v + t)) (by positivity) ((div_le_one hd).2 (by linarith))
      set r := t / (v ⬝ᵥ v + t) with hr
      have hr0 : 0 < r := by positivity
      have h3 : r * (v ⬝ᵥ v + t) = t := div_mul_cancel₀ _ hd.ne'
      nlinarith [mul_pos hr0 ht]
  · intro ht r hr0 hr1
    rw [ht] at c1 ⊢
    rw [c1 (by linarith)]
    nlinarith [mul_nonneg (sq_nonneg r) hv]

/-- The middle of a segment is on the segment, but the first end is returned. -/
theorem C121_closest_refuted : ∃ P A v : V3 ℝ, P ∈ segment ℝ A (A + v) ∧ closestPointToSegment P A v = A ∧ P ≠ A ∧
    ¬ IsClosest P A v (closestPointToSegment P A v) := by
  refine ⟨![1, 0, 0], ![0, 0, 0], ![2, 0, 0], ?_, ?_, ?_, ?_⟩
  · rw [segment_eq_image']
    refine ⟨1 / 2, ⟨by norm_num, by norm_num⟩, ?_⟩
    funext i; fin_cases i <;> simp
  · unfold closestPointToSegment
    dsimp only
    rw [if_pos]
    simp [dotProduct, Fin.sum_univ_three]
  · intro h
    have := congrFun h 0
    simp at this
  · rw [C121_closest_iff]
    simp [dotProduct, Fin.sum_univ_three]

/-- A point for which the result is right, and not an end of a degenerate segment -/
example : IsClosest ![0, 3, 0] ![0, 0, 0] ![2, 0, 0] (closestPointToSegment ![0, 3, 0] ![0, 0, 0] ![2, 0, 0]) := by
  rw [C121_closest_iff]
  simp [dotProduct, Fin.sum_univ_three]

end Hpp.Contact
