import Verif.Contact.ShapeLemmas

/-!
# Properties of convex shapes (C53)
-/

namespace Hpp.Contact

open Matrix Hpp.Sym Hpp.Pose

/-- For every list of at least three points (convex or not, planar or not) and every point of space: inside if and only if the
signed distance is not positive. -/
theorem C53_inside_iff_distance {P : List (V3 ℝ)} (hP : 3 ≤ P.length) {s : Shape} (hs : Shape.new P = some s) (a : V3 ℝ) :
    ∃ d, s.distanceLocal a = some d ∧ (s.isInsideLocal a = true ↔ d ≤ 0) := by
  unfold Shape.new at hs
  rw [new_polygon hP] at hs
  cases hs
  obtain ⟨d, h1, ⟨i0, hi0, h2⟩, h3⟩ := distanceLocal_spec (s := ⟨P, _, _, _, _, _⟩) (by
    rintro rfl
    simp at hP) a
  refine ⟨d, h1, ?_⟩
  have hsign : ∀ i, i < P.length → _ := fun i (hi : i < P.length) =>
    distEdge_pos (w := a - at3 P i) (c2 := ((List.range P.length).map fun i =>
      norm3 (at3 P ((i + 1) % P.length) - at3 P i)).getD i 0)
    (v := at3 ((List.range P.length).map fun i => normalize (at3 P ((i + 1) % P.length) - at3 P i)) i)
    (u := at3 ((List.range P.length).map fun i => normalize (normalize (at3 P ((i + 1) % P.length) - at3 P i) ⨯₃
        normalize ((at3 P 1 - at3 P 0) ⨯₃ (at3 P 2 - at3 P 1)))) i) (by
      rw [at3_map hi, at3_map hi]
      generalize normalize (at3 P ((i + 1) % P.length) - at3 P i) = u
      generalize normalize ((at3 P 1 - at3 P 0) ⨯₃ (at3 P 2 - at3 P 1)) = n
      unfold normalize
      split
      · rw [smul_dotProduct, dotProduct_comm, dot_self_cross, smul_zero]
      · rw [dotProduct_comm, dot_self_cross])
  dsimp only at h1 h2 h3
  simp only [Shape.isInsideLocal, List.all_eq_true, List.mem_range, decide_eq_true_eq]
  constructor
  · intro h
    rw [h2]
    exact not_lt.1 fun hlt => h i0 hi0 ((hsign i0 hi0).1 hlt)
  · intro hd i hi hlt
    rcases h3 with ⟨h4, -⟩ | ⟨-, h5⟩
    · linarith
    · have := h5 i hi
      have := (hsign i hi).2 hlt
      linarith

/-- The inside test decides membership to the polygon. -/
theorem C53_inside_polygon {P : List (V3 ℝ)} (hP : IsConvexPolygon P) {s : Shape} (hs : Shape.new P = some s) {a : V3 ℝ}
    (ha : InPlane P a) : s.isInsideLocal a = true ↔ a ∈ region P := by
  obtain ⟨m, hm⟩ := hP
  obtain ⟨h1, -, -, g⟩ := hm.geo hs
  rw [g.region_eq rfl]
  have hpl : ∀ i, i < P.length → s.N ⬝ᵥ (a - at3 P i) = 0 := fun i hi => ha s.N (by
    intro p hp q hq
    obtain ⟨k, hk, rfl⟩ := List.mem_iff_getElem.1 hp
    obtain ⟨l, hl, rfl⟩ := List.mem_iff_getElem.1 hq
    have := g.plane k l hk hl
    simpa [at3, hk, hl] using this) _ (at3_mem hi)
  simp only [Shape.isInsideLocal, List.all_eq_true, List.mem_range, decide_eq_true_eq, h1, not_lt, Set.mem_ofPred_eq]
  exact ⟨fun h => ⟨h, hpl⟩, fun h => h.1⟩

/-- In the plane of the polygon the signed distance is, up to sign, the distance to the boundary. -/
theorem C53_distance {P : List (V3 ℝ)} (hP : IsConvexPolygon P) {s : Shape} (hs : Shape.new P = some s) {a : V3 ℝ}
    (ha : InPlane P a) :
    ∃ d, s.distanceLocal a = some d ∧ IsLeast { r | ∃ x ∈ boundary P, r = edist a x } |d| ∧ (d ≤ 0 ↔ a ∈ region P) := by
  have hin := C53_inside_polygon hP hs ha
  obtain ⟨m, hm⟩ := hP
  obtain ⟨d0, hd0, hd1⟩ := C53_inside_iff_distance hm.three hs a
  refine ⟨d0, hd0, ?_, hd1.symm.trans hin⟩
  obtain ⟨h1, -, -, g⟩ := hm.geo hs
  have hpl : ∀ i, i < P.length → s.N ⬝ᵥ (a - at3 P i) = 0 := fun i hi => ha s.N (by
    intro p hp q hq
    obtain ⟨k, hk, rfl⟩ := List.mem_iff_getElem.1 hp
    obtain ⟨l, hl, rfl⟩ := List.mem_iff_getElem.1 hq
    have := g.plane k l hk hl
    simpa [at3, hk, hl] using this) _ (at3_mem hi)
  obtain ⟨d, k1, ⟨i0, hi0, k2⟩, k3⟩ := distanceLocal_spec (s := s) (by
    rw [h1]
    rintro rfl
    have := hm.three
    simp at this) a
  rw [hd0] at k1
  cases k1
  rw [h1] at hi0 k2 k3
  have habs := fun i (hi : i < P.length) => distEdge_abs (c2 := s.Ls.getD i 0) (g.UU i hi) g.NN (g.NU i hi) (hpl i hi) (g.len i hi).le
  have hpos := fun i (hi : i < P.length) => distEdge_pos (w := a - at3 P i) (c2 := s.Ls.getD i 0) (g.EU hi)
  have hsub : ∀ (i : Nat) (c : ℝ), a - at3 P i - c • at3 s.Us i = a - (at3 P i + c • at3 s.Us i) := by
    intro i c
    abel
  constructor
  · obtain ⟨⟨c, hc0, hcL, hc⟩, -⟩ := habs i0 hi0
    refine ⟨at3 P i0 + c • at3 s.Us i0, (g.boundary_iff rfl _).2 ⟨i0, c, hi0, hc0, hcL, rfl⟩, ?_⟩
    rw [edist_eq, ← hsub, ← hc, k2, g.E_def i0 hi0]
  · rintro r ⟨x, hx, rfl⟩
    obtain ⟨i, c, hi, hc0, hcL, rfl⟩ := (g.boundary_iff rfl _).1 hx
    rw [edist_eq]
    rcases k3 with ⟨hdp, hmin⟩ | ⟨hdn, hmax⟩
    · -- outside
      obtain ⟨j, c', hj, hjp, hc0', hcL', hle⟩ := g.nearer (g.edge_half hi hc0 hcL) (fun k hk => g.edge_plane hi hk c) hpl hi0 (by
        rw [k2] at hdp
        exact (hpos i0 hi0).1 hdp)
      refine le_trans ?_ hle
      rw [abs_of_pos hdp, ← hsub]
      refine le_trans (hmin j hj ((hpos j hj).2 hjp)) ?_
      rw [g.E_def j hj]
      exact le_trans (le_abs_self _) ((habs j hj).2 c' hc0' hcL')
    · rw [abs_of_nonpos hdn, ← hsub]
      have h2 := hmax i hi
      have h3 := (habs i hi).2 c hc0 hcL
      rw [← g.E_def i hi] at h3
      exact le_trans (by linarith) (le_trans (neg_le_abs _) h3)

/-- Reversing a convex polygon keeps its points, its center and the polygon, and flips the normal. -/
theorem C53_reverse_partial {P : List (V3 ℝ)} (hP : IsConvexPolygon P) {s : Shape} (hs : Shape.new P = some s) :
    ∃ s', s.reverse = some s' ∧ s'.Pts = P.reverse ∧ s'.N = -s.N ∧ s'.C = s.C ∧
      (∀ a, InPlane P a → s'.isInsideLocal a = s.isInsideLocal a) := by
  have hP' := hP
  obtain ⟨m, hm⟩ := hP
  have hm' := hm.reverse
  obtain ⟨h1, h2, h3, -⟩ := hm.geo hs
  have hr : ∃ s', s.reverse = some s' ∧ Shape.new P.reverse = some s' := by
    refine ⟨_, ?_, new_polygon hm'.three [] []⟩
    unfold Shape.reverse
    rw [h1]
    exact new_polygon hm'.three _ _
  obtain ⟨s', hs', hn'⟩ := hr
  obtain ⟨k1, k2, k3, -⟩ := hm'.geo hn'
  refine ⟨s', hs', k1, ?_, ?_, ?_⟩
  · rw [k3, h3, normalize_neg]
  · rw [k2, h2, List.length_reverse, List.sum_reverse]
  · intro a ha
    have i1 := C53_inside_polygon hP' hs ha
    have i2 := C53_inside_polygon ⟨_, hm'⟩ hn' (a := a) (by
      intro m0 h0 p hp
      exact ha m0 (fun p hp q hq => h0 p (List.mem_reverse.2 hp) q (List.mem_reverse.2 hq)) p (List.mem_reverse.1 hp))
    have e : region P.reverse = region P := by
      unfold region
      simp
    rw [e, ← i1] at i2
    exact Bool.eq_iff_iff.2 i2

/-- Shapes of one point and of two points keep their normal when they are reversed. -/
theorem C53_reverse_refuted :
    (∀ (p : V3 ℝ), ∃ s s', Shape.new [p] = some s ∧ s.reverse = some s' ∧ s'.N = s.N ∧ s.N ≠ 0) ∧
    (∀ (p q : V3 ℝ), p 0 ≠ q 0 → ∃ s s', Shape.new [p, q] = some s ∧ s.reverse = some s' ∧ s'.N = s.N ∧ s.N ≠ 0) := by
  constructor
  · intro p
    refine ⟨_, _, rfl, rfl, rfl, fun h => ?_⟩
    have := congrFun h 0
    norm_num at this
  · intro p q hpq
    have hne : q - p ≠ 0 := by
      intro h
      have := congrFun h 0
      simp only [Pi.sub_apply, Pi.zero_apply] at this
      exact hpq (by linarith)
    have hU := normalize_dot_self hne
    refine ⟨_, _, rfl, rfl, ?_, ?_⟩
    · simp only [at3, List.nil_append, List.set_cons_zero, List.cons_append, List.getD_cons_zero]
      rw [normalize_unit hU]
    · simp only [at3, List.nil_append, List.getD_cons_zero]
      have h0 : normalize (q - p) 0 ≠ 0 := by
        unfold normalize
        rw [if_pos (dot_self_pos hne)]
        have := norm3_pos hne
        simp only [Pi.smul_apply, Pi.sub_apply, smul_eq_mul]
        refine mul_ne_zero (inv_ne_zero this.ne') ?_
        intro h
        exact hpq (by linarith)
      rw [if_pos h0]
      have hv : (![-(normalize (q - p) 1), normalize (q - p) 0, 0] : V3 ℝ) ≠ 0 := by
        intro h
        have := congrFun h 1
        exact h0 (by simpa using this)
      intro h
      have := normalize_dot_self hv
      rw [h] at this
      simp at this

/-! ### Example: the unit square -/

def square : List (V3 ℝ) := [![0, 0, 0], ![1, 0, 0], ![1, 1, 0], ![0, 1, 0]]

theorem square_convex : IsConvexPolygon square := by
  refine ⟨![0, 0, 1], by decide, ?_, ?_⟩
  · intro p hp q hq
    simp only [square, List.mem_cons, List.not_mem_nil, or_false] at hp hq
    rcases hp with rfl | rfl | rfl | rfl <;> rcases hq with rfl | rfl | rfl | rfl <;>
      simp [dotProduct, Fin.sum_univ_three]
  · intro i j k hj hi hk h1 h2 p q r hp hq hr
    simp only [square, List.length_cons, List.length_nil] at hj hi hk
    subst hj
    have h5 : i = 0 ∨ i = 1 ∨ i = 2 ∨ i = 3 := by omega
    have h6 : k = 0 ∨ k = 1 ∨ k = 2 ∨ k = 3 := by omega
    rcases h5 with rfl | rfl | rfl | rfl <;> rcases h6 with rfl | rfl | rfl | rfl <;> first
      | exact absurd rfl h1
      | exact absurd rfl h2
      | (cases hp; cases hq; cases hr
         simp [dotProduct, Fin.sum_univ_three, cross_apply])

theorem square_plane (x y : ℝ) : InPlane square ![x, y, 0] := by
  intro m hm p hp
  have h1 := hm ![1, 0, 0] (by simp [square]) ![0, 0, 0] (by simp [square])
  have h2 := hm ![0, 1, 0] (by simp [square]) ![0, 0, 0] (by simp [square])
  simp only [dotProduct, Fin.sum_univ_three] at h1 h2
  simp at h1 h2
  simp only [square, List.mem_cons, List.not_mem_nil, or_false] at hp
  rcases hp with rfl | rfl | rfl | rfl <;> simp [dotProduct, Fin.sum_univ_three, h1, h2]

example : ∃ s, Shape.new square = some s ∧ (∀ x y : ℝ, s.isInsideLocal ![x, y, 0] = true ↔ ![x, y, 0] ∈ region square) ∧
    ∃ d, s.distanceLocal ![3, 2, 0] = some d ∧ IsLeast { r | ∃ x ∈ boundary square, r = edist ![3, 2, 0] x } |d| := by
  refine ⟨_, rfl, fun x y => C53_inside_polygon square_convex rfl (square_plane x y), ?_⟩
  obtain ⟨d, h1, h2, -⟩ := C53_distance square_convex rfl (square_plane 3 2)
  exact ⟨d, h1, h2⟩

end Hpp.Contact
