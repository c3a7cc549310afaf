import Verif.Contact.FuncPoints

/-!
# Intersection of a line with the plane of a surface (C54)
-/

namespace Hpp.Contact

open Matrix Hpp.Sym Hpp.Pose Hpp.Log

/-- `ConvexShapeData::isInside (cs, A, u)` (convex-shape.hh:350-353) -/
noncomputable def Surface.isInsideLine (s : Surface) (A u : V3 ℝ) : Bool := s.isInside (s.intersection A u)

/-- For a line that is not parallel to the surface, `intersection` is the only point of the line in the plane of the surface, and
`isInside` tells whether the line meets the polygon. -/
theorem C54_line {f : Surface} (hf : f.Valid) (A u : V3 ℝ) (hu : f.normal ⬝ᵥ u ≠ 0) :
    (∃ t : ℝ, f.intersection A u = A + t • u) ∧ (∀ x ∈ f.polygon, f.normal ⬝ᵥ (f.intersection A u - x) = 0) ∧
    (∀ t : ℝ, ∀ x ∈ f.polygon, f.normal ⬝ᵥ (A + t • u - x) = 0 → A + t • u = f.intersection A u) ∧
    (f.isInsideLine A u = true ↔ ∃ t : ℝ, A + t • u ∈ f.polygon) := by
  obtain ⟨⟨P, hP, hs⟩, hR⟩ := hf
  obtain ⟨s, M⟩ := f
  dsimp only at hs hR
  obtain ⟨m, hm⟩ := hP
  obtain ⟨hPts, hC, -, g⟩ := hm.geo hs
  have h0 : 0 < P.length := by have := g.three; omega
  set c := Surface.center ⟨s, M⟩ with hc
  set n := Surface.normal ⟨s, M⟩ with hn
  set p := Surface.intersection ⟨s, M⟩ A u with hp
  have hpe : p = A + ((n ⬝ᵥ (c - A)) / (n ⬝ᵥ u)) • u := rfl
  have hpc : n ⬝ᵥ (p - c) = 0 := by
    have e : p - c = ((n ⬝ᵥ (c - A)) / (n ⬝ᵥ u)) • u - (c - A) := by rw [hpe]; abel
    rw [e, dotProduct_sub, dotProduct_smul, smul_eq_mul, div_mul_cancel₀ _ hu, sub_self]
  have hloc : ∀ y : V3 ℝ, n ⬝ᵥ (act M y - c) = s.N ⬝ᵥ (y - s.C) := by
    intro y
    change rotate M s.N ⬝ᵥ (act M y - act M s.C) = _
    rw [act_sub, rotate_dot hR]
  have hxc : ∀ x ∈ Surface.polygon ⟨s, M⟩, n ⬝ᵥ (x - c) = 0 := by
    rintro _ ⟨y, hy, rfl⟩
    change y ∈ region s.Pts at hy
    rw [hPts, g.region_eq rfl] at hy
    have h2 := g.center_plane h0
    rw [← hC] at h2
    have e : y - s.C = (y - at3 P 0) - (s.C - at3 P 0) := by abel
    rw [hloc, e, dotProduct_sub, h2, hy.2 0 h0, sub_zero]
  have huniq : ∀ t : ℝ, n ⬝ᵥ (A + t • u - c) = 0 → A + t • u = p := by
    intro t ht
    have e : A + t • u - c = t • u - (c - A) := by abel
    rw [e, dotProduct_sub, dotProduct_smul, smul_eq_mul, sub_eq_zero] at ht
    rw [hpe, ← ht, mul_div_cancel_right₀ _ hu]
  have hsplit : ∀ y x : V3 ℝ, y - x = (y - c) - (x - c) := fun y x => by abel
  refine ⟨⟨_, hpe⟩, fun x hx => ?_, fun t x hx h => huniq t ?_, ?_⟩
  · rw [hsplit p x, dotProduct_sub, hpc, hxc x hx, sub_zero]
  · rw [hsplit (A + t • u) x, dotProduct_sub, hxc x hx, sub_zero] at h
    exact h
  · have hin : Surface.isInsideLine ⟨s, M⟩ A u = true ↔ actInv M p ∈ region P := by
      refine C53_inside_polygon ⟨m, hm⟩ hs ((g.inPlane_iff _).2 ?_)
      have h1 : s.N ⬝ᵥ (actInv M p - s.C) = 0 := by
        rw [← hloc, act_actInv hR]; exact hpc
      intro i hi
      have h2 := g.center_plane hi
      rw [← hC] at h2
      have e : actInv M p - at3 P i = (actInv M p - s.C) + (s.C - at3 P i) := by abel
      rw [e, dotProduct_add, h1, h2, add_zero]
    rw [hin]
    constructor
    · intro h
      refine ⟨(n ⬝ᵥ (c - A)) / (n ⬝ᵥ u), ?_⟩
      rw [← hpe]
      exact ⟨actInv M p, by change _ ∈ region s.Pts; rw [hPts]; exact h, act_actInv hR p⟩
    · rintro ⟨t, ht⟩
      have e := huniq t (hxc _ ht)
      rw [e] at ht
      obtain ⟨y, hy, e⟩ := ht
      change y ∈ region s.Pts at hy
      rw [hPts] at hy
      change act M y = p at e
      rw [← e, actInv_act hR]
      exact hy

/-- A slanted line through a point of a square -/
example : ∃ f : Surface, f.Valid ∧ f.normal ⬝ᵥ ![1, 0, 1] ≠ 0 ∧ f.isInsideLine ![1, 0, 1] ![1, 0, 1] = true := by
  obtain ⟨f, hf, hpose, hpts⟩ := exists_square
  have hu : f.normal ⬝ᵥ ![1, 0, 1] ≠ 0 := by
    obtain ⟨P, ⟨m, hm⟩, hs⟩ := hf.poly
    obtain ⟨hPts, -, -, g⟩ := hm.geo hs
    have hN : f.normal = f.shape.N := by unfold Surface.normal rotate; rw [hpose]
    have hP : P = square := hPts.symm.trans hpts
    subst hP
    have d1 := g.normal_diff ![1, 0, 0] (by simp [square]) ![0, 0, 0] (by simp [square])
    have d2 := g.normal_diff ![0, 1, 0] (by simp [square]) ![0, 0, 0] (by simp [square])
    have d3 := g.NN
    rw [hN]
    simp [dotProduct, Fin.sum_univ_three] at d1 d2 d3 ⊢
    rw [d1, d2] at d3
    rw [d1]
    intro h0
    simp at h0
    rw [h0] at d3
    simp at d3
  refine ⟨f, hf, hu, (C54_line hf _ _ hu).2.2.2.2 ⟨-1, ?_⟩⟩
  unfold Surface.polygon act
  rw [hpose, hpts]
  refine ⟨![0, 0, 0], subset_convexHull ℝ _ (by simp [square]), ?_⟩
  funext i; fin_cases i <;> simp

end Hpp.Contact
