import Verif.Contact.Select

/-!
# Lemmas about the selection of contact surfaces
-/

namespace Hpp.Contact

open Matrix Hpp.Sym Hpp.Pose

section Geo

variable {P : List (V3 ℝ)} {U E : Nat → V3 ℝ} {L : Nat → ℝ} {N : V3 ℝ}

/-- Vectors orthogonal to the edges are normal to the plane. -/
theorem Geo.orth_normal (g : Geo P.length (at3 P) U E L N) {m : V3 ℝ} (hm : ∀ p ∈ P, ∀ q ∈ P, m ⬝ᵥ (p - q) = 0) :
    m = (N ⬝ᵥ m) • N := by
  have hn := g.three
  have h0 : 0 < P.length := by omega
  have h1 : 1 < P.length := by omega
  have hU : ∀ i, i < P.length → m ⬝ᵥ U i = 0 := by
    intro i hi
    have h := hm _ (at3_mem (next_lt hn i)) _ (at3_mem hi)
    rw [g.step i hi, add_sub_cancel_left, dotProduct_smul, smul_eq_mul] at h
    rcases mul_eq_zero.1 h with h | h
    · exact absurd h (g.len i hi).ne'
    · exact h
  have e1 : (0 + 1) % P.length = 1 := Nat.mod_eq_of_lt h1
  have ht := g.turn 0 h0
  rw [e1] at ht
  have hE : m ⬝ᵥ E 0 = 0 := by
    have h := coords (g.UU 0 h0) g.NN (g.NU 0 h0) (g.NU 1 h1)
    rw [← g.E_def 0 h0] at h
    have h2 := congrArg (fun w => m ⬝ᵥ w) h
    simp only [dotProduct_add, dotProduct_smul, hU 0 h0, hU 1 h1, smul_eq_mul, mul_zero, zero_add] at h2
    rcases mul_eq_zero.1 h2.symm with h3 | h3
    · exact absurd h3 ht.ne
    · exact h3
  have hw : N ⬝ᵥ (m - (N ⬝ᵥ m) • N) = 0 := by
    rw [dotProduct_sub, dotProduct_smul, g.NN, smul_eq_mul, mul_one, sub_self]
  have h := coords (g.UU 0 h0) g.NN (g.NU 0 h0) hw
  have a1 : U 0 ⬝ᵥ (m - (N ⬝ᵥ m) • N) = 0 := by
    rw [dotProduct_sub, dotProduct_smul, dotProduct_comm _ N, g.NU 0 h0, dotProduct_comm, hU 0 h0]
    simp
  have a2 : (U 0 ⨯₃ N) ⬝ᵥ (m - (N ⬝ᵥ m) • N) = 0 := by
    rw [← g.E_def 0 h0, dotProduct_sub, dotProduct_smul, dotProduct_comm _ N, g.EN h0, dotProduct_comm, hE]
    simp
  rw [a1, a2, zero_smul, zero_smul, add_zero] at h
  exact sub_eq_zero.1 h

theorem Geo.normal_diff (g : Geo P.length (at3 P) U E L N) : ∀ p ∈ P, ∀ q ∈ P, N ⬝ᵥ (p - q) = 0 := by
  intro p hp q hq
  obtain ⟨k, hk, rfl⟩ := List.mem_iff_getElem.1 hp
  obtain ⟨l, hl, rfl⟩ := List.mem_iff_getElem.1 hq
  have := g.plane k l hk hl
  simpa [at3, hk, hl] using this

theorem Geo.inPlane_iff (g : Geo P.length (at3 P) U E L N) (a : V3 ℝ) :
    InPlane P a ↔ ∀ i, i < P.length → N ⬝ᵥ (a - at3 P i) = 0 := by
  constructor
  · intro h i hi
    exact h N g.normal_diff _ (at3_mem hi)
  · intro h m hm p hp
    rw [g.orth_normal hm, smul_dotProduct]
    obtain ⟨k, hk, rfl⟩ := List.mem_iff_getElem.1 hp
    have := h k hk
    have e : at3 P k = P[k] := by simp [at3, hk]
    rw [e] at this
    rw [this, smul_zero]

theorem dot_sum_const {l : List (V3 ℝ)} {N : V3 ℝ} {c : ℝ} (h : ∀ p ∈ l, N ⬝ᵥ p = c) : N ⬝ᵥ l.sum = l.length * c := by
  induction l with
  | nil => simp
  | cons p l ih =>
    rw [List.sum_cons, dotProduct_add, h p (by simp), ih fun q hq => h q (by simp [hq]), List.length_cons]
    push_cast
    ring

/-- The center is in the plane. -/
theorem Geo.center_plane (g : Geo P.length (at3 P) U E L N) {i : Nat} (hi : i < P.length) :
    N ⬝ᵥ ((P.length : ℝ)⁻¹ • P.sum - at3 P i) = 0 := by
  have h := dot_sum_const (l := P) (N := N) (c := N ⬝ᵥ at3 P i) (by
    intro p hp
    have := g.normal_diff p hp _ (at3_mem hi)
    rw [dotProduct_sub] at this
    linarith)
  rw [dotProduct_sub, dotProduct_smul, h, smul_eq_mul]
  have : (P.length : ℝ) ≠ 0 := by
    have := g.three
    positivity
  field_simp
  ring

/-- Squared distance from any point to the polygon. -/
theorem sqdist_local {s : Shape} (hP : IsConvexPolygon P) (hs : Shape.new P = some s) (o : V3 ℝ) :
    ∃ dp, s.distanceLocal (o - (s.N ⬝ᵥ (o - s.C)) • s.N) = some dp ∧
      IsLeast { r | ∃ x ∈ region P, r = edist o x ^ 2 }
        (if dp < 0 then (s.N ⬝ᵥ (o - s.C)) * (s.N ⬝ᵥ (o - s.C))
          else dp * dp + (s.N ⬝ᵥ (o - s.C)) * (s.N ⬝ᵥ (o - s.C))) ∧
      (dp < 0 ↔ o - (s.N ⬝ᵥ (o - s.C)) • s.N ∈ region P ∧ o - (s.N ⬝ᵥ (o - s.C)) • s.N ∉ boundary P) := by
  have hP' := hP
  obtain ⟨m, hm⟩ := hP
  obtain ⟨h1, hC, -, g⟩ := hm.geo hs
  have hpl : ∀ i, i < P.length → s.N ⬝ᵥ (o - (s.N ⬝ᵥ (o - s.C)) • s.N - at3 P i) = 0 := by
    intro i hi
    have h2 := g.center_plane hi
    rw [← hC] at h2
    have e : o - (s.N ⬝ᵥ (o - s.C)) • s.N - at3 P i = (o - s.C) + (s.C - at3 P i) - (s.N ⬝ᵥ (o - s.C)) • s.N := by abel
    rw [e, dotProduct_sub, dotProduct_add, h2, dotProduct_smul, g.NN]
    simp
  obtain ⟨dp, k1, k2, k3⟩ := C53_distance hP' hs ((g.inPlane_iff _).2 hpl)
  refine ⟨dp, k1, ?_, ?_⟩
  · generalize hdn : s.N ⬝ᵥ (o - s.C) = dn at *
    have hsq : ∀ x ∈ region P, edist o x ^ 2 = dn * dn + norm3 (o - dn • s.N - x) ^ 2 := by
      intro x hx
      rw [g.region_eq rfl] at hx
      have hx2 := hx.2 0 (by have := g.three; omega)
      have hp2 := hpl 0 (by have := g.three; omega)
      have h3 : s.N ⬝ᵥ (o - dn • s.N - x) = 0 := by
        have e : o - dn • s.N - x = (o - dn • s.N - at3 P 0) - (x - at3 P 0) := by abel
        rw [e, dotProduct_sub, hp2, hx2, sub_zero]
      rw [edist_eq, norm3_sq, norm3_sq]
      have e : o - x = dn • s.N + (o - dn • s.N - x) := by abel
      rw [e]
      generalize o - dn • s.N - x = w at h3
      have e2 : dn • s.N + w - dn • s.N = w := by abel
      have h4 : w ⬝ᵥ s.N = 0 := by rw [dotProduct_comm]; exact h3
      simp only [add_dotProduct, dotProduct_add, smul_dotProduct, dotProduct_smul, g.NN, h3, h4, smul_eq_mul]
      ring
    have hfoot : dp ≤ 0 → IsLeast { r | ∃ x ∈ region P, r = edist o x ^ 2 } (dn * dn) := by
      intro hle
      have hin := k3.1 hle
      refine ⟨⟨_, hin, ?_⟩, ?_⟩
      · rw [hsq _ hin, sub_self]
        simp [norm3]
      · rintro r ⟨x, hx, rfl⟩
        rw [hsq x hx]
        have := sq_nonneg (norm3 (o - dn • s.N - x))
        linarith
    by_cases hneg : dp < 0
    · rw [if_pos hneg]
      exact hfoot hneg.le
    · rw [if_neg hneg]
      rcases (not_lt.1 hneg).lt_or_eq with hpos | hz
      · rw [abs_of_pos hpos] at k2
        constructor
        · obtain ⟨x, hx, hxe⟩ := k2.1
          have hxr : x ∈ region P := by
            obtain ⟨i, c, hi, hc0, hcL, rfl⟩ := (g.boundary_iff rfl _).1 hx
            rw [g.region_eq rfl]
            exact ⟨g.edge_half hi hc0 hcL, fun k hk => g.edge_plane hi hk c⟩
          refine ⟨x, hxr, ?_⟩
          rw [hsq x hxr, ← edist_eq, ← hxe]
          ring
        · rintro r ⟨x, hx, rfl⟩
          rw [hsq x hx]
          have hx' := hx
          rw [g.region_eq rfl] at hx'
          have hout : ∃ j, j < P.length ∧ 0 < at3 s.Ns j ⬝ᵥ (o - dn • s.N - at3 P j) := by
            by_contra hno
            push Not at hno
            have : o - dn • s.N ∈ region P := by
              rw [g.region_eq rfl]
              exact ⟨hno, hpl⟩
            have := k3.2 this
            linarith
          obtain ⟨j, hj, hjp⟩ := hout
          obtain ⟨i, c, hi, -, hc0, hcL, hle⟩ := g.nearer hx'.1 hx'.2 hpl hj hjp
          have h5 := k2.2 ⟨_, (g.boundary_iff rfl _).2 ⟨i, c, hi, hc0, hcL, rfl⟩, rfl⟩
          rw [edist_eq] at h5
          have h6 := le_trans h5 hle
          nlinarith
      · rw [← hz, mul_zero, zero_add]
        exact hfoot hz.symm.le
  · rw [← k3]
    constructor
    · intro hneg
      refine ⟨hneg.le, fun hb => ?_⟩
      have h5 := k2.2 ⟨_, hb, rfl⟩
      rw [edist_eq, sub_self] at h5
      have : norm3 0 = 0 := by simp [norm3]
      rw [this] at h5
      have := abs_pos.2 hneg.ne
      linarith
    · rintro ⟨hle, hb⟩
      rcases hle.lt_or_eq with h | h
      · exact h
      · exfalso
        obtain ⟨x, hx, hxe⟩ := k2.1
        rw [h, abs_zero, edist_eq] at hxe
        have : o - (s.N ⬝ᵥ (o - s.C)) • s.N - x = 0 := by
          by_contra hne
          have := norm3_pos hne
          linarith
        rw [sub_eq_zero.1 this] at hb
        exact hb hx

end Geo

/-! ### Joint frame and world frame -/

section Frame

variable {M : Option (SE3 ℝ)} (hM : ∀ A, M = some A → IsRot A.R)
include hM

theorem actInv_act (x : V3 ℝ) : actInv M (act M x) = x := by
  cases M with
  | none => rfl
  | some A =>
    simp only [act, actInv, add_sub_cancel_right, mulVec_mulVec, (hM A rfl).1, one_mulVec]

theorem act_actInv (x : V3 ℝ) : act M (actInv M x) = x := by
  cases M with
  | none => rfl
  | some A =>
    simp only [act, actInv, mulVec_mulVec, (hM A rfl).mul_transpose, one_mulVec, sub_add_cancel]

omit hM in
theorem act_sub (x y : V3 ℝ) : act M x - act M y = rotate M (x - y) := by
  cases M with
  | none => rfl
  | some A => simp only [act, rotate, mulVec_sub]; abel

theorem rotate_dot (x y : V3 ℝ) : rotate M x ⬝ᵥ rotate M y = x ⬝ᵥ y := by
  cases M with
  | none => rfl
  | some A =>
    simp only [rotate]
    rw [dotProduct_mulVec, vecMul_mulVec, (hM A rfl).1, vecMul_one]

theorem edist_act (x y : V3 ℝ) : edist (act M x) (act M y) = edist x y := by
  unfold edist
  rw [act_sub, rotate_dot hM]

omit hM in
theorem act_sub_smul (x n : V3 ℝ) (c : ℝ) : act M (x - c • n) = act M x - c • rotate M n := by
  cases M with
  | none => rfl
  | some A =>
    simp only [act, rotate, mulVec_sub, mulVec_smul]
    abel

end Frame

/-- The intermediate quantities of `selectConvexShapes` -/
theorem select_quantities {f o : Surface} (hf : f.Valid) :
    ∃ dp, f.distance (f.intersection o.center f.normal) = some dp ∧
      IsSqDist f o (if dp < 0 then (f.normal ⬝ᵥ (o.center - f.center)) * (f.normal ⬝ᵥ (o.center - f.center))
        else dp * dp + (f.normal ⬝ᵥ (o.center - f.center)) * (f.normal ⬝ᵥ (o.center - f.center))) ∧
      (dp < 0 ↔ ∀ p, IsFoot f o p → p ∈ f.polygon ∧ p ∉ f.outline) ∧ IsFoot f o (f.intersection o.center f.normal) := by
  obtain ⟨⟨P, hP, hs⟩, hR⟩ := hf
  obtain ⟨s, M⟩ := f
  dsimp only at hs hR
  have hP' := hP
  obtain ⟨m, hm⟩ := hP
  obtain ⟨hPts, hC, -, g⟩ := hm.geo hs
  generalize ho : o.center = c
  -- local coordinates of the center of the object
  obtain ⟨c', rfl⟩ : ∃ c', c = act M c' := ⟨actInv M c, (act_actInv hR c).symm⟩
  have hn : (Surface.normal ⟨s, M⟩) ⬝ᵥ (act M c' - Surface.center ⟨s, M⟩) = s.N ⬝ᵥ (c' - s.C) := by
    change rotate M s.N ⬝ᵥ (act M c' - act M s.C) = _
    rw [act_sub, rotate_dot hR]
  have hNN : (Surface.normal ⟨s, M⟩) ⬝ᵥ (Surface.normal ⟨s, M⟩) = 1 := by
    change rotate M s.N ⬝ᵥ rotate M s.N = 1
    rw [rotate_dot hR, g.NN]
  have hint : Surface.intersection ⟨s, M⟩ (act M c') (Surface.normal ⟨s, M⟩) = act M (c' - (s.N ⬝ᵥ (c' - s.C)) • s.N) := by
    unfold Surface.intersection linePlaneIntersection
    rw [hNN, div_one, act_sub_smul, ← neg_sub, dotProduct_neg, hn, neg_smul]
    change _ + -(_ • rotate M s.N) = _
    abel
  have hdist : Surface.distance ⟨s, M⟩ (act M (c' - (s.N ⬝ᵥ (c' - s.C)) • s.N)) =
      s.distanceLocal (c' - (s.N ⬝ᵥ (c' - s.C)) • s.N) := by
    change s.distanceLocal (actInv M _) = _
    rw [actInv_act hR]
  obtain ⟨dp, k1, k2, k3⟩ := sqdist_local hP' hs c'
  have hinj : ∀ x y, act M x = act M y → x = y := by
    intro x y h
    have := congrArg (actInv M) h
    rwa [actInv_act hR, actInv_act hR] at this
  -- the projection
  have hpl : ∀ i, i < P.length → s.N ⬝ᵥ (c' - (s.N ⬝ᵥ (c' - s.C)) • s.N - at3 P i) = 0 := by
    intro i hi
    have h2 := g.center_plane hi
    rw [← hC] at h2
    have e : c' - (s.N ⬝ᵥ (c' - s.C)) • s.N - at3 P i = (c' - s.C) + (s.C - at3 P i) - (s.N ⬝ᵥ (c' - s.C)) • s.N := by abel
    rw [e, dotProduct_sub, dotProduct_add, h2, dotProduct_smul, g.NN]
    simp
  have hreg : ∀ x ∈ region P, ∀ y ∈ region P, s.N ⬝ᵥ (x - y) = 0 := by
    intro x hx y hy
    rw [g.region_eq rfl] at hx hy
    have h0 : 0 < P.length := by have := g.three; omega
    have e : x - y = (x - at3 P 0) - (y - at3 P 0) := by abel
    rw [e, dotProduct_sub, hx.2 0 h0, hy.2 0 h0, sub_zero]
  have hplane : ∀ x, InPlane (P.map (act M)) (act M x) ↔ InPlane P x := by
    intro x
    constructor
    · intro h m' hm' p hp
      have := h (rotate M m') (by
        intro u hu v hv
        obtain ⟨u', hu', rfl⟩ := List.mem_map.1 hu
        obtain ⟨v', hv', rfl⟩ := List.mem_map.1 hv
        rw [act_sub, rotate_dot hR]
        exact hm' _ hu' _ hv') _ (List.mem_map.2 ⟨p, hp, rfl⟩)
      rwa [act_sub, rotate_dot hR] at this
    · intro h m' hm' p hp
      obtain ⟨p', hp', rfl⟩ := List.mem_map.1 hp
      -- write `m'` as the image of a vector
      obtain ⟨m0, rfl⟩ : ∃ m0, m' = rotate M m0 := by
        cases M with
        | none => exact ⟨m', rfl⟩
        | some A => exact ⟨A.Rᵀ *ᵥ m', by simp only [rotate, mulVec_mulVec, (hR A rfl).mul_transpose, one_mulVec]⟩
      rw [act_sub, rotate_dot hR]
      refine h m0 (fun u hu v hv => ?_) p' hp'
      have := hm' _ (List.mem_map.2 ⟨u, hu, rfl⟩) _ (List.mem_map.2 ⟨v, hv, rfl⟩)
      rwa [act_sub, rotate_dot hR] at this
  have hfoot : IsFoot ⟨s, M⟩ o (act M (c' - (s.N ⬝ᵥ (c' - s.C)) • s.N)) := by
    constructor
    · change InPlane (s.Pts.map (act M)) _
      rw [hPts]
      exact (hplane _).2 ((g.inPlane_iff _).2 hpl)
    · rintro _ ⟨x, hx, rfl⟩ _ ⟨y, hy, rfl⟩
      change x ∈ region s.Pts at hx
      change y ∈ region s.Pts at hy
      rw [hPts] at hx hy
      change (o.center - act M _) ⬝ᵥ (act M x - act M y) = 0
      rw [ho, act_sub, act_sub, rotate_dot hR]
      have e : c' - (c' - (s.N ⬝ᵥ (c' - s.C)) • s.N) = (s.N ⬝ᵥ (c' - s.C)) • s.N := by abel
      rw [e, smul_dotProduct, hreg x hx y hy, smul_zero]
  have huniq : ∀ p, IsFoot ⟨s, M⟩ o p → p = act M (c' - (s.N ⬝ᵥ (c' - s.C)) • s.N) := by
    rintro p ⟨hp1, hp2⟩
    obtain ⟨p', rfl⟩ : ∃ p', p = act M p' := ⟨actInv M p, (act_actInv hR p).symm⟩
    congr 1
    change InPlane (s.Pts.map (act M)) _ at hp1
    rw [hPts] at hp1
    have h1 := (g.inPlane_iff _).1 ((hplane p').1 hp1)
    have h2 := g.orth_normal (m := c' - p') (by
      intro u hu v hv
      have := hp2 (act M u) ⟨u, by rw [hPts]; exact subset_convexHull ℝ _ hu, rfl⟩ (act M v)
        ⟨v, by rw [hPts]; exact subset_convexHull ℝ _ hv, rfl⟩
      rwa [ho, act_sub, act_sub, rotate_dot hR] at this)
    have h0 : 0 < P.length := by have := g.three; omega
    have h3 : s.N ⬝ᵥ (c' - p') = s.N ⬝ᵥ (c' - s.C) := by
      have h4 := g.center_plane h0
      rw [← hC] at h4
      have e : c' - p' = (c' - s.C) + (s.C - at3 P 0) - (p' - at3 P 0) := by abel
      rw [e, dotProduct_sub, dotProduct_add, h4, h1 0 h0]
      ring
    rw [h3] at h2
    rw [← h2]
    abel
  rw [hn, hint, hdist]
  refine ⟨dp, k1, ?_, ?_, hfoot⟩
  · unfold IsSqDist
    convert k2 using 1
    ext r
    constructor
    · rintro ⟨_, ⟨x, hx, rfl⟩, hr⟩
      change x ∈ region s.Pts at hx
      rw [hPts] at hx
      rw [ho] at hr
      exact ⟨x, hx, by rw [hr, edist_act hR]⟩
    · rintro ⟨x, hx, hr⟩
      refine ⟨act M x, ⟨x, by rw [hPts]; exact hx, rfl⟩, ?_⟩
      rw [ho, edist_act hR, hr]
  · rw [k3]
    have e1 : ∀ x, act M x ∈ Surface.polygon ⟨s, M⟩ ↔ x ∈ region P := by
      intro x
      rw [← hPts]
      constructor
      · rintro ⟨y, hy, e⟩
        rwa [hinj _ _ e] at hy
      · exact fun h => ⟨x, h, rfl⟩
    have e2 : ∀ x, act M x ∈ Surface.outline ⟨s, M⟩ ↔ x ∈ boundary P := by
      intro x
      rw [← hPts]
      constructor
      · rintro ⟨y, hy, e⟩
        rwa [hinj _ _ e] at hy
      · exact fun h => ⟨x, h, rfl⟩
    constructor
    · intro h p hp
      rw [huniq p hp, e1, e2]
      exact h
    · intro h
      have := h _ hfoot
      rwa [e1, e2] at this

/-! ### The loops -/

/-- Pairs in the order of the loops -/
def pairs (floors objects : List Surface) : List ((Surface × Nat) × (Surface × Nat)) :=
  floors.zipIdx.flatMap fun f => objects.zipIdx.map fun o => (f, o)

theorem select_eq (floors objects : List Surface) :
    select floors objects = (pairs floors objects).foldl (fun st p => selectStep st p.1.1 p.1.2 p.2.1 p.2.2) none := by
  unfold select pairs
  rw [List.foldl_flatMap]
  congr 1
  funext st f
  rw [List.foldl_map]

/-- Position of a pair in the loops -/
def Before2 (a b : Nat × Nat) : Prop := a.1 < b.1 ∨ (a.1 = b.1 ∧ a.2 < b.2)

theorem zipIdx_sorted {α : Type} (l : List α) (k : Nat) : (l.zipIdx k).Pairwise fun a b => a.2 < b.2 := by
  induction l generalizing k with
  | nil => exact .nil
  | cons a l ih =>
    rw [List.zipIdx_cons]
    refine .cons (fun b hb => ?_) (ih (k + 1))
    have := List.le_snd_of_mem_zipIdx hb
    simpa using this

theorem pairs_sorted (floors objects : List Surface) :
    (pairs floors objects).Pairwise fun a b => Before2 (a.1.2, a.2.2) (b.1.2, b.2.2) := by
  unfold pairs
  rw [List.pairwise_flatMap]
  constructor
  · intro f _
    rw [List.pairwise_map]
    exact (zipIdx_sorted objects 0).imp fun h => Or.inr ⟨rfl, h⟩
  · refine (zipIdx_sorted floors 0).imp fun h => ?_
    intro x hx y hy
    obtain ⟨o, -, rfl⟩ := List.mem_map.1 hx
    obtain ⟨o', -, rfl⟩ := List.mem_map.1 hy
    exact Or.inl h

theorem mem_pairs {floors objects : List Surface} {f o : Surface} {j i : Nat} :
    ((f, j), (o, i)) ∈ pairs floors objects ↔ floors[j]? = some f ∧ objects[i]? = some o := by
  unfold pairs
  simp [List.mem_zipIdx_iff_getElem?]

/-- Quantities of a pair -/
noncomputable def pairDp (p : (Surface × Nat) × (Surface × Nat)) : Option ℝ :=
  p.1.1.distance (p.1.1.intersection p.2.1.center p.1.1.normal)

noncomputable def pairDist (p : (Surface × Nat) × (Surface × Nat)) (dp : ℝ) : ℝ :=
  let dn := p.1.1.normal ⬝ᵥ (p.2.1.center - p.1.1.center)
  if dp < 0 then dn * dn else dp * dp + dn * dn

/-- After the pairs `l`, all with finite distance: the first pair of least distance. -/
theorem select_fold (l : List ((Surface × Nat) × (Surface × Nat))) (hl : ∀ p ∈ l, ∃ d, pairDp p = some d) :
    (l = [] ∧ l.foldl (fun st p => selectStep st p.1.1 p.1.2 p.2.1 p.2.2) none = none) ∨
    ∃ l1 p l2 dp, l = l1 ++ p :: l2 ∧ pairDp p = some dp ∧
      l.foldl (fun st p => selectStep st p.1.1 p.1.2 p.2.1 p.2.2) none = some ⟨pairDist p dp, p.2.2, p.1.2, decide (dp < 0)⟩ ∧
      (∀ x ∈ l1, ∀ d, pairDp x = some d → pairDist p dp < pairDist x d) ∧
      (∀ x ∈ l2, ∀ d, pairDp x = some d → pairDist p dp ≤ pairDist x d) := by
  induction l using List.reverseRecOn with
  | nil => exact Or.inl ⟨rfl, rfl⟩
  | append_singleton l x ih =>
    right
    obtain ⟨dx, hdx⟩ := hl x (by simp)
    rw [List.foldl_append, List.foldl_cons, List.foldl_nil]
    rcases ih fun p hp => hl p (by simp [hp]) with ⟨rfl, h⟩ | ⟨l1, p, l2, dp, rfl, h1, h2, h3, h4⟩
    · rw [h]
      refine ⟨[], x, [], dx, rfl, hdx, ?_, by simp, by simp⟩
      unfold selectStep
      rw [show x.1.1.distance (x.1.1.intersection x.2.1.center x.1.1.normal) = some dx from hdx]
      rfl
    · rw [h2]
      unfold selectStep
      rw [show x.1.1.distance (x.1.1.intersection x.2.1.center x.1.1.normal) = some dx from hdx]
      dsimp only
      by_cases hlt : pairDist x dx < pairDist p dp
      · refine ⟨l1 ++ p :: l2, x, [], dx, rfl, hdx, ?_, ?_, by simp⟩
        · exact if_pos hlt
        · intro y hy d hd
          rcases List.mem_append.1 hy with hy | hy
          · exact lt_trans hlt (h3 y hy d hd)
          · rcases List.mem_cons.1 hy with rfl | hy
            · rw [h1] at hd
              cases hd
              exact hlt
            · exact lt_of_lt_of_le hlt (h4 y hy d hd)
      · refine ⟨l1, p, l2 ++ [x], dp, by simp, h1, ?_, h3, ?_⟩
        · exact if_neg hlt
        · intro y hy d hd
          rcases List.mem_append.1 hy with hy | hy
          · exact h4 y hy d hd
          · rw [List.mem_singleton.1 hy] at hd ⊢
            rw [hdx] at hd
            cases hd
            exact not_lt.1 hlt

end Hpp.Contact
