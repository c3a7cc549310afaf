import Verif.Contact.Shape

/-!
# Geometry of convex polygons
-/

namespace Hpp.Contact

open Matrix Hpp.Sym Hpp.Pose

theorem dot_self_nonneg (v : V3 ℝ) : 0 ≤ v ⬝ᵥ v := by
  simp only [dotProduct, Fin.sum_univ_three]
  nlinarith [mul_self_nonneg (v 0), mul_self_nonneg (v 1), mul_self_nonneg (v 2)]

theorem dot_self_pos {v : V3 ℝ} (h : v ≠ 0) : 0 < v ⬝ᵥ v := by
  rcases (dot_self_nonneg v).lt_or_eq with h1 | h1
  · exact h1
  · refine absurd ?_ h
    simp only [dotProduct, Fin.sum_univ_three] at h1
    funext i
    change v i = 0
    have h0 := mul_self_nonneg (v 0)
    have h1' := mul_self_nonneg (v 1)
    have h2 := mul_self_nonneg (v 2)
    refine mul_self_eq_zero.1 ?_
    fin_cases i <;> (dsimp only [Fin.zero_eta, Fin.mk_one, Fin.reduceFinMk]; linarith)

theorem norm3_nonneg (v : V3 ℝ) : 0 ≤ norm3 v := Real.sqrt_nonneg _

theorem norm3_sq (v : V3 ℝ) : norm3 v ^ 2 = v ⬝ᵥ v := Real.sq_sqrt (dot_self_nonneg v)

theorem norm3_pos {v : V3 ℝ} (h : v ≠ 0) : 0 < norm3 v := Real.sqrt_pos.2 (dot_self_pos h)

theorem norm3_le {v w : V3 ℝ} (h : v ⬝ᵥ v ≤ w ⬝ᵥ w) : norm3 v ≤ norm3 w := Real.sqrt_le_sqrt h

theorem norm3_smul (c : ℝ) (v : V3 ℝ) : norm3 (c • v) = |c| * norm3 v := by
  unfold norm3
  rw [smul_dotProduct, dotProduct_smul, smul_eq_mul, smul_eq_mul, ← mul_assoc, Real.sqrt_mul (mul_self_nonneg c),
    Real.sqrt_mul_self_eq_abs]

theorem normalize_dot_self {v : V3 ℝ} (h : v ≠ 0) : normalize v ⬝ᵥ normalize v = 1 := by
  unfold normalize
  rw [if_pos (dot_self_pos h), smul_dotProduct, dotProduct_smul, ← norm3_sq]
  have := norm3_pos h
  simp only [smul_eq_mul]
  field_simp

theorem smul_normalize (v : V3 ℝ) : norm3 v • normalize v = v := by
  unfold normalize
  by_cases h : 0 < v ⬝ᵥ v
  · rw [if_pos h, smul_smul, mul_inv_cancel₀ (show norm3 v ≠ 0 from (Real.sqrt_pos.2 h).ne'), one_smul]
  · rw [if_neg h]
    have h0 : v = 0 := by
      by_contra hne
      exact h (dot_self_pos hne)
    rw [h0, smul_zero]

theorem normalize_unit {v : V3 ℝ} (h : v ⬝ᵥ v = 1) : normalize v = v := by
  unfold normalize norm3
  rw [h]
  simp

/-- A normalized vector has the direction of the vector. -/
theorem normalize_pos_smul {c : ℝ} (hc : 0 < c) (v : V3 ℝ) : normalize (c • v) = normalize v := by
  by_cases h : v = 0
  · rw [h, smul_zero]
  · have h1 := norm3_pos h
    have hv : c • v ≠ 0 := smul_ne_zero hc.ne' h
    unfold normalize
    rw [if_pos (dot_self_pos hv), if_pos (dot_self_pos h), norm3_smul, abs_of_pos hc, smul_smul]
    congr 1
    field_simp

theorem normalize_neg (v : V3 ℝ) : normalize (-v) = -normalize v := by
  have e : (-v) ⬝ᵥ (-v) = v ⬝ᵥ v := by simp
  unfold normalize norm3
  rw [e]
  split <;> simp

/-- Edges of a polygon: vertices, directions, outward normals, lengths, normal to the plane; what the geometric lemmas use. -/
structure Geo (n : Nat) (P U E : Nat → V3 ℝ) (L : Nat → ℝ) (N : V3 ℝ) : Prop where
  three : 3 ≤ n
  step : ∀ i, i < n → P ((i + 1) % n) = P i + L i • U i
  len : ∀ i, i < n → 0 < L i
  UU : ∀ i, i < n → U i ⬝ᵥ U i = 1
  NN : N ⬝ᵥ N = 1
  NU : ∀ i, i < n → N ⬝ᵥ U i = 0
  E_def : ∀ i, i < n → E i = U i ⨯₃ N
  half : ∀ i k, i < n → k < n → E i ⬝ᵥ (P k - P i) ≤ 0
  turn : ∀ i, i < n → E i ⬝ᵥ U ((i + 1) % n) < 0
  plane : ∀ i k, i < n → k < n → N ⬝ᵥ (P i - P k) = 0

/-- Coordinates in an orthonormal basis of the plane. -/
theorem coords {U N w : V3 ℝ} (hU : U ⬝ᵥ U = 1) (hN : N ⬝ᵥ N = 1) (hNU : N ⬝ᵥ U = 0) (hw : N ⬝ᵥ w = 0) :
    w = (U ⬝ᵥ w) • U + ((U ⨯₃ N) ⬝ᵥ w) • (U ⨯₃ N) := by
  have hUN : U ⬝ᵥ N = 0 := by rw [dotProduct_comm]; exact hNU
  have hE : (U ⨯₃ N) ⬝ᵥ (U ⨯₃ N) = 1 := by
    rw [cross_dot_cross, hU, hN, hUN, hNU]
    ring
  have hUE : U ⬝ᵥ (U ⨯₃ N) = 0 := dot_self_cross U N
  have hNE : N ⬝ᵥ (U ⨯₃ N) = 0 := dot_cross_self U N
  have hQ : (of ![U, U ⨯₃ N, N] : M3 ℝ) * (of ![U, U ⨯₃ N, N] : M3 ℝ)ᵀ = 1 := by
    ext i j
    have e : ((of ![U, U ⨯₃ N, N] : M3 ℝ) * (of ![U, U ⨯₃ N, N] : M3 ℝ)ᵀ) i j =
        (![U, U ⨯₃ N, N] i) ⬝ᵥ (![U, U ⨯₃ N, N] j) := rfl
    rw [e]
    fin_cases i <;> fin_cases j
    · exact hU
    · exact hUE
    · exact hUN
    · exact (dotProduct_comm _ _).trans hUE
    · exact hE
    · exact (dotProduct_comm _ _).trans hNE
    · exact hNU
    · exact hNE
    · exact hN
  have hQ2 := mul_eq_one_comm.1 hQ
  have h := congrArg (fun M : M3 ℝ => M *ᵥ w) hQ2
  simp only [one_mulVec, ← mulVec_mulVec] at h
  have e2 : (of ![U, U ⨯₃ N, N] : M3 ℝ) *ᵥ w = ![U ⬝ᵥ w, (U ⨯₃ N) ⬝ᵥ w, 0] := by
    funext i
    fin_cases i
    · rfl
    · rfl
    · exact hw
  rw [e2] at h
  rw [← h]
  have e3 : ∀ x : V3 ℝ, (of ![U, U ⨯₃ N, N] : M3 ℝ)ᵀ *ᵥ x = x 0 • U + x 1 • (U ⨯₃ N) + x 2 • N := by
    intro x
    funext i
    simp only [mulVec, dotProduct, Fin.sum_univ_three, transpose_apply, of_apply, Pi.add_apply, Pi.smul_apply, smul_eq_mul]
    change U i * x 0 + (U ⨯₃ N) i * x 1 + N i * x 2 = _
    ring
  rw [e3] at h ⊢
  rw [h]
  nth_rewrite 1 [← h]
  simp

theorem dot_coords {U N w : V3 ℝ} (hU : U ⬝ᵥ U = 1) (hN : N ⬝ᵥ N = 1) (hNU : N ⬝ᵥ U = 0) (hw : N ⬝ᵥ w = 0) :
    w ⬝ᵥ w = (U ⬝ᵥ w) ^ 2 + ((U ⨯₃ N) ⬝ᵥ w) ^ 2 := by
  have h := congrArg (fun v => v ⬝ᵥ w) (coords hU hN hNU hw)
  simp only [add_dotProduct, smul_dotProduct, smul_eq_mul] at h
  rw [h]
  ring

section Geo

variable {n : Nat} {P U E : Nat → V3 ℝ} {L : Nat → ℝ} {N : V3 ℝ}

/-- `a` satisfies all half plane constraints. -/
def InHalf (n : Nat) (P E : Nat → V3 ℝ) (a : V3 ℝ) : Prop := ∀ k, k < n → E k ⬝ᵥ (a - P k) ≤ 0

theorem Geo.EU (g : Geo n P U E L N) {i : Nat} (hi : i < n) : E i ⬝ᵥ U i = 0 := by
  rw [g.E_def i hi, dotProduct_comm]
  exact dot_self_cross _ _

theorem Geo.EN (g : Geo n P U E L N) {i : Nat} (hi : i < n) : N ⬝ᵥ E i = 0 := by
  rw [g.E_def i hi]
  exact dot_cross_self _ _

theorem next_lt (h : 3 ≤ n) (i : Nat) : (i + 1) % n < n := Nat.mod_lt _ (by omega)

/-- Every vertex is the end of an edge. -/
theorem exists_prev (h : 3 ≤ n) {i : Nat} (hi : i < n) : ∃ p, p < n ∧ (p + 1) % n = i := by
  rcases Nat.eq_zero_or_pos i with rfl | h0
  · exact ⟨n - 1, by omega, by rw [Nat.sub_add_cancel (by omega)]; exact Nat.mod_self n⟩
  · exact ⟨i - 1, by omega, by rw [Nat.sub_add_cancel h0]; exact Nat.mod_eq_of_lt hi⟩

/-- The previous edge comes from the outer side of edge `i + 1`. -/
theorem Geo.turn' (g : Geo n P U E L N) {i : Nat} (hi : i < n) : 0 < E ((i + 1) % n) ⬝ᵥ U i := by
  have h := g.turn i hi
  rw [g.E_def i hi] at h
  rw [g.E_def _ (next_lt g.three i)]
  have e : (U ((i + 1) % n) ⨯₃ N) ⬝ᵥ U i = -((U i ⨯₃ N) ⬝ᵥ U ((i + 1) % n)) := by
    simp only [cross_apply, dotProduct, Fin.sum_univ_three]
    simp
    ring
  rw [e]
  linarith

/-- A point of the line of edge `i` that satisfies all constraints belongs to edge `i`. -/
theorem Geo.on_edge (g : Geo n P U E L N) {i : Nat} (hi : i < n) {b : V3 ℝ} (hp : N ⬝ᵥ (b - P i) = 0)
    (hl : E i ⬝ᵥ (b - P i) = 0) (hb : InHalf n P E b) : ∃ c, 0 ≤ c ∧ c ≤ L i ∧ b = P i + c • U i := by
  refine ⟨U i ⬝ᵥ (b - P i), ?_, ?_, ?_⟩
  all_goals
    have hc : b = P i + (U i ⬝ᵥ (b - P i)) • U i := by
      have h := coords (g.UU i hi) g.NN (g.NU i hi) hp
      rw [← g.E_def i hi, hl, zero_smul, add_zero] at h
      rw [← h]
      abel
  · obtain ⟨p, hp1, hp2⟩ := exists_prev g.three hi
    have h1 := hb p hp1
    have h2 := g.step p hp1
    rw [hp2] at h2
    have h3 := g.turn p hp1
    rw [hp2] at h3
    have e : E p ⬝ᵥ (b - P p) = (U i ⬝ᵥ (b - P i)) * (E p ⬝ᵥ U i) := by
      have e1 : b - P p = (U i ⬝ᵥ (b - P i)) • U i + L p • U p := by
        nth_rewrite 1 [hc]
        nth_rewrite 1 [h2]
        abel
      rw [e1, dotProduct_add, dotProduct_smul, dotProduct_smul, g.EU hp1]
      simp
    rw [e] at h1
    by_contra hneg
    push Not at hneg
    nlinarith
  · have h1 := hb _ (next_lt g.three i)
    have h2 := g.step i hi
    have h3 := g.turn' hi
    have e : E ((i + 1) % n) ⬝ᵥ (b - P ((i + 1) % n)) = (U i ⬝ᵥ (b - P i) - L i) * (E ((i + 1) % n) ⬝ᵥ U i) := by
      have e1 : b - P ((i + 1) % n) = (U i ⬝ᵥ (b - P i) - L i) • U i := by
        nth_rewrite 1 [hc]
        rw [h2, sub_smul]
        abel
      rw [e1, dotProduct_smul, smul_eq_mul]
    rw [e] at h1
    by_contra hneg
    push Not at hneg
    nlinarith
  · exact hc

/-- A half line from a point that satisfies the constraints leaves through an edge. -/
theorem Geo.exit (g : Geo n P U E L N) {x v : V3 ℝ} (hx : InHalf n P E x) (hpx : ∀ i, i < n → N ⬝ᵥ (x - P i) = 0)
    (hv : N ⬝ᵥ v = 0) {j : Nat} (hj : j < n) (hout : 0 < E j ⬝ᵥ v) :
    ∃ i t c, i < n ∧ 0 ≤ t ∧ 0 < E i ⬝ᵥ v ∧ 0 ≤ c ∧ c ≤ L i ∧ x + t • v = P i + c • U i ∧
      (∀ k, k < n → 0 < E k ⬝ᵥ v → t * (E k ⬝ᵥ v) ≤ -(E k ⬝ᵥ (x - P k))) ∧ InHalf n P E (x + t • v) := by
  obtain ⟨i, hi, hmin⟩ := Finset.exists_min_image ((Finset.range n).filter fun k => 0 < E k ⬝ᵥ v)
    (fun k => -(E k ⬝ᵥ (x - P k)) / (E k ⬝ᵥ v)) ⟨j, by simp [hj, hout]⟩
  simp only [Finset.mem_filter, Finset.mem_range] at hi hmin
  obtain ⟨hi, hpos⟩ := hi
  have hxi := hx i hi
  have ht : 0 ≤ -(E i ⬝ᵥ (x - P i)) / (E i ⬝ᵥ v) := div_nonneg (by linarith) hpos.le
  have hk : ∀ k, k < n → 0 < E k ⬝ᵥ v →
      -(E i ⬝ᵥ (x - P i)) / (E i ⬝ᵥ v) * (E k ⬝ᵥ v) ≤ -(E k ⬝ᵥ (x - P k)) := by
    intro k hkn hkp
    exact (le_div_iff₀ hkp).1 (hmin k ⟨hkn, hkp⟩)
  have hK : InHalf n P E (x + (-(E i ⬝ᵥ (x - P i)) / (E i ⬝ᵥ v)) • v) := by
    intro k hkn
    have e : E k ⬝ᵥ (x + (-(E i ⬝ᵥ (x - P i)) / (E i ⬝ᵥ v)) • v - P k) =
        E k ⬝ᵥ (x - P k) + (-(E i ⬝ᵥ (x - P i)) / (E i ⬝ᵥ v)) * (E k ⬝ᵥ v) := by
      rw [add_sub_right_comm, dotProduct_add, dotProduct_smul, smul_eq_mul]
    rw [e]
    by_cases hkp : 0 < E k ⬝ᵥ v
    · linarith [hk k hkn hkp]
    · have := hx k hkn
      have h2 := mul_nonneg ht (neg_nonneg.2 (not_lt.1 hkp))
      linarith
  obtain ⟨c, hc0, hcL, hc⟩ := g.on_edge hi (b := x + (-(E i ⬝ᵥ (x - P i)) / (E i ⬝ᵥ v)) • v) (by
      rw [add_sub_right_comm, dotProduct_add, dotProduct_smul, hv, hpx i hi]
      simp) (by
      rw [add_sub_right_comm, dotProduct_add, dotProduct_smul, smul_eq_mul]
      field_simp
      ring) hK
  exact ⟨i, _, c, hi, ht, hpos, hc0, hcL, hc, hk, hK⟩

/-- Points of edges satisfy the constraints. -/
theorem Geo.edge_half (g : Geo n P U E L N) {i : Nat} (hi : i < n) {c : ℝ} (h0 : 0 ≤ c) (hc : c ≤ L i) :
    InHalf n P E (P i + c • U i) := by
  intro k hk
  have h1 := g.half k i hk hi
  have h2 := g.half k _ hk (next_lt g.three i)
  rw [g.step i hi] at h2
  have e : ∀ x : ℝ, E k ⬝ᵥ (P i + x • U i - P k) = E k ⬝ᵥ (P i - P k) + x * (E k ⬝ᵥ U i) := by
    intro x
    rw [add_sub_right_comm, dotProduct_add, dotProduct_smul, smul_eq_mul]
  rw [e] at h2 ⊢
  have hL := g.len i hi
  have h3 : E k ⬝ᵥ (P i - P k) * (L i - c) ≤ 0 := mul_nonpos_of_nonpos_of_nonneg h1 (by linarith)
  have h4 : c * (E k ⬝ᵥ (P i - P k) + L i * (E k ⬝ᵥ U i)) ≤ 0 := mul_nonpos_of_nonneg_of_nonpos h0 h2
  have h5 : (E k ⬝ᵥ (P i - P k) + c * (E k ⬝ᵥ U i)) * L i ≤ 0 := by nlinarith
  by_contra hneg
  push Not at hneg
  nlinarith

theorem Geo.edge_plane (g : Geo n P U E L N) {i k : Nat} (hi : i < n) (hk : k < n) (c : ℝ) :
    N ⬝ᵥ (P i + c • U i - P k) = 0 := by
  rw [add_sub_right_comm, dotProduct_add, dotProduct_smul, g.plane i k hi hk, g.NU i hi]
  simp

/-- Outside the polygon, any point of the polygon is at least as far as some point of an edge whose half plane excludes `a`. -/
theorem Geo.nearer (g : Geo n P U E L N) {x a : V3 ℝ} (hx : InHalf n P E x) (hpx : ∀ i, i < n → N ⬝ᵥ (x - P i) = 0)
    (hpa : ∀ i, i < n → N ⬝ᵥ (a - P i) = 0) {j : Nat} (hj : j < n) (hout : 0 < E j ⬝ᵥ (a - P j)) :
    ∃ i c, i < n ∧ 0 < E i ⬝ᵥ (a - P i) ∧ 0 ≤ c ∧ c ≤ L i ∧ norm3 (a - (P i + c • U i)) ≤ norm3 (a - x) := by
  have hav : ∀ k, E k ⬝ᵥ (a - P k) = E k ⬝ᵥ (a - x) + E k ⬝ᵥ (x - P k) := by
    intro k
    rw [← dotProduct_add]
    congr 1
    abel
  have hv : N ⬝ᵥ (a - x) = 0 := by
    have h1 := hpx j hj
    have h2 := hpa j hj
    have e : a - x = (a - P j) - (x - P j) := by abel
    rw [e, dotProduct_sub, h1, h2, sub_zero]
  have hjv : 0 < E j ⬝ᵥ (a - x) := by
    have := hx j hj
    rw [hav] at hout
    linarith
  obtain ⟨i, t, c, hi, ht, hpos, h0, hL, hb, hmin, -⟩ := g.exit hx hpx hv hj hjv
  have ht1 : t < 1 := by
    have h1 := hmin j hj hjv
    have h2 := hav j
    by_contra hge
    push Not at hge
    nlinarith
  have hbi : E i ⬝ᵥ (x - P i) + t * (E i ⬝ᵥ (a - x)) = 0 := by
    have h1 := congrArg (fun w => E i ⬝ᵥ (w - P i)) hb
    simp only [add_sub_right_comm, dotProduct_add, dotProduct_smul, smul_eq_mul, g.EU hi, sub_self,
      zero_add, mul_zero] at h1
    exact h1
  refine ⟨i, c, hi, ?_, h0, hL, ?_⟩
  · rw [hav]
    nlinarith
  · rw [← hb]
    have e : a - (x + t • (a - x)) = (1 - t) • (a - x) := by
      rw [sub_smul, one_smul]
      abel
    rw [e, norm3_smul, abs_of_pos (by linarith)]
    have := norm3_nonneg (a - x)
    nlinarith

/-- Every point that satisfies the constraints is between two points of edges. -/
theorem Geo.between (g : Geo n P U E L N) {a : V3 ℝ} (ha : InHalf n P E a) (hpa : ∀ i, i < n → N ⬝ᵥ (a - P i) = 0) :
    ∃ i c k d, i < n ∧ 0 ≤ c ∧ c ≤ L i ∧ k < n ∧ 0 ≤ d ∧ d ≤ L k ∧ a ∈ segment ℝ (P i + c • U i) (P k + d • U k) := by
  have hn := g.three
  have h1 : 1 < n := by omega
  have e1 : (0 + 1) % n = 1 := Nat.mod_eq_of_lt h1
  have t1 := g.turn' (i := 0) (by omega)
  rw [e1] at t1
  have t2 := g.turn (n - 1) (by omega)
  rw [Nat.sub_add_cancel (by omega), Nat.mod_self] at t2
  obtain ⟨i, t, c, hi, ht, -, h0, hL, hb, -, -⟩ := g.exit (v := U 0) ha hpa (g.NU 0 (by omega)) (j := 1) (by omega) t1
  obtain ⟨k, s, d, hk, hs, -, h0', hL', hb', -, -⟩ := g.exit (v := -U 0) ha hpa
    (by rw [dotProduct_neg, g.NU 0 (by omega), neg_zero]) (j := n - 1) (by omega) (by rw [dotProduct_neg]; linarith)
  refine ⟨i, c, k, d, hi, h0, hL, hk, h0', hL', ?_⟩
  rw [← hb, ← hb']
  rcases eq_or_lt_of_le (add_nonneg ht hs) with h2 | h2
  · have ht0 : t = 0 := by linarith
    have hs0 : s = 0 := by linarith
    rw [ht0, hs0]
    simp
  · refine ⟨s / (t + s), t / (t + s), div_nonneg hs h2.le, div_nonneg ht h2.le, by field_simp; ring, ?_⟩
    funext l
    simp only [Pi.add_apply, Pi.smul_apply, Pi.neg_apply, smul_eq_mul]
    field_simp
    ring

end Geo

end Hpp.Contact
