import Verif.Contact.Geometry

/-!
# Lemmas about convex shapes
-/

namespace Hpp.Contact

open Matrix Hpp.Sym Hpp.Pose

/-! ### Distance to an edge -/

theorem distEdge_pos {w v u : V3 ℝ} {c2 : ℝ} (huv : u ⬝ᵥ v = 0) : 0 < distEdge w c2 v u ↔ 0 < u ⬝ᵥ w := by
  unfold distEdge
  have h1 : 0 < u ⬝ᵥ w → 0 < norm3 w := by
    intro h
    refine norm3_pos ?_
    rintro rfl
    simp at h
  have h2 : 0 < u ⬝ᵥ w → 0 < norm3 (w - c2 • v) := by
    intro h
    refine norm3_pos ?_
    intro h0
    have h3 := congrArg (fun x => u ⬝ᵥ x) h0
    simp only [dotProduct_sub, dotProduct_smul, huv, smul_eq_mul, mul_zero, sub_zero, dotProduct_zero] at h3
    linarith
  have h3 := norm3_nonneg w
  have h4 := norm3_nonneg (w - c2 • v)
  dsimp only
  split
  · split
    · rename_i h
      exact ⟨fun _ => h, fun _ => h1 h⟩
    · rename_i h
      exact ⟨fun h' => absurd h' (by linarith), fun h' => absurd h' h⟩
  · split
    · split
      · rename_i h
        exact ⟨fun _ => h, fun _ => h2 h⟩
      · rename_i h
        exact ⟨fun h' => absurd h' (by linarith), fun h' => absurd h' h⟩
    · exact Iff.rfl

/-- Absolute value: distance to the edge. -/
theorem distEdge_abs {w U N : V3 ℝ} {c2 : ℝ} (hU : U ⬝ᵥ U = 1) (hN : N ⬝ᵥ N = 1) (hNU : N ⬝ᵥ U = 0) (hw : N ⬝ᵥ w = 0)
    (hc2 : 0 ≤ c2) :
    (∃ c, 0 ≤ c ∧ c ≤ c2 ∧ |distEdge w c2 U (U ⨯₃ N)| = norm3 (w - c • U)) ∧
    ∀ c, 0 ≤ c → c ≤ c2 → |distEdge w c2 U (U ⨯₃ N)| ≤ norm3 (w - c • U) := by
  have hsq : ∀ c : ℝ, (w - c • U) ⬝ᵥ (w - c • U) = (U ⬝ᵥ w - c) ^ 2 + ((U ⨯₃ N) ⬝ᵥ w) ^ 2 := by
    intro c
    have h := dot_coords hU hN hNU (w := w - c • U) (by rw [dotProduct_sub, dotProduct_smul, hw, hNU]; simp)
    rw [h]
    have e1 : U ⬝ᵥ (w - c • U) = U ⬝ᵥ w - c := by rw [dotProduct_sub, dotProduct_smul, hU]; simp
    have e2 : (U ⨯₃ N) ⬝ᵥ (w - c • U) = (U ⨯₃ N) ⬝ᵥ w := by
      rw [dotProduct_sub, dotProduct_smul, dotProduct_comm (U ⨯₃ N) U, dot_self_cross]
      simp
    rw [e1, e2]
  have habs : ∀ x : ℝ, 0 ≤ x → ∀ p : Prop, ∀ [Decidable p], |if p then x else -x| = x := by
    intro x hx p _
    split
    · exact abs_of_nonneg hx
    · rw [abs_neg, abs_of_nonneg hx]
  unfold distEdge
  dsimp only
  split
  · rename_i h
    rw [habs _ (norm3_nonneg w)]
    refine ⟨⟨0, le_refl _, hc2, by rw [zero_smul, sub_zero]⟩, fun c h0 h1 => ?_⟩
    have e : norm3 w = norm3 (w - (0 : ℝ) • U) := by rw [zero_smul, sub_zero]
    rw [e]
    refine norm3_le ?_
    rw [hsq, hsq]
    nlinarith
  · split
    · rename_i h0 h
      rw [habs _ (norm3_nonneg _)]
      refine ⟨⟨c2, hc2, le_refl _, rfl⟩, fun c h0 h1 => ?_⟩
      refine norm3_le ?_
      rw [hsq, hsq]
      nlinarith
    · rename_i h0 h
      push Not at h0 h
      have e : |(U ⨯₃ N) ⬝ᵥ w| = norm3 (w - (U ⬝ᵥ w) • U) := by
        unfold norm3
        rw [hsq, sub_self, ← Real.sqrt_sq_eq_abs]
        congr 1
        ring
      rw [e]
      refine ⟨⟨U ⬝ᵥ w, h0.le, h.le, rfl⟩, fun c _ _ => norm3_le ?_⟩
      rw [hsq, hsq]
      nlinarith [sq_nonneg (U ⬝ᵥ w - c)]

/-! ### The loop of `distanceLocal` -/

/-- State of the loop after the distances `l` -/
structure DistInv (l : List ℝ) (st : Bool × Option ℝ × Option ℝ) : Prop where
  out : st.1 = true ↔ ∃ d ∈ l, 0 < d
  posNone : st.2.1 = none → ∀ d ∈ l, d ≤ 0
  pos : ∀ m, st.2.1 = some m → m ∈ l ∧ 0 < m ∧ ∀ d ∈ l, 0 < d → m ≤ d
  negNone : st.2.2 = none → ∀ d ∈ l, 0 < d
  neg : ∀ m, st.2.2 = some m → m ∈ l ∧ m ≤ 0 ∧ ∀ d ∈ l, d ≤ 0 → d ≤ m

theorem distStep_inv {l : List ℝ} {st : Bool × Option ℝ × Option ℝ} (h : DistInv l st) (d : ℝ) :
    DistInv (l ++ [d]) (distStep st d) := by
  obtain ⟨b, mp, mn⟩ := st
  obtain ⟨h1, h2, h3, h4, h5⟩ := h
  dsimp only at h1 h2 h3 h4 h5
  unfold distStep
  dsimp only
  by_cases hd : 0 < d
  · rw [if_pos hd, if_neg (show ¬ d ≤ 0 by linarith)]
    refine ⟨?_, ?_, ?_, ?_, ?_⟩
    · exact ⟨fun _ => ⟨d, by simp, hd⟩, fun _ => rfl⟩
    · cases mp with
      | none => intro h; cases h
      | some m => dsimp only; split <;> (intro h; cases h)
    · intro m hm
      cases mp with
      | none =>
        cases hm
        refine ⟨by simp, hd, fun x hx h0 => ?_⟩
        rcases List.mem_append.1 hx with hx | hx
        · have := h2 rfl x hx; linarith
        · rw [List.mem_singleton.1 hx]
      | some m0 =>
        obtain ⟨k1, k2, k3⟩ := h3 m0 rfl
        dsimp only at hm
        split at hm
        · cases hm
          refine ⟨by simp, hd, fun x hx h0 => ?_⟩
          rcases List.mem_append.1 hx with hx | hx
          · have := k3 x hx h0; linarith
          · rw [List.mem_singleton.1 hx]
        · cases hm
          refine ⟨by simp [k1], k2, fun x hx h0 => ?_⟩
          rcases List.mem_append.1 hx with hx | hx
          · exact k3 x hx h0
          · rw [List.mem_singleton.1 hx]; linarith
    · intro h x hx
      rcases List.mem_append.1 hx with hx | hx
      · exact h4 h x hx
      · rw [List.mem_singleton.1 hx]; exact hd
    · intro m hm
      obtain ⟨k1, k2, k3⟩ := h5 m hm
      refine ⟨by simp [k1], k2, fun x hx h0 => ?_⟩
      rcases List.mem_append.1 hx with hx | hx
      · exact k3 x hx h0
      · rw [List.mem_singleton.1 hx] at h0; linarith
  · have hd' : d ≤ 0 := not_lt.1 hd
    rw [if_neg hd, if_pos hd']
    refine ⟨?_, ?_, ?_, ?_, ?_⟩
    · refine h1.trans ⟨fun ⟨x, hx, h0⟩ => ⟨x, by simp [hx], h0⟩, fun ⟨x, hx, h0⟩ => ?_⟩
      rcases List.mem_append.1 hx with hx | hx
      · exact ⟨x, hx, h0⟩
      · rw [List.mem_singleton.1 hx] at h0; linarith
    · intro h x hx
      rcases List.mem_append.1 hx with hx | hx
      · exact h2 h x hx
      · rw [List.mem_singleton.1 hx]; exact hd'
    · intro m hm
      obtain ⟨k1, k2, k3⟩ := h3 m hm
      refine ⟨by simp [k1], k2, fun x hx h0 => ?_⟩
      rcases List.mem_append.1 hx with hx | hx
      · exact k3 x hx h0
      · rw [List.mem_singleton.1 hx] at h0; linarith
    · cases mn with
      | none => intro h; cases h
      | some m => dsimp only; split <;> (intro h; cases h)
    · intro m hm
      cases mn with
      | none =>
        cases hm
        refine ⟨by simp, hd', fun x hx h0 => ?_⟩
        rcases List.mem_append.1 hx with hx | hx
        · have := h4 rfl x hx; linarith
        · rw [List.mem_singleton.1 hx]
      | some m0 =>
        obtain ⟨k1, k2, k3⟩ := h5 m0 rfl
        dsimp only at hm
        split at hm
        · cases hm
          refine ⟨by simp, hd', fun x hx h0 => ?_⟩
          rcases List.mem_append.1 hx with hx | hx
          · have := k3 x hx h0; linarith
          · rw [List.mem_singleton.1 hx]
        · cases hm
          refine ⟨by simp [k1], k2, fun x hx h0 => ?_⟩
          rcases List.mem_append.1 hx with hx | hx
          · exact k3 x hx h0
          · rw [List.mem_singleton.1 hx]; linarith

theorem distFold_inv (l : List ℝ) : DistInv l (l.foldl distStep (false, none, none)) := by
  induction l using List.reverseRecOn with
  | nil => exact ⟨by simp, by simp, by simp, by simp, by simp⟩
  | append_singleton l d ih =>
    rw [List.foldl_append]
    exact distStep_inv ih d

/-- Result of the loop: the smallest positive value if any, else the largest value. -/
theorem distFold_result {l : List ℝ} (hl : l ≠ []) :
    ∃ m, (if (l.foldl distStep (false, none, none)).1 = true then (l.foldl distStep (false, none, none)).2.1
      else (l.foldl distStep (false, none, none)).2.2) = some m ∧ m ∈ l ∧
      ((0 < m ∧ ∀ d ∈ l, 0 < d → m ≤ d) ∨ (m ≤ 0 ∧ ∀ d ∈ l, d ≤ m)) := by
  have h := distFold_inv l
  generalize l.foldl distStep (false, none, none) = st at h
  obtain ⟨b, mp, mn⟩ := st
  obtain ⟨h1, h2, h3, h4, h5⟩ := h
  dsimp only at h1 h2 h3 h4 h5 ⊢
  by_cases hb : b = true
  · rw [if_pos hb]
    obtain ⟨d, hd, hd0⟩ := h1.1 hb
    cases mp with
    | none => have := h2 rfl d hd; linarith
    | some m => exact ⟨m, rfl, (h3 m rfl).1, Or.inl (h3 m rfl).2⟩
  · rw [if_neg hb]
    have hall : ∀ d ∈ l, d ≤ 0 := by
      intro d hd
      by_contra hneg
      exact hb (h1.2 ⟨d, hd, not_le.1 hneg⟩)
    cases mn with
    | none =>
      obtain ⟨d, hd⟩ := List.exists_mem_of_ne_nil l hl
      have := h4 rfl d hd
      have := hall d hd
      linarith
    | some m =>
      obtain ⟨k1, k2, k3⟩ := h5 m rfl
      exact ⟨m, rfl, k1, Or.inr ⟨k2, fun d hd => k3 d hd (hall d hd)⟩⟩

/-! ### From the points to the edges -/

/-- Members of a shape of three or more points -/
theorem new_polygon {Pts : List (V3 ℝ)} (h : 3 ≤ Pts.length) (Ns Us : List (V3 ℝ)) :
    Shape.init Pts Ns Us = some ⟨Pts, (Pts.length : ℝ)⁻¹ • Pts.sum,
      normalize ((at3 Pts 1 - at3 Pts 0) ⨯₃ (at3 Pts 2 - at3 Pts 1)),
      (List.range Pts.length).map fun i => normalize (normalize (at3 Pts ((i + 1) % Pts.length) - at3 Pts i) ⨯₃
        normalize ((at3 Pts 1 - at3 Pts 0) ⨯₃ (at3 Pts 2 - at3 Pts 1))),
      (List.range Pts.length).map fun i => normalize (at3 Pts ((i + 1) % Pts.length) - at3 Pts i),
      (List.range Pts.length).map fun i => norm3 (at3 Pts ((i + 1) % Pts.length) - at3 Pts i)⟩ := by
  match Pts, h with
  | _ :: _ :: _ :: _, _ => rfl

theorem at3_map {n i : Nat} (hi : i < n) (f : Nat → V3 ℝ) : at3 ((List.range n).map f) i = f i := by
  simp [at3, hi]

theorem getD_map_range {n i : Nat} (hi : i < n) (f : Nat → ℝ) : ((List.range n).map f).getD i 0 = f i := by
  simp [hi]

theorem at3_some {l : List (V3 ℝ)} {i : Nat} (hi : i < l.length) : l[i]? = some (at3 l i) := by
  simp [at3, hi]

theorem at3_mem {l : List (V3 ℝ)} {i : Nat} (hi : i < l.length) : at3 l i ∈ l := by
  have := at3_some hi
  exact List.mem_of_getElem? this

/-- Cross product of two vectors of the plane orthogonal to `m` -/
theorem cross_parallel {m a b : V3 ℝ} (ha : m ⬝ᵥ a = 0) (hb : m ⬝ᵥ b = 0) :
    (m ⬝ᵥ m) • (a ⨯₃ b) = (m ⬝ᵥ (a ⨯₃ b)) • m := by
  simp only [dotProduct, Fin.sum_univ_three] at ha hb
  funext i
  fin_cases i <;>
    simp [cross_apply, dotProduct, Fin.sum_univ_three]
  · linear_combination (-(m 1 * a 2 - m 2 * a 1)) * hb + (m 1 * b 2 - m 2 * b 1) * ha
  · linear_combination (-(m 2 * a 0 - m 0 * a 2)) * hb + (m 2 * b 0 - m 0 * b 2) * ha
  · linear_combination (-(m 0 * a 1 - m 1 * a 0)) * hb + (m 0 * b 1 - m 1 * b 0) * ha

/-- The normal computed from two successive edges turning left. -/
theorem normal_of_left {m a b : V3 ℝ} (ha : m ⬝ᵥ a = 0) (hb : m ⬝ᵥ b = 0) (hl : 0 < m ⬝ᵥ (a ⨯₃ b)) :
    normalize (a ⨯₃ b) = normalize m := by
  have hm : m ≠ 0 := by
    rintro rfl
    simp at hl
  have hmm := dot_self_pos hm
  have h := cross_parallel ha hb
  have e : a ⨯₃ b = ((m ⬝ᵥ m)⁻¹ * (m ⬝ᵥ (a ⨯₃ b))) • m := by
    rw [← smul_smul, ← h, smul_smul, inv_mul_cancel₀ hmm.ne', one_smul]
  rw [e]
  exact normalize_pos_smul (mul_pos (inv_pos.2 hmm) hl) m

section

variable {P : List (V3 ℝ)} {m : V3 ℝ}

/-- `left` with total accesses -/
theorem ConvexFor.left' (h : ConvexFor P m) {i k : Nat} (hi : i < P.length) (hk : k < P.length) (h1 : k ≠ i)
    (h2 : k ≠ (i + 1) % P.length) : 0 < m ⬝ᵥ ((at3 P ((i + 1) % P.length) - at3 P i) ⨯₃ (at3 P k - at3 P i)) :=
  h.left i _ k rfl hi hk h1 h2 _ _ _ (at3_some hi) (at3_some (next_lt h.three i)) (at3_some hk)

theorem ConvexFor.plane' (h : ConvexFor P m) {i k : Nat} (hi : i < P.length) (hk : k < P.length) :
    m ⬝ᵥ (at3 P i - at3 P k) = 0 := h.plane _ (at3_mem hi) _ (at3_mem hk)

theorem next_ne {n : Nat} (h : 3 ≤ n) {i : Nat} (hi : i < n) : (i + 1) % n ≠ i := by
  rcases Nat.lt_or_ge (i + 1) n with h1 | h1
  · rw [Nat.mod_eq_of_lt h1]; omega
  · have : i + 1 = n := by omega
    rw [this, Nat.mod_self]; omega

theorem next_next_ne {n : Nat} (h : 3 ≤ n) {i : Nat} (hi : i < n) : ((i + 1) % n + 1) % n ≠ i := by
  rcases Nat.lt_or_ge (i + 1) n with h1 | h1
  · rw [Nat.mod_eq_of_lt h1]
    rcases Nat.lt_or_ge (i + 1 + 1) n with h2 | h2
    · rw [Nat.mod_eq_of_lt h2]; omega
    · have : i + 1 + 1 = n := by omega
      rw [this, Nat.mod_self]; omega
  · have : i + 1 = n := by omega
    rw [this, Nat.mod_self, Nat.mod_eq_of_lt (by omega)]; omega

/-- Two successive edges turn left. -/
theorem ConvexFor.turn (h : ConvexFor P m) {i : Nat} (hi : i < P.length) :
    0 < m ⬝ᵥ ((at3 P ((i + 1) % P.length) - at3 P i) ⨯₃
      (at3 P (((i + 1) % P.length + 1) % P.length) - at3 P ((i + 1) % P.length))) := by
  have h1 := h.left' hi (next_lt h.three ((i + 1) % P.length)) (next_next_ne h.three hi) (next_ne h.three (next_lt h.three i))
  have e : at3 P (((i + 1) % P.length + 1) % P.length) - at3 P i =
      (at3 P (((i + 1) % P.length + 1) % P.length) - at3 P ((i + 1) % P.length)) + (at3 P ((i + 1) % P.length) - at3 P i) := by
    abel
  rw [e, map_add, cross_self, add_zero] at h1
  exact h1

theorem ConvexFor.m_ne (h : ConvexFor P m) : m ≠ 0 := by
  rintro rfl
  have := h.turn (i := 0) (by have := h.three; omega)
  simp at this

theorem ConvexFor.normal (h : ConvexFor P m) :
    normalize ((at3 P 1 - at3 P 0) ⨯₃ (at3 P 2 - at3 P 1)) = normalize m := by
  have h3 := h.three
  have ht := h.turn (i := 0) (by omega)
  have e1 : (0 + 1) % P.length = 1 := Nat.mod_eq_of_lt (by omega)
  have e2 : (1 + 1) % P.length = 2 := Nat.mod_eq_of_lt (by omega)
  rw [e1, e2] at ht
  exact normal_of_left (h.plane' (by omega) (by omega)) (h.plane' (by omega) (by omega)) ht

/-- What the constructor computes for a convex polygon. -/
theorem ConvexFor.geo (h : ConvexFor P m) {s : Shape} {Ns Us : List (V3 ℝ)} (hs : Shape.init P Ns Us = some s) :
    s.Pts = P ∧ s.C = (P.length : ℝ)⁻¹ • P.sum ∧ s.N = normalize m ∧
      Geo P.length (at3 P) (at3 s.Us) (at3 s.Ns) (fun i => s.Ls.getD i 0) s.N := by
  have h3 := h.three
  rw [new_polygon h3] at hs
  cases hs
  have hN : normalize ((at3 P 1 - at3 P 0) ⨯₃ (at3 P 2 - at3 P 1)) = normalize m := h.normal
  refine ⟨rfl, rfl, hN, ?_⟩
  dsimp only
  rw [hN]
  have hmm := dot_self_pos h.m_ne
  have hNm : ∀ v : V3 ℝ, normalize m ⬝ᵥ v = (norm3 m)⁻¹ * (m ⬝ᵥ v) := by
    intro v
    unfold normalize
    rw [if_pos hmm, smul_dotProduct, smul_eq_mul]
  have hmpos := inv_pos.2 (norm3_pos h.m_ne)
  have hne : ∀ i, i < P.length → at3 P ((i + 1) % P.length) - at3 P i ≠ 0 := by
    intro i hi h0
    have := h.turn hi
    rw [h0] at this
    simp at this
  have hUs : ∀ i, i < P.length → at3 ((List.range P.length).map fun i => normalize (at3 P ((i + 1) % P.length) - at3 P i)) i =
      normalize (at3 P ((i + 1) % P.length) - at3 P i) := fun i hi => at3_map hi _
  have hLs : ∀ i, i < P.length → ((List.range P.length).map fun i => norm3 (at3 P ((i + 1) % P.length) - at3 P i)).getD i 0 =
      norm3 (at3 P ((i + 1) % P.length) - at3 P i) := fun i hi => getD_map_range hi _
  have hNN : normalize m ⬝ᵥ normalize m = 1 := normalize_dot_self h.m_ne
  have hUU : ∀ i, i < P.length → normalize (at3 P ((i + 1) % P.length) - at3 P i) ⬝ᵥ
      normalize (at3 P ((i + 1) % P.length) - at3 P i) = 1 := fun i hi => normalize_dot_self (hne i hi)
  have hUe : ∀ i, i < P.length → normalize (at3 P ((i + 1) % P.length) - at3 P i) =
      (norm3 (at3 P ((i + 1) % P.length) - at3 P i))⁻¹ • (at3 P ((i + 1) % P.length) - at3 P i) := by
    intro i hi
    unfold normalize
    rw [if_pos (dot_self_pos (hne i hi))]
  have hNU : ∀ i, i < P.length → normalize m ⬝ᵥ normalize (at3 P ((i + 1) % P.length) - at3 P i) = 0 := by
    intro i hi
    rw [hUe i hi, dotProduct_smul, hNm, h.plane' (next_lt h3 i) hi]
    simp
  have hEE : ∀ i, i < P.length → (normalize (at3 P ((i + 1) % P.length) - at3 P i) ⨯₃ normalize m) ⬝ᵥ
      (normalize (at3 P ((i + 1) % P.length) - at3 P i) ⨯₃ normalize m) = 1 := by
    intro i hi
    rw [cross_dot_cross, hUU i hi, hNN, hNU i hi, dotProduct_comm _ (normalize m), hNU i hi]
    ring
  have hEs : ∀ i, i < P.length → at3 ((List.range P.length).map fun i =>
      normalize (normalize (at3 P ((i + 1) % P.length) - at3 P i) ⨯₃ normalize m)) i =
      normalize (at3 P ((i + 1) % P.length) - at3 P i) ⨯₃ normalize m := by
    intro i hi
    rw [at3_map hi]
    exact normalize_unit (hEE i hi)
  have hdot : ∀ i, i < P.length → ∀ w : V3 ℝ, (normalize (at3 P ((i + 1) % P.length) - at3 P i) ⨯₃ normalize m) ⬝ᵥ w =
      -((norm3 m)⁻¹ * (norm3 (at3 P ((i + 1) % P.length) - at3 P i))⁻¹ *
        (m ⬝ᵥ ((at3 P ((i + 1) % P.length) - at3 P i) ⨯₃ w))) := by
    intro i hi w
    rw [hUe i hi]
    generalize at3 P ((i + 1) % P.length) - at3 P i = u
    unfold normalize
    rw [if_pos hmm]
    simp only [cross_apply, dotProduct, Fin.sum_univ_three]
    simp
    ring
  refine ⟨h3, ?_, ?_, ?_, hNN, ?_, ?_, ?_, ?_, ?_⟩
  · intro i hi
    rw [hUs i hi, hLs i hi, smul_normalize]
    abel
  · intro i hi
    rw [hLs i hi]
    exact norm3_pos (hne i hi)
  · intro i hi
    rw [hUs i hi]
    exact hUU i hi
  · intro i hi
    rw [hUs i hi]
    exact hNU i hi
  · intro i hi
    rw [hUs i hi, hEs i hi]
  · intro i k hi hk
    rw [hEs i hi, hdot i hi]
    have hi2 := inv_pos.2 (norm3_pos (hne i hi))
    by_cases h1 : k = i
    · rw [h1, sub_self, map_zero]; simp
    · by_cases h2 : k = (i + 1) % P.length
      · rw [h2, cross_self]; simp
      · have := mul_pos (mul_pos hmpos hi2) (h.left' hi hk h1 h2)
        linarith
  · intro i hi
    rw [hEs i hi, hUs _ (next_lt h3 i), hUe _ (next_lt h3 i), dotProduct_smul, hdot i hi, smul_eq_mul]
    have hi2 := inv_pos.2 (norm3_pos (hne i hi))
    have hi3 := inv_pos.2 (norm3_pos (hne _ (next_lt h3 i)))
    have := mul_pos hi3 (mul_pos (mul_pos hmpos hi2) (h.turn hi))
    linarith
  · intro i k hi hk
    rw [hNm, h.plane' hi hk, mul_zero]

/-! ### The polygon as a set -/

/-- The points that satisfy the half plane constraints, in the plane -/
theorem Geo.region_eq {n : Nat} {U E : Nat → V3 ℝ} {L : Nat → ℝ} {N : V3 ℝ} (hn : n = P.length) (g : Geo n (at3 P) U E L N) :
    region P = { a | InHalf n (at3 P) E a ∧ ∀ i, i < n → N ⬝ᵥ (a - at3 P i) = 0 } := by
  subst hn
  apply Set.Subset.antisymm
  · refine convexHull_min ?_ ?_
    · intro p hp
      obtain ⟨k, hk⟩ := List.mem_iff_getElem?.1 hp
      have hk' : k < P.length := by
        by_contra hge
        rw [List.getElem?_eq_none (not_lt.1 hge)] at hk
        cases hk
      have e : p = at3 P k := by
        rw [at3_some hk'] at hk
        exact (Option.some.inj hk).symm
      rw [e]
      exact ⟨fun i hi => g.half i k hi hk', fun i hi => g.plane k i hk' hi⟩
    · intro x hx y hy a b ha hb hab
      have e : ∀ p : V3 ℝ, a • x + b • y - p = a • (x - p) + b • (y - p) := by
        intro p
        have : p = a • p + b • p := by rw [← add_smul, hab, one_smul]
        nth_rewrite 1 [this]
        rw [smul_sub, smul_sub]
        abel
      refine ⟨fun i hi => ?_, fun i hi => ?_⟩
      · rw [e, dotProduct_add, dotProduct_smul, dotProduct_smul, smul_eq_mul, smul_eq_mul]
        have h1 := mul_nonneg ha (neg_nonneg.2 (hx.1 i hi))
        have h2 := mul_nonneg hb (neg_nonneg.2 (hy.1 i hi))
        linarith
      · rw [e, dotProduct_add, dotProduct_smul, dotProduct_smul, hx.2 i hi, hy.2 i hi]
        simp
  · rintro a ⟨ha, hp⟩
    obtain ⟨i, c, k, d, hi, hc0, hcL, hk, hd0, hdL, hseg⟩ := g.between ha hp
    have hcv : Convex ℝ (region P) := convex_convexHull ℝ _
    have hv : ∀ i, i < P.length → at3 P i ∈ region P := fun i hi => subset_convexHull ℝ _ (at3_mem hi)
    have hedge : ∀ i, i < P.length → ∀ c, 0 ≤ c → c ≤ L i → at3 P i + c • U i ∈ region P := by
      intro i hi c h0 h1
      refine hcv.segment_subset (hv i hi) (hv _ (next_lt g.three i)) ?_
      have hL := g.len i hi
      refine ⟨1 - c / L i, c / L i, ?_, div_nonneg h0 hL.le, by ring, ?_⟩
      · have := (div_le_one hL).2 h1
        linarith
      · rw [g.step i hi]
        funext l
        simp only [Pi.add_apply, Pi.smul_apply, smul_eq_mul]
        field_simp
        ring
    exact hcv.segment_subset (hedge i hi c hc0 hcL) (hedge k hk d hd0 hdL) hseg

/-- Points of the boundary -/
theorem Geo.boundary_iff {n : Nat} {U E : Nat → V3 ℝ} {L : Nat → ℝ} {N : V3 ℝ} (hn : n = P.length) (g : Geo n (at3 P) U E L N)
    (x : V3 ℝ) : x ∈ boundary P ↔ ∃ i c, i < n ∧ 0 ≤ c ∧ c ≤ L i ∧ x = at3 P i + c • U i := by
  subst hn
  constructor
  · rintro ⟨i, p, q, hp, hq, a, b, ha, hb, hab, rfl⟩
    have hi : i < P.length := by
      by_contra hge
      rw [List.getElem?_eq_none (not_lt.1 hge)] at hp
      cases hp
    rw [at3_some hi] at hp
    rw [at3_some (next_lt g.three i)] at hq
    cases hp
    cases hq
    have hL := g.len i hi
    refine ⟨i, b * L i, hi, mul_nonneg hb hL.le, by nlinarith, ?_⟩
    rw [g.step i hi]
    have ea : a = 1 - b := by linarith
    rw [ea]
    funext l
    simp only [Pi.add_apply, Pi.smul_apply, smul_eq_mul]
    ring
  · rintro ⟨i, c, hi, h0, h1, rfl⟩
    have hL := g.len i hi
    refine ⟨i, _, _, at3_some hi, at3_some (next_lt g.three i), 1 - c / L i, c / L i, ?_, div_nonneg h0 hL.le, by ring, ?_⟩
    · have := (div_le_one hL).2 h1
      linarith
    · rw [g.step i hi]
      funext l
      simp only [Pi.add_apply, Pi.smul_apply, smul_eq_mul]
      field_simp
      ring

theorem edist_eq (a b : V3 ℝ) : edist a b = norm3 (a - b) := rfl

/-- The distances of the loop of `distanceLocal` -/
theorem distanceLocal_spec {s : Shape} (hn : s.Pts ≠ []) (a : V3 ℝ) :
    ∃ m, s.distanceLocal a = some m ∧
      (∃ i, i < s.Pts.length ∧ m = distEdge (a - at3 s.Pts i) (s.Ls.getD i 0) (at3 s.Us i) (at3 s.Ns i)) ∧
      ((0 < m ∧ ∀ i, i < s.Pts.length → 0 < distEdge (a - at3 s.Pts i) (s.Ls.getD i 0) (at3 s.Us i) (at3 s.Ns i) →
          m ≤ distEdge (a - at3 s.Pts i) (s.Ls.getD i 0) (at3 s.Us i) (at3 s.Ns i)) ∨
        (m ≤ 0 ∧ ∀ i, i < s.Pts.length → distEdge (a - at3 s.Pts i) (s.Ls.getD i 0) (at3 s.Us i) (at3 s.Ns i) ≤ m)) := by
  obtain ⟨m, h1, h2, h3⟩ := distFold_result (l := (List.range s.Pts.length).map fun i =>
    distEdge (a - at3 s.Pts i) (s.Ls.getD i 0) (at3 s.Us i) (at3 s.Ns i)) (by simpa using hn)
  refine ⟨m, h1, ?_, ?_⟩
  · obtain ⟨i, hi, e⟩ := List.mem_map.1 h2
    exact ⟨i, List.mem_range.1 hi, e.symm⟩
  · rcases h3 with ⟨h4, h5⟩ | ⟨h4, h5⟩
    · exact Or.inl ⟨h4, fun i hi => h5 _ (List.mem_map.2 ⟨i, List.mem_range.2 hi, rfl⟩)⟩
    · exact Or.inr ⟨h4, fun i hi => h5 _ (List.mem_map.2 ⟨i, List.mem_range.2 hi, rfl⟩)⟩

/-- Reversing a convex polygon -/
theorem ConvexFor.reverse (h : ConvexFor P m) : ConvexFor P.reverse (-m) := by
  have h3 := h.three
  refine ⟨by simpa using h3, ?_, ?_⟩
  · intro p hp q hq
    rw [neg_dotProduct, h.plane p (List.mem_reverse.1 hp) q (List.mem_reverse.1 hq), neg_zero]
  · intro i j k hj hi hk hki hkj p q r hp hq hr
    rw [List.length_reverse] at hj hi hk
    have hj' : j < P.length := by rw [hj]; exact next_lt h3 i
    rw [List.getElem?_reverse hi] at hp
    rw [List.getElem?_reverse hj'] at hq
    rw [List.getElem?_reverse hk] at hr
    have e : (P.length - 1 - j + 1) % P.length = P.length - 1 - i := by
      rcases Nat.lt_or_ge (i + 1) P.length with h1 | h1
      · rw [Nat.mod_eq_of_lt h1] at hj
        rw [hj, Nat.mod_eq_of_lt (by omega)]
        omega
      · have : i + 1 = P.length := by omega
        rw [this, Nat.mod_self] at hj
        rw [hj, show P.length - 1 - 0 + 1 = P.length by omega, Nat.mod_self]
        omega
    have h4 := h.left (P.length - 1 - j) (P.length - 1 - i) (P.length - 1 - k) e.symm (by omega) (by omega) (by omega)
      (by omega) q p r hq hp hr
    have e2 : (q - p) ⨯₃ (r - p) = -((p - q) ⨯₃ (r - q)) := by
      have e3 : r - p = (r - q) - (p - q) := by abel
      have e4 : q - p = -(p - q) := by abel
      rw [e3, e4, map_sub, map_neg, LinearMap.neg_apply, LinearMap.neg_apply, cross_self, neg_zero, sub_zero]
    rw [e2, neg_dotProduct, dotProduct_neg, neg_neg]
    exact h4

end

end Hpp.Contact
