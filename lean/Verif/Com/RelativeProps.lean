import Verif.Com.Relative

namespace Hpp.Com

open Matrix Hpp.Sym Hpp.Pose

variable {n e : Nat}

theorem copyElements_get (m : Nat → Bool) (res : Nat → ℝ) (is : List Nat) (index : Nat) (out : Nat → ℝ) (k : Nat) :
    copyElements m res is index out k =
      if index ≤ k then (match (is.filter m)[k - index]? with
        | some i => res i
        | none => out k) else out k := by
  induction is generalizing index out with
  | nil => simp [copyElements]
  | cons i is ih =>
    simp only [copyElements, List.filter_cons]
    split
    · rw [ih]
      rcases Nat.lt_trichotomy k index with h | rfl | h
      · rw [if_neg (by omega), if_neg (by omega)]
        simp [Function.update_of_ne (show k ≠ index by omega)]
      · rw [if_neg (by omega), if_pos (le_refl _)]
        simp
      · rw [if_pos (by omega), if_pos (by omega)]
        obtain ⟨d, rfl⟩ : ∃ d, k = index + 1 + d := ⟨k - (index + 1), by omega⟩
        rw [show index + 1 + d - (index + 1) = d by omega, show index + 1 + d - index = d + 1 by omega,
          List.getElem?_cons_succ]
        simp [Function.update_of_ne (show index + 1 + d ≠ index by omega)]
    · rw [ih]

theorem output_filter {mask : List Bool} (h3 : mask.length = 3) {k i : Nat} (h : IsOutput mask k i) :
    i < 3 ∧ ([0, 1, 2].filter fun i => mask.getD i false)[k]? = some i := by
  obtain ⟨a, b, c, rfl⟩ : ∃ a b c, mask = [a, b, c] := by
    match mask, h3 with
    | [a, b, c], _ => exact ⟨a, b, c, rfl⟩
  obtain ⟨h1, h2⟩ := h
  have hi : i < 3 := by
    by_contra hc
    rw [List.getElem?_eq_none (by simpa using hc)] at h1
    exact absurd h1 (by simp)
  have : i = 0 ∨ i = 1 ∨ i = 2 := by omega
  refine ⟨hi, ?_⟩
  subst h2
  rcases this with rfl | rfl | rfl <;> revert h1 <;> cases a <;> cases b <;> cases c <;> decide

theorem RelCom.nominal_mask {f : RelCom} (h3 : f.mask.length = 3) (h : f.nominal = true) : f.mask = [true, true, true] := by
  obtain ⟨j, c, r, mask⟩ := f
  match mask, h3 with
  | [a, b, c], _ =>
    simp [RelCom.nominal, RelCom.m] at h
    obtain ⟨⟨rfl, rfl⟩, rfl⟩ := h
    rfl

theorem read3_lt (v : V3 ℝ) {i : Nat} (h : i < 3) : read3 v i = v ⟨i, h⟩ := by
  have : i = 0 ∨ i = 1 ∨ i = 2 := by omega
  rcases this with rfl | rfl | rfl <;> rfl

theorem blockRow_lt (B : Matrix (Fin 3) (Fin n) ℝ) {i : Nat} (h : i < 3) : blockRow B i = B ⟨i, h⟩ := by
  have : i = 0 ∨ i = 1 ∨ i = 2 := by omega
  rcases this with rfl | rfl | rfl <;> rfl

theorem RelCom.value_output {f : RelCom} (h3 : f.mask.length = 3) (w : World ℝ n) (out : Nat → ℝ) {k i : Nat}
    (h : IsOutput f.mask k i) (hi : i < 3) :
    f.value w out k = ((w.R f.joint)ᵀ *ᵥ (w.com f.comc - w.p f.joint) - f.reference) ⟨i, hi⟩ := by
  have hf := (output_filter h3 h).2
  unfold RelCom.value
  by_cases hn : f.nominal = true
  · rw [if_pos hn]
    rw [f.nominal_mask h3 hn] at hf
    have hk : k = i := by
      have : k < 3 := by
        by_contra hc
        rw [List.getElem?_eq_none (by simpa using hc)] at hf
        exact absurd hf (by simp)
      have : k = 0 ∨ k = 1 ∨ k = 2 := by omega
      rcases this with rfl | rfl | rfl <;> simpa using hf
    subst hk
    rw [if_pos hi, read3_lt _ hi]
  · rw [if_neg hn, copyElements_get, if_pos (Nat.zero_le _), Nat.sub_zero]
    change (match ([0, 1, 2].filter fun i => f.mask.getD i false)[k]? with
      | some i => _
      | none => _) = _
    rw [hf]
    exact read3_lt _ hi

theorem RelCom.jacobian_output {f : RelCom} (h3 : f.mask.length = 3) (w : World ℝ n) (J : Rows2 n e) {k i : Nat}
    (h : IsOutput f.mask k i) (hi : i < 3) (c : Fin n) :
    f.jacobian w J k (.inl c) = ((w.R f.joint)ᵀ * w.Jcom f.comc +
      ((w.R f.joint)ᵀ * colCross (w.R f.joint) (w.p f.joint - w.com f.comc)) * w.Jw f.joint - w.Jv f.joint :
        Matrix (Fin 3) (Fin n) ℝ) ⟨i, hi⟩ c := by
  have hf := (output_filter h3 h).2
  unfold RelCom.jacobian
  by_cases hn : f.nominal = true
  · rw [if_pos hn]
    rw [f.nominal_mask h3 hn] at hf
    have hk : k = i := by
      have : k < 3 := by
        by_contra hc
        rw [List.getElem?_eq_none (by simpa using hc)] at hf
        exact absurd hf (by simp)
      have : k = 0 ∨ k = 1 ∨ k = 2 := by omega
      rcases this with rfl | rfl | rfl <;> simpa using hf
    subst hk
    have : k = 0 ∨ k = 1 ∨ k = 2 := by omega
    rcases this with rfl | rfl | rfl <;> rfl
  · rw [if_neg hn, copyRows_inl, if_pos (Nat.zero_le _), Nat.sub_zero]
    change (match ([0, 1, 2].filter fun i => f.mask.getD i false)[k]? with
      | some i => _
      | none => _) = _
    rw [hf]
    dsimp only
    rw [blockRow_lt _ hi]

/-- C63: each output is the selected coordinate of the difference between the center of mass, in the frame of the joint, and
the reference. -/
theorem C63_value {f : RelCom} (h3 : f.mask.length = 3) {w : World ℝ n} (hR : IsRot (w.R f.joint)) (out : Nat → ℝ)
    {y : V3 ℝ} (hy : w.R f.joint *ᵥ y + w.p f.joint = w.com f.comc) {k : Nat} {i : Fin 3}
    (h : IsOutput f.mask k i) : f.value w out k = y i - f.reference i := by
  rw [f.value_output h3 w out h i.2, ← hy, add_sub_cancel_right, mulVec_mulVec, hR.1, one_mulVec]
  rfl

/-- C63: along any motion, each row of the Jacobian times the velocity is the derivative of the corresponding output, for
any mask, whatever the buffers passed by the caller contain; extra degrees of freedom have no effect. -/
theorem C63_derivative {f : RelCom} (h3 : f.mask.length = 3) {w : ℝ → World ℝ n} {qd : Fin n → ℝ} {t : ℝ}
    (hw : Moves w qd t) (out : ℝ → Nat → ℝ) (J : Rows2 n e) (ed : Fin e → ℝ) {k : Nat} {i : Fin 3}
    (h : IsOutput f.mask k i) :
    HasDerivAt (fun t => f.value (w t) (out t) k) (∑ c, f.jacobian (w t) J k c * Sum.elim qd ed c) t := by
  have hval : (fun t => f.value (w t) (out t) k) =
      fun t => (((w t).R f.joint)ᵀ *ᵥ ((w t).com f.comc - (w t).p f.joint) - f.reference) i :=
    funext fun s => f.value_output h3 (w s) (out s) h i.2
  rw [hval, Fintype.sum_sum_type]
  have hz : ∀ c : Fin e, f.jacobian (w t) J k (.inr c) = 0 := by
    intro c
    unfold RelCom.jacobian
    by_cases hn : f.nominal = true
    · rw [if_pos hn]; rfl
    · rw [if_neg hn]
      simp only [copyRows]
      split_ifs <;> rfl
  simp only [hz, zero_mul, Finset.sum_const_zero, add_zero, Sum.elim_inl, f.jacobian_output h3 (w t) J h i.2]
  have hd := ((VDeriv.mulVec (M := fun t => ((w t).R f.joint)ᵀ) (M' := ((w t).R f.joint * hat ((w t).Jw f.joint *ᵥ qd))ᵀ)
    (fun a b => hw.R f.joint b a) ((hw.com f.comc).sub (hw.p f.joint))).sub (VDeriv.const f.reference t)) i
  refine hd.congr_deriv ?_
  have hR := hw.rot f.joint
  have e1 : ∑ c, (((w t).R f.joint)ᵀ * (w t).Jcom f.comc + ((w t).R f.joint)ᵀ *
      colCross ((w t).R f.joint) ((w t).p f.joint - (w t).com f.comc) * (w t).Jw f.joint - (w t).Jv f.joint) i c * qd c =
      ((((w t).R f.joint)ᵀ * (w t).Jcom f.comc + ((w t).R f.joint)ᵀ *
      colCross ((w t).R f.joint) ((w t).p f.joint - (w t).com f.comc) * (w t).Jw f.joint - (w t).Jv f.joint) *ᵥ qd) i := rfl
  change _ = ∑ c, (((w t).R f.joint)ᵀ * (w t).Jcom f.comc + ((w t).R f.joint)ᵀ *
      colCross ((w t).R f.joint) ((w t).p f.joint - (w t).com f.comc) * (w t).Jw f.joint - (w t).Jv f.joint) i c * qd c
  rw [e1]
  generalize (w t).R f.joint = R at *
  rw [colCross_eq, sub_mulVec, add_mulVec, ← mulVec_mulVec, ← mulVec_mulVec _ _ ((w t).Jw f.joint)]
  generalize (w t).Jw f.joint *ᵥ qd = om at *
  generalize (w t).Jv f.joint *ᵥ qd = v at *
  generalize (w t).Jcom f.comc *ᵥ qd = xd at *
  generalize (w t).p f.joint = p at *
  generalize (w t).com f.comc = x at *
  have e2 : (R * hat om)ᵀ *ᵥ (x - p) = -crossProduct om (Rᵀ *ᵥ (x - p)) := by
    rw [transpose_mul, hat_transpose, neg_mul, neg_mulVec, ← mulVec_mulVec, hat_mulVec]
  have e3 : (Rᵀ * -(hat (p - x) * R)) *ᵥ om = crossProduct (Rᵀ *ᵥ (x - p)) om := by
    have h := hR.transpose.hat_conj (p - x)
    rw [transpose_transpose] at h
    rw [Matrix.mul_neg, ← Matrix.mul_assoc, h, neg_mulVec, hat_mulVec, ← neg_sub x p, mulVec_neg, map_neg, LinearMap.neg_apply,
      neg_neg]
  have e4 : Rᵀ *ᵥ (xd - R *ᵥ v) = Rᵀ *ᵥ xd - v := by rw [mulVec_sub, mulVec_mulVec, hR.1, one_mulVec]
  rw [e2, e3, e4, sub_zero, ← cross_anticomm om]
  simp only [Pi.add_apply, Pi.sub_apply]
  ring

/-- Example: a joint turning about a vertical axis that does not contain the center of mass, which goes up; coordinates 0
and 2 are selected; one extra degree of freedom. -/
example : HasDerivAt (fun t => (RelCom.mk 0 0 ![1, 2, 3] [true, false, true]).value (exMotion t) 0 1)
    (∑ c : Fin 1 ⊕ Fin 1, (RelCom.mk 0 0 ![1, 2, 3] [true, false, true]).jacobian (exMotion 0) 0 1 c *
      Sum.elim ![1] ![5] c) 0 :=
  C63_derivative (i := 2) rfl (exMotion_moves 0) (fun _ => 0) 0 ![5] (by unfold IsOutput; decide)

end Hpp.Com
