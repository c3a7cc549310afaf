import Verif.Pose.Generic
import Verif.Log.AtId
import Verif.Segments.Props

/-! Lemmas on generic transformations -/

namespace Hpp.Pose

open Matrix Hpp.Sym Hpp.Log Topology

/-! ### Value -/

theorem select_range {β : Type} [Zero β] (m : List Bool) (l : List β) (h : l.length = m.length) :
    ((List.range m.length).filter (fun i => m[i]? == some true)).map (l.getD · 0) = select m l := by
  induction m generalizing l with
  | nil => cases l <;> simp_all [select]
  | cons b m ih =>
    cases l with
    | nil => simp at h
    | cons x l =>
      simp only [List.length_cons, Nat.add_right_cancel_iff] at h
      rw [List.length_cons, List.range_succ_eq_map, List.filter_cons, List.filter_map]
      have hf : ((fun i => (b :: m)[i]? == some true) ∘ Nat.succ) = fun i => m[i]? == some true := by
        funext i; simp
      rw [hf]
      cases b
      · simp only [List.getElem?_cons_zero, select, ← ih l h]
        simp [Function.comp_def]
      · simp only [List.getElem?_cons_zero, select, ← ih l h]
        simp [Function.comp_def]

theorem lread_fromLogical {β : Type} [Zero β] (m : List Bool) (l : List β) (h : l.length = m.length) :
    lread l (fromLogical m) = select m l := by
  unfold lread
  rw [(C08_mask_to_intervals m).2.2, select_range m l h]

theorem SE3.inv_mul_mul {A B : SE3 ℝ} (h : IsRot A.R) (C : SE3 ℝ) : (A.mul B).inv.mul C = B.actInv (A.actInv C) := by
  rw [SE3.actInv_eq, SE3.actInv_eq, ← SE3.mul_assoc]
  congr 1
  refine SE3.ext' ?_ ?_
  · simp [SE3.inv, SE3.mul, transpose_mul]
  · simp only [SE3.inv, SE3.mul, transpose_mul, mulVec_add, mulVec_neg, mulVec_mulVec, Matrix.mul_assoc, h.1, Matrix.mul_one]
    abel

theorem GT.frame2_eq (g : GT) (M : Nat → SE3 ℝ) : g.frame2 M = (g.M2 M).mul g.F2 := by
  unfold frame2 M2
  cases g.joint2 <;> simp [SE3.one_mul]

theorem GT.transform_eq (g : GT) {M : Nat → SE3 ℝ} (h : ∀ j, IsRot (M j).R) : g.transform M = g.relative M := by
  unfold transform relative
  rw [frame2_eq]
  unfold frame1
  cases hj : g.j1 with
  | none => simp [SE3.actInv_eq]
  | some j => simp [SE3.inv_mul_mul (h j)]

theorem GT.translation_eq (g : GT) {M : Nat → SE3 ℝ} (h : ∀ j, IsRot (M j).R) : g.translation M = (g.relative M).p := by
  rw [← g.transform_eq h]
  have e : g.translation M = g.F1.Rᵀ *ᵥ ((match g.j1 with
    | none => (g.M2 M).act g.F2.p
    | some j1 => (M j1).Rᵀ *ᵥ ((g.M2 M).act g.F2.p - (M j1).p)) - g.F1.p) := by
    unfold translation
    simp only []
    have hs : ∀ v : V3 ℝ, (if g.t1isZero = true then v else v - g.F1.p) = v - g.F1.p := fun v => by
      split
      · rename_i h0
        rw [of_decide_eq_true h0, sub_zero]
      · rfl
    rw [hs]
    split
    · rename_i h1
      rw [of_decide_eq_true h1, transpose_one, one_mulVec]
      cases g.j1 <;> rfl
    · rfl
  rw [e]
  unfold transform
  cases g.j1 <;> simp [SE3.actInv, SE3.act, SE3.mul]

theorem list3_length (v : V3 ℝ) : (list3 v).length = 3 := rfl

theorem GT.rawValue_eq {g : GT} (ok : g.Ok) (quat : M3 ℝ → List ℝ) {M : Nat → SE3 ℝ} (h : ∀ j, IsRot (M j).R) :
    g.rawValue quat M = g.full quat M := by
  unfold rawValue full
  rw [g.transform_eq h, g.translation_eq h]
  cases ho : g.ori with
  | true => simp
  | false =>
    have hp : g.pos = true := by have := ok.some; simp_all
    simp [hp]

theorem GT.full_length {g : GT} (ok : g.Ok) {quat : M3 ℝ → List ℝ} (hq : ∀ R, (quat R).length = 4) (M : Nat → SE3 ℝ) :
    (g.full quat M).length = g.valueMask.length := by
  have hm := ok.mask
  have hf := ok.full
  unfold full valueMask
  rw [List.length_append, List.length_append, hm]
  unfold lPos lOri
  cases ho : g.ori <;> cases hp : g.pos <;> cases h3 : g.ose3 <;>
    simp_all [list3_length, fullOri]

/-! ### Jacobian of the logarithm -/

theorem computeJlog_transpose (th : ℝ) (r : V3 ℝ) : computeJlog th r = (JlogSO3 th r)ᵀ := by
  unfold computeJlog JlogSO3
  split
  · simp
  · simp only [transpose_add, transpose_smul]
    congr 1
    · congr 1
      ext i j
      fin_cases i <;> fin_cases j <;> rfl
    · congr 1
      ext i j
      simp [vecMulVec_apply, mul_comm]

theorem computeJlog_mul {R : M3 ℝ} (hR : IsRot R) (h : 1e-6 < angle R) (h' : angle R < Real.pi) :
    computeJlog (angle R) (logSO3 R) * R = JlogSO3 (angle R) (logSO3 R) := by
  have h0 : 0 < angle R := lt_trans (by norm_num) h
  obtain ⟨u, hu, -, hl, hRu⟩ := logSO3_axis hR h h'
  have hs := Real.sin_pos_of_pos_of_lt_pi h0 h'
  have hJ := JlogSO3_lin3 h.le hs u
  rw [computeJlog_transpose, hl, hJ, lin3_transpose]
  have h2 := Real.sin_sq_add_cos_sq (angle R)
  generalize angle R = th at *
  rw [hRu, rodrigues_lin3, lin3_mul hu]
  generalize Real.sin th = s at *
  generalize Real.cos th = c at *
  congr 1
  · field_simp
    linear_combination h2
  · field_simp
    ring
  · field_simp
    linear_combination -th * h2

/-- Derivative of the logarithm, velocity in the fixed frame -/
theorem log_left {M : ℝ → M3 ℝ} {w : V3 ℝ} {t : ℝ} (hrot : ∀ t, IsRot (M t))
    (hd : ∀ a b, HasDerivAt (fun t => M t a b) ((M t * hat ((M t)ᵀ *ᵥ w)) a b) t)
    (h : M t = 1 ∨ 1e-6 < angle (M t) ∧ angle (M t) < Real.pi) :
    VDeriv (fun t => logSO3 (M t)) (computeJlog (angle (M t)) (logSO3 (M t)) *ᵥ w) t := by
  rcases h with h1 | ⟨h, h'⟩
  · refine (log_atId h1 hd).congr ?_
    obtain ⟨ha, hl⟩ := log_one h1
    rw [ha, hl]
    have : (0 : ℝ) < 1e-6 := by norm_num
    simp only [JlogSO3, computeJlog, this, if_true, one_mulVec, h1, transpose_one]
  · obtain ⟨u, hu⟩ := turns (hrot t) (lt_trans (by norm_num) h) h' hd
    refine (hu.log (Filter.Eventually.of_forall hrot) h).congr ?_
    rw [← computeJlog_mul (hrot t) h h', mulVec_mulVec, Matrix.mul_assoc, (hrot t).mul_transpose, Matrix.mul_one]

/-! ### Velocity of the relative transform -/

theorem colCross_eq (R : M3 ℝ) (c : V3 ℝ) : colCross R c = -(hat c * R) := by
  ext a b
  fin_cases a <;> fin_cases b <;> simp [colCross, hat, cross_apply, vecMul, dotProduct, Fin.sum_univ_three] <;> ring

theorem SE3.Moves.const {A : SE3 ℝ} (h : IsRot A.R) (t : ℝ) : SE3.Moves (fun _ => A) 0 0 t := by
  refine ⟨h, fun a b => ?_, ?_⟩
  · rw [hat_zero, Matrix.mul_zero]; exact hasDerivAt_const _ _
  · rw [mulVec_zero]; exact VDeriv.const _ _

variable {n e : Nat}

/-- Linear and angular velocities of a joint that may be null -/
def optV (J : Nat → Matrix (Fin 3) (Fin n) ℝ) (j : Option Nat) (qd : Fin n → ℝ) : V3 ℝ :=
  match j with
  | none => 0
  | some j => J j *ᵥ qd

def optM (M : Nat → SE3 ℝ) (j : Option Nat) : SE3 ℝ :=
  match j with
  | none => SE3.one
  | some j => M j

theorem one_isRot : IsRot (1 : M3 ℝ) := ⟨by simp, by simp⟩

theorem optM_rot {M : Nat → SE3 ℝ} (h : ∀ j, IsRot (M j).R) (j : Option Nat) : IsRot (optM M j).R := by
  cases j with
  | none => exact one_isRot
  | some j => exact h j

theorem optM_moves {K : ℝ → Kin n} {qd : Fin n → ℝ} {t : ℝ} (h : KMoves K qd t) (j : Option Nat) :
    SE3.Moves (fun t => optM (K t).M j) (optV (K t).Jv j qd) (optV (K t).Jw j qd) t := by
  cases j with
  | none => exact SE3.Moves.const one_isRot t
  | some j => exact h.moves j

theorem GT.M2_eq (g : GT) (M : Nat → SE3 ℝ) : g.M2 M = optM M g.joint2 := by
  unfold M2 optM; cases g.joint2 <;> rfl

theorem GT.relative_eq (g : GT) {M : Nat → SE3 ℝ} (h : ∀ j, IsRot (M j).R) :
    g.relative M = g.F1.actInv ((optM M g.j1).actInv ((optM M g.joint2).mul g.F2)) := by
  rw [← g.transform_eq h, transform, M2_eq]
  cases g.j1 with
  | none => simp [optM, SE3.actInv, SE3.one]
  | some j => rfl

/-- Velocity of the relative transform: derivative of the translation and angular velocity, in the first frame -/
theorem GT.relative_moves {g : GT} (ok : g.Ok) {K : ℝ → Kin n} {qd : Fin n → ℝ} {t : ℝ} (h : KMoves K qd t) :
    VDeriv (fun t => (g.relative (K t).M).p)
      (g.F1.Rᵀ *ᵥ ((optM (K t).M g.j1).Rᵀ *ᵥ
        ((optM (K t).M g.joint2).R *ᵥ optV (K t).Jv g.joint2 qd
          - crossProduct ((optM (K t).M g.joint2).R *ᵥ g.F2.p) ((optM (K t).M g.joint2).R *ᵥ optV (K t).Jw g.joint2 qd)
          - (optM (K t).M g.j1).R *ᵥ optV (K t).Jv g.j1 qd
          + crossProduct ((optM (K t).M g.joint2).R *ᵥ g.F2.p + (optM (K t).M g.joint2).p - (optM (K t).M g.j1).p)
              ((optM (K t).M g.j1).R *ᵥ optV (K t).Jw g.j1 qd)))) t ∧
    ∀ a b, HasDerivAt (fun t => (g.relative (K t).M).R a b) (((g.relative (K t).M).R * hat ((g.relative (K t).M).Rᵀ *ᵥ
      (g.F1.Rᵀ *ᵥ ((optM (K t).M g.j1).Rᵀ *ᵥ ((optM (K t).M g.joint2).R *ᵥ optV (K t).Jw g.joint2 qd)
        - optV (K t).Jw g.j1 qd)))) a b) t := by
  have m1 := optM_moves h g.j1
  have m2 := optM_moves h g.joint2
  have f1 := SE3.Moves.const ok.rot1 t
  have f2 := SE3.Moves.const ok.rot2 t
  have hm := f1.actInv (m1.actInv (m2.mul f2))
  have hr : ∀ t, g.relative (K t).M = g.F1.actInv ((optM (K t).M g.j1).actInv ((optM (K t).M g.joint2).mul g.F2)) :=
    fun t => g.relative_eq (h.rot t)
  have r1 := optM_rot (h.rot t) g.j1
  have r2 := optM_rot (h.rot t) g.joint2
  have e2 := ok.rot2
  simp only [hr]
  have k2 : ∀ v : V3 ℝ, g.F2.R *ᵥ (g.F2.Rᵀ *ᵥ v) = v := fun v => by rw [mulVec_mulVec, e2.mul_transpose, one_mulVec]
  have k3 : ∀ v : V3 ℝ, (optM (K t).M g.joint2).R *ᵥ ((optM (K t).M g.joint2).Rᵀ *ᵥ v) = v := fun v => by
    rw [mulVec_mulVec, r2.mul_transpose, one_mulVec]
  have k1 : ∀ v : V3 ℝ, (optM (K t).M g.j1).R *ᵥ ((optM (K t).M g.j1).Rᵀ *ᵥ v) = v := fun v => by
    rw [mulVec_mulVec, r1.mul_transpose, one_mulVec]
  have k1' : ∀ v : V3 ℝ, (optM (K t).M g.j1).Rᵀ *ᵥ ((optM (K t).M g.j1).R *ᵥ v) = v := fun v => by
    rw [mulVec_mulVec, r1.1, one_mulVec]
  constructor
  · refine hm.p.congr ?_
    simp only [SE3.actInv, SE3.mul, mulVec_zero, sub_zero, map_zero, add_zero]
    simp only [← mulVec_mulVec, transpose_mul, mulVec_add, mulVec_sub, k2, k3]
    rw [← r2.cross]
    have := cross_anticomm ((optM (K t).M g.joint2).R *ᵥ g.F2.p) ((optM (K t).M g.joint2).R *ᵥ optV (K t).Jw g.joint2 qd)
    rw [← this]
    simp only [mulVec_neg, map_add, map_sub, LinearMap.add_apply, LinearMap.sub_apply, mulVec_add, mulVec_sub]
    abel
  · intro a b
    refine (hm.R a b).congr_deriv ?_
    have k4 : ∀ v : V3 ℝ, g.F1.R *ᵥ (g.F1.Rᵀ *ᵥ v) = v := fun v => by rw [mulVec_mulVec, ok.rot1.mul_transpose, one_mulVec]
    have k3' : ∀ v : V3 ℝ, (optM (K t).M g.joint2).Rᵀ *ᵥ ((optM (K t).M g.joint2).R *ᵥ v) = v := fun v => by
      rw [mulVec_mulVec, r2.1, one_mulVec]
    simp only [SE3.actInv, SE3.mul, mulVec_zero, sub_zero, add_zero, transpose_mul, ← mulVec_mulVec, transpose_transpose,
      k4, mulVec_sub, k1, k3']

/-! ### Blocks of the Jacobian -/

theorem GT.cross2_eq (g : GT) (M : Nat → SE3 ℝ) : g.cross2 M = (optM M g.joint2).R *ᵥ g.F2.p := by
  unfold cross2
  split
  · rename_i h
    rw [of_decide_eq_true h, mulVec_zero]
  · rw [M2_eq]

/-- Multiplication by the transpose of the rotation of the first frame -/
theorem GT.if_R1isID {m : Type} (g : GT) (A : Matrix (Fin 3) m ℝ) :
    (if g.R1isID = true then some A else some (g.F1.Rᵀ * A)) = some (g.F1.Rᵀ * A) := by
  split
  · rename_i h
    rw [of_decide_eq_true h, transpose_one, Matrix.one_mul]
  · rfl

theorem GT.jtranslation_eq (g : GT) (K : Kin n) (qd : Fin n → ℝ) (hrot : ∀ j, IsRot (K.M j).R) {B : Matrix (Fin 3) (Fin n) ℝ}
    (h : g.jtranslation K = some B) :
    B *ᵥ qd = g.F1.Rᵀ *ᵥ ((optM K.M g.j1).Rᵀ *ᵥ
        ((optM K.M g.joint2).R *ᵥ optV K.Jv g.joint2 qd
          - crossProduct ((optM K.M g.joint2).R *ᵥ g.F2.p) ((optM K.M g.joint2).R *ᵥ optV K.Jw g.joint2 qd)
          - (optM K.M g.j1).R *ᵥ optV K.Jv g.j1 qd
          + crossProduct ((optM K.M g.joint2).R *ᵥ g.F2.p + (optM K.M g.joint2).p - (optM K.M g.j1).p)
              ((optM K.M g.j1).R *ᵥ optV K.Jw g.j1 qd))) := by
  unfold jtranslation at h
  simp only [M2_eq, cross2_eq, colCross_eq] at h
  have hz : g.t2isZero = true → g.F2.p = 0 := fun h => of_decide_eq_true h
  cases h1 : g.j1 with
  | none =>
    cases h2 : g.joint2 with
    | none => simp [h1, h2] at h
    | some j2 =>
      rw [h1, h2] at h
      simp only [Matrix.mul_assoc, if_R1isID] at h
      have e : B = g.F1.Rᵀ * (-(hat ((K.M j2).R *ᵥ g.F2.p) * (K.M j2).R) * K.Jw j2 + (K.M j2).R * K.Jv j2) := by
        split at h
        · rename_i h0
          rw [← Option.some.inj h, hz h0]
          simp [optM, hat_zero]
        · rw [← Option.some.inj h]
          rfl
      rw [e]
      simp only [optM, optV, SE3.one, transpose_one, one_mulVec, ← mulVec_mulVec, add_mulVec, neg_mulVec, hat_mulVec, mulVec_zero,
        map_zero, sub_zero, add_zero, Matrix.neg_mul]
      congr 1
      abel
  | some j1 =>
    have r1 := hrot j1
    have k1' : ∀ v : V3 ℝ, (K.M j1).Rᵀ *ᵥ ((K.M j1).R *ᵥ v) = v := fun v => by rw [mulVec_mulVec, r1.1, one_mulVec]
    cases h2 : g.joint2 with
    | none =>
      rw [h1, h2] at h
      simp only [if_R1isID] at h
      rw [← Option.some.inj h]
      simp only [optM, optV, SE3.one, one_mulVec, ← mulVec_mulVec, sub_mulVec, hat_mulVec, mulVec_zero,
        map_zero, sub_zero, add_zero, zero_sub, Matrix.neg_mul, Matrix.mul_neg, neg_neg, mulVec_add, mulVec_sub, mulVec_neg, k1']
      abel
    | some j2 =>
      rw [h1, h2] at h
      simp only [if_R1isID] at h
      have e : B = g.F1.Rᵀ * ((-(K.M j1).Rᵀ * -(hat ((K.M j2).R *ᵥ g.F2.p + (K.M j2).p - (K.M j1).p) * (K.M j1).R)) * K.Jw j1
          + ((K.M j1).Rᵀ * (K.M j2).R) * K.Jv j2 - K.Jv j1
          + (K.M j1).Rᵀ * -(hat ((K.M j2).R *ᵥ g.F2.p) * (K.M j2).R) * K.Jw j2) := by
        rw [← Option.some.inj h]
        split
        · rename_i h0
          rw [hz h0]
          simp [optM, hat_zero]
        · rfl
      rw [e]
      simp only [optM, optV, ← mulVec_mulVec, add_mulVec, sub_mulVec, neg_mulVec, hat_mulVec, Matrix.neg_mul, Matrix.mul_neg,
        neg_neg, mulVec_add, mulVec_sub, mulVec_neg, k1']
      abel

theorem GT.jorientation_eq {g : GT} (K : Kin n) (qd : Fin n → ℝ) {B : Matrix (Fin 3) (Fin n) ℝ}
    (h : g.jorientation K = some B) :
    B *ᵥ qd = (g.jlogFrom1 K.M) *ᵥ ((optM K.M g.j1).Rᵀ *ᵥ ((optM K.M g.joint2).R *ᵥ optV K.Jw g.joint2 qd)
        - optV K.Jw g.j1 qd) := by
  unfold jorientation at h
  simp only [M2_eq] at h
  cases h1 : g.j1 with
  | none =>
    cases h2 : g.joint2 with
    | none => simp [h1, h2] at h
    | some j2 =>
      rw [h1, h2] at h
      rw [← Option.some.inj h]
      simp only [optM, optV, SE3.one, transpose_one, one_mulVec, ← mulVec_mulVec, sub_zero]
  | some j1 =>
    cases h2 : g.joint2 with
    | none =>
      rw [h1, h2] at h
      rw [← Option.some.inj h]
      simp only [optM, optV, SE3.one, ← mulVec_mulVec, neg_mulVec, mulVec_zero, zero_sub]
    | some j2 =>
      rw [h1, h2] at h
      rw [← Option.some.inj h]
      simp only [optM, optV, ← mulVec_mulVec, add_mulVec, neg_mulVec]
      congr 1
      abel

theorem GT.jlogFrom1_log {g : GT} (h3 : g.ose3 = false) {M : Nat → SE3 ℝ} (hrot : ∀ j, IsRot (M j).R) :
    g.jlogFrom1 M = computeJlog (angle (g.relative M).R) (logSO3 (g.relative M).R) * g.F1.Rᵀ := by
  unfold jlogFrom1
  simp only [h3, g.transform_eq hrot, Bool.false_eq_true, if_false]
  split
  · rename_i h
    rw [of_decide_eq_true h, transpose_one, Matrix.mul_one]
  · rfl

theorem GT.jlogFrom1_ose3 {g : GT} (ok : g.Ok) (h3 : g.ose3 = true) {M : Nat → SE3 ℝ} (hrot : ∀ j, IsRot (M j).R) :
    g.jlogFrom1 M = (g.relative M).Rᵀ * g.F1.Rᵀ := by
  unfold jlogFrom1
  simp only [h3, if_true, M2_eq, g.relative_eq hrot]
  cases g.j1 with
  | none =>
    simp only [SE3.actInv, SE3.mul, optM, SE3.one, transpose_mul, transpose_transpose, transpose_one, Matrix.mul_one,
      Matrix.mul_assoc, ok.rot1.mul_transpose]
  | some j1 =>
    simp only [SE3.actInv, SE3.mul, optM, transpose_mul, transpose_transpose, Matrix.mul_assoc, ok.rot1.mul_transpose,
      Matrix.mul_one]

/-! ### Selected rows -/

theorem copyIndex_eq (m : Nat → Bool) (is : List Nat) (index : Nat) : copyIndex m is index = index + (is.filter m).length := by
  induction is generalizing index with
  | nil => rfl
  | cons i is ih =>
    simp only [copyIndex, List.filter_cons]
    split
    · simp [ih]; omega
    · simp [ih]

theorem copyRows_inl (m : Nat → Bool) (C : Rows n) (is : List Nat) (index : Nat) (J : Rows2 n e) (k : Nat) (c : Fin n) :
    copyRows m C is index J k (.inl c) =
      if index ≤ k then (match (is.filter m)[k - index]? with
        | some i => C i c
        | none => J k (.inl c)) else J k (.inl c) := by
  induction is generalizing index J with
  | nil => simp [copyRows]
  | cons i is ih =>
    simp only [copyRows, List.filter_cons]
    split
    · rw [ih]
      rcases Nat.lt_trichotomy k index with h | rfl | h
      · rw [if_neg (by omega), if_neg (by omega)]
        simp [writeRow, show k ≠ index by omega]
      · rw [if_neg (by omega), if_pos (le_refl _)]
        simp [writeRow]
      · rw [if_pos (by omega), if_pos (by omega)]
        obtain ⟨d, rfl⟩ : ∃ d, k = index + 1 + d := ⟨k - (index + 1), by omega⟩
        rw [show index + 1 + d - (index + 1) = d by omega, show index + 1 + d - index = d + 1 by omega,
          List.getElem?_cons_succ]
        simp [writeRow, show index + 1 + d ≠ index by omega]
    · rw [ih]

/-- Selected rows: positions of the true elements of the mask, in increasing order. -/
def GT.rows (g : GT) : List Nat := (List.range (g.lPos + g.lOri)).filter g.m

theorem GT.rows_split (g : GT) : g.rows = (List.range' 0 g.lPos).filter g.m ++ (List.range' g.lPos g.lOri).filter g.m := by
  unfold rows
  rw [← List.filter_append, List.range_eq_range', ← List.range'_append]
  simp

theorem GT.rowOri_eq (g : GT) : g.rowOri = ((List.range' 0 g.lPos).filter g.m).length := by
  unfold rowOri lPos
  cases g.pos
  · rfl
  · simp only [if_true, List.range', List.filter_cons]
    cases g.m 0 <;> cases g.m 1 <;> cases g.m 2 <;> rfl

theorem GT.fullPos_spec {g : GT} (h : g.fullPos = true) : g.pos = true ∧ (List.range' 0 g.lPos).filter g.m = [0, 1, 2] := by
  unfold fullPos rowOri at h
  cases hp : g.pos
  · simp [hp] at h
  · refine ⟨rfl, ?_⟩
    rw [hp] at h
    unfold lPos
    simp only [hp, if_true, List.range', List.filter_cons]
    revert h
    cases g.m 0 <;> cases g.m 1 <;> cases g.m 2 <;> simp

theorem GT.fullOri_spec {g : GT} (h : g.fullOri = true) :
    g.ori = true ∧ (List.range' g.lPos g.lOri).filter g.m = [g.lPos, g.lPos + 1, g.lPos + 2] := by
  unfold fullOri at h
  cases hp : g.ori
  · simp [hp] at h
  · refine ⟨rfl, ?_⟩
    rw [hp] at h
    unfold lOri
    simp only [hp, if_true, List.range', List.filter_cons]
    revert h
    cases g.m g.lPos <;> cases g.m (g.lPos + 1) <;> cases g.m (g.lPos + 2) <;> simp

/-- Row of a block of three rows -/
def blockRow (B : Matrix (Fin 3) (Fin n) ℝ) (i : Nat) : Fin n → ℝ := if i = 0 then B 0 else if i = 1 then B 1 else B 2

theorem writeLeft_in (J : Rows2 n e) (start : Nat) (B : Matrix (Fin 3) (Fin n) ℝ) {i : Nat} (h : i < 3) (c : Fin n) :
    writeLeft J start B (start + i) (.inl c) = blockRow B i c := by
  obtain rfl | rfl | rfl : i = 0 ∨ i = 1 ∨ i = 2 := by omega
  all_goals simp [writeLeft, blockRow]

theorem writeLeft_out (J : Rows2 n e) (start : Nat) (B : Matrix (Fin 3) (Fin n) ℝ) {i : Nat} (h : i < start) (c : Fin n) :
    writeLeft J start B i (.inl c) = J i (.inl c) := by
  simp [writeLeft, show i ≠ start by omega, show i ≠ start + 1 by omega, show i ≠ start + 2 by omega]

theorem writeCache_in (C : Rows n) (start : Nat) (B : Matrix (Fin 3) (Fin n) ℝ) {i : Nat} (h : i < 3) (c : Fin n) :
    writeCache C start B (start + i) c = blockRow B i c := by
  obtain rfl | rfl | rfl : i = 0 ∨ i = 1 ∨ i = 2 := by omega
  all_goals simp [writeCache, blockRow]

theorem writeCache_out (C : Rows n) (start : Nat) (B : Matrix (Fin 3) (Fin n) ℝ) {i : Nat} (h : i < start) (c : Fin n) :
    writeCache C start B i c = C i c := by
  simp [writeCache, show i ≠ start by omega, show i ≠ start + 1 by omega, show i ≠ start + 2 by omega]

theorem GT.finish_rows {g : GT} {C : Rows n} {J : Rows2 n e} {Bp Bo : Matrix (Fin 3) (Fin n) ℝ}
    (hp1 : g.fullPos = true → ∀ i < 3, ∀ c, J i (.inl c) = blockRow Bp i c)
    (hp2 : g.pos = true → g.fullPos = false → ∀ i < 3, ∀ c, C i c = blockRow Bp i c)
    (ho1 : g.fullOri = true → ∀ i < 3, ∀ c, J (g.rowOri + i) (.inl c) = blockRow Bo i c)
    (ho2 : g.ori = true → g.fullOri = false → ∀ i < 3, ∀ c, C (g.lPos + i) c = blockRow Bo i c)
    {k i : Nat} (hk : g.rows[k]? = some i) :
    (∀ c, g.finish C J k (.inl c) = if i < g.lPos then blockRow Bp i c else blockRow Bo (i - g.lPos) c) ∧
    ∀ c, g.finish C J k (.inr c) = 0 := by
  refine ⟨fun c => ?_, fun c => rfl⟩
  rw [rows_split] at hk
  set P := (List.range' 0 g.lPos).filter g.m with hP
  set O := (List.range' g.lPos g.lOri).filter g.m with hO
  have hPm : ∀ i ∈ P, i < g.lPos := fun i hi => by
    have := List.mem_range'_1.1 (List.mem_filter.1 hi).1; omega
  have hOm : ∀ i ∈ O, g.lPos ≤ i ∧ i < g.lPos + g.lOri := fun i hi => List.mem_range'_1.1 (List.mem_filter.1 hi).1
  have hidx : (if g.fullPos then g.lPos else copyIndex g.m (List.range' 0 g.lPos) 0) = P.length := by
    split
    · rename_i h
      obtain ⟨h1, h2⟩ := fullPos_spec h
      rw [hP, h2]; simp [lPos, h1]
    · rw [copyIndex_eq, Nat.zero_add]
  have e1 : g.finish C J k (.inl c) = (if g.fullOri then (if g.fullPos then J else copyRows g.m C (List.range' 0 g.lPos) 0 J)
      else copyRows g.m C (List.range' g.lPos g.lOri) P.length
        (if g.fullPos then J else copyRows g.m C (List.range' 0 g.lPos) 0 J)) k (.inl c) := by
    rw [← hidx]; rfl
  rw [e1]
  have hlpos : ∀ {i}, i < g.lPos → g.pos = true ∧ i < 3 := fun {i} h => by
    unfold lPos at h
    cases hp : g.pos <;> simp [hp] at h ⊢
    exact h
  by_cases hlt : k < P.length
  · rw [List.getElem?_append_left hlt] at hk
    have hi := hPm i (List.mem_of_getElem? hk)
    rw [if_pos hi]
    have hJp : (if g.fullPos then J else copyRows g.m C (List.range' 0 g.lPos) 0 J) k (.inl c) = blockRow Bp i c := by
      split
      · rename_i h
        obtain ⟨h1, h2⟩ := fullPos_spec h
        rw [hP, h2] at hk hlt
        have hk3 : k < 3 := hlt
        obtain rfl | rfl | rfl : k = 0 ∨ k = 1 ∨ k = 2 := by omega
        all_goals simp at hk; subst hk; exact hp1 h _ (by omega) c
      · rename_i h
        rw [copyRows_inl, if_pos (Nat.zero_le _), Nat.sub_zero, ← hP, hk]
        exact hp2 (hlpos hi).1 (by simpa using h) i (hlpos hi).2 c
    split
    · exact hJp
    · rw [copyRows_inl, if_neg (by omega)]
      exact hJp
  · rw [List.getElem?_append_right (by omega)] at hk
    have hi := hOm i (List.mem_of_getElem? hk)
    have hori : g.ori = true ∧ i - g.lPos < 3 := by
      have hl : g.lOri = if g.ori then 3 else 0 := rfl
      cases ho : g.ori <;> simp only [ho] at hl
      · simp at hl; omega
      · simp at hl; exact ⟨rfl, by omega⟩
    rw [if_neg (show ¬ i < g.lPos by omega)]
    by_cases h : g.fullOri = true
    · rw [if_pos h]
      obtain ⟨h1, h2⟩ := fullOri_spec h
      have hJo : J k (.inl c) = blockRow Bo (i - g.lPos) c := by
        obtain ⟨d, rfl⟩ : ∃ d, k = P.length + d := ⟨k - P.length, by omega⟩
        rw [Nat.add_sub_cancel_left] at hk
        rw [hP, ← g.rowOri_eq]
        rw [hO, h2] at hk
        have hd : d < 3 := by
          by_contra hd
          rw [List.getElem?_eq_none (by simp; omega)] at hk
          simp at hk
        have : i - g.lPos = d := by
          obtain rfl | rfl | rfl : d = 0 ∨ d = 1 ∨ d = 2 := by omega
          all_goals simp at hk; omega
        rw [this]
        exact ho1 h d hd c
      split
      · exact hJo
      · rw [copyRows_inl, if_pos (Nat.zero_le _), Nat.sub_zero, ← hP, List.getElem?_eq_none (by omega)]
        exact hJo
    · rw [if_neg h, copyRows_inl, if_pos (by omega), ← hO, hk]
      have := ho2 hori.1 (by simpa using h) (i - g.lPos) hori.2 c
      rw [show g.lPos + (i - g.lPos) = i by omega] at this
      exact this

theorem GT.jacobian_rows {g : GT} (ok : g.Ok) {K : Kin n} {C : Rows n} {J J' : Rows2 n e} (h : g.jacobian K C J = some J') :
    ∃ Bp Bo, (g.pos = true → g.jtranslation K = some Bp) ∧ (g.ori = true → g.jorientation K = some Bo) ∧
    ∀ k i, g.rows[k]? = some i →
      (∀ c, J' k (.inl c) = if i < g.lPos then blockRow Bp i c else blockRow Bo (i - g.lPos) c) ∧
      ∀ c, J' k (.inr c) = 0 := by
  have hose : (g.ose3 || g.fullOri) = g.fullOri := by
    cases h3 : g.ose3
    · simp
    · simp [ok.full h3]
  have hfp : g.pos = false → g.fullPos = false := fun h => by simp [fullPos, h]
  have hfo : g.ori = false → g.fullOri = false := fun h => by simp [fullOri, h]
  have hrow : g.fullPos = true → g.rowOri = 3 := fun h => by
    rw [rowOri_eq, (fullPos_spec h).2]; rfl
  have hl : g.pos = true → g.lPos = 3 := fun h => by simp [lPos, h]
  unfold jacobian at h
  obtain ⟨⟨C1, J1⟩, s1, h⟩ := Option.bind_eq_some_iff.1 h
  obtain ⟨⟨C2, J2⟩, s2, h⟩ := Option.map_eq_some_iff.1 h
  have hfin : J' = g.finish C2 J2 := h.symm
  unfold writeTranslation at s1
  unfold writeOrientation at s2
  rw [hose] at s2
  have f1 : ∃ Bp, (g.pos = true → g.jtranslation K = some Bp) ∧
      (g.fullPos = true → ∀ i < 3, ∀ c, J1 i (.inl c) = blockRow Bp i c) ∧
      (g.pos = true → g.fullPos = false → ∀ i < 3, ∀ c, C1 i c = blockRow Bp i c) := by
    cases hp : g.pos
    · exact ⟨0, by simp, by simp [hfp hp], by simp⟩
    · rw [hp, if_pos rfl] at s1
      obtain ⟨B, hB, s1⟩ := Option.map_eq_some_iff.1 s1
      refine ⟨B, fun _ => hB, fun hf i hi c => ?_, fun _ hf i hi c => ?_⟩
      · rw [if_pos hf] at s1
        obtain ⟨rfl, rfl⟩ := Prod.mk.inj s1
        have := writeLeft_in (e := e) J 0 B hi c
        rwa [Nat.zero_add] at this
      · rw [if_neg (by simp [hf])] at s1
        obtain ⟨rfl, rfl⟩ := Prod.mk.inj s1
        have := writeCache_in C 0 B hi c
        rwa [Nat.zero_add] at this
  obtain ⟨Bp, hBp, p1, p2⟩ := f1
  have f2 : ∃ Bo, (g.ori = true → g.jorientation K = some Bo) ∧
      (g.fullPos = true → ∀ i < 3, ∀ c, J2 i (.inl c) = blockRow Bp i c) ∧
      (g.pos = true → g.fullPos = false → ∀ i < 3, ∀ c, C2 i c = blockRow Bp i c) ∧
      (g.fullOri = true → ∀ i < 3, ∀ c, J2 (g.rowOri + i) (.inl c) = blockRow Bo i c) ∧
      (g.ori = true → g.fullOri = false → ∀ i < 3, ∀ c, C2 (g.lPos + i) c = blockRow Bo i c) := by
    cases ho : g.ori
    · rw [ho, if_neg (by simp)] at s2
      obtain ⟨rfl, rfl⟩ := Prod.mk.inj (Option.some.inj s2)
      exact ⟨0, by simp, p1, p2, by simp [hfo ho], by simp⟩
    · rw [ho, if_pos rfl] at s2
      obtain ⟨B, hB, s2⟩ := Option.map_eq_some_iff.1 s2
      refine ⟨B, fun _ => hB, ?_⟩
      cases hf : g.fullOri
      · rw [hf, if_neg (by simp)] at s2
        obtain ⟨rfl, rfl⟩ := Prod.mk.inj s2
        refine ⟨p1, fun hp hf i hi c => ?_, by simp, fun _ _ i hi c => writeCache_in C1 g.lPos B hi c⟩
        rw [writeCache_out _ _ _ (by rw [hl hp]; exact hi)]
        exact p2 hp hf i hi c
      · rw [hf, if_pos rfl] at s2
        obtain ⟨rfl, rfl⟩ := Prod.mk.inj s2
        refine ⟨fun hf i hi c => ?_, p2, fun _ i hi c => writeLeft_in J1 g.rowOri B hi c, by simp⟩
        rw [writeLeft_out _ _ _ (by rw [hrow hf]; exact hi)]
        exact p1 hf i hi c
  obtain ⟨Bo, hBo, q1, q2, q3, q4⟩ := f2
  refine ⟨Bp, Bo, hBp, hBo, fun k i hk => ?_⟩
  rw [hfin]
  exact finish_rows q1 q2 q3 q4 hk

end Hpp.Pose
