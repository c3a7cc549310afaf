import Verif.Conf.Model
import Verif.Sym.Props
import Verif.Pose.Props

namespace Hpp.Conf

open Matrix Hpp.Sym Hpp.Pose Hpp.Log

variable {nv : Nat} {S : CSpace nv}

/-- C61: the value is half the weighted sum of the squares of the differences with the goal; the constructor accepts exactly the
weights of the right size. -/
theorem C61_value (goal a : S.Q) (ws : List ℝ) :
    (ws.length = nv → ∃ f, ConfCon.new S goal ws = some f ∧
      f.value a = (∑ i : Fin nv, ws.getD i 0 * (S.diff a goal i) ^ 2) / 2) ∧
    (ws.length ≠ nv → ConfCon.new S goal ws = none) := by
  refine ⟨fun h => ⟨_, if_neg (by simpa using h), ?_⟩, fun h => if_pos h⟩
  simp only [ConfCon.value, dotProduct]
  ring

theorem maskLoop_get : ∀ (mask : List Bool) (i : Nat) (ws : List ℝ), i + mask.length ≤ ws.length →
    ∃ ws', maskLoop mask i ws = some ws' ∧ ws'.length = ws.length ∧
      ∀ k, ws'.getD k 0 = if i ≤ k ∧ mask[k - i]? = some false then 0 else ws.getD k 0 := by
  intro mask
  induction mask with
  | nil => intro i ws _; exact ⟨ws, rfl, rfl, fun k => by simp⟩
  | cons b mask ih =>
    intro i ws h
    simp only [List.length_cons] at h
    have hsucc : ∀ k, i ≤ k → k ≠ i → (b :: mask)[k - i]? = mask[k - (i + 1)]? := by
      intro k h1 h2
      obtain ⟨d, rfl⟩ : ∃ d, k = i + 1 + d := ⟨k - (i + 1), by omega⟩
      rw [show i + 1 + d - i = d + 1 by omega, show i + 1 + d - (i + 1) = d by omega, List.getElem?_cons_succ]
    cases b with
    | true =>
      obtain ⟨ws', h1, h2, h3⟩ := ih (i + 1) ws (by omega)
      refine ⟨ws', by simpa [maskLoop] using h1, h2, fun k => ?_⟩
      rw [h3]
      rcases Nat.lt_trichotomy k i with hk | rfl | hk
      · rw [if_neg (by omega), if_neg (by omega)]
      · rw [if_neg (by omega), if_neg (by simp)]
      · rw [hsucc k hk.le (by omega)]
        simp only [show i + 1 ≤ k by omega, hk.le, true_and]
    | false =>
      obtain ⟨ws', h1, h2, h3⟩ := ih (i + 1) (ws.set i 0) (by rw [List.length_set]; omega)
      refine ⟨ws', ?_, by rw [h2, List.length_set], fun k => ?_⟩
      · simp only [maskLoop, Bool.false_eq_true, if_false]
        rw [if_pos (by omega)]
        exact h1
      · rw [h3]
        have hset : (ws.set i 0).getD k 0 = if k = i then 0 else ws.getD k 0 := by
          simp only [List.getD_eq_getElem?_getD, List.getElem?_set]
          by_cases hk : i = k
          · subst hk
            simp [show i < ws.length by omega]
          · simp [hk, Ne.symm hk]
        rw [hset]
        rcases Nat.lt_trichotomy k i with hk | rfl | hk
        · rw [if_neg (by omega), if_neg (by omega), if_neg (by omega)]
        · rw [if_neg (by omega), if_pos rfl, if_pos (by simp)]
        · rw [hsucc k hk.le (by omega)]
          simp only [show i + 1 ≤ k by omega, hk.le, true_and, show k ≠ i by omega, if_false]

/-- C61: with a mask, the value is half the sum of the squares of the differences that are not masked; variables after the end
of the mask are not masked. -/
theorem C61_mask (goal a : S.Q) {mask : List Bool} (h : mask.length ≤ nv) :
    ∃ f, ConfCon.ofMask S goal mask = some f ∧
      f.value a = (∑ i : Fin nv, if mask[(i : Nat)]? = some false then 0 else (S.diff a goal i) ^ 2) / 2 := by
  obtain ⟨ws, h1, h2, h3⟩ := maskLoop_get mask 0 (List.replicate nv 1) (by simpa using h)
  rw [List.length_replicate] at h2
  obtain ⟨f, hf, hv⟩ := (C61_value goal a ws).1 h2
  refine ⟨f, by rw [ConfCon.ofMask, h1]; exact hf, ?_⟩
  rw [hv]
  congr 1
  refine Finset.sum_congr rfl fun i _ => ?_
  rw [h3]
  simp only [Nat.zero_le, true_and, Nat.sub_zero]
  split_ifs
  · rw [zero_mul]
  · simp [List.getD_eq_getElem?_getD, i.2]

theorem ConfCon.value_deriv (f : ConfCon S) {a : ℝ → S.Q} {v : Fin nv → ℝ} {t : ℝ}
    (hD : ∀ i, HasDerivAt (fun t => S.diff (a t) f.goal i) ((S.dDiff0 (a t) f.goal *ᵥ v) i) t) :
    HasDerivAt (fun t => f.value (a t)) (∑ i, f.weights i * (S.diff (a t) f.goal i * (S.dDiff0 (a t) f.goal *ᵥ v) i)) t := by
  have h : HasDerivAt (fun t => f.value (a t))
      ((1 / 2) * ∑ i, f.weights i * (2 * S.diff (a t) f.goal i * (S.dDiff0 (a t) f.goal *ᵥ v) i)) t := by
    refine HasDerivAt.const_mul _ ?_
    have := HasDerivAt.fun_sum (u := Finset.univ) (A := fun i t => f.weights i * S.diff (a t) f.goal i ^ 2)
      (A' := fun i => f.weights i * (2 * S.diff (a t) f.goal i * (S.dDiff0 (a t) f.goal *ᵥ v) i)) (x := t) (fun i _ => by
        refine HasDerivAt.const_mul _ ?_
        have := (hD i).fun_pow 2
        simpa using this)
    exact this
  refine h.congr_deriv ?_
  rw [Finset.mul_sum]
  exact Finset.sum_congr rfl fun i _ => by ring

/-- C61 (part): the Jacobian times the velocity is the derivative of the value, along any motion along which `dDiff0` times the
velocity is the derivative of the difference with the goal, when weights of variables mixed by `dDiff0` are equal. -/
theorem C61_derivative_partial (f : ConfCon S) {a : ℝ → S.Q} {v : Fin nv → ℝ} {t : ℝ}
    (hD : ∀ i, HasDerivAt (fun t => S.diff (a t) f.goal i) ((S.dDiff0 (a t) f.goal *ᵥ v) i) t)
    (hw : ∀ i j, S.dDiff0 (a t) f.goal i j ≠ 0 → f.weights i = f.weights j) :
    HasDerivAt (fun t => f.value (a t)) (f.jacobian (a t) ⬝ᵥ v) t := by
  refine (f.value_deriv hD).congr_deriv ?_
  simp only [ConfCon.jacobian, dotProduct, mulVec, vecMul, Finset.mul_sum, Finset.sum_mul]
  rw [Finset.sum_comm]
  refine Finset.sum_congr rfl fun j _ => Finset.sum_congr rfl fun i _ => ?_
  by_cases h0 : S.dDiff0 (a t) f.goal i j = 0
  · rw [h0]; ring
  · rw [hw i j h0]; ring

/-- C61 on vector spaces: any weights, any motion. -/
theorem C61_vector_space (f : ConfCon (rnSpace nv)) {a : ℝ → Fin nv → ℝ} {v : Fin nv → ℝ} {t : ℝ}
    (ha : ∀ i, HasDerivAt (fun t => a t i) (v i) t) :
    HasDerivAt (fun t => f.value (a t)) (f.jacobian (a t) ⬝ᵥ v) t := by
  refine C61_derivative_partial f (fun i => ?_) (fun i j h => ?_)
  · refine ((ha i).const_sub (f.goal i)).congr_deriv ?_
    simp [rnSpace, neg_mulVec]
  · by_contra hc
    have hij : i ≠ j := fun h => hc (by rw [h])
    exact h (by simp [rnSpace, hij])

/-- The matrix `dDiff0` of the space of rotations is the derivative of the difference. -/
theorem SO3_lawful {R : ℝ → M3 ℝ} {w : V3 ℝ} {t : ℝ} {G : M3 ℝ} (hG : IsRot G) (hrot : ∀ t, IsRot (R t))
    (hd : ∀ a b, HasDerivAt (fun t => R t a b) ((R t * hat w) a b) t)
    (h : (R t)ᵀ * G = 1 ∨ 1e-6 < angle ((R t)ᵀ * G) ∧ angle ((R t)ᵀ * G) < Real.pi) (i : Fin 3) :
    HasDerivAt (fun t => so3Space.diff (R t) G i) ((so3Space.dDiff0 (R t) G *ᵥ w) i) t := by
  have hm : ∀ a b, HasDerivAt (fun t => ((R t)ᵀ * G) a b)
      (((R t)ᵀ * G * hat (((R t)ᵀ * G)ᵀ *ᵥ (-w))) a b) t := by
    intro a b
    have hdT : ∀ a b, HasDerivAt (fun t => (R t)ᵀ a b) ((R t * hat w)ᵀ a b) t := fun a b => hd b a
    have h1 := deriv_mul hdT (B := fun _ => G) (B' := 0) (fun a b => hasDerivAt_const _ _) a b
    refine h1.congr_deriv ?_
    have hM : IsRot ((R t)ᵀ * G) := (hrot t).transpose.mul hG
    rw [hM.mul_hat, mulVec_mulVec, hM.mul_transpose, one_mulVec, transpose_mul, hat_transpose, hat_neg]
    simp [Matrix.mul_assoc]
  have hl := log_left (M := fun t => (R t)ᵀ * G) (w := -w) (t := t) (fun t => (hrot t).transpose.mul hG) hm h i
  refine hl.congr_deriv ?_
  simp [so3Space, mulVec_neg, neg_mulVec]

/-- C61 on rotations, with equal weights. -/
theorem C61_rotation {G : M3 ℝ} (c : ℝ) {R : ℝ → M3 ℝ} {w : V3 ℝ} {t : ℝ} (hG : IsRot G) (hrot : ∀ t, IsRot (R t))
    (hd : ∀ a b, HasDerivAt (fun t => R t a b) ((R t * hat w) a b) t)
    (h : (R t)ᵀ * G = 1 ∨ 1e-6 < angle ((R t)ᵀ * G) ∧ angle ((R t)ᵀ * G) < Real.pi) :
    HasDerivAt (fun t => (ConfCon.mk (S := so3Space) G fun _ => c).value (R t))
      ((ConfCon.mk (S := so3Space) G fun _ => c).jacobian (R t) ⬝ᵥ w) t :=
  C61_derivative_partial (S := so3Space) _ (SO3_lawful hG hrot hd h) (fun _ _ _ => rfl)

/-! ### Different weights for the components of a rotation -/

/-- Rotation of angle `2π/3` that permutes the axes -/
def perm : M3 ℝ := !![0, 0, 1; 1, 0, 0; 0, 1, 0]

theorem perm_isRot : IsRot perm := by
  refine ⟨?_, ?_⟩
  · ext i j
    fin_cases i <;> fin_cases j <;> simp [perm, Matrix.mul_apply, Fin.sum_univ_three]
  · simp [perm, det_fin_three]

theorem perm_angle : angle perm = 2 * Real.pi / 3 := by
  have hpi := Real.pi_pos
  have h : Real.cos (2 * Real.pi / 3) = -1 / 2 := by
    rw [show 2 * Real.pi / 3 = Real.pi - Real.pi / 3 by ring, Real.cos_pi_sub, Real.cos_pi_div_three]
    norm_num
  unfold angle
  have e : perm 0 0 + perm 1 1 + perm 2 2 = 0 := by simp [perm]
  rw [e]
  norm_num
  rw [show (-(1 / 2) : ℝ) = -1 / 2 by norm_num, ← h, Real.arccos_cos (by positivity) (by linarith)]

theorem perm_log : ∃ d : ℝ, 0 < d ∧ logSO3 perm = ![d, d, d] := by
  have hpi := Real.pi_pos
  have h3 := Real.pi_gt_three
  have ha := perm_angle
  refine ⟨(2 * Real.pi / 3 / Real.sin (2 * Real.pi / 3)) / 2, ?_, ?_⟩
  · have : 0 < Real.sin (2 * Real.pi / 3) := Real.sin_pos_of_pos_of_lt_pi (by positivity) (by linarith)
    positivity
  · unfold logSO3
    rw [ha]
    dsimp only
    rw [if_pos (by norm_num; linarith), if_pos (by norm_num; linarith)]
    simp [perm]

/-- C61 does not hold for different weights of the components of a rotation: columns of the Jacobian of the difference are
multiplied by the weights, instead of its rows. -/
theorem C61_weights_refuted : ∃ (f : ConfCon so3Space) (R : ℝ → M3 ℝ) (w : V3 ℝ),
    (∀ i, 0 ≤ f.weights i) ∧ (∀ t, IsRot (R t)) ∧ (∀ a b, HasDerivAt (fun t => R t a b) ((R 0 * hat w) a b) 0) ∧
    (∃ L, HasDerivAt (fun t => f.value (R t)) L 0) ∧ ¬ HasDerivAt (fun t => f.value (R t)) (f.jacobian (R 0) ⬝ᵥ w) 0 := by
  have hpi := Real.pi_pos
  have h3 := Real.pi_gt_three
  have h4 := Real.pi_lt_four
  have hR : ∀ a b, HasDerivAt (fun t => rotZ t a b) ((rotZ 0 * hat ![0, 0, 1] : M3 ℝ) a b) 0 := by
    have h := (exMotion_moves 0).R 0
    intro a b
    refine (h a b).congr_deriv ?_
    have e : (exMotion 0).Jw 0 *ᵥ ![1] = ![0, 0, 1] := by
      funext i
      fin_cases i <;> simp [exMotion, mulVec, dotProduct]
    rw [e]
    rfl
  have h0 : rotZ 0 = 1 := by
    ext i j
    fin_cases i <;> fin_cases j <;> simp [rotZ]
  let f : ConfCon so3Space := ⟨perm, ![0, 1, 0]⟩
  have hd := f.value_deriv (a := rotZ) (v := ![0, 0, 1]) (t := 0) (SO3_lawful perm_isRot rotZ_isRot hR (by
    right
    rw [h0, transpose_one, Matrix.one_mul, perm_angle]
    constructor <;> [(norm_num; linarith); linarith]))
  refine ⟨f, rotZ, ![0, 0, 1], ?_, rotZ_isRot, hR, ⟨_, hd⟩, fun hc => ?_⟩
  · intro i
    fin_cases i <;> simp [f]
  · have hu := hd.unique hc
    obtain ⟨d, hd0, hl⟩ := perm_log
    have e1 : so3Space.diff (rotZ 0) perm = ![d, d, d] := by
      change logSO3 ((rotZ 0)ᵀ * perm) = _
      rw [h0, transpose_one, Matrix.one_mul, hl]
    have e2 : so3Space.dDiff0 (rotZ 0) perm = -computeJlog (2 * Real.pi / 3) ![d, d, d] := by
      change -computeJlog (angle ((rotZ 0)ᵀ * perm)) (logSO3 ((rotZ 0)ᵀ * perm)) = _
      rw [h0, transpose_one, Matrix.one_mul, hl, perm_angle]
    have e3 : f.jacobian (rotZ 0) ⬝ᵥ ![0, 0, 1] = 0 := by
      simp [ConfCon.jacobian, dotProduct, Fin.sum_univ_three, f]
    rw [e3] at hu
    have e4 : f.goal = perm := rfl
    rw [e4, e1, e2] at hu
    have hs : Real.sin (2 * Real.pi / 3) / (1 - Real.cos (2 * Real.pi / 3)) ≤ 2 / 3 := by
      have hc : Real.cos (2 * Real.pi / 3) = -1 / 2 := by
        rw [show 2 * Real.pi / 3 = Real.pi - Real.pi / 3 by ring, Real.cos_pi_sub, Real.cos_pi_div_three]
        norm_num
      rw [hc, div_le_iff₀ (by norm_num)]
      linarith [Real.sin_le_one (2 * Real.pi / 3)]
    have hal : 0 < 1 / (2 * Real.pi / 3 * (2 * Real.pi / 3)) -
        Real.sin (2 * Real.pi / 3) / (1 - Real.cos (2 * Real.pi / 3)) / (2 * (2 * Real.pi / 3)) := by
      generalize Real.sin (2 * Real.pi / 3) / (1 - Real.cos (2 * Real.pi / 3)) = s at hs
      have : 1 / (2 * Real.pi / 3 * (2 * Real.pi / 3)) - s / (2 * (2 * Real.pi / 3)) =
          (9 - 3 * Real.pi * s) / (4 * Real.pi ^ 2) := by
        field_simp
        ring
      rw [this]
      refine div_pos ?_ (by positivity)
      nlinarith
    have e5 : computeJlog (2 * Real.pi / 3) ![d, d, d] 1 2 = d / 2 + (1 / (2 * Real.pi / 3 * (2 * Real.pi / 3)) -
        Real.sin (2 * Real.pi / 3) / (1 - Real.cos (2 * Real.pi / 3)) / (2 * (2 * Real.pi / 3))) * (d * d) := by
      unfold computeJlog
      rw [if_neg (by norm_num; linarith)]
      simp
      ring
    have e6 : ∑ i, f.weights i * (![d, d, d] i * (-computeJlog (2 * Real.pi / 3) ![d, d, d] *ᵥ ![0, 0, 1]) i) =
        -(d * computeJlog (2 * Real.pi / 3) ![d, d, d] 1 2) := by
      simp only [f, Fin.sum_univ_three, mulVec, dotProduct]
      simp
    rw [e6, e5] at hu
    have : 0 < d * (d / 2 + (1 / (2 * Real.pi / 3 * (2 * Real.pi / 3)) -
        Real.sin (2 * Real.pi / 3) / (1 - Real.cos (2 * Real.pi / 3)) / (2 * (2 * Real.pi / 3))) * (d * d)) := by
      positivity
    linarith

/-! Examples -/

/-- Weights with a zero, on a vector space; the goal is not the configuration. -/
example : HasDerivAt (fun t => (ConfCon.mk (S := rnSpace 2) ![1, 2] ![3, 0]).value ![t, 5 * t])
    ((ConfCon.mk (S := rnSpace 2) ![1, 2] ![3, 0]).jacobian ![7, 5 * 7] ⬝ᵥ ![1, 5]) 7 :=
  C61_vector_space (ConfCon.mk (S := rnSpace 2) ![1, 2] ![3, 0]) (a := fun t => ![t, 5 * t]) (fun i => by
    fin_cases i
    · exact hasDerivAt_id' 7
    · simpa using (hasDerivAt_id' (7 : ℝ)).const_mul 5)

/-- Rotation about an axis, goal elsewhere -/
example : HasDerivAt (fun t => (ConfCon.mk (S := so3Space) perm fun _ => 4).value (rotZ t))
    ((ConfCon.mk (S := so3Space) perm fun _ => 4).jacobian (rotZ 0) ⬝ᵥ ((exMotion 0).Jw 0 *ᵥ ![1])) 0 := by
  have h0 : rotZ 0 = 1 := by
    ext i j
    fin_cases i <;> fin_cases j <;> simp [rotZ]
  have h3 := Real.pi_gt_three
  refine C61_rotation (G := perm) 4 (R := rotZ) perm_isRot rotZ_isRot ((exMotion_moves 0).R 0) (.inr ?_)
  rw [h0, transpose_one, Matrix.one_mul, perm_angle]
  constructor <;> [(norm_num; linarith); linarith]

example : ∃ f, ConfCon.ofMask (rnSpace 3) ![1, 2, 3] [true, false] = some f ∧
    f.value ![0, 0, 0] = (∑ i : Fin 3, if [true, false][(i : Nat)]? = some false then 0 else
      ((rnSpace 3).diff ![0, 0, 0] ![1, 2, 3] i) ^ 2) / 2 := C61_mask _ _ (by simp)

/-! ### C80: active parameters -/

theorem clearSeg_get (l : List Bool) (first size k : Nat) (h : k < l.length) :
    (clearSeg l first size).getD k false = if first ≤ k ∧ k < first + size then false else l.getD k false := by
  simp [clearSeg, List.getD_eq_getElem?_getD, h]

theorem clearSeg_length (l : List Bool) (first size : Nat) : (clearSeg l first size).length = l.length := by simp [clearSeg]

/-- All the weights of the joint are zero. -/
def Idle (w : Nat → ℝ) (j : CJoint) : Prop := ∀ k, j.iv ≤ k → k < j.iv + j.nv → w k = 0

theorem activeLoop_get (w : Nat → ℝ) : ∀ (js : List CJoint) (s : List Bool × List Bool) (k : Nat),
    (k < s.1.length → ((activeLoop w js s).1.getD k false = true ↔
      s.1.getD k false = true ∧ ∀ j ∈ js, Idle w j → ¬ (j.iq ≤ k ∧ k < j.iq + j.nq))) ∧
    (k < s.2.length → ((activeLoop w js s).2.getD k false = true ↔
      s.2.getD k false = true ∧ ∀ j ∈ js, Idle w j → ¬ (j.iv ≤ k ∧ k < j.iv + j.nv))) := by
  intro js
  induction js with
  | nil => intro s k; simp [activeLoop]
  | cons j js ih =>
    intro s k
    by_cases hj : ∀ k, j.iv ≤ k → k < j.iv + j.nv → w k = 0
    · simp only [activeLoop, if_pos hj]
      obtain ⟨h1, h2⟩ := ih (clearSeg s.1 j.iq j.nq, clearSeg s.2 j.iv j.nv) k
      simp only [clearSeg_length] at h1 h2
      refine ⟨fun h => ?_, fun h => ?_⟩
      · rw [h1 h, clearSeg_get _ _ _ _ h]
        by_cases hk : j.iq ≤ k ∧ k < j.iq + j.nq
        · rw [if_pos hk]
          simp only [Bool.false_eq_true, false_and, false_iff]
          exact fun hc => hc.2 j (by simp) hj hk
        · rw [if_neg hk]
          refine and_congr_right fun _ => ⟨fun hc b hb => ?_, fun hc b hb => hc b (List.mem_cons_of_mem _ hb)⟩
          rcases List.mem_cons.1 hb with rfl | hb
          · exact fun _ => hk
          · exact hc b hb
      · rw [h2 h, clearSeg_get _ _ _ _ h]
        by_cases hk : j.iv ≤ k ∧ k < j.iv + j.nv
        · rw [if_pos hk]
          simp only [Bool.false_eq_true, false_and, false_iff]
          exact fun hc => hc.2 j (by simp) hj hk
        · rw [if_neg hk]
          refine and_congr_right fun _ => ⟨fun hc b hb => ?_, fun hc b hb => hc b (List.mem_cons_of_mem _ hb)⟩
          rcases List.mem_cons.1 hb with rfl | hb
          · exact fun _ => hk
          · exact hc b hb
    · simp only [activeLoop, if_neg hj]
      obtain ⟨h1, h2⟩ := ih s k
      refine ⟨fun h => ?_, fun h => ?_⟩
      · rw [h1 h]
        simp [show ¬ Idle w j from hj]
      · rw [h2 h]
        simp [show ¬ Idle w j from hj]

/-- The space is a product: each component of the difference depends on the configuration variables `D` of its joint only, or
(extra degrees of freedom) on variables that belong to no joint. -/
def Product (js : List CJoint) (nq nv : Nat) (diff : (Nat → ℝ) → (Nat → ℝ) → Nat → ℝ) : Prop :=
  ∀ k, k < nv → ∃ D : Nat → Prop, (∀ i, D i → i < nq) ∧
    (∀ q q' g, (∀ i, D i → q i = q' i) → diff q g k = diff q' g k) ∧
    ((∃ j ∈ js, j.iv ≤ k ∧ k < j.iv + j.nv ∧ ∀ i, D i → j.iq ≤ i ∧ i < j.iq + j.nq) ∨
      (∀ i, D i → ∀ j ∈ js, ¬ (j.iq ≤ i ∧ i < j.iq + j.nq)))

/-- C80: a parameter is inactive exactly when it belongs to a joint all the weights of which are zero. -/
theorem C80_active (w : Nat → ℝ) (js : List CJoint) (nq nv k : Nat) :
    (k < nq → ((activeLoop w js (List.replicate nq true, List.replicate nv true)).1.getD k false = false ↔
      ∃ j ∈ js, (∀ i, j.iv ≤ i → i < j.iv + j.nv → w i = 0) ∧ j.iq ≤ k ∧ k < j.iq + j.nq)) ∧
    (k < nv → ((activeLoop w js (List.replicate nq true, List.replicate nv true)).2.getD k false = false ↔
      ∃ j ∈ js, (∀ i, j.iv ≤ i → i < j.iv + j.nv → w i = 0) ∧ j.iv ≤ k ∧ k < j.iv + j.nv)) := by
  obtain ⟨h1, h2⟩ := activeLoop_get w js (List.replicate nq true, List.replicate nv true) k
  refine ⟨fun h => ?_, fun h => ?_⟩
  · rw [← Bool.not_eq_true, h1 (by simpa using h)]
    simp [List.getD_eq_getElem?_getD, h, Idle]
  · rw [← Bool.not_eq_true, h2 (by simpa using h)]
    simp [List.getD_eq_getElem?_getD, h, Idle]

/-- C80: the value does not depend on inactive parameters. The joints have disjoint configuration variables. -/
theorem C80_value {w : Nat → ℝ} {js : List CJoint} {nq nv : Nat} {diff : (Nat → ℝ) → (Nat → ℝ) → Nat → ℝ}
    (hp : Product js nq nv diff)
    (hdis : ∀ a ∈ js, ∀ b ∈ js, ∀ i, a.iq ≤ i → i < a.iq + a.nq → b.iq ≤ i → i < b.iq + b.nq → a = b)
    {q q' g : Nat → ℝ}
    (hq : ∀ i, (activeLoop w js (List.replicate nq true, List.replicate nv true)).1.getD i false = true → q i = q' i) :
    let S : CSpace nv := ⟨Nat → ℝ, fun a b i => diff a b i, fun _ _ => 0⟩
    (ConfCon.mk (S := S) g fun i => w i).value q = (ConfCon.mk (S := S) g fun i => w i).value q' := by
  intro S
  simp only [ConfCon.value, dotProduct]
  congr 1
  refine Finset.sum_congr rfl fun k _ => ?_
  by_cases h0 : w k = 0
  · simp [h0]
  · obtain ⟨D, hD, hl, hj⟩ := hp k k.2
    change w k * diff q g k ^ 2 = w k * diff q' g k ^ 2
    rw [hl q q' g fun i hi => hq i ?_]
    rw [(activeLoop_get w js _ i).1 (by simpa using hD i hi)]
    refine ⟨by simp [List.getD_eq_getElem?_getD, hD i hi], fun b hb hidle hbi => ?_⟩
    rcases hj with ⟨j, hjs, h1, h2, h3⟩ | hj
    · have := hdis b hb j hjs i hbi.1 hbi.2 (h3 i hi).1 (h3 i hi).2
      subst this
      exact h0 (hidle k h1 h2)
    · exact hj i hi b hb hbi

/-- Example: two joints with one variable and an extra degree of freedom, in a vector space; the weight of the first joint is
zero. -/
example (q q' g : Nat → ℝ) (h1 : q 1 = q' 1) (h2 : q 2 = q' 2) :
    let S : CSpace 3 := ⟨Nat → ℝ, fun a b i => b i - a i, fun _ _ => 0⟩
    (ConfCon.mk (S := S) g fun i => (fun i => if i = 0 then (0 : ℝ) else 2) i).value q =
      (ConfCon.mk (S := S) g fun i => (fun i => if i = 0 then (0 : ℝ) else 2) i).value q' := by
  refine C80_value (w := fun i => if i = 0 then (0 : ℝ) else 2) (nq := 3) (nv := 3) (js := [⟨0, 1, 0, 1⟩, ⟨1, 1, 1, 1⟩])
    (diff := fun a b i => b i - a i) ?_ ?_ ?_
  · intro k hk
    refine ⟨fun i => i = k, fun i hi => by omega, fun q q' g h => by simp only [h k rfl], ?_⟩
    have : k = 0 ∨ k = 1 ∨ k = 2 := by omega
    rcases this with rfl | rfl | rfl
    · exact .inl ⟨⟨0, 1, 0, 1⟩, by simp, by simp, by simp, fun i hi => by simp; omega⟩
    · exact .inl ⟨⟨1, 1, 1, 1⟩, by simp, by simp, by simp, fun i hi => by simp; omega⟩
    · refine .inr fun i hi j hj => ?_
      simp only [List.mem_cons, List.not_mem_nil, or_false] at hj
      rcases hj with rfl | rfl <;> simp <;> omega
  · intro a ha b hb i
    simp only [List.mem_cons, List.not_mem_nil, or_false] at ha hb
    rcases ha with rfl | rfl <;> rcases hb with rfl | rfl <;> simp <;> omega
  · intro i hi
    by_cases h3 : i < 3
    · have hne : i ≠ 0 := by
        rintro rfl
        have := ((C80_active (fun i => if i = 0 then (0 : ℝ) else 2) [⟨0, 1, 0, 1⟩, ⟨1, 1, 1, 1⟩] 3 3 0).1 (by omega)).2
          ⟨⟨0, 1, 0, 1⟩, by simp, fun i h1 h2 => by simp at h1 h2 ⊢; omega, by simp, by simp⟩
        rw [this] at hi
        exact absurd hi (by simp)
      have : i = 1 ∨ i = 2 := by omega
      rcases this with rfl | rfl <;> assumption
    · exfalso
      have hlen : ∀ (js : List CJoint) (s : List Bool × List Bool),
          (activeLoop (fun i => if i = 0 then (0 : ℝ) else 2) js s).1.length = s.1.length := by
        intro js
        induction js with
        | nil => intro s; rfl
        | cons j js ih =>
          intro s
          simp only [activeLoop]
          rw [ih]
          split_ifs
          · exact clearSeg_length _ _ _
          · rfl
      rw [List.getD_eq_getElem?_getD, List.getElem?_eq_none (by rw [hlen]; simp; omega)] at hi
      exact absurd hi (by simp)

end Hpp.Conf
