import Verif.Log.Lemmas

/-!
# Conversions between quaternions and rotation matrices

`Eigen::Quaternion::toRotationMatrix` and `Eigen::Quaternion (matrix)` (external library, modelled from its documentation and
source since the constraints rely on it: relative-pose.cc:96-108, 114-125, relative-transformation.cc:157-158).
-/

namespace Hpp.Pose

open Matrix Hpp.Sym Hpp.Log

/-- `Quaternion::toRotationMatrix` (Eigen) of the quaternion `(x, y, z, w)` -/
def quatToRot (x y z w : ℝ) : M3 ℝ :=
  !![1 - (2 * y * y + 2 * z * z), 2 * y * x - 2 * z * w, 2 * z * x + 2 * y * w;
     2 * y * x + 2 * z * w, 1 - (2 * x * x + 2 * z * z), 2 * z * y - 2 * x * w;
     2 * z * x - 2 * y * w, 2 * z * y + 2 * x * w, 1 - (2 * x * x + 2 * y * y)]

/-- Case of the construction from a matrix where the trace is not positive and `i` is the largest diagonal element;
`j`, `k` the next indices.  Returns elements `i`, `j`, `k` and `w`. -/
noncomputable def quatCase (m : M3 ℝ) (i j k : Fin 3) : ℝ × ℝ × ℝ × ℝ :=
  let t := Real.sqrt (m i i - m j j - m k k + 1)
  let u := (1 / 2) / t
  ((1 / 2) * t, (m j i + m i j) * u, (m k i + m i k) * u, (m k j - m j k) * u)

/-- Index of the largest diagonal element (Eigen: `i = 0; if (m11 > m00) i = 1; if (m22 > mii) i = 2;`) -/
noncomputable def maxDiag (m : M3 ℝ) : Fin 3 :=
  let i : Fin 3 := if m 1 1 > m 0 0 then 1 else 0
  if m 2 2 > m i i then 2 else i

/-- `Quaternion (matrix)`, coefficients `x, y, z, w` -/
noncomputable def rotToQuat (m : M3 ℝ) : List ℝ :=
  let t := m 0 0 + m 1 1 + m 2 2
  if 0 < t then
    let t := Real.sqrt (t + 1)
    let u := (1 / 2) / t
    [(m 2 1 - m 1 2) * u, (m 0 2 - m 2 0) * u, (m 1 0 - m 0 1) * u, (1 / 2) * t]
  else if maxDiag m = 0 then
    let c := quatCase m 0 1 2
    [c.1, c.2.1, c.2.2.1, c.2.2.2]
  else if maxDiag m = 1 then
    let c := quatCase m 1 2 0
    [c.2.2.1, c.1, c.2.1, c.2.2.2]
  else
    let c := quatCase m 2 0 1
    [c.2.1, c.2.2.1, c.1, c.2.2.2]

/-- Quaternions `x` and `-x` represent the same rotation. -/
theorem quatToRot_neg (x y z w : ℝ) : quatToRot (-x) (-y) (-z) (-w) = quatToRot x y z w := by
  unfold quatToRot
  ext i j
  fin_cases i <;> fin_cases j <;> simp

theorem quatToRot_isRot {x y z w : ℝ} (h : x * x + y * y + z * z + w * w = 1) : IsRot (quatToRot x y z w) := by
  constructor
  · ext i j
    fin_cases i <;> fin_cases j <;> simp [quatToRot, Matrix.mul_apply, Fin.sum_univ_three]
    · linear_combination (4 * (y * y + z * z)) * h
    · linear_combination (-4 * (x * y)) * h
    · linear_combination (-4 * (x * z)) * h
    · linear_combination (-4 * (x * y)) * h
    · linear_combination (4 * (x * x + z * z)) * h
    · linear_combination (-4 * (y * z)) * h
    · linear_combination (-4 * (x * z)) * h
    · linear_combination (-4 * (y * z)) * h
    · linear_combination (4 * (x * x + y * y)) * h
  · rw [det_fin_three]
    simp [quatToRot]
    linear_combination (4 * (x * x + y * y + z * z)) * h

/-- Products of the elements of the quaternion of a rotation, times 4 -/
structure QuatProd (R : M3 ℝ) (x y z w : ℝ) : Prop where
  xx : 4 * (x * x) = 1 + R 0 0 - R 1 1 - R 2 2
  yy : 4 * (y * y) = 1 - R 0 0 + R 1 1 - R 2 2
  zz : 4 * (z * z) = 1 - R 0 0 - R 1 1 + R 2 2
  ww : 4 * (w * w) = 1 + R 0 0 + R 1 1 + R 2 2
  xy : 4 * (x * y) = R 0 1 + R 1 0
  xz : 4 * (x * z) = R 0 2 + R 2 0
  yz : 4 * (y * z) = R 1 2 + R 2 1
  wx : 4 * (w * x) = R 2 1 - R 1 2
  wy : 4 * (w * y) = R 0 2 - R 2 0
  wz : 4 * (w * z) = R 1 0 - R 0 1

theorem QuatProd.spec {R : M3 ℝ} {x y z w : ℝ} (h : QuatProd R x y z w) :
    x * x + y * y + z * z + w * w = 1 ∧ quatToRot x y z w = R := by
  obtain ⟨xx, yy, zz, ww, xy, xz, yz, wx, wy, wz⟩ := h
  refine ⟨by linarith, ?_⟩
  ext i j
  fin_cases i <;> fin_cases j <;> simp [quatToRot] <;> linarith

/-- Division by the largest element -/
theorem div_prod {D p q s t u : ℝ} (hD : 0 < D) (hu : u = (1 / 2) / Real.sqrt D) (h : p * q = D * s) (ht : t = 4 * ((p * u) * (q * u))) :
    t = s := by
  have hs := Real.mul_self_sqrt hD.le
  have hs0 : Real.sqrt D ≠ 0 := (Real.sqrt_pos.2 hD).ne'
  rw [ht, hu]
  generalize Real.sqrt D = r at *
  have : 4 * (p * (1 / 2 / r) * (q * (1 / 2 / r))) = (p * q) / (r * r) := by field_simp; ring
  rw [this, h, hs]
  field_simp

theorem half_prod {D p u : ℝ} (hD : 0 < D) (hu : u = (1 / 2) / Real.sqrt D) :
    4 * ((1 / 2 * Real.sqrt D) * (p * u)) = p ∧ 4 * ((p * u) * (1 / 2 * Real.sqrt D)) = p ∧
    4 * ((1 / 2 * Real.sqrt D) * (1 / 2 * Real.sqrt D)) = D := by
  have hs := Real.mul_self_sqrt hD.le
  have hs0 : Real.sqrt D ≠ 0 := (Real.sqrt_pos.2 hD).ne'
  rw [hu]
  refine ⟨by field_simp; ring, by field_simp; ring, by linarith⟩

theorem rotToQuat_spec {R : M3 ℝ} (h : IsRot R) :
    ∃ x y z w, rotToQuat R = [x, y, z, w] ∧ x * x + y * y + z * z + w * w = 1 ∧ quatToRot x y z w = R := by
  have hb := (cosOf_bounds h).1
  unfold cosOf at hb
  obtain ⟨m00, m11, m22, m01, m02, m10, m12, m20, m21, c00, c11, c22, c01, c02, c12, r00, r11, r22, r01, r02, r12⟩ := eqs h
  unfold rotToQuat
  simp only []
  split
  · rename_i ht
    have hD : 0 < R 0 0 + R 1 1 + R 2 2 + 1 := by linarith
    refine ⟨_, _, _, _, rfl, QuatProd.spec ?_⟩
    refine ⟨?_, ?_, ?_, ?_, ?_, ?_, ?_, ?_, ?_, ?_⟩
    · exact div_prod hD rfl (by linarith) rfl
    · exact div_prod hD rfl (by linarith) rfl
    · exact div_prod hD rfl (by linarith) rfl
    · rw [(half_prod (p := 0) hD rfl).2.2]; ring
    · exact div_prod hD rfl (by linarith) rfl
    · exact div_prod hD rfl (by linarith) rfl
    · exact div_prod hD rfl (by linarith) rfl
    · exact (half_prod hD rfl).1
    · exact (half_prod hD rfl).1
    · exact (half_prod hD rfl).1
  · rename_i ht
    have hmax : ∀ i, R i i ≤ R (maxDiag R) (maxDiag R) := by
      intro i
      unfold maxDiag
      simp only []
      split_ifs <;> fin_cases i <;> simp at * <;> linarith
    have h0 := hmax 0
    have h1 := hmax 1
    have h2 := hmax 2
    split
    · rename_i hm
      rw [hm] at h0 h1 h2
      have hD : 0 < R 0 0 - R 1 1 - R 2 2 + 1 := by linarith
      refine ⟨_, _, _, _, rfl, QuatProd.spec ?_⟩
      unfold quatCase
      refine ⟨?_, ?_, ?_, ?_, ?_, ?_, ?_, ?_, ?_, ?_⟩
      · dsimp only; rw [(half_prod (p := 0) hD rfl).2.2]; ring
      · exact div_prod hD rfl (by linarith) rfl
      · exact div_prod hD rfl (by linarith) rfl
      · exact div_prod hD rfl (by linarith) rfl
      · dsimp only; rw [(half_prod hD rfl).1]; ring
      · dsimp only; rw [(half_prod hD rfl).1]; ring
      · exact div_prod hD rfl (by linarith) rfl
      · exact (half_prod hD rfl).2.1
      · exact div_prod hD rfl (by linarith) rfl
      · exact div_prod hD rfl (by linarith) rfl
    · split
      · rename_i hm
        rw [hm] at h0 h1 h2
        have hD : 0 < R 1 1 - R 2 2 - R 0 0 + 1 := by linarith
        refine ⟨_, _, _, _, rfl, QuatProd.spec ?_⟩
        unfold quatCase
        refine ⟨?_, ?_, ?_, ?_, ?_, ?_, ?_, ?_, ?_, ?_⟩
        · exact div_prod hD rfl (by linarith) rfl
        · dsimp only; rw [(half_prod (p := 0) hD rfl).2.2]; ring
        · exact div_prod hD rfl (by linarith) rfl
        · exact div_prod hD rfl (by linarith) rfl
        · dsimp only; rw [(half_prod hD rfl).2.1]
        · exact div_prod hD rfl (by linarith) rfl
        · dsimp only; rw [(half_prod hD rfl).1]; ring
        · exact div_prod hD rfl (by linarith) rfl
        · exact (half_prod hD rfl).2.1
        · exact div_prod hD rfl (by linarith) rfl
      · have hm : maxDiag R = 2 := by
          rename_i a b
          have : ∀ i : Fin 3, i ≠ 0 → i ≠ 1 → i = 2 := by decide
          exact this _ a b
        rw [hm] at h0 h1 h2
        have hD : 0 < R 2 2 - R 0 0 - R 1 1 + 1 := by linarith
        refine ⟨_, _, _, _, rfl, QuatProd.spec ?_⟩
        unfold quatCase
        refine ⟨?_, ?_, ?_, ?_, ?_, ?_, ?_, ?_, ?_, ?_⟩
        · exact div_prod hD rfl (by linarith) rfl
        · exact div_prod hD rfl (by linarith) rfl
        · dsimp only; rw [(half_prod (p := 0) hD rfl).2.2]; ring
        · exact div_prod hD rfl (by linarith) rfl
        · exact div_prod hD rfl (by linarith) rfl
        · dsimp only; rw [(half_prod hD rfl).2.1]
        · dsimp only; rw [(half_prod hD rfl).2.1]
        · exact div_prod hD rfl (by linarith) rfl
        · exact div_prod hD rfl (by linarith) rfl
        · exact (half_prod hD rfl).2.1

end Hpp.Pose
