import Verif.Sym.Deriv

/-!
# Rigid body transforms and their velocities

`Transform3s` (pinocchio, external): rotation matrix and translation.  The operations are those of pinocchio, the
velocities are expressed in the moving frame as everywhere in the library.
-/

namespace Hpp.Pose

open Matrix Hpp.Sym

/-- `Transform3s` -/
structure SE3 (α : Type) where
  R : M3 α
  p : V3 α

variable {α : Type} [CommRing α]

omit [CommRing α] in
@[ext] theorem SE3.ext' {A B : SE3 α} (h : A.R = B.R) (h' : A.p = B.p) : A = B := by
  cases A; cases B; simp_all

/-- `M1 * M2` -/
def SE3.mul (A B : SE3 α) : SE3 α := ⟨A.R * B.R, A.R *ᵥ B.p + A.p⟩

/-- `M.inverse()` -/
def SE3.inv (A : SE3 α) : SE3 α := ⟨A.Rᵀ, -(A.Rᵀ *ᵥ A.p)⟩

/-- `Transform3s::Identity()` -/
def SE3.one : SE3 α := ⟨1, 0⟩

/-- `M1.actInv(M2) = M1^{-1} M2` -/
def SE3.actInv (A B : SE3 α) : SE3 α := ⟨A.Rᵀ * B.R, A.Rᵀ *ᵥ (B.p - A.p)⟩

theorem SE3.actInv_eq (A B : SE3 α) : A.actInv B = A.inv.mul B := by
  refine SE3.ext' rfl ?_
  simp only [SE3.actInv, SE3.mul, SE3.inv, mulVec_sub]
  abel

theorem SE3.mul_assoc (A B C : SE3 α) : (A.mul B).mul C = A.mul (B.mul C) := by
  refine SE3.ext' (Matrix.mul_assoc _ _ _) ?_
  simp [SE3.mul, mulVec_add, add_assoc]

theorem SE3.one_mul (A : SE3 α) : SE3.one.mul A = A := by
  refine SE3.ext' ?_ ?_ <;> simp [SE3.mul, SE3.one]

theorem SE3.mul_one (A : SE3 α) : A.mul SE3.one = A := by
  refine SE3.ext' ?_ ?_ <;> simp [SE3.mul, SE3.one]

theorem SE3.inv_mul {A : SE3 α} (h : IsRot A.R) : A.inv.mul A = SE3.one := by
  refine SE3.ext' ?_ ?_ <;> simp [SE3.mul, SE3.one, SE3.inv, h.1]

theorem SE3.mul_inv {A : SE3 α} (h : IsRot A.R) : A.mul A.inv = SE3.one := by
  refine SE3.ext' ?_ ?_
  · simp [SE3.mul, SE3.one, SE3.inv, h.mul_transpose]
  · simp [SE3.mul, SE3.one, SE3.inv, mulVec_neg, h.mul_transpose]

theorem _root_.Hpp.Sym.IsRot.mul {A B : M3 α} (h : IsRot A) (h' : IsRot B) : IsRot (A * B) := by
  refine ⟨?_, by rw [det_mul, h.2, h'.2, _root_.mul_one]⟩
  rw [transpose_mul, Matrix.mul_assoc, ← Matrix.mul_assoc Aᵀ, h.1, Matrix.one_mul, h'.1]

/-- At time `t` the frame `M` moves with linear and angular velocities `v`, `w` in the moving frame. -/
structure SE3.Moves (M : ℝ → SE3 ℝ) (v w : V3 ℝ) (t : ℝ) : Prop where
  rot : IsRot (M t).R
  R : ∀ a b, HasDerivAt (fun t => (M t).R a b) (((M t).R * hat w) a b) t
  p : VDeriv (fun t => (M t).p) ((M t).R *ᵥ v) t

theorem hat_transpose (v : V3 α) : (hat v)ᵀ = -hat v := by
  ext a b
  fin_cases a <;> fin_cases b <;> simp [hat]

theorem hat_add (v w : V3 α) : hat (v + w) = hat v + hat w := by
  ext a b
  fin_cases a <;> fin_cases b <;> simp [hat] <;> ring

theorem hat_sub (v w : V3 α) : hat (v - w) = hat v - hat w := by
  ext a b
  fin_cases a <;> fin_cases b <;> simp [hat] <;> ring

theorem hat_neg (v : V3 α) : hat (-v) = -hat v := by
  ext a b
  fin_cases a <;> fin_cases b <;> simp [hat]

theorem ext_mulVec {m n : Type} [Fintype n] [DecidableEq n] {A B : Matrix m n α} (h : ∀ v, A *ᵥ v = B *ᵥ v) : A = B := by
  ext i j
  have := congrFun (h (Pi.single j 1)) i
  simpa [mulVec, dotProduct, Pi.single_apply] using this

/-- `R [v]ₓ Rᵀ = [R v]ₓ` -/
theorem _root_.Hpp.Sym.IsRot.hat_conj {R : M3 α} (h : IsRot R) (v : V3 α) : R * hat v * Rᵀ = hat (R *ᵥ v) := by
  refine ext_mulVec fun x => ?_
  simp only [← mulVec_mulVec, hat_mulVec]
  rw [← h.cross, mulVec_mulVec, h.mul_transpose, one_mulVec]

theorem _root_.Hpp.Sym.IsRot.mul_hat {R : M3 α} (h : IsRot R) (v : V3 α) : R * hat v = hat (R *ᵥ v) * R := by
  rw [← h.hat_conj, Matrix.mul_assoc, h.1, Matrix.mul_one]

theorem _root_.Hpp.Sym.IsRot.hat_mul {R : M3 α} (h : IsRot R) (v : V3 α) : hat v * R = R * hat (Rᵀ *ᵥ v) := by
  rw [h.mul_hat, mulVec_mulVec, h.mul_transpose, one_mulVec]

theorem deriv_mul {A B : ℝ → M3 ℝ} {A' B' : M3 ℝ} {t : ℝ}
    (hA : ∀ a b, HasDerivAt (fun t => A t a b) (A' a b) t)
    (hB : ∀ a b, HasDerivAt (fun t => B t a b) (B' a b) t) :
    ∀ a b, HasDerivAt (fun t => (A t * B t) a b) ((A' * B t + A t * B') a b) t := by
  intro a b
  have h := (((hA a 0).mul (hB 0 b)).add ((hA a 1).mul (hB 1 b))).add ((hA a 2).mul (hB 2 b))
  simp only [Matrix.mul_apply, Fin.sum_univ_three, Matrix.add_apply]
  refine HasDerivAt.congr_deriv
    (f := fun t => A t a 0 * B t 0 b + A t a 1 * B t 1 b + A t a 2 * B t 2 b) h ?_
  ring

/-- Velocity of a product. -/
theorem SE3.Moves.mul {A B : ℝ → SE3 ℝ} {va wa vb wb : V3 ℝ} {t : ℝ} (hA : SE3.Moves A va wa t)
    (hB : SE3.Moves B vb wb t) :
    SE3.Moves (fun t => (A t).mul (B t))
      ((B t).Rᵀ *ᵥ (va + crossProduct wa (B t).p) + vb) ((B t).Rᵀ *ᵥ wa + wb) t := by
  refine ⟨IsRot.mul hA.rot hB.rot, fun a b => ?_, ?_⟩
  · refine (deriv_mul hA.R hB.R a b).congr_deriv ?_
    simp only [SE3.mul]
    rw [hat_add, Matrix.mul_add, Matrix.mul_assoc, IsRot.hat_mul hB.rot, ← Matrix.mul_assoc, ← Matrix.mul_assoc]
  · refine ((VDeriv.mulVec hA.R hB.p).add hA.p).congr ?_
    simp only [SE3.mul, mulVec_add, mulVec_mulVec]
    rw [Matrix.mul_assoc _ (B t).R, hB.rot.mul_transpose, Matrix.mul_one,
      ← mulVec_mulVec _ _ (hat wa), hat_mulVec]
    abel

/-- Velocity of the inverse. -/
theorem SE3.Moves.inv {A : ℝ → SE3 ℝ} {v w : V3 ℝ} {t : ℝ} (h : SE3.Moves A v w t) :
    SE3.Moves (fun t => (A t).inv) (-((A t).R *ᵥ v) + crossProduct ((A t).R *ᵥ w) (A t).p) (-((A t).R *ᵥ w)) t := by
  have hT : ∀ a b, HasDerivAt (fun t => (A t).Rᵀ a b) ((((A t).R * hat w)ᵀ) a b) t := fun a b => h.R b a
  have e : ((A t).R * hat w)ᵀ = (A t).Rᵀ * hat (-((A t).R *ᵥ w)) := by
    rw [transpose_mul, hat_transpose, hat_neg, ← h.rot.hat_conj, Matrix.mul_neg, ← Matrix.mul_assoc,
      ← Matrix.mul_assoc, h.rot.1, Matrix.one_mul, Matrix.neg_mul]
  refine ⟨h.rot.transpose, fun a b => ?_, ?_⟩
  · rw [show ((A t).inv).R = (A t).Rᵀ from rfl, ← e]
    exact hT a b
  · have hd := VDeriv.mulVec hT h.p
    refine VDeriv.congr (f := fun t => (A t).inv.p) (d := -(((A t).R * hat w)ᵀ *ᵥ (A t).p + (A t).Rᵀ *ᵥ ((A t).R *ᵥ v))) (fun i => (hd i).neg) ?_
    rw [e]
    simp only [SE3.inv, mulVec_add, mulVec_neg, ← mulVec_mulVec, hat_mulVec, map_neg, LinearMap.neg_apply]
    abel

/-- Velocity of `Mf⁻¹ Mo`. -/
theorem SE3.Moves.actInv {A B : ℝ → SE3 ℝ} {va wa vb wb : V3 ℝ} {t : ℝ} (hA : SE3.Moves A va wa t)
    (hB : SE3.Moves B vb wb t) :
    SE3.Moves (fun t => (A t).actInv (B t))
      (vb - (B t).Rᵀ *ᵥ ((A t).R *ᵥ va) + (B t).Rᵀ *ᵥ crossProduct ((B t).p - (A t).p) ((A t).R *ᵥ wa))
      (wb - (B t).Rᵀ *ᵥ ((A t).R *ᵥ wa)) t := by
  have h := hA.inv.mul hB
  simp only [SE3.actInv_eq]
  convert h using 1
  · have : crossProduct ((B t).p - (A t).p) ((A t).R *ᵥ wa)
        = -crossProduct ((A t).R *ᵥ wa) (B t).p + crossProduct ((A t).R *ᵥ wa) (A t).p := by
      rw [← cross_anticomm, map_sub]; abel
    rw [this]
    simp only [mulVec_add, mulVec_neg, map_neg, LinearMap.neg_apply]
    abel
  · simp only [mulVec_neg]; abel

end Hpp.Pose
