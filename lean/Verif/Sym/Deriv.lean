import Verif.Sym.Lemmas

namespace Hpp.Sym

open Matrix

variable {n : Nat}

/-! ### Specification: motion of the robot -/

/-- Component-wise derivative of a vector. -/
def VDeriv (f : ℝ → V3 ℝ) (d : V3 ℝ) (t : ℝ) : Prop := ∀ i, HasDerivAt (fun t => f t i) (d i) t

/-- At time `t`, the robot moves with velocity `qd`: the linear and angular velocities of each joint, in the frame of the
joint, are given by the rows of its Jacobian; same for the centers of mass. -/
structure Moves (w : ℝ → World ℝ n) (qd : Fin n → ℝ) (t : ℝ) : Prop where
  rot : ∀ j, IsRot ((w t).R j)
  R : ∀ j a b, HasDerivAt (fun t => (w t).R j a b) (((w t).R j * hat ((w t).Jw j *ᵥ qd)) a b) t
  p : ∀ j, VDeriv (fun t => (w t).p j) ((w t).R j *ᵥ ((w t).Jv j *ᵥ qd)) t
  com : ∀ c, VDeriv (fun t => (w t).com c) ((w t).Jcom c *ᵥ qd) t

theorem VDeriv.add {f g : ℝ → V3 ℝ} {d e : V3 ℝ} {t : ℝ} (hf : VDeriv f d t) (hg : VDeriv g e t) :
    VDeriv (fun t => f t + g t) (d + e) t := fun i => (hf i).add (hg i)

theorem VDeriv.sub {f g : ℝ → V3 ℝ} {d e : V3 ℝ} {t : ℝ} (hf : VDeriv f d t) (hg : VDeriv g e t) :
    VDeriv (fun t => f t - g t) (d - e) t := fun i => (hf i).sub (hg i)

theorem VDeriv.smul {f : ℝ → V3 ℝ} {d : V3 ℝ} {t : ℝ} (a : ℝ) (hf : VDeriv f d t) :
    VDeriv (fun t => a • f t) (a • d) t := fun i => (hf i).const_mul a

theorem VDeriv.const (v : V3 ℝ) (t : ℝ) : VDeriv (fun _ => v) 0 t := fun i => hasDerivAt_const t (v i)

theorem VDeriv.cross {f g : ℝ → V3 ℝ} {d e : V3 ℝ} {t : ℝ} (hf : VDeriv f d t) (hg : VDeriv g e t) :
    VDeriv (fun t => crossProduct (f t) (g t)) (crossProduct d (g t) + crossProduct (f t) e) t := by
  intro i
  fin_cases i
  · have h := ((hf 1).mul (hg 2)).sub ((hf 2).mul (hg 1))
    simp only [cross_apply]
    refine HasDerivAt.congr_deriv (f := fun t => f t 1 * g t 2 - f t 2 * g t 1) h ?_
    simp; ring
  · have h := ((hf 2).mul (hg 0)).sub ((hf 0).mul (hg 2))
    simp only [cross_apply]
    refine HasDerivAt.congr_deriv (f := fun t => f t 2 * g t 0 - f t 0 * g t 2) h ?_
    simp; ring
  · have h := ((hf 0).mul (hg 1)).sub ((hf 1).mul (hg 0))
    simp only [cross_apply]
    refine HasDerivAt.congr_deriv (f := fun t => f t 0 * g t 1 - f t 1 * g t 0) h ?_
    simp; ring

theorem VDeriv.mulVec {M : ℝ → M3 ℝ} {M' : M3 ℝ} {f : ℝ → V3 ℝ} {d : V3 ℝ} {t : ℝ}
    (hM : ∀ a b, HasDerivAt (fun t => M t a b) (M' a b) t) (hf : VDeriv f d t) :
    VDeriv (fun t => M t *ᵥ f t) (M' *ᵥ f t + M t *ᵥ d) t := by
  intro i
  have h := (((hM i 0).mul (hf 0)).add ((hM i 1).mul (hf 1))).add ((hM i 2).mul (hf 2))
  simp only [Matrix.mulVec, dotProduct, Fin.sum_univ_three, Pi.add_apply]
  refine HasDerivAt.congr_deriv
    (f := fun t => M t i 0 * f t 0 + M t i 1 * f t 1 + M t i 2 * f t 2) h ?_
  ring

theorem VDeriv.congr {f : ℝ → V3 ℝ} {d e : V3 ℝ} {t : ℝ} (hf : VDeriv f d t) (h : d = e) : VDeriv f e t := h ▸ hf

/-- Expressions without multiplication by a rotation that is not transposed. -/
def Expr.Transposed {α : Type} : Expr α → Prop
  | .leaf _ _ => True
  | .bin _ _ l r => l.Transposed ∧ r.Transposed
  | .un _ (.smul _) e => e.Transposed
  | .un _ (.rot tr _) e => e.Transposed ∧ tr = true

/-- The matrix `diff` of the lemmas is the derivative of the value. -/
theorem denote_deriv {w : ℝ → World ℝ n} {qd : Fin n → ℝ} {t : ℝ} (h : Moves w qd t) : ∀ e : Expr ℝ,
    e.Transposed → VDeriv (fun t => e.denote (w t)) (e.diff (w t) *ᵥ qd) t := by
  intro e
  induction e with
  | leaf i k =>
    intro _
    match k with
    | .point v => exact (VDeriv.const v t).congr (by simp [Expr.diff])
    | .pointIn j l =>
      refine ((VDeriv.mulVec (h.R j) (VDeriv.const l t)).add (h.p j)).congr ?_
      simp only [Expr.diff, sub_mulVec, ← mulVec_mulVec, mulVec_zero, add_zero]
      rw [hat_mulVec (_ *ᵥ l), (h.rot j).cross, hat_mulVec, ← cross_anticomm, mulVec_neg]
      abel
    | .vectorIn j v =>
      refine (VDeriv.mulVec (h.R j) (VDeriv.const v t)).congr ?_
      simp only [Expr.diff, ← mulVec_mulVec, mulVec_zero, add_zero, neg_mulVec]
      rw [hat_mulVec (_ *ᵥ v), (h.rot j).cross, hat_mulVec, ← cross_anticomm, mulVec_neg]
    | .com c => exact h.com c
  | bin i op l r ihl ihr =>
    intro ht
    match op with
    | .cross =>
      refine ((ihl ht.1).cross (ihr ht.2)).congr ?_
      simp only [Expr.diff, sub_mulVec, ← mulVec_mulVec, hat_mulVec]
      rw [← cross_anticomm]
      abel
    | .diff => exact ((ihl ht.1).sub (ihr ht.2)).congr (by simp only [Expr.diff, sub_mulVec])
    | .sum => exact ((ihl ht.1).add (ihr ht.2)).congr (by simp only [Expr.diff, add_mulVec])
  | un i op e ih =>
    intro ht
    match op with
    | .smul a => exact ((ih ht).smul a).congr (by simp only [Expr.diff, smul_mulVec])
    | .rot tr j =>
      obtain ⟨ht, htr⟩ := ht
      subst htr
      have hR : ∀ a b, HasDerivAt (fun t => ((w t).R j)ᵀ a b)
          (((w t).R j * hat ((w t).Jw j *ᵥ qd))ᵀ a b) t := fun a b => h.R j b a
      refine (VDeriv.mulVec hR (ih ht)).congr ?_
      simp only [Expr.diff, ← mulVec_mulVec, mulVec_add, add_mulVec]
      congr 1
      have hr := (h.rot j).transpose.cross (e.denote (w t)) ((w t).R j *ᵥ ((w t).Jw j *ᵥ qd))
      rw [mulVec_mulVec, (h.rot j).1, one_mulVec] at hr
      rw [hat_mulVec, ← hr, transpose_mul, ← mulVec_mulVec]
      have hT : ∀ v : V3 ℝ, (hat v)ᵀ = -hat v := by
        intro v
        ext a b
        fin_cases a <;> fin_cases b <;> simp [hat]
      rw [hT, neg_mulVec, hat_mulVec, cross_anticomm]

end Hpp.Sym
