import Verif.Svd.Props
import Mathlib.Analysis.Calculus.Deriv.Slope
import Mathlib.Analysis.Calculus.Deriv.Add
import Mathlib.Topology.Instances.Matrix
import Mathlib.Analysis.Asymptotics.Lemmas

/-!
# Derivative of the pseudo-inverse
-/

namespace Hpp.Stab

open Matrix Filter Topology Asymptotics

variable {m k l : Nat}

/-- Moore-Penrose conditions -/
structure IsPinv (A : Matrix (Fin m) (Fin k) ℝ) (P : Matrix (Fin k) (Fin m) ℝ) : Prop where
  apa : A * P * A = A
  pap : P * A * P = P
  symL : (A * P)ᵀ = A * P
  symR : (P * A)ᵀ = P * A

/-- Difference of the pseudo-inverses of two matrices -/
theorem pinv_sub {A B : Matrix (Fin m) (Fin k) ℝ} {P Q : Matrix (Fin k) (Fin m) ℝ} (hP : IsPinv A P) (hQ : IsPinv B Q) :
    Q - P = -(Q * (B - A) * P) + Q * Qᵀ * (B - A)ᵀ * (1 - A * P) + (1 - Q * B) * (B - A)ᵀ * (Pᵀ * P) := by
  have e1 : Q * (B - A) * P = Q * B * P - Q * A * P := by rw [Matrix.mul_sub, Matrix.sub_mul]
  have e2 : Aᵀ * (1 - A * P) = 0 := by
    have h : ((1 - A * P) * A)ᵀ = 0 := by rw [Matrix.sub_mul, Matrix.one_mul, hP.apa, sub_self, transpose_zero]
    rwa [transpose_mul, transpose_sub, transpose_one, hP.symL] at h
  have e3 : Q * Qᵀ * Bᵀ = Q := by rw [Matrix.mul_assoc, ← transpose_mul, hQ.symL, ← Matrix.mul_assoc, hQ.pap]
  have e4 : (1 - Q * B) * Bᵀ = 0 := by
    have h : (B * (1 - Q * B))ᵀ = 0 := by
      rw [Matrix.mul_sub, Matrix.mul_one, ← Matrix.mul_assoc, hQ.apa, sub_self, transpose_zero]
    rwa [transpose_mul, transpose_sub, transpose_one, hQ.symR] at h
  have e5 : Aᵀ * (Pᵀ * P) = P := by rw [← Matrix.mul_assoc, ← transpose_mul, hP.symR, hP.pap]
  have e6 : Q * Qᵀ * (B - A)ᵀ * (1 - A * P) = Q - Q * A * P := by
    rw [transpose_sub, Matrix.mul_sub (Q * Qᵀ) Bᵀ Aᵀ, e3, Matrix.sub_mul, Matrix.mul_assoc _ Aᵀ, e2, Matrix.mul_zero, sub_zero,
      Matrix.mul_sub, Matrix.mul_one, Matrix.mul_assoc]
  have e7 : (1 - Q * B) * (B - A)ᵀ * (Pᵀ * P) = -P + Q * B * P := by
    rw [transpose_sub, Matrix.mul_sub, e4, zero_sub, Matrix.neg_mul, Matrix.mul_assoc _ Aᵀ, e5, Matrix.sub_mul, Matrix.one_mul]
    abel
  rw [e1, e6, e7]
  abel

section bounded

variable {t : ℝ}

/-- Bounded near `t` -/
def BM (t : ℝ) (f : ℝ → Matrix (Fin m) (Fin k) ℝ) : Prop := ∀ i j, (fun s => f s i j) =O[𝓝 t] fun _ => (1 : ℝ)
/-- Tends to zero at `t` -/
def ZM (t : ℝ) (f : ℝ → Matrix (Fin m) (Fin k) ℝ) : Prop := ∀ i j, (fun s => f s i j) =o[𝓝 t] fun _ => (1 : ℝ)

theorem BM.mul {f : ℝ → Matrix (Fin m) (Fin k) ℝ} {g : ℝ → Matrix (Fin k) (Fin l) ℝ} (hf : BM t f) (hg : BM t g) :
    BM t fun s => f s * g s := by
  intro i j
  simp only [mul_apply]
  refine IsBigO.fun_sum fun x _ => ?_
  simpa using (hf i x).mul (hg x j)

theorem BM.mulZ {f : ℝ → Matrix (Fin m) (Fin k) ℝ} {g : ℝ → Matrix (Fin k) (Fin l) ℝ} (hf : BM t f) (hg : ZM t g) :
    ZM t fun s => f s * g s := by
  intro i j
  simp only [mul_apply]
  refine IsLittleO.fun_sum fun x _ => ?_
  simpa using (hf i x).mul_isLittleO (hg x j)

theorem ZM.mulB {f : ℝ → Matrix (Fin m) (Fin k) ℝ} {g : ℝ → Matrix (Fin k) (Fin l) ℝ} (hf : ZM t f) (hg : BM t g) :
    ZM t fun s => f s * g s := by
  intro i j
  simp only [mul_apply]
  refine IsLittleO.fun_sum fun x _ => ?_
  simpa using (hf i x).mul_isBigO (hg x j)

theorem ZM.add {f g : ℝ → Matrix (Fin m) (Fin k) ℝ} (hf : ZM t f) (hg : ZM t g) : ZM t fun s => f s + g s :=
  fun i j => (hf i j).add (hg i j)

theorem ZM.neg {f : ℝ → Matrix (Fin m) (Fin k) ℝ} (hf : ZM t f) : ZM t fun s => -f s := fun i j => (hf i j).neg_left

theorem BM.sub {f g : ℝ → Matrix (Fin m) (Fin k) ℝ} (hf : BM t f) (hg : BM t g) : BM t fun s => f s - g s :=
  fun i j => (hf i j).sub (hg i j)

theorem BM.const (A : Matrix (Fin m) (Fin k) ℝ) : BM t fun _ => A := fun _ _ => isBigO_const_const _ one_ne_zero _

theorem BM.transpose {f : ℝ → Matrix (Fin m) (Fin k) ℝ} (hf : BM t f) : BM t fun s => (f s)ᵀ := fun i j => hf j i
theorem ZM.transpose {f : ℝ → Matrix (Fin m) (Fin k) ℝ} (hf : ZM t f) : ZM t fun s => (f s)ᵀ := fun i j => hf j i

end bounded

/-- Derivative of the pseudo-inverse of a moving matrix, if the pseudo-inverse is bounded. -/
theorem pinv_deriv {A : ℝ → Matrix (Fin m) (Fin k) ℝ} {A' : Matrix (Fin m) (Fin k) ℝ} {P : ℝ → Matrix (Fin k) (Fin m) ℝ}
    {t : ℝ} (hP : ∀ s, IsPinv (A s) (P s)) (hA : ∀ i j, HasDerivAt (fun s => A s i j) (A' i j) t) (hb : BM t P)
    (i : Fin k) (j : Fin m) :
    HasDerivAt (fun s => P s i j)
      ((-(P t * A' * P t) + P t * (P t)ᵀ * A'ᵀ * (1 - A t * P t) + (1 - P t * A t) * A'ᵀ * ((P t)ᵀ * P t) :
        Matrix (Fin k) (Fin m) ℝ) i j) t := by
  have hAc : Tendsto A (𝓝 t) (𝓝 (A t)) := by
    refine tendsto_pi_nhds.2 fun i => tendsto_pi_nhds.2 fun j => ?_
    exact (hA i j).continuousAt
  have hE : ZM t fun s => A s - A t := by
    intro i j
    rw [isLittleO_one_iff]
    have h : Tendsto (fun s => A s i j - A t i j) (𝓝 t) (𝓝 (A t i j - A t i j)) :=
      (hA i j).continuousAt.tendsto.sub_const (A t i j)
    rwa [sub_self] at h
  have hAb : BM t A := fun i j => (hA i j).continuousAt.isBigO_one ℝ
  have hZ : ZM t fun s => P s - P t := by
    have e : (fun s => P s - P t) = fun s => -(P s * (A s - A t) * P t) + P s * (P s)ᵀ * (A s - A t)ᵀ * (1 - A t * P t) +
        (1 - P s * A s) * (A s - A t)ᵀ * ((P t)ᵀ * P t) := funext fun s => pinv_sub (hP t) (hP s)
    rw [e]
    exact ((((hb.mulZ hE).mulB (BM.const _)).neg).add (((hb.mul hb.transpose).mulZ hE.transpose).mulB (BM.const _))).add
      ((((BM.const 1).sub (hb.mul hAb)).mulZ hE.transpose).mulB (BM.const _))
  have hPc : Tendsto P (𝓝 t) (𝓝 (P t)) := by
    refine tendsto_pi_nhds.2 fun i => tendsto_pi_nhds.2 fun j => ?_
    have h := (isLittleO_one_iff ℝ).1 (hZ i j)
    have h' := h.add_const (P t i j)
    simpa using h'
  -- difference quotients
  have hD : Tendsto (fun s => (s - t)⁻¹ • (A s - A t)) (𝓝[≠] t) (𝓝 A') := by
    refine tendsto_pi_nhds.2 fun i => tendsto_pi_nhds.2 fun j => ?_
    have h := hasDerivAt_iff_tendsto_slope.1 (hA i j)
    refine h.congr fun s => ?_
    rw [slope_def_field, div_eq_inv_mul]
    rfl
  rw [hasDerivAt_iff_tendsto_slope]
  have hG : Continuous fun x : Matrix (Fin k) (Fin m) ℝ × Matrix (Fin m) (Fin k) ℝ × Matrix (Fin m) (Fin k) ℝ =>
      (-(x.1 * x.2.2 * P t) + x.1 * x.1ᵀ * x.2.2ᵀ * (1 - A t * P t) + (1 - x.1 * x.2.1) * x.2.2ᵀ * ((P t)ᵀ * P t) :
        Matrix (Fin k) (Fin m) ℝ) i j := by
    fun_prop
  have hlim := (hG.tendsto (P t, A t, A')).comp
    ((hPc.mono_left nhdsWithin_le_nhds).prodMk_nhds ((hAc.mono_left nhdsWithin_le_nhds).prodMk_nhds hD))
  refine hlim.congr fun s => ?_
  rw [slope_def_field, div_eq_inv_mul]
  have e := congrFun (congrFun (pinv_sub (hP t) (hP s)) i) j
  rw [Matrix.sub_apply] at e
  rw [e]
  simp only [Function.comp, transpose_smul, Matrix.mul_smul, Matrix.smul_mul, ← smul_neg, ← smul_add]
  rfl

end Hpp.Stab
