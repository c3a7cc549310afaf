import Verif.Stab.MoeLemmas
import Verif.Stab.Rank
import Verif.Svd.Exists

namespace Hpp.Stab

open Matrix Hpp.Sym Filter Topology Asymptotics

variable {n p c : Nat} {f : Moe p c} {svdOf : Matrix (Fin (p * 3)) (Fin c) ℝ → Svd ℝ (p * 3) c} {w : World ℝ n}

/-- Calls of the methods -/
inductive MCall (p c : Nat) where
  | value
  | jac
  | svd
  | pinv
  | times (rhs : Fin c → ℝ)
  | transposeTimes (rhs : Fin (p * 3) → ℝ)
  | pinvJac (rhs : Fin (p * 3) → ℝ)

noncomputable def Moe.call (f : Moe p c) (svdOf : Matrix (Fin (p * 3)) (Fin c) ℝ → Svd ℝ (p * 3) c) (w : World ℝ n)
    (m : MMem n p c) : MCall p c → MMem n p c
  | .value => f.computeValue w m
  | .jac => f.computeJac w m
  | .svd => f.computeSVD svdOf w m
  | .pinv => f.computePinv svdOf w m
  | .times rhs => (f.jacobianTimes w m rhs).1
  | .transposeTimes rhs => (f.jacobianTransposeTimes w m rhs).1
  | .pinvJac rhs => (f.pinvJacobian svdOf w m rhs).1

theorem MOk.call (hf : f.Wf) {m : MMem n p c} (h : MOk f svdOf w m) (x : MCall p c) : MOk f svdOf w (f.call svdOf w m x) := by
  cases x with
  | value => exact (h.computeValue hf).1
  | jac => exact (h.computeJac hf).1
  | svd => exact (h.computeSVD hf).1
  | pinv => exact (h.computePinv hf).1
  | times rhs => exact h.touch hf
  | transposeTimes rhs => exact h.touch hf
  | pinvJac rhs => exact ((((h.computeJac hf).1.computePinv hf).1.touch hf).touch hf).touch hf

theorem MOk.calls (hf : f.Wf) : ∀ (l : List (MCall p c)) {m : MMem n p c}, MOk f svdOf w m →
    MOk f svdOf w (l.foldl (f.call svdOf w) m) := by
  intro l
  induction l with
  | nil => intro m h; exact h
  | cons x l ih => intro m h; exact ih (h.call hf x)

/-- C81: whatever the members are before `invalidate`, and whatever methods are called after it for the same state of the
robot, `computeValue` computes the matrix of the values of the elements. -/
theorem C81_value (hf : f.Wf) (svdOf : Matrix (Fin (p * 3)) (Fin c) ℝ → Svd ℝ (p * 3) c) (w : World ℝ n) {m : MMem n p c}
    (hm : f.Built m) (l : List (MCall p c)) :
    (f.computeValue w (l.foldl (f.call svdOf w) (f.invalidate m))).value = f.mat w := by
  have h := ((MOk.invalidate svdOf w hm).calls hf l).computeValue hf
  exact h.1.value h.2.1

/-- C81: the pseudo-inverse is that of the matrix of the values of the elements. -/
theorem C81_pinv (hf : f.Wf) (hs : SvdContract svdOf) (w : World ℝ n) {m : MMem n p c} (hm : f.Built m)
    (l : List (MCall p c)) : IsPinv (f.mat w) (f.computePinv svdOf w (l.foldl (f.call svdOf w) (f.invalidate m))).pi := by
  have h := ((MOk.invalidate svdOf w hm).calls hf l).computePinv hf
  rw [(h.1.pi h.2.1).2.2]
  obtain ⟨a, b, d, e⟩ := C42_pseudo_inverse _ _ (hs.exact (f.mat w))
  exact ⟨a, b, d, e⟩

/-- C81: once the Jacobian of the matrix has been computed, `jacobianTimes` gives the derivative of the product of the
matrix by a constant vector. -/
theorem C81_jacobian_times (hf : f.Wf) (svdOf : Matrix (Fin (p * 3)) (Fin c) ℝ → Svd ℝ (p * 3) c) {w : ℝ → World ℝ n}
    {qd : Fin n → ℝ} {t : ℝ} (hw : Moves w qd t) {m : MMem n p c} (hm : f.Built m) (l : List (MCall p c)) (rhs : Fin c → ℝ)
    (r : Fin (p * 3)) :
    HasDerivAt (fun t => (f.mat (w t) *ᵥ rhs) r)
      (((f.jacobianTimes (w t) (f.computeJac (w t) (l.foldl (f.call svdOf (w t)) (f.invalidate m))) rhs).2 *ᵥ qd) r) t := by
  have h := ((MOk.invalidate svdOf (w t) hm).calls hf l).computeJac hf
  rw [jacobianTimes_mulVec h.1 h.2.1]
  simp only [mulVec, dotProduct]
  exact HasDerivAt.fun_sum fun j _ => (mat_deriv hf hw r j).mul_const _

/-- C81: same for `jacobianTransposeTimes` and the transpose of the matrix. -/
theorem C81_jacobian_transpose_times (hf : f.Wf) (svdOf : Matrix (Fin (p * 3)) (Fin c) ℝ → Svd ℝ (p * 3) c)
    {w : ℝ → World ℝ n} {qd : Fin n → ℝ} {t : ℝ} (hw : Moves w qd t) {m : MMem n p c} (hm : f.Built m) (l : List (MCall p c))
    (rhs : Fin (p * 3) → ℝ) (j : Fin c) :
    HasDerivAt (fun t => ((f.mat (w t))ᵀ *ᵥ rhs) j)
      (((f.jacobianTransposeTimes (w t) (f.computeJac (w t) (l.foldl (f.call svdOf (w t)) (f.invalidate m))) rhs).2 *ᵥ qd)
        j) t := by
  have h := ((MOk.invalidate svdOf (w t) hm).calls hf l).computeJac hf
  rw [jacobianTransposeTimes_mulVec h.1 h.2.1]
  simp only [mulVec, dotProduct, transpose_apply]
  exact HasDerivAt.fun_sum fun r _ => (mat_deriv hf hw r j).mul_const _

/-! ### Jacobian of the pseudo-inverse -/

/-- The rank of the matrix is constant near `t`. -/
def Regular (A : ℝ → Matrix (Fin (p * 3)) (Fin c) ℝ) (t : ℝ) : Prop := ∀ᶠ s in 𝓝 t, (A s).rank = (A t).rank

theorem SvdContract.isPinv (hs : SvdContract svdOf) (A : Matrix (Fin (p * 3)) (Fin c) ℝ) : IsPinv A (svdOf A).pinv := by
  obtain ⟨a, b, d, e⟩ := C42_pseudo_inverse _ _ (hs.exact A)
  exact ⟨a, b, d, e⟩

/-- What `computePseudoInverseJacobian` computes -/
theorem pinvJacobian_mulVec (hf : f.Wf) (hs : SvdContract svdOf) {m : MMem n p c} (h : MOk f svdOf w m)
    (rhs : Fin (p * 3) → ℝ) (qd : Fin n → ℝ) :
    (f.pinvJacobian svdOf w m rhs).2 *ᵥ qd =
      (-((svdOf (f.mat w)).pinv * f.dmat w qd * (svdOf (f.mat w)).pinv) +
        (svdOf (f.mat w)).pinv * ((svdOf (f.mat w)).pinv)ᵀ * (f.dmat w qd)ᵀ * (1 - f.mat w * (svdOf (f.mat w)).pinv) +
        (1 - (svdOf (f.mat w)).pinv * f.mat w) * (f.dmat w qd)ᵀ * (((svdOf (f.mat w)).pinv)ᵀ * (svdOf (f.mat w)).pinv)) *ᵥ
        rhs := by
  obtain ⟨a1, a2, _⟩ := h.computeJac hf
  obtain ⟨b1, b2, b3⟩ := a1.computePinv hf
  have hj := b3 a2
  obtain ⟨p1, _, p3⟩ := b1.pi b2
  have hsv := b1.svd p1
  have t1 := b1.touch hf
  have t2 := t1.touch hf
  unfold Moe.pinvJacobian
  dsimp only
  generalize f.computePinv svdOf w (f.computeJac w m) = m1 at *
  have c1 := fun rhs => jacobianTimes_mulVec b1 hj rhs qd
  have c2 := fun rhs => jacobianTransposeTimes_mulVec t1 hj rhs qd
  have c3 := fun rhs => jacobianTransposeTimes_mulVec t2 hj rhs qd
  change (-m1.pi * _ + m1.pi * m1.piᵀ * (f.jacobianTransposeTimes w (f.touch w m1) (m1.svd.onKernelOfInv true *ᵥ rhs)).2 +
    m1.svd.onKernel true * (f.jacobianTransposeTimes w (f.touch w (f.touch w m1)) (m1.piᵀ *ᵥ (m1.svd.pinv *ᵥ rhs))).2) *ᵥ qd = _
  simp only [add_mulVec, ← mulVec_mulVec, c1, c2, c3]
  rw [hsv, p3, (C42_full (svdOf (f.mat w))).1 (hs.fullV _), (C42_full (svdOf (f.mat w))).2 (hs.fullU _), onKernel_thin,
    onKernelOfInv_thin, (hs.exact (f.mat w)).a_pinv, (hs.exact (f.mat w)).pinv_a]
  simp only [neg_mulVec, ← mulVec_mulVec]

theorem pinvMul_deriv (hf : f.Wf) (hs : SvdContract svdOf) {w : ℝ → World ℝ n} {qd : Fin n → ℝ} {t : ℝ} (hw : Moves w qd t)
    {m : MMem n p c} (hm : MOk f svdOf (w t) m) (hreg : Regular (fun s => f.mat (w s)) t) (rhs : Fin (p * 3) → ℝ)
    (j : Fin c) :
    HasDerivAt (fun t => ((svdOf (f.mat (w t))).pinv *ᵥ rhs) j) (((f.pinvJacobian svdOf (w t) m rhs).2 *ᵥ qd) j) t := by
  rw [pinvJacobian_mulVec hf hs hm]
  have hd := pinv_deriv (fun s => hs.isPinv (f.mat (w s))) (fun r j => mat_deriv hf hw r j)
    (pinv_bounded (fun s => hs.isPinv (f.mat (w s))) (fun r j => (mat_deriv hf hw r j).continuousAt) hreg)
  simp only [mulVec, dotProduct]
  exact HasDerivAt.fun_sum fun r _ => (hd j r).mul_const _

/-- C81: `computePseudoInverseJacobian` gives the derivative of the product of the pseudo-inverse by a constant vector, where
the rank of the matrix is locally constant. -/
theorem C81_pinv_derivative (hf : f.Wf) (hs : SvdContract svdOf) {w : ℝ → World ℝ n} {qd : Fin n → ℝ} {t : ℝ}
    (hw : Moves w qd t) {m : MMem n p c} (hm : f.Built m) (hreg : Regular (fun s => f.mat (w s)) t) (l : List (MCall p c))
    (rhs : Fin (p * 3) → ℝ) (j : Fin c) :
    HasDerivAt (fun t => ((svdOf (f.mat (w t))).pinv *ᵥ rhs) j)
      (((f.pinvJacobian svdOf (w t) (l.foldl (f.call svdOf (w t)) (f.invalidate m)) rhs).2 *ᵥ qd) j) t :=
  pinvMul_deriv hf hs hw ((MOk.invalidate svdOf (w t) hm).calls hf l) hreg rhs j

end Hpp.Stab
