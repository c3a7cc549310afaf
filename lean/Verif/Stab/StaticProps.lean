import Verif.Stab.Static
import Verif.Stab.ContactsLemmas
import Mathlib.LinearAlgebra.Matrix.DotProduct

/-! # Theorems about `StaticStability` -/

namespace Hpp.Stab

open Matrix Hpp.Sym Filter Topology

variable {n : Nat} {com : Nat} {l : List Col} {svdOf : SvdOf l.length} {prec : ℝ}

theorem SvdContract.v2 {p c : Nat} {svdOf : Matrix (Fin (p * 3)) (Fin c) ℝ → Svd ℝ (p * 3) c} (hs : SvdContract svdOf)
    (A : Matrix (Fin (p * 3)) (Fin c) ℝ) : (svdOf A).V2 * (svdOf A).V2ᵀ = 1 - (svdOf A).pinv * A := by
  have h := split_cols (svdOf A).V (svdOf A).rank (svdOf A).hl
  rw [hs.fullV] at h
  rw [(hs.exact A).pinv_a, ← h]
  unfold Svd.V1 Svd.V2
  abel

theorem computeV_none {nb : Nat} {svd : Svd ℝ (2 * 3) nb} {u : Fin nb → ℝ} (h : isZeroVec prec (uMinusOf u)) :
    computeV prec svd u = none := if_pos h

theorem computeV_some {nb : Nat} {svd : Svd ℝ (2 * 3) nb} {u : Fin nb → ℝ} (h : ¬isZeroVec prec (uMinusOf u)) :
    computeV prec svd u = some (svd.V2 *ᵥ (svd.V2ᵀ *ᵥ uMinusOf u)) := if_neg h

/-- What `impl_compute` computes -/
theorem staticCompute_eq (hl : Grouped l) (svdOf : SvdOf l.length) (prec : ℝ) (w : World ℝ n) (m : MMem n 2 l.length) :
    (staticCompute com l svdOf prec w m).2 =
      let A := (phi com l).mat w
      let u := (svdOf A).pinv *ᵥ (-gravity)
      (u + (computeV prec (svdOf A) u).getD 0, gravity + A *ᵥ u) := by
  have h := (MOk.invalidate svdOf w (phi_built com l m)).computeSVD (phi_wf com hl)
  unfold staticCompute
  dsimp only
  rw [h.1.svd h.2.1, h.1.value (h.1.svdv h.2.1)]
  simp only [one_smul, neg_smul]
  congr 1
  cases computeV prec (svdOf ((phi com l).mat w)) ((svdOf ((phi com l).mat w)).pinv *ᵥ (-gravity)) with
  | none => exact (add_zero _).symm
  | some v => rfl

theorem computeV_ker (hs : SvdContract svdOf) (A : Matrix (Fin (2 * 3)) (Fin l.length) ℝ) (u : Fin l.length → ℝ) :
    A *ᵥ (computeV prec (svdOf A) u).getD 0 = 0 := by
  unfold computeV
  split
  · exact mulVec_zero _
  · rw [Option.getD_some, mulVec_mulVec _ (svdOf A).V2, hs.v2, mulVec_mulVec, Matrix.mul_sub, Matrix.mul_one,
      ← Matrix.mul_assoc, (hs.isPinv A).apa, sub_self, zero_mulVec]

/-- C82: the six last coordinates of the value are the resultant of the forces given by the first ones and of the weight, and the
opposite of their moment about the center of mass. This does not depend on previous calls. -/
theorem C82_value (hl : Grouped l) (hs : SvdContract svdOf) (prec : ℝ) (w : World ℝ n) (m : MMem n 2 l.length) (a : Fin 3) :
    let r := (staticCompute com l svdOf prec w m).2
    r.2 (row 0 a) = resultant l w r.1 a ∧ r.2 (row 1 a) = -moment com l w r.1 a := by
  intro r
  have e : r.2 = gravity + (phi com l).mat w *ᵥ r.1 := by
    simp only [r, staticCompute_eq hl, mulVec_add, computeV_ker hs, add_zero]
  rw [e]
  exact phi_wrench com l w r.1 a

theorem sum_rows (y : Fin (2 * 3) → ℝ) : ∑ r, y r * y r = ∑ a, y (row 0 a) * y (row 0 a) + ∑ a, y (row 1 a) * y (row 1 a) := by
  unfold row
  rw [← Equiv.sum_comp finProdFinEquiv, Fintype.sum_prod_type, Fin.sum_univ_two]

/-- C82: no forces along the normals, even negative ones, give a smaller residual. -/
theorem C82_minimal (hl : Grouped l) (hs : SvdContract svdOf) (prec : ℝ) (w : World ℝ n) (m : MMem n 2 l.length)
    (F : Fin l.length → ℝ) :
    let r := (staticCompute com l svdOf prec w m).2
    r.2 ⬝ᵥ r.2 ≤ resultant l w F ⬝ᵥ resultant l w F + moment com l w F ⬝ᵥ moment com l w F := by
  intro r
  have e : r.2 = gravity + (phi com l).mat w *ᵥ ((svdOf ((phi com l).mat w)).pinv *ᵥ (-gravity)) := by
    simp only [r, staticCompute_eq hl]
  have e2 : resultant l w F ⬝ᵥ resultant l w F + moment com l w F ⬝ᵥ moment com l w F =
      (gravity + (phi com l).mat w *ᵥ F) ⬝ᵥ (gravity + (phi com l).mat w *ᵥ F) := by
    unfold dotProduct
    rw [sum_rows]
    simp only [(phi_wrench com l w F _).1, (phi_wrench com l w F _).2, neg_mul_neg]
  rw [e2, e]
  generalize (phi com l).mat w = A
  have hP := hs.isPinv A
  generalize (svdOf A).pinv = P at *
  have h0 : Aᵀ *ᵥ (gravity + A *ᵥ (P *ᵥ -gravity)) = 0 := by
    have h : Aᵀ * (A * P) = Aᵀ := by
      rw [← hP.symL, ← transpose_mul, hP.apa]
    rw [mulVec_add, mulVec_mulVec, mulVec_mulVec, Matrix.mul_assoc, h, mulVec_neg, add_neg_cancel]
  have hd : gravity + A *ᵥ F = gravity + A *ᵥ (P *ᵥ -gravity) + A *ᵥ (F - P *ᵥ -gravity) := by
    rw [mulVec_sub]
    abel
  rw [hd]
  generalize F - P *ᵥ -gravity = d
  generalize gravity + A *ᵥ (P *ᵥ -gravity) = y at *
  have hc : y ⬝ᵥ (A *ᵥ d) = 0 := by
    rw [dotProduct_mulVec, ← mulVec_transpose, h0, zero_dotProduct]
  rw [add_dotProduct y (A *ᵥ d), dotProduct_add, dotProduct_add, hc, dotProduct_comm (A *ᵥ d) y, hc]
  have : 0 ≤ (A *ᵥ d) ⬝ᵥ (A *ᵥ d) := Finset.sum_nonneg fun i _ => mul_self_nonneg _
  linarith

/-- C82: the six last coordinates are zero if and only if some forces along the normals, possibly negative, balance gravity. -/
theorem C82_zero_iff (hl : Grouped l) (hs : SvdContract svdOf) (prec : ℝ) (w : World ℝ n) (m : MMem n 2 l.length) :
    (staticCompute com l svdOf prec w m).2.2 = 0 ↔ ∃ F, Balanced com l w F := by
  constructor
  · intro h
    refine ⟨(staticCompute com l svdOf prec w m).2.1, funext fun a => ?_, funext fun a => ?_⟩
    · rw [← (C82_value hl hs prec w m a).1, h]
      rfl
    · have := (C82_value (com := com) hl hs prec w m a).2
      rw [h] at this
      exact neg_eq_zero.1 this.symm
  · rintro ⟨F, h1, h2⟩
    have h := C82_minimal (com := com) hl hs prec w m F
    dsimp only at h
    rw [h1, h2, zero_dotProduct, add_zero] at h
    exact dotProduct_self_eq_zero.1 (le_antisymm h (Finset.sum_nonneg fun i _ => mul_self_nonneg _))

/-- C82: if the six last coordinates of the value are zero, the first ones are intensities of forces along the normals that
balance gravity: if moreover they are non-negative, the robot is in equilibrium. -/
theorem C82_equilibrium (hl : Grouped l) (hs : SvdContract svdOf) (prec : ℝ) (w : World ℝ n) (m : MMem n 2 l.length)
    (h : (staticCompute com l svdOf prec w m).2.2 = 0) : Balanced com l w (staticCompute com l svdOf prec w m).2.1 := by
  refine ⟨funext fun a => ?_, funext fun a => ?_⟩
  · rw [← (C82_value hl hs prec w m a).1, h]
    rfl
  · have := (C82_value (com := com) hl hs prec w m a).2
    rw [h] at this
    exact neg_eq_zero.1 this.symm

/-! ### Jacobian -/

/-- Derivative of the pseudo-inverse `P` of `A` when the derivative of `A` is `D` -/
def dP {m k : Nat} (A D : Matrix (Fin m) (Fin k) ℝ) (P : Matrix (Fin k) (Fin m) ℝ) : Matrix (Fin k) (Fin m) ℝ :=
  -(P * D * P) + P * Pᵀ * Dᵀ * (1 - A * P) + (1 - P * A) * Dᵀ * (Pᵀ * P)

theorem MOk.pinvJac {p c : Nat} {f : Moe p c} {svdOf : Matrix (Fin (p * 3)) (Fin c) ℝ → Svd ℝ (p * 3) c} {w : World ℝ n}
    (hf : f.Wf) {m : MMem n p c} (h : MOk f svdOf w m) (rhs : Fin (p * 3) → ℝ) :
    MOk f svdOf w (f.pinvJacobian svdOf w m rhs).1 ∧ (f.pinvJacobian svdOf w m rhs).1.jV = true ∧
      (f.pinvJacobian svdOf w m rhs).1.piV = true := by
  obtain ⟨a1, a2, _⟩ := h.computeJac hf
  obtain ⟨b1, b2, b3⟩ := a1.computePinv hf
  exact ⟨((b1.touch hf).touch hf).touch hf, b3 a2, b2⟩

/-- What `impl_jacobian` computes, along a velocity -/
theorem staticJac_mulVec (hl : Grouped l) (hs : SvdContract svdOf) (prec : ℝ) (w : World ℝ n) (m : MMem n 2 l.length)
    (qd : Fin n → ℝ) :
    let A := (phi com l).mat w
    let D := (phi com l).dmat w qd
    let P := (svdOf A).pinv
    let u := P *ᵥ (-gravity)
    let ud := dP A D P *ᵥ (-gravity)
    (staticJac com l svdOf prec w m).2.1 *ᵥ qd = ud + (match computeV prec (svdOf A) u with
      | some _ => diagonal (sDiag u) *ᵥ ud - (P * A) *ᵥ (diagonal (sDiag u) *ᵥ ud) - P *ᵥ (D *ᵥ uMinusOf u) -
          dP A D P *ᵥ (A *ᵥ uMinusOf u)
      | none => 0) ∧
    (staticJac com l svdOf prec w m).2.2 *ᵥ qd = D *ᵥ u - A *ᵥ (dP A D P *ᵥ gravity) := by
  intro A D P u ud
  have hf := phi_wf com hl
  obtain ⟨a1, a2, _⟩ := (MOk.invalidate svdOf w (phi_built com l m)).computeSVD hf
  obtain ⟨b1, b2, _⟩ := a1.computeJac hf
  obtain ⟨c1, c2, c3⟩ := b1.computePinv hf
  have cj := c3 b2
  unfold staticJac
  dsimp only
  generalize (phi com l).computePinv svdOf w ((phi com l).computeJac w ((phi com l).computeSVD svdOf w
    ((phi com l).invalidate m))) = m1 at *
  rw [c1.svd (c1.pi c2).1, neg_smul, one_smul]
  obtain ⟨d1, d2, d3⟩ := c1.pinvJac hf (-gravity)
  have hud := pinvJacobian_mulVec hf hs c1 (-gravity) qd
  have hsvd := d1.svd (d1.pi d3).1
  generalize (phi com l).pinvJacobian svdOf w m1 (-gravity) = y at *
  rw [hsvd]
  change _ *ᵥ qd = ud at hud
  have hud' : y.2 *ᵥ qd = ud := hud
  change (match computeV prec (svdOf A) u with
      | some _ => _
      | none => _ : MMem n 2 l.length × Matrix (Fin l.length) (Fin n) ℝ).2 *ᵥ qd = _ ∧ _
  -- the members after the optional step
  have hz : ∀ z : MMem n 2 l.length, MOk (phi com l) svdOf w z → z.jV = true →
      (((phi com l).jacobianTimes w z u).2 + -((phi com l).pinvJacobian svdOf w
        ((phi com l).jacobianTimes w z u).1 gravity).1.value * ((phi com l).pinvJacobian svdOf w
        ((phi com l).jacobianTimes w z u).1 gravity).2) *ᵥ qd = D *ᵥ u - A *ᵥ (dP A D P *ᵥ gravity) := by
    intro z z1 z2
    have t1 : MOk (phi com l) svdOf w ((phi com l).jacobianTimes w z u).1 := z1.touch hf
    obtain ⟨e1, e2, e3⟩ := t1.pinvJac hf gravity
    have h2 := pinvJacobian_mulVec hf hs t1 gravity qd
    rw [e1.value (e1.pi e3).2.1, add_mulVec, ← mulVec_mulVec, h2, jacobianTimes_mulVec z1 z2, neg_mulVec, ← sub_eq_add_neg]
    rfl
  cases hc : computeV prec (svdOf A) u with
  | none =>
    dsimp only
    refine ⟨by rw [hud', add_zero], hz _ d1 d2⟩
  | some v =>
    dsimp only
    unfold computeVDot
    dsimp only
    have t1 : MOk (phi com l) svdOf w ((phi com l).jacobianTimes w y.1 (uMinusOf u)).1 := d1.touch hf
    have tpi : ((phi com l).jacobianTimes w y.1 (uMinusOf u)).1.pi = P := (d1.pi d3).2.2
    have tv : ((phi com l).jacobianTimes w y.1 (uMinusOf u)).1.value = A := d1.value (d1.pi d3).2.1
    obtain ⟨e1, e2, _⟩ := t1.pinvJac hf (A *ᵥ uMinusOf u)
    rw [tpi, tv, hsvd]
    refine ⟨?_, hz _ e1 e2⟩
    have h2 := pinvJacobian_mulVec hf hs t1 (A *ᵥ uMinusOf u) qd
    have h3 : (((phi com l).jacobianTimes w y.1 (uMinusOf u)).2) *ᵥ qd = D *ᵥ uMinusOf u := jacobianTimes_mulVec d1 d2 _ _
    have h4 : P * A = (svdOf A).V1 * (svdOf A).V1ᵀ := (hs.exact A).pinv_a
    rw [h4, one_smul]
    simp only [add_mulVec, sub_mulVec, ← mulVec_mulVec, hud']
    rw [show _ = _ from h3, h2]
    rfl

/-- `uMinus` is differentiable when no coefficient is zero. -/
theorem uMinus_deriv {nb : Nat} {u : ℝ → Fin nb → ℝ} {d : Fin nb → ℝ} {t : ℝ} (hu : ∀ i, HasDerivAt (fun s => u s i) (d i) t)
    (h0 : ∀ i, u t i ≠ 0) (i : Fin nb) : HasDerivAt (fun s => uMinusOf (u s) i) ((diagonal (sDiag (u t)) *ᵥ d) i) t := by
  rw [mulVec_diagonal]
  unfold sDiag
  rcases lt_or_gt_of_ne (h0 i) with h | h
  · rw [if_neg (not_le.2 h), neg_one_mul]
    refine (hu i).neg.congr_of_eventuallyEq ?_
    filter_upwards [(hu i).continuousAt.eventually_lt_const h] with s hs
    exact if_neg (not_le.2 hs)
  · rw [if_pos h.le, zero_mul]
    refine (hasDerivAt_const t (0 : ℝ)).congr_of_eventuallyEq ?_
    filter_upwards [(hu i).continuousAt.eventually_const_lt h] with s hs
    exact if_pos hs.le

/-- The test of `computeUminusAndV` gives the same result near `t`. -/
theorem isZero_eventually {nb : Nat} {u : ℝ → Fin nb → ℝ} {t : ℝ} (hprec : 0 ≤ prec)
    (hu : ∀ i, ContinuousAt (fun s => u s i) t) (h0 : ∀ i, u t i ≠ -prec) :
    ∀ᶠ s in 𝓝 t, (isZeroVec prec (uMinusOf (u s)) ↔ isZeroVec prec (uMinusOf (u t))) := by
  have key : ∀ x : Fin nb → ℝ, isZeroVec prec (uMinusOf x) ↔ ∀ i, -prec ≤ x i := by
    intro x
    refine forall_congr' fun i => ?_
    unfold uMinusOf
    split
    · next h =>
      rw [abs_zero]
      exact ⟨fun _ => by linarith, fun _ => hprec⟩
    · next h =>
      rw [abs_of_nonneg (by linarith [not_le.1 h])]
      exact neg_le
  have hi : ∀ i, ∀ᶠ s in 𝓝 t, (-prec ≤ u s i ↔ -prec ≤ u t i) := by
    intro i
    rcases lt_or_gt_of_ne (h0 i) with h | h
    · filter_upwards [(hu i).eventually_lt_const h] with s hs
      exact ⟨fun h' => absurd h' (not_le.2 hs), fun h' => absurd h' (not_le.2 h)⟩
    · filter_upwards [(hu i).eventually_const_lt h] with s hs
      exact ⟨fun _ => h.le, fun _ => hs.le⟩
  filter_upwards [eventually_all.2 hi] with s hs
  rw [key, key]
  exact forall_congr' hs

theorem deriv_mulVec {a b : Nat} {A : ℝ → Matrix (Fin a) (Fin b) ℝ} {A' : Matrix (Fin a) (Fin b) ℝ} {x : ℝ → Fin b → ℝ}
    {x' : Fin b → ℝ} {t : ℝ} (hA : ∀ i j, HasDerivAt (fun s => A s i j) (A' i j) t)
    (hx : ∀ j, HasDerivAt (fun s => x s j) (x' j) t) (i : Fin a) :
    HasDerivAt (fun s => (A s *ᵥ x s) i) ((A' *ᵥ x t + A t *ᵥ x') i) t := by
  simp only [mulVec, dotProduct, Pi.add_apply, ← Finset.sum_add_distrib]
  exact HasDerivAt.fun_sum fun j _ => (hA i j).mul (hx j)

/-- C82: the Jacobian maps the velocity of the robot to the derivative of the value, at configurations near which the rank of
the matrix of wrenches is constant, and where no component of the least-squares forces is zero or opposite to the
precision of the test. -/
theorem C82_derivative (hl : Grouped l) (hs : SvdContract svdOf) (hprec : 0 ≤ prec) {w : ℝ → World ℝ n} {qd : Fin n → ℝ} {t : ℝ}
    (hw : Moves w qd t) (m : ℝ → MMem n 2 l.length) (m' : MMem n 2 l.length)
    (hreg : Regular (fun s => (phi com l).mat (w s)) t)
    (h0 : ∀ i, ((svdOf ((phi com l).mat (w t))).pinv *ᵥ (-gravity)) i ≠ 0)
    (h1 : ∀ i, ((svdOf ((phi com l).mat (w t))).pinv *ᵥ (-gravity)) i ≠ -prec) :
    (∀ i, HasDerivAt (fun s => (staticCompute com l svdOf prec (w s) (m s)).2.1 i)
      (((staticJac com l svdOf prec (w t) m').2.1 *ᵥ qd) i) t) ∧
    (∀ r, HasDerivAt (fun s => (staticCompute com l svdOf prec (w s) (m s)).2.2 r)
      (((staticJac com l svdOf prec (w t) m').2.2 *ᵥ qd) r) t) := by
  have hf := phi_wf com hl
  obtain ⟨j1, j2⟩ := staticJac_mulVec (com := com) hl hs prec (w t) m' qd
  rw [j1, j2]
  simp only [staticCompute_eq hl]
  have hA := fun r j => mat_deriv hf hw r j
  have hP := pinv_deriv (fun s => hs.isPinv ((phi com l).mat (w s))) hA
    (pinv_bounded (fun s => hs.isPinv ((phi com l).mat (w s))) (fun r j => (hA r j).continuousAt) hreg)
  change ∀ i j, HasDerivAt _ (dP ((phi com l).mat (w t)) ((phi com l).dmat (w t) qd) _ i j) t at hP
  generalize hAA : (fun s => (phi com l).mat (w s)) = A at *
  have eA : ∀ s, (phi com l).mat (w s) = A s := fun s => congrFun hAA s
  simp only [eA] at *
  generalize (phi com l).dmat (w t) qd = D at *
  have hu : ∀ i, HasDerivAt (fun s => ((svdOf (A s)).pinv *ᵥ -gravity) i) ((dP (A t) D (svdOf (A t)).pinv *ᵥ -gravity) i) t := by
    intro i
    have := deriv_mulVec hP (x := fun _ => -gravity) (x' := 0) (fun j => hasDerivAt_const _ _) i
    simpa using this
  constructor
  · intro i
    refine (hu i).add ?_
    have hm := uMinus_deriv hu h0
    have hz := isZero_eventually hprec (fun i => (hu i).continuousAt) h1
    by_cases hc : isZeroVec prec (uMinusOf ((svdOf (A t)).pinv *ᵥ -gravity))
    · rw [computeV_none hc]
      refine (hasDerivAt_const t (0 : ℝ)).congr_of_eventuallyEq ?_
      filter_upwards [hz] with s hs
      rw [computeV_none (hs.2 hc)]
      rfl
    · rw [computeV_some hc]
      have e : (fun s => ((computeV prec (svdOf (A s)) ((svdOf (A s)).pinv *ᵥ -gravity)).getD 0) i) =ᶠ[𝓝 t]
          fun s => uMinusOf ((svdOf (A s)).pinv *ᵥ -gravity) i -
            ((svdOf (A s)).pinv *ᵥ (A s *ᵥ uMinusOf ((svdOf (A s)).pinv *ᵥ -gravity))) i := by
        filter_upwards [hz] with s hs'
        rw [computeV_some (fun h => hc (hs'.1 h)), Option.getD_some, mulVec_mulVec _ (svdOf (A s)).V2, hs.v2, sub_mulVec, one_mulVec,
          ← mulVec_mulVec]
        rfl
      refine HasDerivAt.congr_of_eventuallyEq ?_ e
      have h2 := deriv_mulVec hP (deriv_mulVec hA hm) i
      refine ((hm i).sub h2).congr_deriv ?_
      dsimp only
      simp only [mulVec_add, Pi.add_apply, Pi.sub_apply, ← mulVec_mulVec]
      ring
  · intro r
    have h2 := (deriv_mulVec hA hu r).const_add (gravity r)
    refine h2.congr_deriv ?_
    simp only [Pi.add_apply, Pi.sub_apply, mulVec_neg, Pi.neg_apply]
    ring

end Hpp.Stab
