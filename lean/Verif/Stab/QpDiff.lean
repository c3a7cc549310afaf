import Verif.Stab.QpProps
import Mathlib.Analysis.Calculus.Deriv.Slope
import Mathlib.Topology.MetricSpace.ProperSpace
import Mathlib.Topology.Instances.Matrix

/-! # Existence of the derivative of the value of `QPStaticStability` -/

namespace Hpp.Stab

open Matrix Hpp.Sym Filter Topology

/-- Product of a function that vanishes with a derivative and of a continuous function -/
theorem hasDerivAt_mul_cont {e f : ℝ → ℝ} {e' t : ℝ} (he : HasDerivAt e e' t) (h0 : e t = 0) (hf : ContinuousAt f t) :
    HasDerivAt (fun s => e s * f s) (e' * f t) t := by
  rw [hasDerivAt_iff_tendsto_slope] at he ⊢
  have h1 : Tendsto f (𝓝[≠] t) (𝓝 (f t)) := hf.tendsto.mono_left nhdsWithin_le_nhds
  refine (he.mul h1).congr fun s => ?_
  simp only [slope, vsub_eq_sub, smul_eq_mul, h0, sub_zero, zero_mul, mul_assoc]

theorem hasDerivAt_squeeze {f g h : ℝ → ℝ} {D t : ℝ} (hg : HasDerivAt g D t) (hh : HasDerivAt h D t) (h1 : ∀ s, f s ≤ g s)
    (h2 : ∀ s, h s ≤ f s) (hgt : g t = f t) (hht : h t = f t) : HasDerivAt f D t := by
  rw [hasDerivAt_iff_isLittleO] at hg hh ⊢
  refine Asymptotics.IsBigO.trans_isLittleO (g := fun s => ‖g s - g t - (s - t) • D‖ + ‖h s - h t - (s - t) • D‖) ?_
    (hg.norm_left.add hh.norm_left)
  refine Asymptotics.IsBigO.of_bound 1 (Eventually.of_forall fun s => ?_)
  rw [one_mul, hgt, hht]
  simp only [Real.norm_eq_abs, smul_eq_mul]
  have ha := h1 s
  have hb := h2 s
  rw [abs_of_nonneg (add_nonneg (abs_nonneg (g s - f t - (s - t) * D)) (abs_nonneg (h s - f t - (s - t) * D)))]
  rcases abs_cases (f s - f t - (s - t) * D) with ⟨e, -⟩ | ⟨e, -⟩ <;> rw [e]
  · have := le_abs_self (g s - f t - (s - t) * D)
    have := abs_nonneg (h s - f t - (s - t) * D)
    linarith
  · have := neg_abs_le (h s - f t - (s - t) * D)
    have := abs_nonneg (g s - f t - (s - t) * D)
    linarith

variable {m k : Nat}

theorem res2_continuous (b : Fin m → ℝ) :
    Continuous fun p : Matrix (Fin m) (Fin k) ℝ × (Fin k → ℝ) => res2 p.1 b p.2 := by
  unfold res2
  have h : Continuous fun p : Matrix (Fin m) (Fin k) ℝ × (Fin k → ℝ) => b + p.1 *ᵥ p.2 :=
    continuous_const.add (continuous_fst.matrix_mulVec continuous_snd)
  exact h.dotProduct h

/-- Solutions of the least squares problems over non-negative vectors are continuous where the solution is unique. -/
theorem nnls_continuous {A : ℝ → Matrix (Fin m) (Fin k) ℝ} {t : ℝ} (hA : ContinuousAt A t) (b : Fin m → ℝ)
    (F : ℝ → Fin k → ℝ) (hF : ∀ s i, 0 ≤ F s i)
    (hmin : ∀ s (G : Fin k → ℝ), (∀ i, 0 ≤ G i) → res2 (A s) b (F s) ≤ res2 (A s) b G)
    (huniq : ∀ G : Fin k → ℝ, (∀ i, 0 ≤ G i) → res2 (A t) b G = res2 (A t) b (F t) → G = F t) : ContinuousAt F t := by
  rw [ContinuousAt, Metric.tendsto_nhds]
  intro ε hε
  let K : Set (Fin k → ℝ) := Metric.sphere (F t) (ε / 2) ∩ {G | ∀ i, 0 ≤ G i}
  have hK : IsCompact K := by
    refine (isCompact_sphere _ _).inter_right ?_
    simp only [Set.ofPred_forall]
    exact isClosed_iInter fun i => isClosed_le continuous_const (continuous_apply i)
  have hlt : ∀ G ∈ K, res2 (A t) b (F t) < res2 (A t) b G := by
    rintro G ⟨hs, hG⟩
    refine lt_of_le_of_ne (hmin t G hG) fun he => ?_
    have := huniq G hG he.symm
    rw [this, Metric.mem_sphere, dist_self] at hs
    linarith
  have hev : ∀ᶠ M in 𝓝 (A t), ∀ G ∈ K, res2 M b (F t) < res2 M b G := by
    refine hK.eventually_forall_of_forall_eventually fun G hG => ?_
    have hc := (res2_continuous (k := k) b)
    have c1 : Continuous fun p : Matrix (Fin m) (Fin k) ℝ × (Fin k → ℝ) => res2 p.1 b (F t) :=
      hc.comp (continuous_fst.prodMk continuous_const)
    exact (isOpen_lt c1 hc).mem_nhds (hlt G hG)
  filter_upwards [hA.eventually hev] with s hs
  by_contra hc
  have hd : ε ≤ dist (F s) (F t) := not_lt.1 hc
  have hdp : 0 < dist (F s) (F t) := lt_of_lt_of_le hε hd
  have hθ0 : 0 ≤ ε / 2 / dist (F s) (F t) := by positivity
  have hθ1 : ε / 2 / dist (F s) (F t) ≤ 1 := by
    rw [div_le_one hdp]
    linarith
  have hconv := res2_convex (A s) b (F t) (F s) hθ0 hθ1 (hmin s (F t) (hF t))
  refine absurd (hs (F t + (ε / 2 / dist (F s) (F t)) • (F s - F t)) ⟨?_, fun i => ?_⟩) (not_lt.2 hconv)
  · rw [Metric.mem_sphere, dist_eq_norm, add_sub_cancel_left, norm_smul, Real.norm_of_nonneg hθ0, ← dist_eq_norm]
    field_simp
  · generalize ε / 2 / dist (F s) (F t) = θ at *
    simp only [Pi.add_apply, Pi.smul_apply, Pi.sub_apply, smul_eq_mul]
    have h1 := mul_nonneg hθ0 (hF s i)
    have h2 := mul_nonneg (sub_nonneg.2 hθ1) (hF t i)
    linarith

/-- Minimum of the least squares problems over non-negative vectors, where the solution is unique -/
theorem nnls_deriv {A : ℝ → Matrix (Fin m) (Fin k) ℝ} {A' : Matrix (Fin m) (Fin k) ℝ} {t : ℝ}
    (hA : ∀ i j, HasDerivAt (fun s => A s i j) (A' i j) t) (b : Fin m → ℝ)
    (F : ℝ → Fin k → ℝ) (hF : ∀ s i, 0 ≤ F s i)
    (hmin : ∀ s (G : Fin k → ℝ), (∀ i, 0 ≤ G i) → res2 (A s) b (F s) ≤ res2 (A s) b G)
    (huniq : ∀ G : Fin k → ℝ, (∀ i, 0 ≤ G i) → res2 (A t) b G = res2 (A t) b (F t) → G = F t) :
    HasDerivAt (fun s => res2 (A s) b (F s)) (2 * ((b + A t *ᵥ F t) ⬝ᵥ (A' *ᵥ F t))) t := by
  have hAc : ContinuousAt A t := continuousAt_pi.2 fun i => continuousAt_pi.2 fun j => (hA i j).continuousAt
  have hFc := nnls_continuous hAc b F hF hmin huniq
  have hFi : ∀ i, ContinuousAt (fun s => F s i) t := fun i => (continuous_apply i).continuousAt.comp hFc
  refine hasDerivAt_squeeze (g := fun s => res2 (A s) b (F t))
    (h := fun s => res2 (A t) b (F t) + (res2 (A s) b (F s) - res2 (A t) b (F s))) ?_ ?_
    (fun s => hmin s (F t) (hF t)) (fun s => by have := hmin t (F s) (hF s); linarith) rfl (by simp)
  · have h1 : ∀ r, HasDerivAt (fun s => (b + A s *ᵥ F t) r) ((A' *ᵥ F t) r) t := by
      intro r
      have := deriv_mulVec hA (x := fun _ => F t) (x' := 0) (fun j => hasDerivAt_const _ _) r
      rw [mulVec_zero, add_zero] at this
      exact this.const_add (b r)
    unfold res2
    simp only [dotProduct, Finset.mul_sum]
    refine HasDerivAt.fun_sum fun r _ => ?_
    refine ((h1 r).mul (h1 r)).congr_deriv ?_
    ring
  · refine HasDerivAt.const_add _ ?_
    have e : ∀ s, res2 (A s) b (F s) - res2 (A t) b (F s) =
        ∑ r, ((A s - A t) *ᵥ F s) r * ((b + A s *ᵥ F s) r + (b + A t *ᵥ F s) r) := by
      intro s
      unfold res2
      simp only [dotProduct, ← Finset.sum_sub_distrib, sub_mulVec, Pi.sub_apply, Pi.add_apply]
      exact Finset.sum_congr rfl fun r _ => by ring
    simp only [e]
    have hE : ∀ r, HasDerivAt (fun s => ((A s - A t) *ᵥ F s) r) ((A' *ᵥ F t) r) t := by
      intro r
      simp only [mulVec, dotProduct]
      refine HasDerivAt.fun_sum fun j _ => ?_
      exact hasDerivAt_mul_cont (e := fun s => (A s - A t) r j) ((hA r j).sub_const _) (by simp) (hFi j)
    have hc : ∀ r, ContinuousAt (fun s => (b + A s *ᵥ F s) r + (b + A t *ᵥ F s) r) t := by
      intro r
      have c1 : ContinuousAt (fun s => (A s *ᵥ F s) r) t := by
        simp only [mulVec, dotProduct]
        exact tendsto_finsetSum _ fun j _ => ((hA r j).continuousAt.mul (hFi j))
      have c2 : ContinuousAt (fun s => (A t *ᵥ F s) r) t := by
        simp only [mulVec, dotProduct]
        exact tendsto_finsetSum _ fun j _ => (continuousAt_const.mul (hFi j))
      exact (continuousAt_const.add c1).add (continuousAt_const.add c2)
    refine (HasDerivAt.fun_sum fun r _ => hasDerivAt_mul_cont (hE r) (by simp) (hc r)).congr_deriv ?_
    simp only [dotProduct, Finset.mul_sum]
    exact Finset.sum_congr rfl fun r _ => by ring

variable {n : Nat} {com : Nat} {l : List Col} {solver : QpSolver l.length}

/-- C59: the derivative of the value exists where the optimal forces are unique, and it is then twice the product of the velocity
by the Jacobian computed right after the value. -/
theorem C59_differentiable_partial (hl : Grouped l) (hq : QpContract solver) {w : ℝ → World ℝ n} {qd : Fin n → ℝ} {t : ℝ}
    (hw : Moves w qd t) (m : ℝ → MMem n 2 l.length) (m' : MMem n 2 l.length)
    (hu : ∀ F G : Fin l.length → ℝ, (∀ i, 0 ≤ F i) → (∀ i, 0 ≤ G i) →
      (∀ H : Fin l.length → ℝ, (∀ i, 0 ≤ H i) → res2 ((phi com l).mat (w t)) gravity F ≤ res2 ((phi com l).mat (w t)) gravity H ∧
        res2 ((phi com l).mat (w t)) gravity G ≤ res2 ((phi com l).mat (w t)) gravity H) → F = G) :
    HasDerivAt (fun s => (qpCompute com l solver (w s) (m s)).2)
      (2 * ((qpJac com l solver (w t) (qpCompute com l solver (w t) m').1).2 ⬝ᵥ qd)) t := by
  rw [qpJac_dot hl solver (w t) _ qd (qpCompute_mem hl solver (w t) m')]
  simp only [qpCompute_eq hl]
  refine nnls_deriv (fun r j => mat_deriv (phi_wf com hl) hw r j) gravity (fun s => qpForces com l solver (w s))
    (fun s => hq.nonneg _) (fun s G hG => qp_min hq (w s) G hG) fun G hG he => ?_
  refine hu G _ hG (hq.nonneg _) fun H hH => ?_
  have := qp_min (com := com) hq (w t) H hH
  exact ⟨he.trans_le this, this⟩

/-- The optimal forces are unique as soon as the wrenches of the contacts are linearly independent. -/
theorem C59_unique (w : World ℝ n) (hind : ∀ x, (phi com l).mat w *ᵥ x = 0 → x = 0) (F G : Fin l.length → ℝ)
    (hF : ∀ i, 0 ≤ F i) (hG : ∀ i, 0 ≤ G i)
    (h : ∀ H : Fin l.length → ℝ, (∀ i, 0 ≤ H i) → res2 ((phi com l).mat w) gravity F ≤ res2 ((phi com l).mat w) gravity H ∧
      res2 ((phi com l).mat w) gravity G ≤ res2 ((phi com l).mat w) gravity H) : F = G := by
  have h1 := (h G hG).1
  have h2 := (h F hF).2
  have h3 := (h ((1 / 2 : ℝ) • (F + G)) fun i => by
    have := hF i
    have := hG i
    simp only [Pi.smul_apply, Pi.add_apply, smul_eq_mul]
    linarith).1
  generalize (phi com l).mat w = A at *
  have key : res2 A gravity ((1 / 2 : ℝ) • (F + G)) = (1 / 2) * res2 A gravity F + (1 / 2) * res2 A gravity G -
      (1 / 4) * ((A *ᵥ (F - G)) ⬝ᵥ (A *ᵥ (F - G))) := by
    unfold res2
    have e1 : gravity + A *ᵥ ((1 / 2 : ℝ) • (F + G)) = (1 / 2 : ℝ) • ((gravity + A *ᵥ F) + (gravity + A *ᵥ G)) := by
      rw [mulVec_smul, mulVec_add]
      funext i
      simp only [Pi.add_apply, Pi.smul_apply, smul_eq_mul]
      ring
    have e2 : A *ᵥ (F - G) = (gravity + A *ᵥ F) - (gravity + A *ᵥ G) := by
      rw [mulVec_sub]
      abel
    rw [e1, e2]
    generalize gravity + A *ᵥ F = y
    generalize gravity + A *ᵥ G = z
    simp only [add_dotProduct, dotProduct_add, sub_dotProduct, dotProduct_sub, smul_dotProduct, dotProduct_smul, smul_eq_mul,
      dotProduct_comm z y]
    ring
  have hz : (A *ᵥ (F - G)) ⬝ᵥ (A *ᵥ (F - G)) = 0 := by
    refine le_antisymm ?_ (Finset.sum_nonneg fun i _ => mul_self_nonneg _)
    linarith
  exact sub_eq_zero.1 (hind _ (dotProduct_self_eq_zero.1 hz))

/-- The hypotheses hold for a contact that slides. -/
example {solver : QpSolver exCols.length} (hq : QpContract solver) (m : ℝ → MMem 1 2 exCols.length)
    (m' : MMem 1 2 exCols.length) (t : ℝ) :
    HasDerivAt (fun s => (qpCompute 0 exCols solver (exSlide s) (m s)).2)
      (2 * ((qpJac 0 exCols solver (exSlide t) (qpCompute 0 exCols solver (exSlide t) m').1).2 ⬝ᵥ ![1])) t := by
  refine C59_differentiable_partial exCols_grouped hq (exSlide_moves t) m m' fun F G hF hG h => ?_
  refine C59_unique (exSlide t) (fun x hx => ?_) F G hF hG h
  have hr := (phi_wrench 0 exCols (exSlide t) x 2).1
  rw [hx] at hr
  have hr0 := (phi_wrench 0 exCols (exSlide t) 0 2).1
  rw [mulVec_zero] at hr0
  rw [hr0] at hr
  have e : ∀ F : Fin exCols.length → ℝ, resultant exCols (exSlide t) F 2 = F ⟨0, Nat.one_pos⟩ - 1 := by
    intro F
    unfold resultant
    have : ∑ j, F j • exCols[j].contact.nrm (exSlide t) =
        F ⟨0, Nat.one_pos⟩ • ((1 : M3 ℝ) *ᵥ ![0, 0, 1]) := Fin.sum_univ_one _
    rw [this]
    simp
  rw [e, e] at hr
  funext j
  have h1 : j.val < 1 := j.2
  have : j = ⟨0, Nat.one_pos⟩ := Fin.ext (by show j.val = 0; omega)
  rw [this]
  have : (0 : Fin exCols.length → ℝ) ⟨0, Nat.one_pos⟩ = 0 := rfl
  rw [this] at hr ⊢
  linarith

/-! ### Two contacts that cross each other -/

/-- Joints 0 and 1 translate along the first axis in opposite directions and are at the same place at time 0. -/
noncomputable def exCross (t : ℝ) : World ℝ 1 where
  R := fun _ => 1
  p := fun j => if j = 0 then ![1 + t, 0, 0] else ![1 - t, 0, 0]
  Jv := fun j => if j = 0 then !![1; 0; 0] else !![-1; 0; 0]
  Jw := fun _ => 0
  com := fun _ => 0
  Jcom := fun _ => 0

theorem exCross_moves (t : ℝ) : Moves exCross ![1] t := by
  refine ⟨fun j => ?_, fun j a b => ?_, fun j a => ?_, fun c a => ?_⟩
  · simp [exCross, IsRot]
  · simp only [exCross, Matrix.zero_mulVec, hat_zero, Matrix.mul_zero]
    exact hasDerivAt_const _ _
  · simp only [exCross, one_mulVec]
    have h1 : HasDerivAt (fun s : ℝ => 1 + s) 1 t := (hasDerivAt_id' t).const_add 1
    have h2 : HasDerivAt (fun s : ℝ => 1 - s) (-1) t := (hasDerivAt_id' t).const_sub 1
    by_cases hj : j = 0
    · simp only [hj, if_true]
      fin_cases a <;> simp [mulVec, dotProduct, hasDerivAt_const, h1]
    · simp only [hj, if_false]
      fin_cases a <;> simp [mulVec, dotProduct, hasDerivAt_const, h2]
  · simp only [exCross, Matrix.zero_mulVec]
    exact hasDerivAt_const _ _

noncomputable def exCols2 : List Col := colsOfContacts [⟨0, 0, ![0, 0, 1]⟩, ⟨1, 0, ![0, 0, 1]⟩]

theorem exCross_res2 (s : ℝ) (F : Fin exCols2.length → ℝ) :
    resultant exCols2 (exCross s) F ⬝ᵥ resultant exCols2 (exCross s) F +
      moment 0 exCols2 (exCross s) F ⬝ᵥ moment 0 exCols2 (exCross s) F =
    (F ⟨0, Nat.zero_lt_two⟩ + F ⟨1, Nat.one_lt_two⟩ - 1) ^ 2 +
      (F ⟨0, Nat.zero_lt_two⟩ * (1 + s) + F ⟨1, Nat.one_lt_two⟩ * (1 - s)) ^ 2 := by
  have e1 : resultant exCols2 (exCross s) F = ![0, 0, F ⟨0, Nat.zero_lt_two⟩ + F ⟨1, Nat.one_lt_two⟩ - 1] := by
    unfold resultant
    have : ∑ j, F j • exCols2[j].contact.nrm (exCross s) =
        F ⟨0, Nat.zero_lt_two⟩ • ((1 : M3 ℝ) *ᵥ ![0, 0, 1]) + F ⟨1, Nat.one_lt_two⟩ • ((1 : M3 ℝ) *ᵥ ![0, 0, 1]) :=
      Fin.sum_univ_two _
    rw [this]
    funext a
    fin_cases a <;> simp
  have e2 : moment 0 exCols2 (exCross s) F =
      ![0, -(F ⟨0, Nat.zero_lt_two⟩ * (1 + s) + F ⟨1, Nat.one_lt_two⟩ * (1 - s)), 0] := by
    unfold moment
    have : ∑ j, F j • crossProduct (exCols2[j].contact.pos (exCross s) - (exCross s).com 0) (exCols2[j].contact.nrm (exCross s)) =
        F ⟨0, Nat.zero_lt_two⟩ • crossProduct ((1 : M3 ℝ) *ᵥ 0 + ![1 + s, 0, 0] - 0) ((1 : M3 ℝ) *ᵥ ![0, 0, 1]) +
        F ⟨1, Nat.one_lt_two⟩ • crossProduct ((1 : M3 ℝ) *ᵥ 0 + ![1 - s, 0, 0] - 0) ((1 : M3 ℝ) *ᵥ ![0, 0, 1]) :=
      Fin.sum_univ_two _
    rw [this]
    funext a
    fin_cases a <;> simp [crossProduct]
    ring
  rw [e1, e2]
  simp [dotProduct, Fin.sum_univ_three]
  ring

theorem exCross_value {solver : QpSolver exCols2.length} (hq : QpContract solver) {s : ℝ} (hs : |s| ≤ 1)
    (m : MMem 1 2 exCols2.length) :
    (qpCompute 0 exCols2 solver (exCross s) m).2 = (1 - |s|) ^ 2 / (1 + (1 - |s|) ^ 2) := by
  obtain ⟨⟨F, hF, hv⟩, hle⟩ := C59_value (com := 0) (l := exCols2) (colsOfContacts_grouped _) hq (exCross s) m
  have hx : 0 ≤ 1 - |s| := by linarith
  have hp : (0 : ℝ) < 1 + (1 - |s|) ^ 2 := by positivity
  have key : ∀ x T : ℝ, (T - 1) ^ 2 + (T * x) ^ 2 = (1 + x ^ 2) * (T - 1 / (1 + x ^ 2)) ^ 2 + x ^ 2 / (1 + x ^ 2) := by
    intro x T
    have : (0 : ℝ) < 1 + x ^ 2 := by positivity
    field_simp
    ring
  apply le_antisymm
  · rcases le_total 0 s with h0 | h0
    · have := hle (fun j => if j.val = 0 then 0 else 1 / (1 + (1 - |s|) ^ 2)) (fun j => by split <;> positivity)
      rw [exCross_res2] at this
      refine this.trans (le_of_eq ?_)
      have e := key (1 - |s|) (1 / (1 + (1 - |s|) ^ 2))
      rw [sub_self] at e
      simp only [if_true, one_ne_zero, if_false, zero_add, zero_mul]
      rw [abs_of_nonneg h0] at e ⊢
      rw [e]
      ring
    · have := hle (fun j => if j.val = 0 then 1 / (1 + (1 - |s|) ^ 2) else 0) (fun j => by split <;> positivity)
      rw [exCross_res2] at this
      refine this.trans (le_of_eq ?_)
      have e := key (1 - |s|) (1 / (1 + (1 - |s|) ^ 2))
      rw [sub_self] at e
      simp only [if_true, one_ne_zero, if_false, add_zero, zero_mul]
      rw [abs_of_nonpos h0, sub_neg_eq_add] at e ⊢
      rw [e]
      ring
  · rw [hv, exCross_res2]
    generalize F ⟨0, Nat.zero_lt_two⟩ = a, F ⟨1, Nat.one_lt_two⟩ = b, hF ⟨0, Nat.zero_lt_two⟩ = ha, hF ⟨1, Nat.one_lt_two⟩ = hb
    have e := key (1 - |s|) (a + b)
    have h1 : 0 ≤ (1 + (1 - |s|) ^ 2) * (a + b - 1 / (1 + (1 - |s|) ^ 2)) ^ 2 := by positivity
    have h2 : (a + b) * (1 - |s|) ≤ a * (1 + s) + b * (1 - s) := by
      have := mul_nonneg ha (by linarith [neg_abs_le s] : 0 ≤ s + |s|)
      have := mul_nonneg hb (by linarith [le_abs_self s] : 0 ≤ |s| - s)
      linarith
    have h3 : 0 ≤ (a + b) * (1 - |s|) := mul_nonneg (add_nonneg ha hb) hx
    have h4 := mul_self_le_mul_self h3 h2
    nlinarith

theorem exCross_not_differentiable {solver : QpSolver exCols2.length} (hq : QpContract solver) (m : ℝ → MMem 1 2 exCols2.length) :
    ¬DifferentiableAt ℝ (fun s => (qpCompute 0 exCols2 solver (exCross s) (m s)).2) 0 := by
  intro hd
  -- the distance to 1 is a differentiable function of the value
  have hev : (fun s => (qpCompute 0 exCols2 solver (exCross s) (m s)).2) =ᶠ[𝓝 0]
      fun s => (1 - |s|) ^ 2 / (1 + (1 - |s|) ^ 2) := by
    have : ∀ᶠ s : ℝ in 𝓝 0, |s| ≤ 1 := by
      filter_upwards [Metric.closedBall_mem_nhds (0 : ℝ) one_pos] with s hs
      simpa using hs
    filter_upwards [this] with s hs
    exact exCross_value hq hs (m s)
  have hd2 : DifferentiableAt ℝ (fun s : ℝ => (1 - |s|) ^ 2 / (1 + (1 - |s|) ^ 2)) 0 := hd.congr_of_eventuallyEq hev.symm
  obtain ⟨D, hD⟩ : ∃ D, HasDerivAt (fun s : ℝ => (1 - |s|) ^ 2 / (1 + (1 - |s|) ^ 2)) D 0 := ⟨_, hd2.hasDerivAt⟩
  -- it is even, hence its derivative is zero
  have hD0 : D = 0 := by
    have h1 := HasDerivAt.comp (0 : ℝ) (h₂ := fun s : ℝ => (1 - |s|) ^ 2 / (1 + (1 - |s|) ^ 2)) (h := fun s : ℝ => -s)
      (by simpa using hD) (hasDerivAt_neg 0)
    have h2 : ((fun s : ℝ => (1 - |s|) ^ 2 / (1 + (1 - |s|) ^ 2)) ∘ fun s : ℝ => -s) =
        fun s : ℝ => (1 - |s|) ^ 2 / (1 + (1 - |s|) ^ 2) := by
      funext s
      simp
    rw [h2] at h1
    have := h1.unique hD
    linarith
  -- but on the right its derivative is not zero
  have hr : HasDerivAt (fun s : ℝ => (1 - s) ^ 2 / (1 + (1 - s) ^ 2)) (-(1 / 2)) 0 := by
    have h1 : HasDerivAt (fun s : ℝ => (1 - s) ^ 2) (-2) 0 := by
      have := ((hasDerivAt_id' (0 : ℝ)).const_sub 1).fun_pow 2
      simpa using this
    have h2 := h1.div (h1.const_add 1) (by norm_num)
    refine h2.congr_deriv ?_
    norm_num
  have hr' : HasDerivWithinAt (fun s : ℝ => (1 - |s|) ^ 2 / (1 + (1 - |s|) ^ 2)) (-(1 / 2)) (Set.Ici 0) 0 := by
    refine hr.hasDerivWithinAt.congr (fun s hs => ?_) (by simp)
    rw [abs_of_nonneg hs]
  have hu : UniqueDiffWithinAt ℝ (Set.Ici (0 : ℝ)) 0 := uniqueDiffOn_Ici 0 0 Set.self_mem_Ici
  have := hu.eq_deriv _ hr' (hD.hasDerivWithinAt (s := Set.Ici 0))
  rw [hD0] at this
  norm_num at this

/-- C59: where the optimal forces are not unique the value may have no derivative. Two contact points cross each other. -/
theorem C59_kink_refuted : ∃ (l : List Col) (w : ℝ → World ℝ 1) (qd : Fin 1 → ℝ) (t : ℝ), Grouped l ∧ Moves w qd t ∧
    ∀ solver : QpSolver l.length, QpContract solver → ∀ m : ℝ → MMem 1 2 l.length,
      ¬DifferentiableAt ℝ (fun s => (qpCompute 0 l solver (w s) (m s)).2) t :=
  ⟨exCols2, exCross, ![1], 0, colsOfContacts_grouped _, exCross_moves 0, fun _ hq m => exCross_not_differentiable hq m⟩

end Hpp.Stab
