import Verif.Stab.QpDiff

/-!
# Checks of the solution of the quadratic program

Model of `checkQPSol` and `checkStrictComplementarity`. Source: `/repo/src/qp-static-stability.cc`, lines 187-198 and 229-240.
`impl_jacobian` writes "Strict complementary slackness does not hold. Jacobian WILL be wrong." when the second one returns false.
-/

namespace Hpp.Stab

open Matrix Hpp.Sym Filter Topology

/-- `dual_` (line 225, `getDualSolution` of qpOASES). Contract: the multipliers of the lower bounds, for which the primal solution is
a stationary point of the Lagrangian. -/
def qpDual {nb : Nat} (H : Matrix (Fin nb) (Fin nb) ℝ) (G F : Fin nb → ℝ) : Fin nb → ℝ := H *ᵥ F + G

/-- `checkQPSol` (lines 229-231) -/
noncomputable def checkQPSol {nb : Nat} (primal : Fin nb → ℝ) : Bool := decide (∀ i, primal i ≥ -(1 / 10 ^ 8))

/-- `checkStrictComplementarity` (lines 233-238); `eps` is the option `boundTolerance` of qpOASES. -/
noncomputable def checkStrict {nb : Nat} (eps : ℝ) (primal dual : Fin nb → ℝ) : Bool :=
  decide (∀ i, (primal i > eps ∧ |dual i| ≤ eps) ∨ (dual i > eps ∧ |primal i| ≤ eps))

variable {n : Nat}

/-- The checks made by `impl_jacobian` (lines 182-198) -/
noncomputable def qpChecks (com : Nat) (l : List Col) (solver : QpSolver l.length) (eps : ℝ) (w : World ℝ n)
    (m : MMem n 2 l.length) : Bool × Bool :=
  let m := (phi com l).invalidate m
  let m := (phi com l).computeJac w m
  let primal := (solveQP solver m).1
  (checkQPSol primal, checkStrict eps primal (qpDual (m.valueᵀ * m.value) (m.valueᵀ *ᵥ gravity) primal))

/-! ### Specification -/

/-- Forces that do not pull and for which the wrench is as small as possible -/
def OptimalForces (com : Nat) (l : List Col) (w : World ℝ n) (F : Fin l.length → ℝ) : Prop :=
  (∀ i, 0 ≤ F i) ∧ ∀ H : Fin l.length → ℝ, (∀ i, 0 ≤ H i) →
    resultant l w F ⬝ᵥ resultant l w F + moment com l w F ⬝ᵥ moment com l w F ≤
      resultant l w H ⬝ᵥ resultant l w H + moment com l w H ⬝ᵥ moment com l w H

/-- Forces that produce no wrench: the wrench is that of gravity alone. -/
def NoWrench (com : Nat) (l : List Col) (w : World ℝ n) (x : Fin l.length → ℝ) : Prop :=
  resultant l w x = resultant l w 0 ∧ moment com l w x = moment com l w 0

/-- Half the derivative of the squared norm of the wrench with respect to the force at a contact: positive if an additional force would
increase the norm -/
noncomputable def slopeAt (com : Nat) (l : List Col) (w : World ℝ n) (F : Fin l.length → ℝ) (i : Fin l.length) : ℝ :=
  resultant l w F ⬝ᵥ (resultant l w (Pi.single i 1) - resultant l w 0) +
    moment com l w F ⬝ᵥ (moment com l w (Pi.single i 1) - moment com l w 0)

/-! ### Optimality conditions -/

variable {m k : Nat}

theorem res2_line (A : Matrix (Fin m) (Fin k) ℝ) (b : Fin m → ℝ) (F v : Fin k → ℝ) (t : ℝ) :
    res2 A b (F + t • v) = res2 A b F + 2 * t * (v ⬝ᵥ (Aᵀ *ᵥ (b + A *ᵥ F))) + t ^ 2 * ((A *ᵥ v) ⬝ᵥ (A *ᵥ v)) := by
  unfold res2
  have e : v ⬝ᵥ (Aᵀ *ᵥ (b + A *ᵥ F)) = (A *ᵥ v) ⬝ᵥ (b + A *ᵥ F) := by
    rw [dotProduct_mulVec, vecMul_transpose]
  rw [e, mulVec_add, mulVec_smul, ← add_assoc]
  generalize b + A *ᵥ F = y
  generalize A *ᵥ v = z
  simp only [add_dotProduct, dotProduct_add, smul_dotProduct, dotProduct_smul, smul_eq_mul, dotProduct_comm y z]
  ring

theorem nonneg_of_small {a c δ : ℝ} (hδ : 0 < δ) (hc : 0 ≤ c) (h : ∀ t, 0 ≤ t → t ≤ δ → 0 ≤ 2 * t * a + t ^ 2 * c) : 0 ≤ a := by
  by_contra ha
  push Not at ha
  have hc1 : 0 < c + 1 := by linarith
  set t := min δ (-a / (c + 1)) with ht
  have htp : 0 < t := lt_min hδ (div_pos (by linarith) hc1)
  have h1 := h t htp.le (min_le_left _ _)
  have h2 : t * (c + 1) ≤ -a := (le_div_iff₀ hc1).1 (min_le_right _ _)
  nlinarith

/-- Conditions of Karush, Kuhn and Tucker -/
theorem nnls_kkt {A : Matrix (Fin m) (Fin k) ℝ} {b : Fin m → ℝ} {F : Fin k → ℝ} (hF : ∀ i, 0 ≤ F i)
    (hmin : ∀ G : Fin k → ℝ, (∀ i, 0 ≤ G i) → res2 A b F ≤ res2 A b G) (i : Fin k) :
    0 ≤ (Aᵀ *ᵥ (b + A *ᵥ F)) i ∧ F i * (Aᵀ *ᵥ (b + A *ᵥ F)) i = 0 := by
  have hdir : ∀ (c δ : ℝ), 0 < δ → (∀ t, 0 ≤ t → t ≤ δ → 0 ≤ F i + t * c) → 0 ≤ c * (Aᵀ *ᵥ (b + A *ᵥ F)) i := by
    intro c δ hδ hfe
    refine nonneg_of_small hδ (c := (A *ᵥ Pi.single i c) ⬝ᵥ (A *ᵥ Pi.single i c))
      (Finset.sum_nonneg fun _ _ => mul_self_nonneg _) fun t h0 h1 => ?_
    have h2 := hmin (F + t • Pi.single i c) fun j => by
      by_cases hj : j = i
      · subst hj
        simpa using hfe t h0 h1
      · simpa [hj] using hF j
    rw [res2_line, single_dotProduct] at h2
    linarith
  have h1 : 0 ≤ (Aᵀ *ᵥ (b + A *ᵥ F)) i := by
    have := hdir 1 1 one_pos fun t h0 _ => by have := hF i; linarith
    linarith
  refine ⟨h1, ?_⟩
  rcases (hF i).eq_or_lt with h0 | h0
  · rw [← h0, zero_mul]
  · have := hdir (-1) (F i) h0 fun t _ h1 => by linarith
    have h2 : (Aᵀ *ᵥ (b + A *ᵥ F)) i = 0 := by linarith
    rw [h2, mul_zero]

/-- Two solutions give the same residual. -/
theorem nnls_same {A : Matrix (Fin m) (Fin k) ℝ} {b : Fin m → ℝ} {F G : Fin k → ℝ} (hF : ∀ i, 0 ≤ F i) (hG : ∀ i, 0 ≤ G i)
    (h : ∀ H : Fin k → ℝ, (∀ i, 0 ≤ H i) → res2 A b F ≤ res2 A b H ∧ res2 A b G ≤ res2 A b H) : A *ᵥ (G - F) = 0 := by
  have h1 := (h G hG).1
  have h2 := (h F hF).2
  have h3 := (h (F + (1 / 2 : ℝ) • (G - F)) fun i => by
    have := hF i
    have := hG i
    simp only [Pi.smul_apply, Pi.add_apply, Pi.sub_apply, smul_eq_mul]
    linarith).1
  have e1 := res2_line A b F (G - F) (1 / 2)
  have e2 := res2_line A b F (G - F) 1
  rw [one_smul, add_sub_cancel] at e2
  have hz : (A *ᵥ (G - F)) ⬝ᵥ (A *ᵥ (G - F)) = 0 := by
    refine le_antisymm ?_ (Finset.sum_nonneg fun i _ => mul_self_nonneg _)
    linarith
  exact dotProduct_self_eq_zero.1 hz

variable {com : Nat} {l : List Col} {solver : QpSolver l.length}

theorem optimal_iff (w : World ℝ n) (F : Fin l.length → ℝ) : OptimalForces com l w F ↔ (∀ i, 0 ≤ F i) ∧
    ∀ H : Fin l.length → ℝ, (∀ i, 0 ≤ H i) → res2 ((phi com l).mat w) gravity F ≤ res2 ((phi com l).mat w) gravity H := by
  unfold OptimalForces
  simp only [res2_wrench]

theorem row_surj (r : Fin (2 * 3)) : ∃ a, r = row 0 a ∨ r = row 1 a := by
  fin_cases r
  exacts [⟨0, Or.inl rfl⟩, ⟨1, Or.inl rfl⟩, ⟨2, Or.inl rfl⟩, ⟨0, Or.inr rfl⟩, ⟨1, Or.inr rfl⟩, ⟨2, Or.inr rfl⟩]

theorem noWrench_iff (w : World ℝ n) (x : Fin l.length → ℝ) : NoWrench com l w x ↔ (phi com l).mat w *ᵥ x = 0 := by
  have h0 := phi_wrench com l w 0
  have hx := phi_wrench com l w x
  rw [mulVec_zero, add_zero] at h0
  constructor
  · rintro ⟨h1, h2⟩
    have : gravity + (phi com l).mat w *ᵥ x = gravity := by
      funext r
      obtain ⟨a, rfl | rfl⟩ := row_surj r
      · rw [(hx a).1, h1, (h0 a).1]
      · rw [(hx a).2, h2, (h0 a).2]
    simpa using this
  · intro h
    rw [h, add_zero] at hx
    exact ⟨funext fun a => by rw [← (hx a).1, (h0 a).1], funext fun a => by
      have := (hx a).2.symm.trans (h0 a).2
      linarith⟩

theorem sum_two_rows (f : Fin (2 * 3) → ℝ) : ∑ r, f r = ∑ a, f (row 0 a) + ∑ a, f (row 1 a) := by
  rw [Fin.sum_univ_three, Fin.sum_univ_three]
  exact Fin.sum_univ_six f |>.trans (by
    show f 0 + f 1 + f 2 + f 3 + f 4 + f 5 = f (row 0 0) + f (row 0 1) + f (row 0 2) + (f (row 1 0) + f (row 1 1) + f (row 1 2))
    have : (row (p := 2) 0 0 = 0) ∧ (row (p := 2) 0 1 = 1) ∧ (row (p := 2) 0 2 = 2) ∧ (row (p := 2) 1 0 = 3) ∧
      (row (p := 2) 1 1 = 4) ∧ (row (p := 2) 1 2 = 5) := by decide
    obtain ⟨h1, h2, h3, h4, h5, h6⟩ := this
    rw [h1, h2, h3, h4, h5, h6]
    ring)

/-- The multipliers in terms of forces and moments -/
theorem dual_eq (w : World ℝ n) (F : Fin l.length → ℝ) (i : Fin l.length) :
    (((phi com l).mat w)ᵀ *ᵥ (gravity + (phi com l).mat w *ᵥ F)) i = slopeAt com l w F i := by
  have hF := phi_wrench com l w F
  have h1 := phi_wrench com l w (Pi.single i 1)
  have h0 := phi_wrench com l w 0
  rw [mulVec_zero, add_zero] at h0
  have hc : ∀ r, (phi com l).mat w r i = (gravity + (phi com l).mat w *ᵥ Pi.single i 1) r - gravity r := by
    intro r
    rw [Pi.add_apply, mulVec_single_one, add_sub_cancel_left]
    rfl
  show ∑ r, (phi com l).mat w r i * (gravity + (phi com l).mat w *ᵥ F) r = _
  rw [sum_two_rows]
  unfold slopeAt
  congr 1
  · refine Finset.sum_congr rfl fun a _ => ?_
    rw [hc, (hF a).1, (h1 a).1, (h0 a).1, mul_comm]
    rfl
  · refine Finset.sum_congr rfl fun a _ => ?_
    rw [hc, (hF a).2, (h1 a).2, (h0 a).2]
    simp only [Pi.sub_apply]
    ring

theorem qpChecks_eq (hl : Grouped l) (eps : ℝ) (w : World ℝ n) (m : MMem n 2 l.length) :
    qpChecks com l solver eps w (qpCompute com l solver w m).1 = (checkQPSol (qpForces com l solver w),
      checkStrict eps (qpForces com l solver w) (slopeAt com l w (qpForces com l solver w))) := by
  have hv : ∀ m' : MMem n 2 l.length, ((phi com l).computeJac w ((phi com l).invalidate m')).value = m'.value := jac_value com l w
  have hm := qpCompute_mem (com := com) hl solver w m
  unfold qpChecks solveQP
  dsimp only
  rw [hv, hm]
  have : qpDual (((phi com l).mat w)ᵀ * (phi com l).mat w) (((phi com l).mat w)ᵀ *ᵥ gravity) (qpForces com l solver w) =
      slopeAt com l w (qpForces com l solver w) := by
    funext i
    rw [← dual_eq]
    unfold qpDual
    rw [← mulVec_mulVec, ← mulVec_add, add_comm]
  unfold qpForces at this ⊢
  rw [this]

theorem optimal_kkt {w : World ℝ n} {F : Fin l.length → ℝ} (h : OptimalForces com l w F) (i : Fin l.length) :
    0 ≤ slopeAt com l w F i ∧ F i * slopeAt com l w F i = 0 := by
  rw [optimal_iff] at h
  rw [← dual_eq]
  exact nnls_kkt h.1 h.2 i

/-! ### Theorems -/

/-- C138. The forces that are used for the Jacobian, right after the value, are optimal and pass the first check. No additional force
would decrease the wrench, and a contact that carries a force has a zero multiplier: this is complementarity. The second check, for any
tolerance, tells that each contact carries a force above the tolerance, or has a multiplier above the tolerance. -/
theorem C138_test (hl : Grouped l) (hq : QpContract solver) {eps : ℝ} (he : 0 ≤ eps) (w : World ℝ n) (m : MMem n 2 l.length) :
    ∃ F, OptimalForces com l w F ∧ (qpCompute com l solver w m).2 =
      resultant l w F ⬝ᵥ resultant l w F + moment com l w F ⬝ᵥ moment com l w F ∧
    (∀ i, 0 ≤ slopeAt com l w F i ∧ F i * slopeAt com l w F i = 0) ∧
    (qpChecks com l solver eps w (qpCompute com l solver w m).1).1 = true ∧
    ((qpChecks com l solver eps w (qpCompute com l solver w m).1).2 = true ↔ ∀ i, eps < F i ∨ eps < slopeAt com l w F i) := by
  have hopt : OptimalForces com l w (qpForces com l solver w) :=
    (optimal_iff w _).2 ⟨hq.nonneg _, fun H hH => qp_min hq w H hH⟩
  have hk := optimal_kkt hopt
  refine ⟨qpForces com l solver w, hopt, (qpCompute_eq hl solver w m).trans (res2_wrench _ _ _ _), hk, ?_, ?_⟩
  · rw [qpChecks_eq hl]
    refine decide_eq_true fun i => ?_
    have := hopt.1 i
    norm_num at this ⊢
    linarith
  · rw [qpChecks_eq hl]
    unfold checkStrict
    dsimp only
    rw [decide_eq_true_iff]
    refine forall_congr' fun i => ?_
    obtain ⟨h1, h2⟩ := hk i
    have h3 := hopt.1 i
    constructor
    · rintro (⟨h, _⟩ | ⟨h, _⟩)
      · exact Or.inl h
      · exact Or.inr h
    · rintro (h | h)
      · left
        have : slopeAt com l w (qpForces com l solver w) i = 0 := by
          rcases mul_eq_zero.1 h2 with h0 | h0
          · linarith
          · exact h0
        rw [this, abs_zero]
        exact ⟨h, he⟩
      · right
        have : qpForces com l solver w i = 0 := by
          rcases mul_eq_zero.1 h2 with h0 | h0
          · exact h0
          · linarith
        rw [this, abs_zero]
        exact ⟨h, he⟩

/-- C138. Optimal forces on the contacts whose multiplier is zero that are independent are the only optimal forces. -/
theorem C138_unique {w : World ℝ n} {F : Fin l.length → ℝ} (hF : OptimalForces com l w F)
    (hind : ∀ x : Fin l.length → ℝ, (∀ i, slopeAt com l w F i ≠ 0 → x i = 0) → NoWrench com l w x → x = 0) {G : Fin l.length → ℝ}
    (hG : OptimalForces com l w G) : G = F := by
  have h1 := (optimal_iff w F).1 hF
  have h2 := (optimal_iff w G).1 hG
  have hz := nnls_same h1.1 h2.1 fun H hH => ⟨h1.2 H hH, h2.2 H hH⟩
  have hg : slopeAt com l w G = slopeAt com l w F := by
    funext i
    rw [← dual_eq, ← dual_eq]
    have : (phi com l).mat w *ᵥ G = (phi com l).mat w *ᵥ F := by
      rw [mulVec_sub] at hz
      exact sub_eq_zero.1 hz
    rw [this]
  have := hind (G - F) (fun i hi => by
    have a := (optimal_kkt hF i).2
    have b := (optimal_kkt hG i).2
    rw [hg] at b
    rw [Pi.sub_apply, (mul_eq_zero.1 a).resolve_right hi, (mul_eq_zero.1 b).resolve_right hi, sub_self])
    ((noWrench_iff w _).2 hz)
  exact sub_eq_zero.1 this

/-- C138. When the second check passes, the optimal forces are unique if and only if the contacts that carry a force are
independent. -/
theorem C138_unique_iff {w : World ℝ n} {F : Fin l.length → ℝ} (hF : OptimalForces com l w F)
    (hs : ∀ i, 0 < F i ∨ 0 < slopeAt com l w F i) :
    (∀ G, OptimalForces com l w G → G = F) ↔
      ∀ x : Fin l.length → ℝ, (∀ i, F i = 0 → x i = 0) → NoWrench com l w x → x = 0 := by
  constructor
  · intro hu x hx hz
    have hev : ∀ᶠ t : ℝ in 𝓝[>] 0, ∀ i, 0 ≤ F i + t * x i := by
      rw [eventually_all]
      intro i
      rcases (hF.1 i).eq_or_lt with h0 | h0
      · refine Eventually.of_forall fun t => ?_
        rw [hx i h0.symm, mul_zero, add_zero]
        exact h0.le
      · have hc : ContinuousAt (fun t : ℝ => F i + t * x i) 0 := by fun_prop
        have h1 : ∀ᶠ t : ℝ in 𝓝 0, 0 < F i + t * x i := hc.eventually_const_lt (by simpa using h0)
        exact (h1.filter_mono nhdsWithin_le_nhds).mono fun t ht => ht.le
    obtain ⟨t, ht, htp⟩ := (hev.and self_mem_nhdsWithin).exists
    have htp : 0 < t := htp
    have h1 := (optimal_iff w F).1 hF
    have hz' := (noWrench_iff w x).1 hz
    have e : res2 ((phi com l).mat w) gravity (F + t • x) = res2 ((phi com l).mat w) gravity F := by
      unfold res2
      rw [mulVec_add, mulVec_smul, hz', smul_zero, add_zero]
    have := hu (F + t • x) ((optimal_iff w _).2 ⟨ht, fun H hH => e.trans_le (h1.2 H hH)⟩)
    have h2 : t • x = 0 := by simpa using this
    exact (smul_eq_zero.1 h2).resolve_left htp.ne'
  · intro hind G hG
    refine C138_unique hF (fun x hx hz => hind x (fun i hi => hx i ?_) hz) hG
    rcases hs i with h | h
    · exact absurd hi h.ne'
    · exact h.ne'

/-- C138. If the second check passes and the contacts that carry a force are independent, twice the Jacobian computed after the value
is the derivative of the value.
Missing: the check alone does not suffice (`C138_passes_refuted`). -/
theorem C138_derivative_partial (hl : Grouped l) (hq : QpContract solver) {w : ℝ → World ℝ n} {qd : Fin n → ℝ} {t : ℝ}
    (hw : Moves w qd t) {eps : ℝ} (he : 0 ≤ eps) (m : ℝ → MMem n 2 l.length) (m' : MMem n 2 l.length)
    (hs : (qpChecks com l solver eps (w t) (qpCompute com l solver (w t) m').1).2 = true)
    (hind : ∀ F, OptimalForces com l (w t) F → ∀ x : Fin l.length → ℝ, (∀ i, F i = 0 → x i = 0) → NoWrench com l (w t) x → x = 0) :
    HasDerivAt (fun s => (qpCompute com l solver (w s) (m s)).2)
      (2 * ((qpJac com l solver (w t) (qpCompute com l solver (w t) m').1).2 ⬝ᵥ qd)) t := by
  obtain ⟨F, hF, -, -, -, hc⟩ := C138_test (com := com) hl hq he (w t) m'
  have hu := (C138_unique_iff hF fun i => (hc.1 hs i).imp (he.trans_lt ·) (he.trans_lt ·)).2 (hind F hF)
  refine C59_differentiable_partial hl hq hw m m' fun G G' hG hG' h => ?_
  rw [hu G ((optimal_iff _ _).2 ⟨hG, fun H hH => (h H hH).1⟩), hu G' ((optimal_iff _ _).2 ⟨hG', fun H hH => (h H hH).2⟩)]

/-! ### The check against the claim of the message -/

/-- Optimal forces for the two contacts at the same place -/
noncomputable def exF : Fin exCols2.length → ℝ := fun _ => 1 / 4

theorem exF_optimal : OptimalForces 0 exCols2 (exCross 0) exF := by
  refine ⟨fun _ => by unfold exF; norm_num, fun H _ => ?_⟩
  rw [exCross_res2, exCross_res2]
  unfold exF
  generalize H ⟨0, Nat.zero_lt_two⟩ = a
  generalize H ⟨1, Nat.one_lt_two⟩ = b
  nlinarith [sq_nonneg (2 * (a + b) - 1)]

/-- C138 is false of the code: the check passes although the value has no derivative. Two contact points cross each other and both
carry a force. -/
theorem C138_passes_refuted : ∃ (l : List Col) (w : ℝ → World ℝ 1) (qd : Fin 1 → ℝ) (t : ℝ) (solver : QpSolver l.length),
    Grouped l ∧ Moves w qd t ∧ QpContract solver ∧ ∀ eps, 0 ≤ eps → eps < 1 / 4 → ∀ (m : ℝ → MMem 1 2 l.length) (m' : MMem 1 2 l.length),
      (qpChecks 0 l solver eps (w t) (qpCompute 0 l solver (w t) m').1).2 = true ∧
      ¬DifferentiableAt ℝ (fun s => (qpCompute 0 l solver (w s) (m s)).2) t := by
  classical
  obtain ⟨s0, h0⟩ := exists_qpSolver exCols2.length
  set A := (phi 0 exCols2).mat (exCross 0) with hA
  let solver : QpSolver exCols2.length := fun H G => if H = Aᵀ * A ∧ G = Aᵀ *ᵥ gravity then exF else s0 H G
  have hF : qpForces 0 exCols2 solver (exCross 0) = exF := if_pos ⟨rfl, rfl⟩
  have hopt := (optimal_iff _ _).1 exF_optimal
  have hq : QpContract solver := by
    constructor
    · intro B i
      show 0 ≤ (if _ then exF else _ : Fin exCols2.length → ℝ) i
      split
      · exact exF_optimal.1 i
      · exact h0.nonneg B i
    · intro B F hF
      show qpObj _ _ (if _ then exF else _ : Fin exCols2.length → ℝ) ≤ _
      split
      · next h =>
        rw [h.1, h.2]
        have := hopt.2 F hF
        rw [res2_obj, res2_obj] at this
        linarith
      · exact h0.min B F hF
  refine ⟨exCols2, exCross, ![1], 0, solver, colsOfContacts_grouped _, exCross_moves 0, hq, fun eps he he' m m' => ⟨?_, ?_⟩⟩
  · rw [qpChecks_eq (l := exCols2) (colsOfContacts_grouped _), hF]
    refine decide_eq_true fun i => Or.inl ⟨he', ?_⟩
    have h1 : exF i * slopeAt 0 exCols2 (exCross 0) exF i = 0 := (optimal_kkt exF_optimal i).2
    have h2 : exF i ≠ 0 := by unfold exF; norm_num
    rw [(mul_eq_zero.1 h1).resolve_left h2, abs_zero]
    exact he
  · exact exCross_not_differentiable hq m

/-- One contact with horizontal normal at the center of mass -/
noncomputable def exSide : List Col := colsOfContacts [⟨0, 0, ![1, 0, 0]⟩]

theorem exSide_res2 (s x : ℝ) : res2 ((phi 0 exSide).mat (exSlide s)) gravity (fun _ => x) = x ^ 2 + 1 := by
  rw [res2_wrench]
  have e1 : resultant exSide (exSlide s) (fun _ => x) = ![x, 0, -1] := by
    unfold resultant
    have : ∑ j : Fin exSide.length, x • exSide[j].contact.nrm (exSlide s) = x • ((1 : M3 ℝ) *ᵥ ![1, 0, 0]) := Fin.sum_univ_one _
    rw [this]
    funext a
    fin_cases a <;> simp
  have e2 : moment 0 exSide (exSlide s) (fun _ => x) = 0 := by
    unfold moment
    have : ∑ j : Fin exSide.length, x • crossProduct (exSide[j].contact.pos (exSlide s) - (exSlide s).com 0)
        (exSide[j].contact.nrm (exSlide s)) =
        x • crossProduct ((1 : M3 ℝ) *ᵥ 0 + ![s, 0, 0] - 0) ((1 : M3 ℝ) *ᵥ ![1, 0, 0]) := Fin.sum_univ_one _
    rw [this]
    funext a
    fin_cases a <;> simp [crossProduct]
  rw [e1, e2]
  simp [dotProduct, Fin.sum_univ_three]
  ring

theorem exSide_const (F : Fin exSide.length → ℝ) : F = fun _ => F ⟨0, Nat.one_pos⟩ := by
  funext j
  have h1 : j.val < 1 := j.2
  exact congrArg F (Fin.ext (by show j.val = 0; omega))

theorem exSide_slope (s : ℝ) (i : Fin exSide.length) : slopeAt 0 exSide (exSlide s) (fun _ => 0) i = 0 := by
  rw [← dual_eq]
  have h1 := res2_line ((phi 0 exSide).mat (exSlide s)) gravity (fun _ => 0) (fun _ => 1) 1
  have h2 := res2_line ((phi 0 exSide).mat (exSlide s)) gravity (fun _ => 0) (fun _ => 1) (-1)
  have f1 : (fun _ => 0 : Fin exSide.length → ℝ) + (1 : ℝ) • (fun _ => 1) = fun _ => 1 := by funext j; simp
  have f2 : (fun _ => 0 : Fin exSide.length → ℝ) + (-1 : ℝ) • (fun _ => 1) = fun _ => -1 := by funext j; simp
  rw [f1, exSide_res2, exSide_res2] at h1
  rw [f2, exSide_res2, exSide_res2] at h2
  have h3 : (fun _ => 1 : Fin exSide.length → ℝ) ⬝ᵥ (((phi 0 exSide).mat (exSlide s))ᵀ *ᵥ
      (gravity + (phi 0 exSide).mat (exSlide s) *ᵥ fun _ => 0)) = 0 := by linarith
  have h4 : (fun _ => 1 : Fin exSide.length → ℝ) ⬝ᵥ (((phi 0 exSide).mat (exSlide s))ᵀ *ᵥ
      (gravity + (phi 0 exSide).mat (exSlide s) *ᵥ fun _ => 0)) = 1 * (((phi 0 exSide).mat (exSlide s))ᵀ *ᵥ
      (gravity + (phi 0 exSide).mat (exSlide s) *ᵥ fun _ => 0)) i := by
    have h1 : i.val < 1 := i.2
    have : i = ⟨0, Nat.one_pos⟩ := Fin.ext (by show i.val = 0; omega)
    rw [this]
    exact Fin.sum_univ_one _
  rw [h3] at h4
  linarith

/-- C138 is false of the code: the check fails (and the message "Jacobian WILL be wrong" is written) although the Jacobian is the
derivative of the value. A contact cannot help against gravity. -/
theorem C138_fails_refuted : ∃ (l : List Col) (w : ℝ → World ℝ 1) (qd : Fin 1 → ℝ), qd ≠ 0 ∧ Grouped l ∧ ∀ t, Moves w qd t ∧
    ∀ solver : QpSolver l.length, QpContract solver → ∀ eps, 0 ≤ eps → ∀ (m : ℝ → MMem 1 2 l.length) (m' : MMem 1 2 l.length),
      (qpChecks 0 l solver eps (w t) (qpCompute 0 l solver (w t) m').1).2 = false ∧
      HasDerivAt (fun s => (qpCompute 0 l solver (w s) (m s)).2)
        ((qpJac 0 l solver (w t) (qpCompute 0 l solver (w t) m').1).2 ⬝ᵥ qd) t := by
  have hl : Grouped exSide := colsOfContacts_grouped _
  refine ⟨exSide, exSlide, ![1], fun h => one_ne_zero (congrFun h 0), hl, fun t => ⟨exSlide_moves t, fun solver hq eps he m m' => ?_⟩⟩
  have hF : ∀ s, qpForces 0 exSide solver (exSlide s) = fun _ => 0 := by
    intro s
    have h1 := qp_min (com := 0) hq (exSlide s) (fun _ => 0) fun _ => le_refl _
    rw [exSide_const (qpForces 0 exSide solver (exSlide s)), exSide_res2, exSide_res2] at h1
    rw [exSide_const (qpForces 0 exSide solver (exSlide s))]
    have : qpForces 0 exSide solver (exSlide s) ⟨0, Nat.one_pos⟩ = 0 := by nlinarith
    rw [this]
  constructor
  · rw [qpChecks_eq hl, hF]
    refine decide_eq_false fun h => ?_
    rcases h ⟨0, Nat.one_pos⟩ with ⟨h1, _⟩ | ⟨h1, _⟩
    · linarith
    · rw [exSide_slope] at h1
      linarith
  · have hd : HasDerivAt (fun s => (qpCompute 0 exSide solver (exSlide s) (m s)).2) 0 t := by
      simp only [qpCompute_eq hl, hF, exSide_res2]
      exact hasDerivAt_const _ _
    have h := C59_derivative_partial hl hq (exSlide_moves t) m m' hd
    have h2 : (qpJac 0 exSide solver (exSlide t) (qpCompute 0 exSide solver (exSlide t) m').1).2 ⬝ᵥ ![1] = 0 := by linarith
    rw [h2]
    exact hd

/-- The hypotheses of `C138_derivative_partial` hold for a contact that slides: it carries half the weight. -/
example {solver : QpSolver exCols.length} (hq : QpContract solver) (m : ℝ → MMem 1 2 exCols.length) (m' : MMem 1 2 exCols.length) :
    HasDerivAt (fun s => (qpCompute 0 exCols solver (exSlide s) (m s)).2)
      (2 * ((qpJac 0 exCols solver (exSlide 1) (qpCompute 0 exCols solver (exSlide 1) m').1).2 ⬝ᵥ ![1])) 1 := by
  have hone : ∀ F, OptimalForces 0 exCols (exSlide 1) F → ∀ i, F i = 1 / 2 := by
    intro F hF i
    have h1 := ((optimal_iff _ _).1 hF).2 (fun _ => 1 / 2) fun _ => by norm_num
    rw [exSlide_res2 1 _ i, exSlide_res2 1 _ i] at h1
    have : (F i - 1 / 2) ^ 2 ≤ 0 := by nlinarith
    nlinarith [sq_nonneg (F i - 1 / 2)]
  obtain ⟨F, hF, -, -, -, hc⟩ := C138_test (com := 0) exCols_grouped hq (eps := 1 / 4) (by norm_num) (exSlide 1) m'
  refine C138_derivative_partial exCols_grouped hq (exSlide_moves 1) (eps := 1 / 4) (by norm_num) m m'
    (hc.2 fun i => Or.inl (by rw [hone F hF i]; norm_num)) fun G hG x hx hz => ?_
  have h0 := (noWrench_iff (exSlide 1) x).1 hz
  funext i
  have e1 := exSlide_res2 1 x i
  have e2 := exSlide_res2 1 (-x) i
  have e3 := exSlide_res2 1 0 i
  have e4 : res2 ((phi 0 exCols).mat (exSlide 1)) gravity x = res2 ((phi 0 exCols).mat (exSlide 1)) gravity 0 := by
    unfold res2
    rw [h0, mulVec_zero]
  have e5 : res2 ((phi 0 exCols).mat (exSlide 1)) gravity (-x) = res2 ((phi 0 exCols).mat (exSlide 1)) gravity 0 := by
    unfold res2
    rw [mulVec_neg, h0, neg_zero, mulVec_zero]
  simp only [Pi.neg_apply, Pi.zero_apply] at e1 e2 e3 ⊢
  nlinarith

end Hpp.Stab
