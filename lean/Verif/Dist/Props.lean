import Verif.Dist.Model
import Verif.Sym.Props
import Verif.Pose.Props
import Mathlib.Analysis.SpecialFunctions.Sqrt
import Mathlib.LinearAlgebra.Matrix.DotProduct
import Mathlib.Analysis.Calculus.LocalExtr.Basic

namespace Hpp.Dist

open Matrix Hpp.Sym Hpp.Pose

variable {n : Nat} {Q : Type} [DecidableEq Q]

theorem norm_sub (a b : V3 ℝ) : norm (a - b) = edist a b := by
  unfold norm edist
  simp only [dotProduct, Fin.sum_univ_three, Pi.sub_apply]
  congr 1
  ring

theorem edist_comm (a b : V3 ℝ) : edist a b = edist b a := by
  unfold edist
  congr 1
  ring

theorem edist_sq (a b : V3 ℝ) : edist a b ^ 2 = (a - b) ⬝ᵥ (a - b) := by
  unfold edist
  rw [Real.sq_sqrt (by positivity)]
  simp only [dotProduct, Fin.sum_univ_three, Pi.sub_apply]
  ring

theorem edist_pos {a b : V3 ℝ} (h : a ≠ b) : 0 < edist a b := by
  have h0 : 0 ≤ edist a b := Real.sqrt_nonneg _
  rcases h0.lt_or_eq with h1 | h1
  · exact h1
  · have h2 := edist_sq a b
    rw [← h1] at h2
    have h3 : (a - b) ⬝ᵥ (a - b) = 0 := by linarith
    exact absurd (sub_eq_zero.1 (dotProduct_self_eq_zero.1 h3)) h

/-- Derivative of the distance between two moving points -/
theorem edist_deriv {a b : ℝ → V3 ℝ} {a' b' : V3 ℝ} {t : ℝ} (ha : VDeriv a a' t) (hb : VDeriv b b' t) (hne : a t ≠ b t) :
    HasDerivAt (fun t => edist (a t) (b t)) (((a t - b t) ⬝ᵥ (a' - b')) / edist (a t) (b t)) t := by
  have hpos := edist_pos hne
  have h : HasDerivAt (fun t => (a t 0 - b t 0) ^ 2 + (a t 1 - b t 1) ^ 2 + (a t 2 - b t 2) ^ 2)
      (2 * ((a t - b t) ⬝ᵥ (a' - b'))) t := by
    have h0 := ((ha 0).sub (hb 0)).fun_pow 2
    have h1 := ((ha 1).sub (hb 1)).fun_pow 2
    have h2 := ((ha 2).sub (hb 2)).fun_pow 2
    refine ((h0.add h1).add h2).congr_deriv ?_
    simp only [dotProduct, Fin.sum_univ_three, Pi.sub_apply]
    norm_num
    ring
  have h0 : (a t 0 - b t 0) ^ 2 + (a t 1 - b t 1) ^ 2 + (a t 2 - b t 2) ^ 2 ≠ 0 := by
    intro hc
    unfold edist at hpos
    rw [hc, Real.sqrt_zero] at hpos
    exact lt_irrefl _ hpos
  refine (h.sqrt h0).congr_deriv ?_
  change 2 * ((a t - b t) ⬝ᵥ (a' - b')) / (2 * edist (a t) (b t)) = _
  rw [mul_div_mul_left _ _ two_ne_zero]

/-- Velocity of a point attached to a joint -/
theorem point_deriv {M : ℝ → SE3 ℝ} {v w : V3 ℝ} {t : ℝ} (h : SE3.Moves M v w t) (p : V3 ℝ) :
    VDeriv (fun t => (M t).R *ᵥ p + (M t).p) ((M t).R *ᵥ v - crossProduct ((M t).R *ᵥ p) ((M t).R *ᵥ w)) t := by
  refine ((VDeriv.mulVec h.R (VDeriv.const p t)).add h.p).congr ?_
  rw [mulVec_zero, add_zero, h.rot.mul_hat, ← mulVec_mulVec, hat_mulVec, ← cross_anticomm, add_comm, sub_eq_add_neg]

theorem gradientRow_dot (d : V3 ℝ) {M : SE3 ℝ} (p : V3 ℝ) (Jv Jw : Matrix (Fin 3) (Fin n) ℝ) (qd : Fin n → ℝ) :
    gradientRow d M (M.R *ᵥ p + M.p) Jv Jw ⬝ᵥ qd =
      d ⬝ᵥ (M.R *ᵥ (Jv *ᵥ qd) - crossProduct (M.R *ᵥ p) (M.R *ᵥ (Jw *ᵥ qd))) := by
  unfold gradientRow
  rw [add_sub_cancel_right, add_dotProduct, ← dotProduct_mulVec, ← dotProduct_mulVec, ← dotProduct_mulVec, ← dotProduct_mulVec,
    ← dotProduct_add, colCross_eq, neg_mulVec, ← mulVec_mulVec, hat_mulVec, sub_eq_add_neg]

/-! ### Points -/

/-- The members are those of the configuration in `latest`. -/
structure DMem.Ok (f : DistPts) (K : Q → Kin n) (m : DMem Q) : Prop where
  cached : ∀ q, m.latest = some q →
    m.global1 = worldPos (K q) (some f.joint1) f.point1 ∧ m.global2 = worldPos (K q) f.joint2 f.point2 ∧
      (∀ j2, f.joint2 = some j2 → m.result = edist m.global2 m.global1) ∧ (f.joint2 = none → m.result = edist m.global1 0)
  free : f.joint2 = none → m.global2 = f.point2

omit [DecidableEq Q] in
theorem DistPts.init_ok (f : DistPts) (K : Q → Kin n) : DMem.Ok f K f.init :=
  ⟨fun q h => by simp [DistPts.init] at h, fun _ => rfl⟩

theorem DistPts.compute_ok (f : DistPts) (K : Q → Kin n) {s : Rob Q × DMem Q} (h : DMem.Ok f K s.2) (q : Q) :
    DMem.Ok f K (f.compute K s q).2 ∧ (f.compute K s q).2.latest = some q ∧
      (s.2.latest ≠ some q → (f.compute K s q).1 = ⟨q, q⟩) ∧ (s.2.latest = some q → (f.compute K s q) = s) := by
  by_cases hc : s.2.latest = some q
  · have e : f.compute K s q = s := if_pos hc
    rw [e]
    exact ⟨h, hc, fun hn => absurd hc hn, fun _ => rfl⟩
  · cases hj : f.joint2 with
    | some j2 =>
      have e : f.compute K s q = (⟨q, q⟩, ⟨some q, norm (((K q).M j2).act f.point2 - ((K q).M f.joint1).act f.point1),
          ((K q).M f.joint1).act f.point1, ((K q).M j2).act f.point2⟩) := by
        unfold DistPts.compute
        rw [if_neg hc, hj]
      rw [e]
      refine ⟨⟨fun q' hq' => ?_, fun hn => by rw [hj] at hn; cases hn⟩, rfl, fun _ => rfl, fun hn => absurd hn hc⟩
      cases hq'
      exact ⟨rfl, by rw [hj]; rfl, fun _ _ => norm_sub _ _, fun hn => by rw [hj] at hn; cases hn⟩
    | none =>
      have e : f.compute K s q = (⟨q, q⟩, ⟨some q, norm (((K q).M f.joint1).act f.point1),
          ((K q).M f.joint1).act f.point1, s.2.global2⟩) := by
        unfold DistPts.compute
        rw [if_neg hc, hj]
      rw [e]
      refine ⟨⟨fun q' hq' => ?_, fun _ => h.free hj⟩, rfl, fun _ => rfl, fun hn => absurd hn hc⟩
      cases hq'
      refine ⟨rfl, by rw [hj]; exact h.free hj, fun j2 h2 => ?_, fun _ => ?_⟩
      · rw [hj] at h2
        cases h2
      · rw [← norm_sub, sub_zero]

theorem DistPts.jacobian_state (f : DistPts) (K : Q → Kin n) (s : Rob Q × DMem Q) (q : Q) :
    (f.jacobian K s q).1 = f.compute K s q := by
  unfold DistPts.jacobian
  cases f.joint2 <;> rfl

theorem DistPts.run_ok (f : DistPts) (K : Q → Kin n) : ∀ (l : List (Op Q)) (s : Rob Q × DMem Q), DMem.Ok f K s.2 →
    DMem.Ok f K (f.run K l s).2 := by
  intro l
  induction l with
  | nil => intro s h; exact h
  | cons o l ih =>
    intro s h
    cases o with
    | value q => exact ih _ (f.compute_ok K h q).1
    | jacobian q => exact ih _ (by rw [f.jacobian_state]; exact (f.compute_ok K h q).1)
    | other q b => exact ih _ h

/-- C60 (part): between points of two joints, the value is the distance of the points for the configuration passed as argument,
whatever has been done before with the function and with the robot. -/
theorem C60_value_partial {f : DistPts} {j2 : Nat} (hj : f.joint2 = some j2) (K : Q → Kin n) (r : Rob Q) (l : List (Op Q))
    (q : Q) :
    (f.compute K (f.run K l (r, f.init)) q).2.result =
      edist (worldPos (K q) (some f.joint1) f.point1) (worldPos (K q) (some j2) f.point2) := by
  have h := (f.compute_ok K (f.run_ok K l (r, f.init) (f.init_ok K)) q)
  obtain ⟨h1, h2, h3, -⟩ := h.1.cached q h.2.1
  rw [h3 j2 hj, h1, h2, hj, edist_comm]

/-- C60 (part): the Jacobian times the velocity is the derivative of the distance between the points, whatever has been done
before, if the function has not been evaluated last at the same configuration or if the robot has not been used since. -/
theorem C60_derivative_partial {f : DistPts} {j2 : Nat} (hj : f.joint2 = some j2) {K : Q → Kin n} (r : Rob Q)
    (l : List (Op Q)) {q : ℝ → Q} {qd : Fin n → ℝ} {t : ℝ} (hK : KMoves (fun t => K (q t)) qd t)
    (hne : worldPos (K (q t)) (some f.joint1) f.point1 ≠ worldPos (K (q t)) (some j2) f.point2)
    (hs : (f.run K l (r, f.init)).2.latest ≠ some (q t) ∨ (f.run K l (r, f.init)).1 = ⟨q t, q t⟩) :
    HasDerivAt (fun t => edist (worldPos (K (q t)) (some f.joint1) f.point1) (worldPos (K (q t)) (some j2) f.point2))
      ((f.jacobian K (f.run K l (r, f.init)) (q t)).2 ⬝ᵥ qd) t := by
  obtain ⟨hok, hlat, hmiss, hhit⟩ := f.compute_ok K (f.run_ok K l (r, f.init) (f.init_ok K)) (q t)
  obtain ⟨h1, h2, h3, -⟩ := hok.cached (q t) hlat
  have hr : (f.compute K (f.run K l (r, f.init)) (q t)).1 = ⟨q t, q t⟩ := by
    by_cases hc : (f.run K l (r, f.init)).2.latest = some (q t)
    · rw [hhit hc]
      exact hs.resolve_left (fun hn => hn hc)
    · exact hmiss hc
  rw [hj] at h2
  have hres := h3 j2 hj
  have hJ : (f.jacobian K (f.run K l (r, f.init)) (q t)).2 = fun c =>
      (gradientRow (worldPos (K (q t)) (some f.joint1) f.point1 - worldPos (K (q t)) (some j2) f.point2)
        ((K (q t)).M f.joint1) (worldPos (K (q t)) (some f.joint1) f.point1) ((K (q t)).Jv f.joint1) ((K (q t)).Jw f.joint1) c -
      gradientRow (worldPos (K (q t)) (some f.joint1) f.point1 - worldPos (K (q t)) (some j2) f.point2)
        ((K (q t)).M j2) (worldPos (K (q t)) (some j2) f.point2) ((K (q t)).Jv j2) ((K (q t)).Jw j2) c) /
      edist (worldPos (K (q t)) (some f.joint1) f.point1) (worldPos (K (q t)) (some j2) f.point2) := by
    unfold DistPts.jacobian
    simp only [hj, hr, hres, h1, h2]
    rw [edist_comm]
  rw [hJ]
  have hd := edist_deriv (point_deriv (hK.moves f.joint1) f.point1) (point_deriv (hK.moves j2) f.point2) hne
  refine hd.congr_deriv ?_
  have e : ∀ (a b : Fin n → ℝ) (c : ℝ), (fun i => (a i - b i) / c) ⬝ᵥ qd = (a ⬝ᵥ qd - b ⬝ᵥ qd) / c := by
    intro a b c
    simp only [dotProduct, ← Finset.sum_sub_distrib, div_eq_mul_inv, Finset.sum_mul]
    exact Finset.sum_congr rfl fun i _ => by ring
  rw [e]
  simp only [worldPos]
  rw [gradientRow_dot, gradientRow_dot, ← dotProduct_sub]

/-- C60 (part): with the origin of the world as second point, the value is the distance of the point of the joint to the origin
and the Jacobian times the velocity is its derivative, whatever has been done before (Jacobian: if the function has not been evaluated
last at the same configuration or if the robot has not been used since). For other points of the world see `C60_world_refuted`. -/
theorem C60_origin_partial {f : DistPts} (hj : f.joint2 = none) (h0 : f.point2 = 0) {K : Q → Kin n} (r : Rob Q)
    (l : List (Op Q)) {q : ℝ → Q} {qd : Fin n → ℝ} {t : ℝ} (hK : KMoves (fun t => K (q t)) qd t)
    (hne : worldPos (K (q t)) (some f.joint1) f.point1 ≠ 0)
    (hs : (f.run K l (r, f.init)).2.latest ≠ some (q t) ∨ (f.run K l (r, f.init)).1 = ⟨q t, q t⟩) :
    (f.compute K (f.run K l (r, f.init)) (q t)).2.result = edist (worldPos (K (q t)) (some f.joint1) f.point1) 0 ∧
    HasDerivAt (fun t => edist (worldPos (K (q t)) (some f.joint1) f.point1) 0)
      ((f.jacobian K (f.run K l (r, f.init)) (q t)).2 ⬝ᵥ qd) t := by
  obtain ⟨hok, hlat, hmiss, hhit⟩ := f.compute_ok K (f.run_ok K l (r, f.init) (f.init_ok K)) (q t)
  obtain ⟨h1, h2, -, h3⟩ := hok.cached (q t) hlat
  have hr : (f.compute K (f.run K l (r, f.init)) (q t)).1 = ⟨q t, q t⟩ := by
    by_cases hc : (f.run K l (r, f.init)).2.latest = some (q t)
    · rw [hhit hc]
      exact hs.resolve_left (fun hn => hn hc)
    · exact hmiss hc
  have hres := h3 hj
  rw [h1] at hres
  refine ⟨hres, ?_⟩
  have h2' : (f.compute K (f.run K l (r, f.init)) (q t)).2.global2 = 0 := by rw [h2, hj, ← h0]; rfl
  have hJ : (f.jacobian K (f.run K l (r, f.init)) (q t)).2 = fun c =>
      gradientRow (worldPos (K (q t)) (some f.joint1) f.point1 - 0)
        ((K (q t)).M f.joint1) (worldPos (K (q t)) (some f.joint1) f.point1) ((K (q t)).Jv f.joint1) ((K (q t)).Jw f.joint1) c /
      edist (worldPos (K (q t)) (some f.joint1) f.point1) 0 := by
    unfold DistPts.jacobian
    simp only [hj, hr, hres, h1, h2']
  rw [hJ]
  have hd := edist_deriv (point_deriv (hK.moves f.joint1) f.point1) (VDeriv.const (0 : V3 ℝ) t) hne
  refine hd.congr_deriv ?_
  have e : ∀ (a : Fin n → ℝ) (c : ℝ), (fun i => a i / c) ⬝ᵥ qd = (a ⬝ᵥ qd) / c := by
    intro a c
    simp only [dotProduct, div_eq_mul_inv, Finset.sum_mul]
    exact Finset.sum_congr rfl fun i _ => by ring
  rw [e]
  simp only [worldPos]
  rw [gradientRow_dot, sub_zero (_ - _ : V3 ℝ)]

/-! ### A joint that turns about a vertical axis while its center moves along the first axis -/

noncomputable def exK (t : ℝ) : Kin 1 where
  M := fun j => if j = 0 then ⟨rotZ t, ![t, 0, 0]⟩ else ⟨1, 0⟩
  Jv := fun j => if j = 0 then (rotZ t)ᵀ * (!![1; 0; 0] : Matrix (Fin 3) (Fin 1) ℝ) else 0
  Jw := fun j => if j = 0 then !![0; 0; 1] else 0

theorem exK_moves (t : ℝ) : KMoves exK ![1] t := by
  have hrot : ∀ t j, IsRot ((exK t).M j).R := by
    intro t j
    by_cases hj : j = 0
    · simpa [exK, hj] using rotZ_isRot t
    · simp [exK, hj, IsRot]
  refine ⟨hrot, fun j => ⟨hrot t j, fun a b => ?_, fun a => ?_⟩⟩
  · by_cases hj : j = 0
    · have hs := Real.hasDerivAt_sin t
      have hc := Real.hasDerivAt_cos t
      fin_cases a <;> fin_cases b <;>
        simp [exK, hj, rotZ, hat, Matrix.mul_apply, Fin.sum_univ_three, mulVec, dotProduct,
          hasDerivAt_const] <;> first | exact hs | exact hc | exact hs.neg
    · simp only [exK, if_neg hj, Matrix.zero_mulVec, hat_zero, Matrix.mul_zero]
      exact hasDerivAt_const _ _
  · by_cases hj : j = 0
    · simp only [exK, if_pos hj]
      have hr : rotZ t * (rotZ t)ᵀ = 1 := mul_eq_one_comm.1 (rotZ_isRot t).1
      rw [mulVec_mulVec, ← Matrix.mul_assoc, hr, Matrix.one_mul]
      fin_cases a <;> simp [mulVec, dotProduct, hasDerivAt_const, hasDerivAt_id']
    · simp only [exK, if_neg hj, Matrix.zero_mulVec, Matrix.mulVec_zero]
      exact hasDerivAt_const _ _

def exPts : DistPts := ⟨0, some 1, ![1, 0, 0], ![1, -1, 0]⟩

theorem exPts_pos1 : worldPos (exK 0) (some exPts.joint1) exPts.point1 = ![1, 0, 0] := by
  funext i
  fin_cases i <;> simp [worldPos, exK, exPts, rotZ]

theorem exPts_pos2 (t : ℝ) : worldPos (exK t) (some 1) exPts.point2 = ![1, -1, 0] := by
  simp [worldPos, exK, exPts]

/-- The hypotheses of `C60_derivative_partial` are met after a history in which the cache and the robot are used. -/
example (r : Rob ℝ) : HasDerivAt (fun t => edist (worldPos (exK t) (some 0) ![1, 0, 0]) (worldPos (exK t) (some 1) ![1, -1, 0]))
    ((exPts.jacobian exK (exPts.run exK [.value 0, .other 1 true, .value 0, .jacobian 3, .other 0 false] (r, exPts.init)) 0).2
      ⬝ᵥ ![1]) 0 := by
  refine C60_derivative_partial (f := exPts) (q := fun t => t) rfl r _ (exK_moves 0) ?_ (Or.inl ?_)
  · rw [exPts_pos1, exPts_pos2]
    intro h
    have := congrFun h 1
    simp at this
  · simp [DistPts.run, DistPts.compute, DistPts.jacobian, exPts, DistPts.init]

/-- The hypotheses of `C60_origin_partial` are met after a history. -/
example (r : Rob ℝ) : HasDerivAt (fun t => edist (worldPos (exK t) (some 0) ![1, 0, 0]) 0)
    (((⟨0, none, ![1, 0, 0], 0⟩ : DistPts).jacobian exK
      ((⟨0, none, ![1, 0, 0], 0⟩ : DistPts).run exK [.value 1, .other 0 true] (r, DistPts.init ⟨0, none, ![1, 0, 0], 0⟩)) 0).2
      ⬝ᵥ ![1]) 0 := by
  refine (C60_origin_partial (f := ⟨0, none, ![1, 0, 0], 0⟩) (q := fun t => t) rfl rfl r _ (exK_moves 0) ?_ (Or.inl ?_)).2
  · have := exPts_pos1
    simp only [exPts] at this
    rw [this]
    intro h
    have := congrFun h 0
    simp at this
  · simp [DistPts.run, DistPts.compute, DistPts.init]

/-- C60 (refuted in general): with a point fixed in the world as second point, the value is not the distance between the
points: the second point is ignored (line 115). -/
theorem C60_world_refuted :
    ∃ (f : DistPts) (q : ℝ), f.joint2 = none ∧ ∀ r : Rob ℝ,
      (f.compute exK (r, f.init) q).2.result ≠ edist (worldPos (exK q) (some f.joint1) f.point1) f.point2 := by
  refine ⟨⟨1, none, 0, ![1, 0, 0]⟩, 0, rfl, fun r => ?_⟩
  simp [DistPts.compute, DistPts.init, norm, edist, worldPos, exK, SE3.act]

/-- C60 (refuted in general): if another function uses the robot between the evaluation of the value and the evaluation of the
Jacobian for the same configuration, the Jacobian is not the derivative of the distance. -/
theorem C60_history_refuted :
    ∃ (f : DistPts) (j2 : Nat) (l : List (Op ℝ)), f.joint2 = some j2 ∧ ∀ r : Rob ℝ,
      worldPos (exK 0) (some f.joint1) f.point1 ≠ worldPos (exK 0) (some j2) f.point2 ∧
      ¬ HasDerivAt (fun t => edist (worldPos (exK t) (some f.joint1) f.point1) (worldPos (exK t) (some j2) f.point2))
        ((f.jacobian exK (f.run exK l (r, f.init)) 0).2 ⬝ᵥ ![1]) 0 := by
  refine ⟨exPts, 1, [.value 0, .other (2 * Real.pi) true], rfl, fun r => ?_⟩
  have hne : worldPos (exK 0) (some exPts.joint1) exPts.point1 ≠ worldPos (exK 0) (some 1) exPts.point2 := by
    rw [exPts_pos1, exPts_pos2]
    intro h
    have := congrFun h 1
    simp at this
  refine ⟨hne, fun h => ?_⟩
  have h0 := C60_derivative_partial (f := exPts) (q := fun t => t) (l := []) rfl r (exK_moves 0) hne (Or.inl (by
    simp [DistPts.run, DistPts.init]))
  have h1 := h.unique h0
  revert h1
  simp only [DistPts.run, DistPts.compute, DistPts.jacobian, exPts, DistPts.init, gradientRow]
  simp [exK, SE3.act, rotZ, norm, colCross, Matrix.mul_apply, vecMul, dotProduct, Fin.sum_univ_three, crossProduct]
  simp [vecHead, vecTail, Real.pi_ne_zero]

/-! ### Bodies -/

theorem DistBodies.compute_ok {f : DistBodies Q} {s : Rob Q × BodMem Q}
    (h : ∀ q, s.2.latest = some q → s.2.result = f.minDist q ∧ s.2.near = f.nearest q) (q : Q) :
    (f.compute s q).2 = ⟨some q, f.minDist q, f.nearest q⟩ ∧
      (s.2.latest ≠ some q → (f.compute s q).1 = ⟨q, q⟩) ∧ (s.2.latest = some q → f.compute s q = s) := by
  unfold DistBodies.compute
  by_cases hc : s.2.latest = some q
  · rw [if_pos hc]
    obtain ⟨h1, h2⟩ := h q hc
    exact ⟨by rw [← hc, ← h1, ← h2], fun hn => absurd hc hn, fun _ => rfl⟩
  · rw [if_neg hc]
    exact ⟨rfl, fun _ => rfl, fun hn => absurd hn hc⟩

theorem DistBodies.run_ok (f : DistBodies Q) : ∀ (l : List (Op Q)) (s : Rob Q × BodMem Q),
    (∀ q, s.2.latest = some q → s.2.result = f.minDist q ∧ s.2.near = f.nearest q) →
    ∀ q, (f.run l s).2.latest = some q → (f.run l s).2.result = f.minDist q ∧ (f.run l s).2.near = f.nearest q := by
  intro l
  induction l with
  | nil => intro s h; exact h
  | cons o l ih =>
    intro s h
    have hc : ∀ q q', (f.compute s q).2.latest = some q' →
        (f.compute s q).2.result = f.minDist q' ∧ (f.compute s q).2.near = f.nearest q' := by
      intro q q' h'
      rw [(DistBodies.compute_ok h q).1] at h' ⊢
      cases h'
      exact ⟨rfl, rfl⟩
    cases o with
    | value q => exact ih _ (hc q)
    | jacobian q => exact ih _ (hc q)
    | other q b => exact ih _ h

/-- C60 (part), distance between bodies: the value is the distance computed for the configuration passed as argument,
whatever has been done before. -/
theorem C60_bodies_value {f : DistBodies Q} {m : BodMem Q} (hm : m.latest = none) (r : Rob Q) (l : List (Op Q)) (q : Q) :
    (f.compute (f.run l (r, m)) q).2.result = f.minDist q := by
  rw [(DistBodies.compute_ok (f.run_ok l (r, m) (fun q h => by rw [hm] at h; cases h)) q).1]

theorem worldPos_deriv {K : ℝ → Kin n} {qd : Fin n → ℝ} {t : ℝ} (hK : KMoves K qd t) (j : Option Nat) (p : V3 ℝ) :
    VDeriv (fun t => worldPos (K t) j p)
      (match j with
        | some j => ((K t).M j).R *ᵥ ((K t).Jv j *ᵥ qd) -
            crossProduct (((K t).M j).R *ᵥ p) (((K t).M j).R *ᵥ ((K t).Jw j *ᵥ qd))
        | none => 0) t := by
  cases j with
  | some j => exact point_deriv (hK.moves j) p
  | none => exact VDeriv.const p t

/-- C60 (part), distance between bodies: if the distance between the bodies has a derivative along a motion, this derivative is
the Jacobian times the velocity (the nearest points may move on the bodies); bodies at a positive distance; the
function has not been evaluated last at the same configuration or the robot has not been used since. -/
theorem C60_bodies_derivative_partial {f : DistBodies Q} {K : Q → Kin n} {B1 B2 : Set (V3 ℝ)} (hf : f.Nearest K B1 B2)
    {m : BodMem Q} (hm : m.latest = none) (r : Rob Q) (l : List (Op Q)) {q : ℝ → Q} {qd : Fin n → ℝ} {t : ℝ}
    (hK : KMoves (fun t => K (q t)) qd t) (hpos : 0 < f.minDist (q t))
    (hs : (f.run l (r, m)).2.latest ≠ some (q t) ∨ (f.run l (r, m)).1 = ⟨q t, q t⟩)
    {D : ℝ} (hD : HasDerivAt (fun t => f.minDist (q t)) D t) :
    D = (f.jacobian K (f.run l (r, m)) (q t)).2 ⬝ᵥ qd := by
  obtain ⟨hmem, hmiss, hhit⟩ := DistBodies.compute_ok (f.run_ok l (r, m) (fun q h => by rw [hm] at h; cases h)) (q t)
  have hr : (f.compute (f.run l (r, m)) (q t)).1 = ⟨q t, q t⟩ := by
    by_cases hc : (f.run l (r, m)).2.latest = some (q t)
    · rw [hhit hc]
      exact hs.resolve_left (fun hn => hn hc)
    · exact hmiss hc
  obtain ⟨p1, h1, p2, h2, hn⟩ := hf.mem (q t)
  have hdist := hf.dist (q t)
  have hne : worldPos (K (q t)) (some f.joint1) p1 ≠ worldPos (K (q t)) f.joint2 p2 := by
    intro h
    rw [hdist, hn, h] at hpos
    simp [edist] at hpos
  have hd := edist_deriv (worldPos_deriv hK (some f.joint1) p1) (worldPos_deriv hK f.joint2 p2) hne
  have hmin : IsLocalMin (fun s => edist (worldPos (K (q s)) (some f.joint1) p1) (worldPos (K (q s)) f.joint2 p2) -
      f.minDist (q s)) t := by
    refine Filter.Eventually.of_forall fun s => ?_
    have h3 := hf.least (q s) p1 h1 p2 h2
    have h4 : edist (worldPos (K (q t)) (some f.joint1) p1) (worldPos (K (q t)) f.joint2 p2) = f.minDist (q t) := by
      rw [hdist, hn]
    simp only [h4]
    linarith
  have hz := hmin.hasDerivAt_eq_zero (hd.sub hD)
  have e : ∀ (a b : Fin n → ℝ) (c : ℝ), (fun i => a i / c - b i / c) ⬝ᵥ qd = (a ⬝ᵥ qd - b ⬝ᵥ qd) / c := by
    intro a b c
    simp only [dotProduct, ← Finset.sum_sub_distrib, div_eq_mul_inv, Finset.sum_mul]
    exact Finset.sum_congr rfl fun i _ => by ring
  have e' : ∀ (a : Fin n → ℝ) (c : ℝ), (fun i => a i / c) ⬝ᵥ qd = (a ⬝ᵥ qd) / c := by
    intro a c
    simp only [dotProduct, div_eq_mul_inv, Finset.sum_mul]
    exact Finset.sum_congr rfl fun i _ => by ring
  have hD' := sub_eq_zero.1 hz
  rw [← hD']
  unfold DistBodies.jacobian
  cases hj : f.joint2 with
  | some j2 =>
    simp only [hj, hmem, hr, hn, hdist]
    rw [e]
    simp only [worldPos]
    rw [gradientRow_dot, gradientRow_dot, ← dotProduct_sub]
  | none =>
    simp only [hj, hmem, hr, hn, hdist]
    rw [e']
    simp only [worldPos]
    rw [gradientRow_dot, sub_zero]

/-- A point of the joint of `exK` and a half space fixed in the world. -/
noncomputable def exBodies : DistBodies ℝ where
  joint1 := 0
  joint2 := none
  nearest := fun t => (![t + Real.cos t, Real.sin t, 0], ![t + Real.cos t, -1, 0])
  minDist := fun t => Real.sin t + 1

theorem exBodies_nearest : exBodies.Nearest exK {![1, 0, 0]} {p | p 1 ≤ -1} := by
  have hp : ∀ t, worldPos (exK t) (some 0) ![1, 0, 0] = ![t + Real.cos t, Real.sin t, 0] := by
    intro t
    funext i
    fin_cases i <;> simp [worldPos, exK, rotZ, add_comm]
  refine ⟨fun t => ⟨_, rfl, ![t + Real.cos t, -1, 0], ?_, ?_⟩, fun t => ?_, fun t p1 h1 p2 h2 => ?_⟩
  · simp
  · change _ = (worldPos (exK t) (some 0) ![1, 0, 0], _)
    rw [hp]
    rfl
  · have h := Real.neg_one_le_sin t
    simp only [exBodies, edist]
    simp
    rw [Real.sqrt_sq (by linarith)]
  · rw [Set.mem_singleton_iff] at h1
    subst h1
    have h3 : p2 1 ≤ -1 := h2
    have h := Real.neg_one_le_sin t
    change Real.sin t + 1 ≤ edist (worldPos (exK t) (some 0) ![1, 0, 0]) p2
    rw [hp]
    unfold edist
    refine Real.le_sqrt_of_sq_le ?_
    simp
    nlinarith [sq_nonneg (t + Real.cos t - p2 0), sq_nonneg (p2 2)]

/-- The hypotheses of `C60_bodies_derivative_partial` are met, with a nearest point that moves on the second body. -/
example (r : Rob ℝ) : (1 : ℝ) = (exBodies.jacobian exK (exBodies.run [.jacobian 0, .other 1 true, .value 5]
    (r, ⟨none, 0, 0, 0⟩)) 0).2 ⬝ᵥ ![1] := by
  refine C60_bodies_derivative_partial (q := fun t => t) exBodies_nearest rfl r _ (exK_moves 0) (by simp [exBodies])
    (Or.inl (by simp [DistBodies.run, DistBodies.compute])) ?_
  have h := (Real.hasDerivAt_sin 0).add_const 1
  rw [Real.cos_zero] at h
  exact h

end Hpp.Dist
