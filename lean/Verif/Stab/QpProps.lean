import Verif.Stab.QpExists
import Verif.Stab.StaticProps
import Mathlib.Analysis.Calculus.LocalExtr.Basic
import Mathlib.Analysis.Calculus.Deriv.Inv

/-! # Theorems about `QPStaticStability`, and examples for the matrices of wrenches -/

namespace Hpp.Stab

open Matrix Hpp.Sym Filter Topology

variable {n : Nat} {com : Nat} {l : List Col} {solver : QpSolver l.length}

theorem res2_wrench (com : Nat) (l : List Col) (w : World ℝ n) (F : Fin l.length → ℝ) :
    res2 ((phi com l).mat w) gravity F =
      resultant l w F ⬝ᵥ resultant l w F + moment com l w F ⬝ᵥ moment com l w F := by
  unfold res2 dotProduct
  rw [sum_rows]
  simp only [(phi_wrench com l w F _).1, (phi_wrench com l w F _).2, neg_mul_neg]

/-- Solution for a state of the robot -/
def qpForces (com : Nat) (l : List Col) (solver : QpSolver l.length) (w : World ℝ n) : Fin l.length → ℝ :=
  solver (((phi com l).mat w)ᵀ * (phi com l).mat w) (((phi com l).mat w)ᵀ *ᵥ gravity)

theorem qpCompute_mem (hl : Grouped l) (solver : QpSolver l.length) (w : World ℝ n) (m : MMem n 2 l.length) :
    (qpCompute com l solver w m).1.value = (phi com l).mat w := by
  obtain ⟨svdOf, _⟩ := exists_svdOf 2 l.length
  have h := (MOk.invalidate svdOf w (phi_built com l m)).computeValue (phi_wf com hl)
  exact h.1.value h.2.1

theorem qpCompute_eq (hl : Grouped l) (solver : QpSolver l.length) (w : World ℝ n) (m : MMem n 2 l.length) :
    (qpCompute com l solver w m).2 = res2 ((phi com l).mat w) gravity (qpForces com l solver w) := by
  have h := qpCompute_mem (com := com) hl solver w m
  unfold qpCompute at h ⊢
  dsimp only at h ⊢
  unfold solveQP
  dsimp only
  rw [h, res2_obj]
  rfl

theorem qp_min (hq : QpContract solver) (w : World ℝ n) (F : Fin l.length → ℝ) (hF : ∀ i, 0 ≤ F i) :
    res2 ((phi com l).mat w) gravity (qpForces com l solver w) ≤ res2 ((phi com l).mat w) gravity F := by
  rw [res2_obj, res2_obj]
  have := hq.min ((phi com l).mat w) F hF
  unfold qpForces
  linarith

/-- C59: the value is the smallest squared norm of the resultant and of the moment of the weight and of non-negative forces along
the normals. It does not depend on previous calls. -/
theorem C59_value (hl : Grouped l) (hq : QpContract solver) (w : World ℝ n) (m : MMem n 2 l.length) :
    (∃ F, (∀ i, 0 ≤ F i) ∧ (qpCompute com l solver w m).2 =
      resultant l w F ⬝ᵥ resultant l w F + moment com l w F ⬝ᵥ moment com l w F) ∧
    ∀ F, (∀ i, 0 ≤ F i) → (qpCompute com l solver w m).2 ≤
      resultant l w F ⬝ᵥ resultant l w F + moment com l w F ⬝ᵥ moment com l w F := by
  rw [qpCompute_eq hl]
  refine ⟨⟨qpForces com l solver w, hq.nonneg _, res2_wrench _ _ _ _⟩, fun F hF => ?_⟩
  rw [← res2_wrench]
  exact qp_min hq w F hF

/-- C59: the value is zero if and only if non-negative forces along the normals balance gravity. -/
theorem C59_zero_iff (hl : Grouped l) (hq : QpContract solver) (w : World ℝ n) (m : MMem n 2 l.length) :
    (qpCompute com l solver w m).2 = 0 ↔ ∃ F, (∀ i, 0 ≤ F i) ∧ Balanced com l w F := by
  obtain ⟨⟨F, h1, h2⟩, h3⟩ := C59_value (com := com) hl hq w m
  have nn : ∀ x : V3 ℝ, 0 ≤ x ⬝ᵥ x := fun x => Finset.sum_nonneg fun _ _ => mul_self_nonneg _
  constructor
  · intro h
    rw [h] at h2
    have a := nn (resultant l w F)
    have b := nn (moment com l w F)
    exact ⟨F, h1, dotProduct_self_eq_zero.1 (by linarith), dotProduct_self_eq_zero.1 (by linarith)⟩
  · rintro ⟨F', h4, h5, h6⟩
    have h7 := h3 F' h4
    rw [h5, h6, dotProduct_zero, add_zero] at h7
    refine le_antisymm h7 ?_
    rw [h2]
    exact add_nonneg (nn _) (nn _)

/-! ### Jacobian -/

theorem jac_value (com : Nat) (l : List Col) (w : World ℝ n) (m : MMem n 2 l.length) :
    ((phi com l).computeJac w ((phi com l).invalidate m)).value = m.value := by
  unfold Moe.computeJac
  split <;> rfl

/-- What `impl_jacobian` computes along a velocity, when `value_` is `A` -/
theorem qpJac_dot (hl : Grouped l) (solver : QpSolver l.length) (w : World ℝ n) (m : MMem n 2 l.length) (qd : Fin n → ℝ)
    {A : Matrix (Fin (2 * 3)) (Fin l.length) ℝ} (hA : m.value = A) :
    let F := solver (Aᵀ * A) (Aᵀ *ᵥ gravity)
    (qpJac com l solver w m).2 ⬝ᵥ qd = (gravity + A *ᵥ F) ⬝ᵥ ((phi com l).dmat w qd *ᵥ F) := by
  intro F
  obtain ⟨svdOf, _⟩ := exists_svdOf 2 l.length
  have hf := phi_wf com hl
  have hv := jac_value com l w m
  obtain ⟨a1, a2, _⟩ := (MOk.invalidate svdOf w (phi_built com l m)).computeJac hf
  unfold qpJac
  dsimp only
  generalize (phi com l).computeJac w ((phi com l).invalidate m) = m1 at *
  have hF : (solveQP solver m1).1 = F := by
    unfold solveQP
    dsimp only
    rw [hv, hA]
  rw [hF]
  have t1 := a1.touch hf
  have e1 := jacobianTransposeTimes_mulVec a1 a2 (m1.value *ᵥ F) qd
  have e2 : ((phi com l).jacobianTimes w ((phi com l).jacobianTransposeTimes w m1 (m1.value *ᵥ F)).1 F).2 *ᵥ qd =
      (phi com l).dmat w qd *ᵥ F := jacobianTimes_mulVec t1 a2 F qd
  have e3 : ((phi com l).jacobianTimes w ((phi com l).jacobianTransposeTimes w m1 (m1.value *ᵥ F)).1 F).1.value = A :=
    hv.trans hA
  rw [add_dotProduct, smul_dotProduct, ← dotProduct_mulVec, ← dotProduct_mulVec, e1, e2, e3, hv, hA, dotProduct_mulVec,
    vecMul_transpose]
  simp only [add_dotProduct, smul_dotProduct, smul_eq_mul, dotProduct_comm _ (A *ᵥ F)]
  ring

/-- C59, what holds of the Jacobian: right after the computation of the value for the same state of the robot, twice the Jacobian
maps the velocity to the derivative of the value, wherever this derivative exists. Missing: the factor two, the dependence on
the previous call (see the refutations); existence of the derivative: see `Verif/Stab/QpDiff.lean`. -/
theorem C59_derivative_partial (hl : Grouped l) (hq : QpContract solver) {w : ℝ → World ℝ n} {qd : Fin n → ℝ} {t D : ℝ}
    (hw : Moves w qd t) (m : ℝ → MMem n 2 l.length) (m' : MMem n 2 l.length)
    (hD : HasDerivAt (fun s => (qpCompute com l solver (w s) (m s)).2) D t) :
    D = 2 * ((qpJac com l solver (w t) (qpCompute com l solver (w t) m').1).2 ⬝ᵥ qd) := by
  rw [qpJac_dot hl solver (w t) _ qd (qpCompute_mem hl solver (w t) m')]
  simp only [qpCompute_eq hl] at hD
  have hf := phi_wf com hl
  have hA := fun r j => mat_deriv hf hw r j
  have hd : HasDerivAt (fun s => res2 ((phi com l).mat (w s)) gravity (qpForces com l solver (w t)))
      (2 * ((gravity + (phi com l).mat (w t) *ᵥ qpForces com l solver (w t)) ⬝ᵥ
        ((phi com l).dmat (w t) qd *ᵥ qpForces com l solver (w t)))) t := by
    have h1 : ∀ r, HasDerivAt (fun s => (gravity + (phi com l).mat (w s) *ᵥ qpForces com l solver (w t)) r)
        (((phi com l).dmat (w t) qd *ᵥ qpForces com l solver (w t)) r) t := by
      intro r
      have := deriv_mulVec hA (x := fun _ => qpForces com l solver (w t)) (x' := 0) (fun j => hasDerivAt_const _ _) r
      rw [mulVec_zero, add_zero] at this
      exact this.const_add (gravity r)
    unfold res2
    simp only [dotProduct, Finset.mul_sum]
    refine HasDerivAt.fun_sum fun r _ => ?_
    refine ((h1 r).mul (h1 r)).congr_deriv ?_
    ring
  have hmin : IsLocalMin (fun s => res2 ((phi com l).mat (w s)) gravity (qpForces com l solver (w t)) -
      res2 ((phi com l).mat (w s)) gravity (qpForces com l solver (w s))) t := by
    refine Filter.Eventually.of_forall fun s => ?_
    dsimp only
    have := qp_min (com := com) hq (w s) (qpForces com l solver (w t)) (hq.nonneg _)
    linarith
  have h0 := hmin.hasDerivAt_eq_zero (hd.sub hD)
  unfold qpForces at h0
  linarith

/-! ### A contact point that slides away from the center of mass -/

/-- Joint 0 translates along the first axis; the center of mass does not move. -/
noncomputable def exSlide (t : ℝ) : World ℝ 1 where
  R := fun _ => 1
  p := fun _ => ![t, 0, 0]
  Jv := fun _ => !![1; 0; 0]
  Jw := fun _ => 0
  com := fun _ => 0
  Jcom := fun _ => 0

theorem exSlide_moves (t : ℝ) : Moves exSlide ![1] t := by
  refine ⟨fun j => ?_, fun j a b => ?_, fun j a => ?_, fun c a => ?_⟩
  · simp [exSlide, IsRot]
  · simp only [exSlide, Matrix.zero_mulVec, hat_zero, Matrix.mul_zero]
    exact hasDerivAt_const _ _
  · simp only [exSlide, one_mulVec]
    fin_cases a <;> simp [mulVec, dotProduct, hasDerivAt_const, hasDerivAt_id']
  · simp only [exSlide, Matrix.zero_mulVec]
    exact hasDerivAt_const _ _

/-- One contact at the origin of the joint, with vertical normal -/
noncomputable def exCols : List Col := colsOfContacts [⟨0, 0, ![0, 0, 1]⟩]

theorem exCols_grouped : Grouped exCols := colsOfContacts_grouped _

theorem exSlide_res2 (s : ℝ) (F : Fin exCols.length → ℝ) (i : Fin exCols.length) :
    res2 ((phi 0 exCols).mat (exSlide s)) gravity F = (F i - 1) ^ 2 + (F i) ^ 2 * s ^ 2 := by
  rw [res2_wrench]
  have hF : ∀ j : Fin exCols.length, j = i := fun j => by
    have h1 : j.val < 1 := j.2
    have h2 : i.val < 1 := i.2
    exact Fin.ext (by omega)
  have e1 : resultant exCols (exSlide s) F = ![0, 0, F i - 1] := by
    unfold resultant
    rw [show (∑ j, F j • exCols[j].contact.nrm (exSlide s)) = F i • (![0, 0, 1] : V3 ℝ) from by
      rw [Finset.sum_eq_single_of_mem i (Finset.mem_univ i) (fun j _ h => absurd (hF j) h)]
      have : exCols[i] = ⟨⟨0, 0, ![0, 0, 1]⟩, 0⟩ := by
        have h2 : i.val < 1 := i.2
        have : i = ⟨0, Nat.one_pos⟩ := Fin.ext (by show i.val = 0; omega)
        rw [this]
        rfl
      rw [this]
      simp [ContactPt.nrm, exSlide]]
    funext a
    fin_cases a <;> simp
  have e2 : moment 0 exCols (exSlide s) F = ![0, -(F i * s), 0] := by
    unfold moment
    rw [Finset.sum_eq_single_of_mem i (Finset.mem_univ i) (fun j _ h => absurd (hF j) h)]
    have : exCols[i] = ⟨⟨0, 0, ![0, 0, 1]⟩, 0⟩ := by
      have h2 : i.val < 1 := i.2
      have : i = ⟨0, Nat.one_pos⟩ := Fin.ext (by show i.val = 0; omega)
      rw [this]
      rfl
    rw [this]
    funext a
    fin_cases a <;> simp [ContactPt.nrm, ContactPt.pos, exSlide, crossProduct]
  rw [e1, e2]
  simp [dotProduct, Fin.sum_univ_three]
  ring

theorem exSlide_value {solver : QpSolver exCols.length} (hq : QpContract solver) (s : ℝ) (m : MMem 1 2 exCols.length) :
    (qpCompute 0 exCols solver (exSlide s) m).2 = s ^ 2 / (1 + s ^ 2) := by
  rw [qpCompute_eq exCols_grouped]
  have hp : (0 : ℝ) < 1 + s ^ 2 := by positivity
  have i : Fin exCols.length := ⟨0, Nat.one_pos⟩
  have key : ∀ x : ℝ, (x - 1) ^ 2 + x ^ 2 * s ^ 2 = (1 + s ^ 2) * (x - 1 / (1 + s ^ 2)) ^ 2 + s ^ 2 / (1 + s ^ 2) := by
    intro x
    field_simp
    ring
  apply le_antisymm
  · refine (qp_min hq (exSlide s) (fun _ => 1 / (1 + s ^ 2)) (fun _ => by positivity)).trans ?_
    rw [exSlide_res2 s _ i, key, sub_self]
    simp
  · rw [exSlide_res2 s _ i, key]
    have : 0 ≤ (1 + s ^ 2) * (qpForces 0 exCols solver (exSlide s) i - 1 / (1 + s ^ 2)) ^ 2 := by positivity
    linarith

theorem exSlide_value_deriv {solver : QpSolver exCols.length} (hq : QpContract solver) (m : ℝ → MMem 1 2 exCols.length) :
    HasDerivAt (fun s => (qpCompute 0 exCols solver (exSlide s) (m s)).2) (1 / 2) 1 := by
  simp only [exSlide_value hq]
  have h1 : HasDerivAt (fun s : ℝ => s ^ 2) (2 * 1) 1 := by simpa using hasDerivAt_pow 2 (1 : ℝ)
  have h2 := h1.div (h1.const_add 1) (by norm_num)
  refine h2.congr_deriv ?_
  norm_num

/-- C59 is false of the Jacobian: for a contact that slides, whatever solver is used, the Jacobian (computed right after the value)
does not map the velocity to the derivative of the value. -/
theorem C59_half_refuted : ∃ (l : List Col) (w : ℝ → World ℝ 1) (qd : Fin 1 → ℝ) (t : ℝ), Grouped l ∧ Moves w qd t ∧
    ∀ solver : QpSolver l.length, QpContract solver → ∀ (m : ℝ → MMem 1 2 l.length) (m' : MMem 1 2 l.length), ∃ D,
      HasDerivAt (fun s => (qpCompute 0 l solver (w s) (m s)).2) D t ∧
      D ≠ (qpJac 0 l solver (w t) (qpCompute 0 l solver (w t) m').1).2 ⬝ᵥ qd := by
  refine ⟨exCols, exSlide, ![1], 1, exCols_grouped, exSlide_moves 1, fun solver hq m m' => ⟨1 / 2, exSlide_value_deriv hq m, ?_⟩⟩
  have h := C59_derivative_partial exCols_grouped hq (exSlide_moves 1) m m' (exSlide_value_deriv hq m)
  intro hc
  rw [← hc] at h
  norm_num at h

/-- C59 is false of the Jacobian: it depends on the calls before. The Jacobian of an object for which the value has not been
computed yet is zero, that of an object for which the value has been computed for the same state of the robot is not. -/
theorem C59_history_refuted : ∃ (l : List Col) (w : World ℝ 1), Grouped l ∧
    ∀ solver : QpSolver l.length, QpContract solver → ∀ (st : St ℝ 1) (svd : Svd ℝ (2 * 3) l.length),
      (qpJac 0 l solver w (freshMem 1 l.length st svd)).2 ≠
        (qpJac 0 l solver w (qpCompute 0 l solver w (freshMem 1 l.length st svd)).1).2 := by
  refine ⟨exCols, exSlide 1, exCols_grouped, fun solver hq st svd h => ?_⟩
  have h1 := C59_derivative_partial exCols_grouped hq (exSlide_moves 1) (fun _ => freshMem 1 exCols.length st svd)
    (freshMem 1 exCols.length st svd) (exSlide_value_deriv hq _)
  rw [← h, qpJac_dot exCols_grouped solver (exSlide 1) _ ![1] (A := 0) rfl, zero_mulVec, add_zero] at h1
  generalize solver _ _ = F at h1
  have h2 : ∀ r, HasDerivAt (fun s => ((phi 0 exCols).mat (exSlide s) *ᵥ F) r)
      (((phi 0 exCols).dmat (exSlide 1) ![1] *ᵥ F) r) 1 := by
    intro r
    have := deriv_mulVec (fun r j => mat_deriv (phi_wf 0 exCols_grouped) (exSlide_moves 1) r j) (x := fun _ => F) (x' := 0)
      (fun j => hasDerivAt_const _ _) r
    rwa [mulVec_zero, add_zero] at this
  have h3 : ((phi 0 exCols).dmat (exSlide 1) ![1] *ᵥ F) (row 0 2) = 0 := by
    refine (h2 (row 0 2)).unique ?_
    have : (fun s => ((phi 0 exCols).mat (exSlide s) *ᵥ F) (row 0 2)) = fun _ => ((phi 0 exCols).mat (exSlide 0) *ᵥ F) (row 0 2) := by
      funext s
      rfl
    rw [this]
    exact hasDerivAt_const _ _
  have h4 : gravity ⬝ᵥ ((phi 0 exCols).dmat (exSlide 1) ![1] *ᵥ F) = 0 := by
    unfold dotProduct
    rw [Finset.sum_eq_single (row 0 2)]
    · rw [h3, mul_zero]
    · intro r _ hr
      have : gravity r = 0 := if_neg fun h => hr (h.trans (by decide))
      rw [this, zero_mul]
    · exact fun h => absurd (Finset.mem_univ _) h
  rw [h4] at h1
  norm_num at h1

/-- C59. The two constructors: contacts one by one, or forces with several points for one normal, give the same
contact points in the same order, and columns to which the theorems of C59 and C82 apply. -/
theorem C59_columns (c : List ContactPt) (f : List Forces) :
    Grouped (colsOfContacts c) ∧ (colsOfContacts c).map (·.contact) = c ∧
    Grouped (colsOfForces f) ∧
    (colsOfForces f).map (·.contact) = f.flatMap fun x => x.points.map fun P => ⟨x.joint, P, x.normal⟩ := by
  refine ⟨colsOfContacts_grouped c, ?_, colsOfForces_grouped f, ?_⟩
  · unfold colsOfContacts
    rw [List.map_map]
    have : (Col.contact ∘ fun x : ContactPt × Nat => (⟨x.1, x.2⟩ : Col)) = Prod.fst := rfl
    rw [this, List.zipIdx_map_fst]
  · unfold colsOfForces
    rw [List.map_flatMap]
    have key : ∀ (l : List Forces) (k : Nat), ((l.zipIdx k).flatMap fun x : Forces × Nat =>
        (x.1.points.map fun P => (⟨⟨x.1.joint, P, x.1.normal⟩, x.2⟩ : Col)).map (·.contact)) =
        l.flatMap fun x => x.points.map fun P => ⟨x.joint, P, x.normal⟩ := by
      intro l
      induction l with
      | nil => intro k; rfl
      | cons x l ih =>
        intro k
        rw [List.zipIdx_cons, List.flatMap_cons, ih, List.flatMap_cons, List.map_map]
        rfl
    exact key f 0

/-! ### Examples -/

/-- The contract of the solver, and that of the decomposition, can be met. -/
example : (∃ s : QpSolver exCols.length, QpContract s) ∧ ∃ s : SvdOf exCols.length, SvdContract s :=
  ⟨exists_qpSolver _, exists_svdOf 2 _⟩

/-- Columns that share normals -/
example : Grouped (colsOfForces [⟨0, [![1, 0, 0], ![0, 1, 0]], ![0, 0, 1]⟩, ⟨1, [0], ![1, 0, 0]⟩]) := colsOfForces_grouped _

theorem exSlide_regular (t : ℝ) : Regular (fun s => (phi 0 exCols).mat (exSlide s)) t := by
  have h : ∀ s, ((phi 0 exCols).mat (exSlide s)).rank = 1 := by
    intro s
    apply le_antisymm
    · exact (rank_le_width _).trans (le_of_eq rfl)
    · rw [Nat.one_le_iff_ne_zero]
      intro hr
      have hz : (phi 0 exCols).mat (exSlide s) = 0 := by
        have h1 : LinearMap.range ((phi 0 exCols).mat (exSlide s)).mulVecLin = ⊥ := Submodule.finrank_eq_zero.1 hr
        have h2 := LinearMap.range_eq_bot.1 h1
        ext i j
        have := congrFun (congrArg (fun f => f (Pi.single j 1)) h2) i
        simpa using this
      have : (phi 0 exCols).mat (exSlide s) (row 0 2) ⟨0, Nat.one_pos⟩ = 1 := by
        change (((phi 0 exCols).el 0 ⟨0, Nat.one_pos⟩).denote (exSlide s)) 2 = 1
        change ((1 : M3 ℝ) *ᵥ ![0, 0, 1]) 2 = 1
        simp
      rw [hz] at this
      exact zero_ne_one this
  exact Filter.Eventually.of_forall fun s => (h s).trans (h t).symm

/-- Hypotheses of `C81_pinv_derivative` -/
example (svdOf : SvdOf exCols.length) (hs : SvdContract svdOf) (m : MMem 1 2 exCols.length) (t : ℝ) (j : Fin exCols.length) :
    HasDerivAt (fun t => ((svdOf ((phi 0 exCols).mat (exSlide t))).pinv *ᵥ gravity) j)
      ((((phi 0 exCols).pinvJacobian svdOf (exSlide t) ([MCall.value, .jac, .times 1].foldl
        ((phi 0 exCols).call svdOf (exSlide t)) ((phi 0 exCols).invalidate m)) gravity).2 *ᵥ ![1]) j) t :=
  C81_pinv_derivative (phi_wf 0 exCols_grouped) hs (exSlide_moves t) (phi_built 0 exCols m) (exSlide_regular t) _ gravity j

/-- Hypotheses of `C82_derivative` -/
example (svdOf : SvdOf exCols.length) (hs : SvdContract svdOf) (m : MMem 1 2 exCols.length) (t : ℝ) (j : Fin exCols.length) :
    HasDerivAt (fun s => (staticCompute 0 exCols svdOf 1e-12 (exSlide s) m).2.1 j)
      (((staticJac 0 exCols svdOf 1e-12 (exSlide t) m).2.1 *ᵥ ![1]) j) t := by
  have hu : ∀ i, 0 < ((svdOf ((phi 0 exCols).mat (exSlide t))).pinv *ᵥ (-gravity)) i := by
    intro i
    by_contra hc
    have h1 := ls_minimal (hs.isPinv ((phi 0 exCols).mat (exSlide t))) gravity (fun _ => 1 / (1 + t ^ 2))
    rw [exSlide_res2 t _ i, exSlide_res2 t _ i] at h1
    generalize ((svdOf ((phi 0 exCols).mat (exSlide t))).pinv *ᵥ (-gravity)) i = x at *
    have hp : (0 : ℝ) < 1 + t ^ 2 := by positivity
    have key : ∀ x : ℝ, (x - 1) ^ 2 + x ^ 2 * t ^ 2 = (1 + t ^ 2) * (x - 1 / (1 + t ^ 2)) ^ 2 + t ^ 2 / (1 + t ^ 2) := by
      intro x
      field_simp
      ring
    rw [key, key (1 / (1 + t ^ 2)), sub_self] at h1
    have h2 : (1 + t ^ 2) * (x - 1 / (1 + t ^ 2)) ^ 2 ≤ 0 := by linarith
    have h3 : 0 < 1 / (1 + t ^ 2) := by positivity
    have h4 : 0 < (x - 1 / (1 + t ^ 2)) ^ 2 := by
      apply sq_pos_of_neg
      linarith
    have := mul_pos hp h4
    linarith
  exact (C82_derivative exCols_grouped hs (by norm_num) (exSlide_moves t) (fun _ => m) m (exSlide_regular t)
    (fun i => (hu i).ne') (fun i => by have := hu i; intro h; norm_num at h; linarith)).1 j

/-- Equilibrium when the contact point is below the center of mass, none otherwise. -/
example {solver : QpSolver exCols.length} (hq : QpContract solver) (m : MMem 1 2 exCols.length) :
    (∃ F, (∀ i, 0 ≤ F i) ∧ Balanced 0 exCols (exSlide 0) F) ∧ ¬∃ F, (∀ i, 0 ≤ F i) ∧ Balanced 0 exCols (exSlide 1) F := by
  rw [← C59_zero_iff exCols_grouped hq _ m, ← C59_zero_iff exCols_grouped hq _ m, exSlide_value hq, exSlide_value hq]
  norm_num

end Hpp.Stab
