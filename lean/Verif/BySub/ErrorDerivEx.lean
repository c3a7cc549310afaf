import Verif.BySub.ErrorDeriv
import Verif.BySub.NewtonEx
import Verif.HI.JacobianEx

/-!
# A case that meets the hypotheses of `C74_derivative` and `C74_squared_norm`
-/

namespace Hpp

namespace BsR

/-- `q₀ + q₁ ≥ 0`, `q₀ q₁ = 0`, besides the explicit constraint `q₁ = q₀²` -/
noncomputable def cJ : BCon ℝ Nat := ⟨HIJacEx.con, none⟩

noncomputable def sJ : BS ℝ Nat := (s.add 20 cJ 0).1

theorem con_built : Impl.Built HIJacEx.fn [] [.superior, .equality] HIJacEx.con :=
  .create _ _ (Option.some_get _).symm

noncomputable def hJ : BHist ℝ Nat := [(cE, 0, true)] ++ [(cJ, 0, false)]

theorem sJ_built : BS.Built E 2 2 hJ sJ :=
  .add (h := [(cE, 0, true)]) (s := s) (c := cJ) (p := 0) (fuel := 20) (junk := []) s_built ⟨_, _, _, con_built⟩
    (Prod.ext rfl rfl)

theorem sJ_expl : explOf hJ = explOf [(cE, 0, true)] := rfl
theorem sJ_impl : implOf hJ = [(HIJacEx.con, 0)] := rfl
theorem sJ_data : sJ.ex.data = [EData.new (part.econ iE) []] := rfl
theorem sJ_free : indices sJ.hi.free.segs = [0] := rfl

theorem sJ_law : BHist.Lawful E hJ := by
  constructor
  · intro e he
    simp only [hJ, List.cons_append, List.nil_append, List.mem_cons, List.not_mem_nil, or_false] at he
    rcases he with rfl | rfl
    · exact vectorSpace_lawful 1
    · exact vectorSpace_lawful 2
  · intro e he q
    simp only [hJ, List.cons_append, List.nil_append, List.mem_cons, List.not_mem_nil, or_false] at he
    rcases he with rfl | rfl <;> rfl

noncomputable def levJ : Level ℝ Nat := (sJ.hi.levels[0]?).get rfl

theorem levJ_eq : sJ.hi.levels[0]? = some levJ := (Option.some_get _).symm

theorem moves (a b v0 v1 : ℝ) :
    Moves (fun f => E f.space) (implOf hJ) HIJacEx.D HIJacEx.Vel 2 (HIJacEx.line a b v0 v1) (HIJacEx.vel v0 v1) :=
  (HIJacEx.along a b v0 v1).toMoves

/-- On the graph of `q₁ = q₀²`, the velocities of the motion that keeps the explicit constraint. -/
theorem transmits (a v : ℝ) :
    Transmits sJ (HIJacEx.line a (a ^ 2) v (2 * a * v) 0) (HIJacEx.vel v (2 * a * v)) := by
  intro d hd m r hm
  rw [sJ_data] at hd
  obtain rfl := List.mem_singleton.1 hd
  have hm' : ([1] : List Nat)[m]? = some r := hm
  have h0 : m = 0 := by
    by_contra h
    rw [List.getElem?_eq_none (by simp; omega)] at hm'
    cases hm'
  subst h0
  have hr : r = 1 := by simpa using hm'.symm
  subst hr
  show (2 * a * v : ℝ) = ∑ p ∈ Finset.range 1, (2 * (a + 0 * v)) * HIJacEx.vel v (2 * a * v) (([0] : List Nat).getD p 0)
  simp [HIJacEx.vel]

theorem levJ_row0 (q : Nat → ℝ) (thr : ℝ) :
    ((levJ.error thr q).getD []).getD 0 0 = comparedError .superior thr (q 0 + q 1) := by
  obtain ⟨h1, -⟩ := sJ_built.parts
  obtain ⟨l1, l2⟩ := sJ_law.impl
  obtain ⟨hs, hf, R, hR⟩ := h1.inv l1 l2
  have hr : R 0 = [0, 0] := by
    have h1 := hR.eq 0 levJ levJ_eq
    have h2 : levJ.rhs = [0, 0] := rfl
    have h3 : atLevel (implOf hJ) 0 = [HIJacEx.con] := rfl
    rw [h2] at h1
    exact (h1.trans (by
      show List.flatMap _ [HIJacEx.con] = _
      simp only [List.flatMap_cons, List.flatMap_nil, List.append_nil]; rfl)).symm
  rw [level_error hs hf hR levJ_eq thr q]
  show (conError thr q HIJacEx.con (R 0) ++ []).getD 0 0 = _
  rw [hr, List.append_nil]
  show comparedError .superior thr (if true then (q 0 + q 1) - 0 else 0) = _
  simp

end BsR

open BsR HIJacEx in
/-- At `q₀ = -1/4`, `q₁ = 1/16` the inequality is violated.  The reduced Jacobian of its row is `1/2`: the derivative
of `q₀ + q₀²`. -/
example (J0 : Jac ℝ) : ∃ E R,
    levJ.evalJac D sJ.hi.ineqThr sJ.hi.free.segs (line (-1/4) ((-1/4) ^ 2) 1 (2 * (-1/4) * 1) 0) J0 = some E ∧
    sJ.updateJ (line (-1/4) ((-1/4) ^ 2) 1 (2 * (-1/4) * 1) 0) (sJ.rows levJ).segs E.jac
      (sJ.reducedJ0 (sJ.rows levJ).segs E.jac) = some R ∧ R 0 0 = 1 / 2 := by
  obtain ⟨E, R, hE, -, hR, h⟩ := C74_derivative sJ_built sJ_law rfl
    (by rw [sJ_expl]; exact s_wf)
    (by rw [sJ_expl]; exact coherent_of_vec s_vec)
    (by rw [sJ_expl]; intro c hc; rw [(s_vec c hc).1]; exact s_sorted c hc)
    (moves (-1/4) ((-1/4) ^ 2) 1 (2 * (-1/4) * 1)) (transmits (-1/4) 1) 0 levJ levJ_eq J0
  refine ⟨E, R, hE, hR, ?_⟩
  have h0 := h 0 0 rfl (fun t ht => by
    have ht' : t = .superior := by
      have : levJ.comp[0]? = some .superior := rfl
      rw [this] at ht; exact (Option.some.inj ht).symm
    subst ht'
    rintro (⟨-, h⟩ | ⟨h, -⟩)
    · have h' : (((-1/4) : ℝ) + 0 * 1 + ((-1/4) ^ 2 + 0 * (2 * (-1/4) * 1))) - 0 = 0 := h
      norm_num at h'
    · cases h)
  have h1 : HasDerivAt (fun u : ℝ => line (-1/4) ((-1/4) ^ 2) 1 (2 * (-1/4) * 1) u 0 +
      line (-1/4) ((-1/4) ^ 2) 1 (2 * (-1/4) * 1) u 1) (1 / 2) 0 := by
    have h0 : HasDerivAt (fun t : ℝ => -1/4 + t * 1) 1 0 := by
      simpa using ((hasDerivAt_id (0 : ℝ)).mul_const 1).const_add (-1/4)
    have h1 : HasDerivAt (fun t : ℝ => (-1/4) ^ 2 + t * (2 * (-1/4) * 1)) (2 * (-1/4) * 1) 0 := by
      have := ((hasDerivAt_id (0 : ℝ)).mul_const (2 * (-1/4) * 1)).const_add ((-1/4) ^ 2)
      rw [one_mul] at this
      exact this
    exact (h0.add h1).congr_deriv (by norm_num)
  have hthr : sJ.hi.ineqThr = 0 := rfl
  have h2 := comparedError_deriv .superior sJ.hi.ineqThr h1 (by
    rw [hthr]
    rintro (⟨-, h⟩ | ⟨h, -⟩)
    · norm_num [line] at h
    · cases h)
  rw [if_neg (by
    rw [hthr]
    rintro (⟨-, h⟩ | ⟨h, -⟩)
    · norm_num [line] at h
    · cases h)] at h2
  simp only [levJ_row0] at h0
  have h3 := h0.unique h2
  rw [sJ_free] at h3
  simpa [vel] using h3

open BsR HIJacEx in
/-- The hypotheses on the squared norm hold at each configuration where the explicit constraint does. -/
example (a v : ℝ) : DifferentiableAt ℝ
    (fun u => sqSum ((levJ.error sJ.hi.ineqThr (line a (a ^ 2) v (2 * a * v) u)).getD [])) 0 := by
  obtain ⟨E, R, -, -, h⟩ := C74_squared_norm sJ_built sJ_law rfl
    (by rw [sJ_expl]; exact s_wf)
    (by rw [sJ_expl]; exact coherent_of_vec s_vec)
    (by rw [sJ_expl]; intro c hc; rw [(s_vec c hc).1]; exact s_sorted c hc)
    (moves a (a ^ 2) v (2 * a * v)) (transmits a v) (flags _) 0 levJ levJ_eq fun _ _ => 7
  exact h.differentiableAt

end Hpp
