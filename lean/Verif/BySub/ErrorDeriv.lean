import Verif.BySub.JacobianProps
import Verif.HI.JacobianProps

/-!
# C74: the reduced Jacobian of the solver by substitution is the derivative of the error along the motions where
the explicit constraints hold
-/

namespace Hpp

variable {κ : Type} [DecidableEq κ] {El : Space ℝ → List ℝ → Prop} {nq nv : Nat} {h : BHist ℝ κ} {s : BS ℝ κ}
  {D : Space ℝ → List ℝ → List ℝ → Nat → Nat → ℝ} {Vel : Fn ℝ κ → (ℝ → List ℝ) → (Nat → ℝ) → Prop}
  {γ : ℝ → Nat → ℝ} {V : Nat → ℝ}

/-- Specification: the velocities `V` of all the variables are those of a motion where the explicit constraints hold. -/
def Transmits (s : BS ℝ κ) (q : Nat → ℝ) (V : Nat → ℝ) : Prop :=
  ∀ d ∈ s.ex.data, ∀ m r : Nat, (indices d.c.outV)[m]? = some r →
    V r = ∑ p ∈ Finset.range (indices d.c.inV).length,
      d.c.jac (rview q d.c.inQ) d.fval d.rhs m p * V ((indices d.c.inV).getD p 0)

theorem rowMaskBy_row (act : Impl ℝ κ → Bool) {pre post : List (Impl ℝ κ)} {c : Impl ℝ κ}
    (hok : ∀ d ∈ pre ++ c :: post, d.Ok) {r : Nat} {b : Bool} (hr : r < c.fn.space.nv) (hb : c.mask[r]? = some b) :
    (rowMaskBy act (pre ++ c :: post))[(pre.map (·.fn.space.nv)).sum + r]? =
      some (if act c then b else false) := by
  have hc := (hok c (by simp)).mask_len
  unfold rowMaskBy
  rw [flatMap_getElem?_mid _ _ _ _ (fun c : Impl ℝ κ => c.fn.space.nv)]
  · by_cases hd : act c = true
    · rw [if_pos hd, if_pos hd, hb]
    · rw [if_neg hd, if_neg hd, List.getElem?_replicate, if_pos (by omega)]
  · intro y hy
    have := (hok y (by simp [hy])).mask_len
    split <;> simp [this]
  · split
    · omega
    · rw [List.length_replicate]; omega

/-- Velocities of a motion where the explicit constraints hold, and functions that depend on no free variable, even
through the explicit constraints. -/
theorem left_out_still (hb : BS.Built El nq nv h s) (hsy : s.Synced)
    (hw : ∀ c ∈ explOf h, WellFormed nq nv c)
    (hcoh : AllCoherent (explOf h)) (hs : ∀ c ∈ explOf h, c.inV.Pairwise lexLe) (q : Nat → ℝ)
    (hV : Transmits s q V) (c : Impl ℝ κ) (hc : s.rowActive c = false) (J : Nat → ℝ)
    (hJ : ∀ k, ¬ ActiveOn c k → J k = 0) : ∑ k ∈ Finset.range nv, J k * V k = 0 := by
  have hlo := C73_left_out hb hw hcoh hs c hc q J hJ
  obtain ⟨-, h2, h3, -⟩ := hb.parts
  rw [← h3] at hw hcoh hs
  obtain ⟨hI, hnq, hnv⟩ := Inv.built h2
  have hnot := (C11_outputs h2).2.2.2.1
  have hvel : ∀ k < nv, (∑ l ∈ Finset.range nv, s.ex.jacobian q k l * V l) = V k :=
    C15_velocity h2 hw hcoh hs q (fun k x => x = V k) V (fun _ _ _ => rfl) (by
      intro d hd w hw' m r hm
      rw [hV d hd m r hm]
      refine Finset.sum_congr rfl fun p hp => ?_
      have hpl : p < (indices d.c.inV).length := by simpa using hp
      rw [hw' ((indices d.c.inV).getD p 0) ((mem_indices _ _).1 (by
        rw [List.getD_eq_getElem?_getD, List.getElem?_eq_getElem hpl]; exact List.getElem_mem hpl))])
  have h4 : ∑ k ∈ Finset.range nv, J k * V k =
      ∑ l ∈ Finset.range nv, (∑ k ∈ Finset.range nv, J k * s.ex.jacobian q k l) * V l := by
    rw [sum_swap_apply nv nv J (fun k l => s.ex.jacobian q k l) V]
    exact Finset.sum_congr rfl fun k hk => by rw [hvel k (Finset.mem_range.1 hk)]
  rw [h4]
  apply Finset.sum_eq_zero
  intro l hl
  by_cases ho : ∃ c ∈ s.ex.cons, WritesV c l
  · have : ∑ k ∈ Finset.range nv, J k * s.ex.jacobian q k l = 0 :=
      Finset.sum_eq_zero fun k _ => by rw [(C15_jacobian h2 hw hcoh hs q).2.1 k l ho, mul_zero]
    rw [this, zero_mul]
  · have hk : Covers s.hi.free.segs l := by
      rw [hsy, hnot]
      exact ⟨Finset.mem_range.1 hl, ho⟩
    rw [(hlo l hk).2.2, zero_mul]

/-- C74. When the configuration follows a motion where the explicit constraints hold, with velocities `V`, the
derivative of each row of the error of a level that is kept is the product of the row of the reduced Jacobian
computed by `updateJacobian` and of the velocities of the free variables, unless the row is an inequality exactly at
its limit. -/
theorem C74_derivative (hb : BS.Built El nq nv h s) (hl : BHist.Lawful El h) (hsy : s.Synced)
    (hw : ∀ c ∈ explOf h, WellFormed nq nv c)
    (hcoh : AllCoherent (explOf h)) (hs : ∀ c ∈ explOf h, c.inV.Pairwise lexLe)
    (hm : Moves (fun f => El f.space) (implOf h) D Vel nv γ V) (hV : Transmits s (γ 0) V)
    (i : Nat) (l : Level ℝ κ) (hi : s.hi.levels[i]? = some l) (J0 : Jac ℝ) :
    ∃ E R, l.evalJac D s.hi.ineqThr s.hi.free.segs (γ 0) J0 = some E ∧
      l.error s.hi.ineqThr (γ 0) = some E.error ∧
      s.updateJ (γ 0) (s.rows l).segs E.jac (s.reducedJ0 (s.rows l).segs E.jac) = some R ∧
      ∀ r ρ : Nat, (indices (s.rows l).segs)[r]? = some ρ →
        (∀ t, l.comp[ρ]? = some t → ¬ AtLimit t s.hi.ineqThr
          ((l.stack.fns.space.sub (l.stack.fns.value (γ 0) (List.replicate l.stack.fns.space.nq 0))
            l.rhs).getD ρ 0)) →
        HasDerivAt (fun u => ((l.error s.hi.ineqThr (γ u)).getD []).getD ρ 0)
          (∑ c ∈ Finset.range (indices s.hi.free.segs).length,
            R r c * V ((indices s.hi.free.segs).getD c 0)) 0 := by
  obtain ⟨h1, h2, h3, -⟩ := hb.parts
  obtain ⟨l1, l2⟩ := hl.impl
  obtain ⟨hin, hf, Rh, hRh⟩ := h1.inv l1 l2
  obtain ⟨E, hE, herr0, -⟩ := level_evalJac hin hf hRh hi D s.hi.ineqThr s.hi.free.segs (γ 0) J0
  obtain ⟨R, hR, hRmul⟩ := C74_reduced hb hsy hw hcoh hs (γ 0) (s.rows l).segs E.jac V hV
  refine ⟨E, R, hE, herr0, hR, fun r ρ hrρ hlim => ?_⟩
  have hcs : l.stack.cs = atLevel (implOf h) i := (hin.level i l hi).stack.cs_eq
  have hok : ∀ c ∈ atLevel (implOf h) i, c.Ok := fun c hc => by
    obtain ⟨_, _, _, hcb⟩ := hf.built _ (mem_atLevel.1 hc)
    exact hcb.ok.1
  have hcov := (mem_indices _ _).1 (List.mem_of_getElem? hrρ)
  have hρ : ρ < l.stack.fns.space.nv := by
    rw [(hin.level i l hi).nv]
    by_contra hn
    exact (C73_rows hb hl hsy hw hcoh hs i l hi).2.1 ρ (not_lt.1 hn) hcov
  obtain ⟨pre, c, post, r', t, b, x, ⟨hsplit, hρe, hr', hbm⟩, ht, -, hx0, herr, hder, hJ⟩ :=
    level_row_along hin hf hRh hi s.hi.ineqThr J0 hm hE ρ hρ
  have hbt : b = true := by
    rw [hρe] at hcov
    have := (((C73_rows hb hl hsy hw hcoh hs i l hi).1 pre c post hsplit r' hr').1 hcov).1
    rw [hbm] at this
    exact Option.some.inj this
  subst hbt
  have hJ' : ∀ k, E.jac ρ k = open Classical in if InsideLimit t s.hi.ineqThr (x 0) then 0 else
      ∑ j ∈ Finset.range c.fn.space.nv,
        D c.fn.space (Rh c.fn.key) (c.fn.value (γ 0)) r' j * c.fn.jac (γ 0) j k := hJ
  simp only [if_true] at herr
  simp only [herr]
  have := comparedError_deriv t s.hi.ineqThr hder (by rw [hx0]; exact hlim t ht)
  refine this.congr_deriv ?_
  have hg : (indices (s.rows l).segs).getD r 0 = ρ := by
    rw [List.getD_eq_getElem?_getD, hrρ]; rfl
  rw [hRmul r, hg]
  simp only [hJ']
  by_cases hin : InsideLimit t s.hi.ineqThr (x 0)
  · simp [hin]
  · simp only [if_neg hin]
    exact (sum_swap_apply _ _ _ _ _).symm

/-- C74. Along such a motion the squared norm of the error of a level is differentiable, at the limits of the
inequalities too, and its derivative is twice the product of the error, of the reduced Jacobian computed by
`updateJacobian` and of the velocities of the free variables: the rows that are left out do not contribute. -/
theorem C74_squared_norm (hb : BS.Built El nq nv h s) (hl : BHist.Lawful El h) (hsy : s.Synced)
    (hw : ∀ c ∈ explOf h, WellFormed nq nv c)
    (hcoh : AllCoherent (explOf h)) (hs : ∀ c ∈ explOf h, c.inV.Pairwise lexLe)
    (hm : Moves (fun f => El f.space) (implOf h) D Vel nv γ V) (hV : Transmits s (γ 0) V)
    (hfl : FlagsRight (implOf h) (γ 0)) (i : Nat) (l : Level ℝ κ) (hi : s.hi.levels[i]? = some l) (J0 : Jac ℝ) :
    ∃ E R, l.evalJac D s.hi.ineqThr s.hi.free.segs (γ 0) J0 = some E ∧
      s.updateJ (γ 0) (s.rows l).segs E.jac (s.reducedJ0 (s.rows l).segs E.jac) = some R ∧
      HasDerivAt (fun u => sqSum ((l.error s.hi.ineqThr (γ u)).getD []))
        (2 * ∑ r ∈ Finset.range (indices (s.rows l).segs).length,
          E.error.getD ((indices (s.rows l).segs).getD r 0) 0 *
          ∑ c ∈ Finset.range (indices s.hi.free.segs).length,
            R r c * V ((indices s.hi.free.segs).getD c 0)) 0 := by
  obtain ⟨h1, h2, h3, -⟩ := hb.parts
  obtain ⟨l1, l2⟩ := hl.impl
  obtain ⟨hin, hf, Rh, hRh⟩ := h1.inv l1 l2
  obtain ⟨E, hE, herr0, -⟩ := level_evalJac hin hf hRh hi D s.hi.ineqThr s.hi.free.segs (γ 0) J0
  obtain ⟨R, hR, hRmul⟩ := C74_reduced hb hsy hw hcoh hs (γ 0) (s.rows l).segs E.jac V hV
  refine ⟨E, R, hE, hR, ?_⟩
  have hcs : l.stack.cs = atLevel (implOf h) i := (hin.level i l hi).stack.cs_eq
  have hok : ∀ c ∈ atLevel (implOf h) i, c.Ok := fun c hc => by
    obtain ⟨_, _, _, hcb⟩ := hf.built _ (mem_atLevel.1 hc)
    exact hcb.ok.1
  have hrows := BS.rows_spec s l (by rw [hcs]; exact hok)
  have h73 := C73_rows hb hl hsy hw hcoh hs i l hi
  have hlenE : ∀ u, ((l.error s.hi.ineqThr (γ u)).getD []).length = l.stack.fns.space.nv := by
    intro u
    rw [level_error hin hf hRh hi s.hi.ineqThr (γ u), Option.getD_some, (hin.level i l hi).nv]
    exact flatMap_length_sum _ _ _ fun c hc =>
      (conSub_length hf (mem_atLevel.1 hc) (hRh.el _ (mem_atLevel.1 hc)) (γ u) s.hi.ineqThr).2.2.2.2
  have hcovLt : ∀ ρ ∈ indices (s.rows l).segs, ρ < l.stack.fns.space.nv := by
    intro ρ hρ
    rw [(hin.level i l hi).nv]
    by_contra hn
    exact h73.2.1 ρ (not_lt.1 hn) ((mem_indices _ _).1 hρ)
  let g : Nat → ℝ := fun ρ => if ρ ∈ indices (s.rows l).segs then
    E.error.getD ρ 0 * ∑ k ∈ Finset.range nv, E.jac ρ k * V k else 0
  have hgsum : ∑ r ∈ Finset.range (indices (s.rows l).segs).length,
      E.error.getD ((indices (s.rows l).segs).getD r 0) 0 *
        ∑ c ∈ Finset.range (indices s.hi.free.segs).length,
          R r c * V ((indices s.hi.free.segs).getD c 0) =
      ∑ ρ ∈ Finset.range l.stack.fns.space.nv, g ρ := by
    rw [← sum_over_indices _ h73.2.2.disjoint.indices_nodup _ hcovLt g
      (fun ρ _ hρ => if_neg hρ)]
    apply Finset.sum_congr rfl
    intro r hr
    have hmem : (indices (s.rows l).segs).getD r 0 ∈ indices (s.rows l).segs := by
      have := Finset.mem_range.1 hr
      rw [List.getD_eq_getElem?_getD, List.getElem?_eq_getElem this]
      exact List.getElem_mem _
    show _ = if _ then _ else _
    rw [if_pos hmem, hRmul r]
  rw [hgsum, Finset.mul_sum]
  simp only [sqSum_eq_range, hlenE]
  refine HasDerivAt.fun_sum fun ρ hρ => ?_
  have hρ' := Finset.mem_range.1 hρ
  obtain ⟨pre, c, post, r', t, b, x, ⟨hsplit, hρe, hr', hbm⟩, ht, -, -, herr, hder, hJ⟩ :=
    level_row_along hin hf hRh hi s.hi.ineqThr J0 hm hE ρ hρ'
  have hmem : c ∈ atLevel (implOf h) i := by rw [hsplit]; simp
  have hrm := rowMaskBy_row s.rowActive (pre := pre) (post := post) (by rw [← hsplit]; exact hok) hr' hbm
  rw [← hρe, ← hsplit] at hrm
  have hcovI : ρ ∈ indices (s.rows l).segs ↔ (if s.rowActive c then b else false) = true := by
    rw [mem_indices, hrows.1 ρ, hcs, hrm, Option.some.injEq]
  have hE0 : E.error.getD ρ 0 = comparedError t s.hi.ineqThr (if b then x 0 else 0) := by
    rw [← herr 0, herr0]; rfl
  simp only [herr]
  by_cases hcov : ρ ∈ indices (s.rows l).segs
  · have hbt : b = true := by
      have := hcovI.1 hcov
      split at this
      · exact this
      · cases this
    subst hbt
    have hJ' : ∀ k, E.jac ρ k = open Classical in if InsideLimit t s.hi.ineqThr (x 0) then 0 else
        ∑ j ∈ Finset.range c.fn.space.nv,
          D c.fn.space (Rh c.fn.key) (c.fn.value (γ 0)) r' j * c.fn.jac (γ 0) j k := hJ
    have := comparedError_sq_deriv t s.hi.ineqThr hder
    simp only [if_true]
    refine this.congr_deriv ?_
    rw [show g ρ = E.error.getD ρ 0 * ∑ k ∈ Finset.range nv, E.jac ρ k * V k from if_pos hcov, hE0]
    simp only [if_true, hJ']
    by_cases hin : InsideLimit t s.hi.ineqThr (x 0)
    · simp [hin]
    · simp only [if_neg hin]
      rw [sum_swap_apply]
      ring
  · have hg0 : g ρ = 0 := if_neg hcov
    rw [hg0, mul_zero]
    cases b with
    | false => exact hasDerivAt_const (0 : ℝ) (comparedError t s.hi.ineqThr 0 * comparedError t s.hi.ineqThr 0)
    | true =>
      have hd : s.rowActive c = false := by
        cases ha : s.rowActive c with
        | false => rfl
        | true => exact absurd (hcovI.2 (by rw [ha]; rfl)) hcov
      have hz : HasDerivAt x 0 0 := by
        refine hder.congr_deriv ?_
        apply Finset.sum_eq_zero
        intro j hj
        rw [left_out_still hb hsy hw hcoh hs (γ 0) hV c hd (fun k => c.fn.jac (γ 0) j k), mul_zero]
        intro k hk
        refine hfl _ (mem_atLevel.1 hmem) j k (Finset.mem_range.1 hj) ?_
        intro hact
        apply hk
        unfold ActiveOn
        rw [List.getD_eq_getElem?_getD, hact]; rfl
      have := comparedError_sq_deriv t s.hi.ineqThr hz
      refine this.congr_deriv ?_
      split <;> simp

end Hpp
