import Verif.HI.JacobianProps
import Mathlib.Analysis.Calculus.Deriv.Abs

/-!
# C111: a solver, and what happens at the limit of an inequality
-/

namespace Hpp

namespace HIJacEx

/-- `q ↦ (q₀ + q₁, q₀ q₁)` -/
noncomputable def fn : Fn ℝ Nat where
  key := 0
  inputSize := 2
  inputDer := 2
  spaceId := 2
  space := vectorSpace ℝ 2
  value q := [q 0 + q 1, q 0 * q 1]
  jac q := fun r k => if r = 0 then (if k < 2 then 1 else 0)
    else if k = 0 then q 1 else if k = 1 then q 0 else 0
  activeQ := [true, true]
  active := [true, true]

/-- `q₀ + q₁ ≥ 0`, `q₀ q₁ = 0` -/
noncomputable def con : Impl ℝ Nat := (Impl.create fn [.superior, .equality] []).get rfl

noncomputable def sol : HI ℝ Nat := ((HI.init ℝ Nat 2).add con 0).1

noncomputable def lev : Level ℝ Nat := (sol.levels[0]?).get rfl

theorem lev_eq : sol.levels[0]? = some lev := (Option.some_get _).symm

def El (f : Fn ℝ Nat) (g : List ℝ) : Prop := g.length = f.space.nq

theorem con_fn : con.fn = fn := rfl

theorem built : HI.Built El 2 [(con, 0)] sol :=
  .add (h := []) .init ⟨fn, [], [.superior, .equality], .create _ _ (Option.some_get _).symm⟩ (Prod.ext rfl rfl)

theorem law (e : Impl ℝ Nat × Nat) (he : e ∈ [(con, 0)]) : e.1.fn.space.Lawful (El e.1.fn) := by
  simp only [List.mem_singleton] at he; subst he
  exact vectorSpace_lawful 2

theorem val (e : Impl ℝ Nat × Nat) (he : e ∈ [(con, 0)]) (q : Nat → ℝ) : El e.1.fn (e.1.fn.value q) := by
  simp only [List.mem_singleton] at he; subst he
  rfl

/-- Derivative of the difference of two vectors. -/
def D (_ : Space ℝ) (_ _ : List ℝ) (i j : Nat) : ℝ := if i = j then 1 else 0

/-- Velocity of a curve of a vector space. -/
def Vel (f : Fn ℝ Nat) (c : ℝ → List ℝ) (w : Nat → ℝ) : Prop :=
  (∀ t, (c t).length = f.space.nq) ∧
  ∀ i, i < f.space.nv → HasDerivAt (fun t => (c t).getD i 0) (w i) 0

/-- The configuration `(a, b)` moves with velocity `(v₀, v₁)`. -/
def line (a b v0 v1 : ℝ) : ℝ → Nat → ℝ := fun t k =>
  if k = 0 then a + t * v0 else if k = 1 then b + t * v1 else 0

def vel (v0 v1 : ℝ) : Nat → ℝ := fun k => if k = 0 then v0 else if k = 1 then v1 else 0

theorem free_eq : indices sol.free.segs = [0, 1] := rfl

theorem along (a b v0 v1 : ℝ) :
    Along El [(con, 0)] D Vel 2 sol.free.segs (line a b v0 v1) (vel v0 v1) where
  diff := by
    intro e he c w r hc hr i hi
    simp only [List.mem_singleton] at he; subst he
    rw [con_fn] at hc hr hi ⊢
    have hi' : i < 2 := hi
    have hr' : r.length = 2 := hr
    have hsum : ∑ j ∈ Finset.range fn.space.nv, D fn.space r (c 0) i j * w j = w i := by
      rw [Finset.sum_eq_single i]
      · simp [D]
      · intro j _ hj; simp [D, Ne.symm hj]
      · intro h; exact absurd (Finset.mem_range.2 hi) h
    rw [hsum]
    have := (hc.2 i hi).sub_const (r.getD i 0)
    refine HasDerivAt.congr_of_eventuallyEq this ?_
    filter_upwards with t
    have hl : (c t).length = 2 := hc.1 t
    show (List.zipWith (· - ·) (c t) r).getD i 0 = (c t).getD i 0 - r.getD i 0
    rw [List.getD_eq_getElem?_getD, List.getD_eq_getElem?_getD, List.getD_eq_getElem?_getD,
      List.getElem?_zipWith, List.getElem?_eq_getElem (by omega), List.getElem?_eq_getElem (by omega)]
    rfl
  fn := by
    intro e he
    simp only [List.mem_singleton] at he; subst he
    rw [con_fn]
    refine ⟨fun t => rfl, fun i hi => ?_⟩
    have hi' : i < 2 := hi
    have h0 : HasDerivAt (fun t : ℝ => a + t * v0) v0 0 := by
      simpa using ((hasDerivAt_id (0 : ℝ)).mul_const v0).const_add a
    have h1 : HasDerivAt (fun t : ℝ => b + t * v1) v1 0 := by
      simpa using ((hasDerivAt_id (0 : ℝ)).mul_const v1).const_add b
    rcases (by omega : i = 0 ∨ i = 1) with rfl | rfl
    · refine (h0.add h1).congr_deriv ?_
      simp [Finset.sum_range_succ, fn, vel]
    · refine (h0.mul h1).congr_deriv ?_
      simp [Finset.sum_range_succ, fn, vel, line]
      ring
  still := by
    intro k hk
    rw [free_eq] at hk
    simp only [List.mem_cons, List.not_mem_nil, or_false, not_or] at hk
    simp [vel, hk.1, hk.2]
  range := by
    intro k hk
    rw [free_eq] at hk
    simp only [List.mem_cons, List.not_mem_nil, or_false] at hk
    omega
  nodup := by rw [free_eq]; simp

theorem flags (q : Nat → ℝ) : FlagsRight [(con, 0)] q := by
  intro e he j k hj hk
  simp only [List.mem_singleton] at he; subst he
  have hk' : ([true, true] : List Bool)[k]? ≠ some true := hk
  have h2 : 2 ≤ k := by
    by_contra h
    rcases (by omega : k = 0 ∨ k = 1) with rfl | rfl <;> simp at hk'
  show (if j = 0 then (if k < 2 then (1 : ℝ) else 0) else if k = 0 then q 1 else if k = 1 then q 0 else 0) = 0
  simp [show ¬ k < 2 by omega, show k ≠ 0 by omega, show k ≠ 1 by omega]

theorem error_row0 (q : Nat → ℝ) (thr : ℝ) :
    ((lev.error thr q).getD []).getD 0 0 = comparedError .superior thr (q 0 + q 1) := by
  obtain ⟨hs, hf, R, hR⟩ := built.inv law val
  have hr : R 0 = [0, 0] := by
    have h1 := hR.eq 0 lev lev_eq
    have h2 : lev.rhs = [0, 0] := rfl
    have h3 : atLevel [(con, 0)] 0 = [con] := rfl
    rw [h2, h3] at h1
    simp only [List.flatMap_cons, List.flatMap_nil, List.append_nil] at h1
    exact h1.symm
  rw [level_error hs hf hR lev_eq thr q]
  show (conError thr q con (R 0) ++ []).getD 0 0 = _
  rw [hr, List.append_nil]
  show comparedError .superior thr (if true then (q 0 + q 1) - 0 else 0) = _
  simp

end HIJacEx

open HIJacEx in
/-- The inequality is violated at `(-2, 1)`, and met with a margin at `(2, 1)`. -/
example (v0 v1 : ℝ) (J0 : Jac ℝ) :
    (∃ E, lev.evalJac D sol.ineqThr sol.free.segs (line (-2) 1 v0 v1 0) J0 = some E ∧
      HasDerivAt (fun u => ((lev.error sol.ineqThr (line (-2) 1 v0 v1 u)).getD []).getD 0 0)
        (∑ c ∈ Finset.range (indices sol.free.segs).length,
          E.redJ 0 c * vel v0 v1 ((indices sol.free.segs).getD c 0)) 0) ∧
    HasDerivAt (fun u => ((lev.error sol.ineqThr (line (-2) 1 v0 v1 u)).getD []).getD 0 0) (v0 + v1) 0 := by
  obtain ⟨E, hE, -, h⟩ := C111_reduced_jacobian built law val (along (-2) 1 v0 v1) 0 lev lev_eq J0
  refine ⟨⟨E, hE, h 0 0 rfl fun t ht => ?_⟩, ?_⟩
  · have ht' : t = .superior := by
      have : lev.comp[0]? = some .superior := rfl
      rw [this] at ht; exact (Option.some.inj ht).symm
    subst ht'
    rintro (⟨-, h⟩ | ⟨h, -⟩)
    · have h' : ((-2 : ℝ) + 0 * v0 + (1 + 0 * v1)) - 0 = 0 := h
      norm_num at h'
    · cases h
  · simp only [error_row0]
    have h0 : HasDerivAt (fun u : ℝ => line (-2) 1 v0 v1 u 0 + line (-2) 1 v0 v1 u 1) (v0 + v1) 0 := by
      have h0 : HasDerivAt (fun t : ℝ => -2 + t * v0) v0 0 := by
        simpa using ((hasDerivAt_id (0 : ℝ)).mul_const v0).const_add (-2)
      have h1 : HasDerivAt (fun t : ℝ => 1 + t * v1) v1 0 := by
        simpa using ((hasDerivAt_id (0 : ℝ)).mul_const v1).const_add 1
      exact h0.add h1
    have hthr : sol.ineqThr = 0 := rfl
    have := comparedError_deriv .superior sol.ineqThr h0 (by
      rw [hthr]
      rintro (⟨-, h⟩ | ⟨h, -⟩)
      · norm_num [line] at h
      · cases h)
    rw [if_neg] at this
    · exact this
    · rw [hthr]
      rintro (⟨-, h⟩ | ⟨h, -⟩)
      · norm_num [line] at h
      · cases h

open HIJacEx in
/-- The hypotheses on the squared norm hold everywhere. -/
example (a b v0 v1 : ℝ) : ∃ E, lev.evalJac D sol.ineqThr sol.free.segs (line a b v0 v1 0) (fun _ _ => 7) =
    some E ∧ DifferentiableAt ℝ (fun u => sqSum ((lev.error sol.ineqThr (line a b v0 v1 u)).getD [])) 0 := by
  obtain ⟨E, hE, h⟩ := C111_squared_norm built law val (along a b v0 v1) (flags _) 0 lev lev_eq fun _ _ => 7
  exact ⟨E, hE, h.differentiableAt⟩

open HIJacEx in
/-- C111 is false at the limit of an inequality.  At `(0, 0)`, the row of the reduced Jacobian of
`q₀ + q₁ ≥ 0` is zero, but the error is not differentiable: it decreases at unit speed when `q₀` does. -/
theorem C111_at_limit_refuted :
    ∃ E, lev.evalJac D sol.ineqThr sol.free.segs (line 0 0 (-1) 0 0) (fun _ _ => 0) = some E ∧
      (∀ c, E.redJ 0 c = 0) ∧
      (∀ u, 0 ≤ u → ((lev.error sol.ineqThr (line 0 0 (-1) 0 u)).getD []).getD 0 0 = -u) ∧
      ¬ DifferentiableAt ℝ (fun u => ((lev.error sol.ineqThr (line 0 0 (-1) 0 u)).getD []).getD 0 0) 0 := by
  obtain ⟨hs, hf, R, hR⟩ := built.inv law val
  obtain ⟨E, hE, -, -, -, -, hred, hJ⟩ := level_evalJac hs hf hR lev_eq D sol.ineqThr sol.free.segs
    (line 0 0 (-1) 0 0) fun _ _ => 0
  have herr : ∀ u : ℝ, ((lev.error sol.ineqThr (line 0 0 (-1) 0 u)).getD []).getD 0 0 = min (-u) 0 := by
    intro u
    rw [error_row0, comparedError_eq_min]
    have : sol.ineqThr = 0 := rfl
    rw [this]
    simp [line]
  refine ⟨E, hE, ?_, ?_, ?_⟩
  · intro c
    rw [hred]
    obtain ⟨pre, c', post, r, t, b, x, -, ht, hm, hx0, herr', -, hJ'⟩ :=
      level_row_along hs hf hR lev_eq sol.ineqThr (fun _ _ => 0) (along 0 0 (-1) 0).toMoves hE 0
        (show 0 < 2 by norm_num)
    have : (indices lev.rows.segs).getD 0 0 = 0 := rfl
    rw [this, hJ', if_pos]
    have htt : t = .superior := by
      have h1 : lev.comp[0]? = some .superior := rfl
      rw [h1] at ht; exact (Option.some.inj ht).symm
    subst htt
    refine .inl ⟨rfl, ?_⟩
    have h0 : x 0 = 0 := by
      rw [hx0]
      show ((0 : ℝ) + 0 * -1) + (0 + 0 * 0) - 0 = 0
      norm_num
    have h1 : sol.ineqThr = 0 := rfl
    rw [h0, h1]
    simp
  · intro u hu
    rw [herr, min_eq_left (by linarith)]
  · simp only [herr]
    intro hd
    have h1 : (fun u : ℝ => |u|) = fun u => -u + -2 * min (-u) 0 := by
      funext u
      rcases le_total 0 u with h | h
      · rw [abs_of_nonneg h, min_eq_left (by linarith)]; ring
      · rw [abs_of_nonpos h, min_eq_right (by linarith)]; ring
    apply not_differentiableAt_abs_zero
    show DifferentiableAt ℝ (fun u : ℝ => |u|) 0
    rw [h1]
    exact differentiableAt_id.neg.add (hd.const_mul (-2))

end Hpp
