import Verif.HI.NewtonLinkProps
import Verif.HI.JacobianEx

/-!
# C114: a solver
-/

namespace Hpp

open Matrix

namespace HINewtonEx

/-- Derivative of the difference of two vectors. -/
abbrev D := HIJacEx.D

/-- Velocity of a curve of a vector space. -/
abbrev Vel := HIJacEx.Vel

/-- `q ↦ q₁² - q₀` -/
noncomputable def fn : Fn ℝ Nat where
  key := 0
  inputSize := 2
  inputDer := 2
  spaceId := 1
  space := vectorSpace ℝ 1
  value q := [q 1 ^ 2 - q 0]
  jac q := fun _ k => if k = 0 then -1 else if k = 1 then 2 * q 1 else 0
  activeQ := [true, true]
  active := [true, true]

/-- `q₁² = q₀` -/
noncomputable def con : Impl ℝ Nat := (Impl.create fn [.equality] []).get rfl

/-- The variable `q₁` is free. -/
noncomputable def sol : HI ℝ Nat :=
  { ((HI.init ℝ Nat 2).add con 0).1.setFreeIndices (Blocks.empty.add 1 1) with
    sqThr := 1 / 10 ^ 8, ineqThr := 0, maxIter := 20, lastIsOptional := false, byLevel := false }

noncomputable def lev : Level ℝ Nat := (sol.levels[0]?).get rfl

theorem lev_eq : sol.levels[0]? = some lev := (Option.some_get _).symm

theorem levels_eq : sol.levels = [lev] := rfl

def El (f : Fn ℝ Nat) (g : List ℝ) : Prop := g.length = f.space.nq

theorem con_fn : con.fn = fn := rfl

theorem built : HI.Built El 2 [(con, 0)] sol :=
  .params _ _ _ _ _ (.free (.add (h := []) .init ⟨fn, [], [.equality], .create _ _ (Option.some_get _).symm⟩ (Prod.ext rfl rfl)))

theorem law (e : Impl ℝ Nat × Nat) (he : e ∈ [(con, 0)]) : e.1.fn.space.Lawful (El e.1.fn) := by
  simp only [List.mem_singleton] at he; subst he
  exact vectorSpace_lawful 1

theorem val (e : Impl ℝ Nat × Nat) (he : e ∈ [(con, 0)]) (q : Nat → ℝ) : El e.1.fn (e.1.fn.value q) := by
  simp only [List.mem_singleton] at he; subst he
  rfl

theorem free_eq : indices sol.free.segs = [1] := rfl
theorem rows_eq : indices lev.rows.segs = [0] := rfl

theorem rhs (R : Nat → List ℝ) (hR : HI.RhsIs El [(con, 0)] sol R) : R 0 = [0] := by
  have h1 := hR.eq 0 lev lev_eq
  have h2 : lev.rhs = [0] := rfl
  have h3 : atLevel [(con, 0)] 0 = [con] := rfl
  rw [h2, h3] at h1
  simp only [List.flatMap_cons, List.flatMap_nil, List.append_nil] at h1
  exact h1.symm

theorem conErr (q : Nat → ℝ) : conError sol.ineqThr q con [0] = [q 1 ^ 2 - q 0] := by
  show [q 1 ^ 2 - q 0 - 0] = _
  rw [sub_zero]

theorem sqNorm_eq (q : Nat → ℝ) : sol.sqNorm q = some ((q 1 ^ 2 - q 0) ^ 2) := by
  obtain ⟨hs, hf, R, hR⟩ := built.inv law val
  rw [solver_sqNorm_eq hs hf hR (fun h => by cases h)]
  have h1 : (List.range sol.nMandatory).flatMap (atLevel [(con, 0)]) = [con] := rfl
  rw [h1, List.foldl_cons, List.foldl_nil]
  have h2 : R con.fn.key = [0] := rhs R hR
  rw [h2, conErr]
  congr 1
  show max 0 (0 + (q 1 ^ 2 - q 0) * (q 1 ^ 2 - q 0)) = _
  rw [zero_add, max_eq_right (mul_self_nonneg _)]
  ring

theorem dErr_eq (q : Nat → ℝ) (r) : sol.dErr D (fun _ _ => 0) q lev r = q 1 ^ 2 - q 0 := by
  obtain ⟨hs, hf, R, hR⟩ := built.inv law val
  obtain ⟨E, hE, -, -, -, he, -⟩ := level_evalJac hs hf hR lev_eq D sol.ineqThr sol.free.segs q fun _ _ => 0
  have h2 : R con.fn.key = [0] := rhs R hR
  have h3 : atLevel [(con, 0)] 0 = [con] := rfl
  rw [h3, List.flatMap_cons, List.flatMap_nil, List.append_nil, h2, conErr] at he
  have hr : (indices lev.rows.segs).getD r 0 = 0 := by
    have h4 : r.1 < 1 := r.2
    have h5 : r.1 = 0 := by omega
    rw [h5]; rfl
  show ((lev.evalJac D sol.ineqThr sol.free.segs q fun _ _ => 0).map fun E =>
    E.error.getD ((indices lev.rows.segs).getD r 0) 0).getD 0 = _
  rw [hE, Option.map_some, Option.getD_some, hr, he]
  rfl

theorem dJ_eq (q : Nat → ℝ) (r c) : sol.dJ D (fun _ _ => 0) q lev r c = 2 * q 1 := by
  obtain ⟨hs, hf, R, hR⟩ := built.inv law val
  obtain ⟨E, hE, -, -, -, -, hr, hJ⟩ := level_evalJac hs hf hR lev_eq D sol.ineqThr sol.free.segs q fun _ _ => 0
  have h2 : R con.fn.key = [0] := rhs R hR
  have hr' : (indices lev.rows.segs).getD r 0 = 0 := by
    have h4 : r.1 < 1 := r.2
    have h5 : r.1 = 0 := by omega
    rw [h5]; rfl
  have hc' : (indices sol.free.segs).getD c 0 = 1 := by
    have h4 : c.1 < 1 := c.2
    have h5 : c.1 = 0 := by omega
    rw [h5]; rfl
  show ((lev.evalJac D sol.ineqThr sol.free.segs q fun _ _ => 0).map fun E => E.redJ r c).getD 0 = _
  rw [hE, Option.map_some, Option.getD_some, hr, hr', hc']
  have := hJ [] con [] rfl 0 Nat.one_pos .equality true (q 1 ^ 2 - q 0 - 0) rfl rfl (by rw [h2]; rfl) 1
  rw [if_neg (by rintro (⟨h, -⟩ | ⟨h, -⟩) <;> cases h)] at this
  refine this.trans ?_
  show ∑ j ∈ Finset.range 1, (if 0 = j then (1 : ℝ) else 0) * (2 * q 1) = _
  simp

/-- The component of a velocity of the free variable -/
def comp (v : Fin (indices sol.free.segs).length → ℝ) : ℝ := v ⟨0, Nat.one_pos⟩

theorem sum_free (f : Fin (indices sol.free.segs).length → ℝ) : ∑ i, f i = f ⟨0, Nat.one_pos⟩ :=
  Fin.sum_univ_one f

theorem sum_rows (f : Fin (indices lev.rows.segs).length → ℝ) : ∑ i, f i = f ⟨0, Nat.one_pos⟩ :=
  Fin.sum_univ_one f

theorem nrm_free (v : Fin (indices sol.free.segs).length → ℝ) : nrm v = |comp v| := by
  unfold nrm dotProduct
  rw [sum_free, Real.sqrt_mul_self_eq_abs]; rfl

theorem nrm_rows (v : Fin (indices lev.rows.segs).length → ℝ) : nrm v = |v ⟨0, Nat.one_pos⟩| := by
  unfold nrm dotProduct
  rw [sum_rows, Real.sqrt_mul_self_eq_abs]

theorem dJ_mul (q : Nat → ℝ) (v) (r) : (sol.dJ D (fun _ _ => 0) q lev *ᵥ v) r = 2 * q 1 * comp v := by
  show ∑ c, sol.dJ D (fun _ _ => 0) q lev r c * v c = _
  rw [sum_free, dJ_eq]; rfl

theorem move (q : Fin 2 → ℝ) (v) : hiMove sol q v = ![q 0, q 1 + comp v] := by
  funext i
  fin_cases i
  · show q 0 + expand (hiFree sol) v (fun _ => 0) 0 = q 0
    rw [expand_notMem, add_zero]
    intro j hj
    have h4 : j.1 < 1 := j.2
    have h5 : j = ⟨0, Nat.one_pos⟩ := Fin.ext (Nat.lt_one_iff.1 h4)
    rw [h5] at hj
    cases hj
  · refine congrArg (q 1 + ·) ?_
    exact expand_mem (hiFree sol) (hiFree_inj (by rw [free_eq]; simp)) v (fun _ => 0) ⟨0, Nat.one_pos⟩

theorem vel0 (v) : expand (hiFree sol) v (fun _ => (0 : ℝ)) 0 = 0 := by
  rw [expand_notMem]
  intro j hj
  have h4 : j.1 < 1 := j.2
  have h5 : j = ⟨0, Nat.one_pos⟩ := Fin.ext (Nat.lt_one_iff.1 h4)
  rw [h5] at hj
  cases hj

theorem vel1 (v) : expand (hiFree sol) v (fun _ => (0 : ℝ)) 1 = comp v :=
  expand_mem (hiFree sol) (hiFree_inj (by rw [free_eq]; simp)) v (fun _ => 0) ⟨0, Nat.one_pos⟩

theorem moves (q : Fin 2 → ℝ) (v) : Moves El [(con, 0)] D Vel 2 (fun u => coords (hiMove sol q (u • v)))
    (expand (hiFree sol) v fun _ => 0) where
  diff := by
    intro e he c w r hc hr i hi
    simp only [List.mem_singleton] at he; subst he
    rw [con_fn] at hc hr hi ⊢
    have hi' : i < 1 := hi
    have hr' : r.length = 1 := hr
    have hsum : ∑ j ∈ Finset.range fn.space.nv, D fn.space r (c 0) i j * w j = w i := by
      rw [Finset.sum_eq_single i]
      · simp [D, HIJacEx.D]
      · intro j _ hj; simp [D, HIJacEx.D, Ne.symm hj]
      · intro h; exact absurd (Finset.mem_range.2 hi) h
    rw [hsum]
    have := (hc.2 i hi).sub_const (r.getD i 0)
    refine HasDerivAt.congr_of_eventuallyEq this ?_
    filter_upwards with t
    have hl : (c t).length = 1 := hc.1 t
    show (List.zipWith (· - ·) (c t) r).getD i 0 = (c t).getD i 0 - r.getD i 0
    rw [List.getD_eq_getElem?_getD, List.getD_eq_getElem?_getD, List.getD_eq_getElem?_getD,
      List.getElem?_zipWith, List.getElem?_eq_getElem (by omega), List.getElem?_eq_getElem (by omega)]
    rfl
  fn := by
    intro e he
    simp only [List.mem_singleton] at he; subst he
    rw [con_fn]
    refine ⟨fun t => rfl, fun i hi => ?_⟩
    have hi' : i < 1 := hi
    have hi0 : i = 0 := by omega
    subst hi0
    have h1 : HasDerivAt (fun t : ℝ => q 1 + t * comp v) (comp v) 0 := by
      simpa using ((hasDerivAt_id (0 : ℝ)).mul_const (comp v)).const_add (q 1)
    have h2 : HasDerivAt (fun t : ℝ => (q 1 + t * comp v) ^ 2 - q 0) (2 * q 1 * comp v) 0 := by
      have := (h1.pow 2).sub_const (q 0)
      refine this.congr_deriv ?_
      simp
    refine HasDerivAt.congr_of_eventuallyEq (h2.congr_deriv ?_) ?_
    · show _ = ∑ k ∈ Finset.range 2, fn.jac (coords (hiMove sol q ((0 : ℝ) • v))) 0 k * expand (hiFree sol) v (fun _ => 0) k
      rw [Finset.sum_range_succ, Finset.sum_range_succ, Finset.sum_range_zero, vel0, vel1, mul_zero, zero_add, zero_add]
      show _ = 2 * coords (hiMove sol q ((0 : ℝ) • v)) 1 * comp v
      rw [move]
      show _ = 2 * (q 1 + (0 : ℝ) * comp v) * comp v
      ring
    · filter_upwards with t
      show (coords (hiMove sol q (t • v)) 1) ^ 2 - coords (hiMove sol q (t • v)) 0 = _
      rw [move]
      rfl

theorem in_ball {q : Fin 2 → ℝ} (hq : dist q ![2, 3 / 2] ≤ 1 / 2) : 1 ≤ q 1 ∧ q 1 ≤ 2 := by
  have := (dist_pi_le_iff (by norm_num)).1 hq 1
  rw [Real.dist_eq] at this
  have h := abs_le.1 this
  simp at h
  constructor <;> linarith [h.1, h.2]

end HINewtonEx

open HINewtonEx in
/-- The hypotheses are met by `q₁² = q₀` around `(2, 3/2)`, where `q₁` is free. -/
example (o : SvdOps ℝ) (ho : o.Exact) (hor : o.Ortho) (J0 : (Fin 2 → ℝ) → Jac ℝ) (dq) :
    let r := solve (sol.ops D o J0 coords fun _ q u => ((), lsConstant ⟨hiMove sol, fun c v => c • v, fun _ => 0⟩ q u))
      sol.sqThr (1 / 10 ^ 12) sol.maxIter sol.reducedDim (![2, 3 / 2] : Fin 2 → ℝ) (dq, ())
    r.status = some .success ∧ r.arg 0 = 2 ∧ (r.arg 1 ^ 2 - 2) ^ 2 ≤ 1 / 10 ^ 8 := by
  intro r
  have hmem : ∀ l ∈ sol.levels, l = lev := fun l hl => by rw [levels_eq] at hl; exact List.mem_singleton.1 hl
  obtain ⟨h1, -, ⟨x, hx, hx'⟩, -, h5⟩ := C114_success (D := D) (Vel := Vel) (nq := 2) built law val
    (by rw [free_eq]; simp) (by rw [free_eq]; simp)
    (by intro e he t ht
        simp only [List.mem_singleton] at he; subst he
        exact .inl (List.mem_singleton.1 ht))
    (by intro e he _
        simp only [List.mem_singleton] at he; subst he
        rfl)
    rfl rfl (.inl (le_refl 1)) o ho hor (1 / 10 ^ 12) (by show (0 : ℝ) ≤ 1 / 10 ^ 8; norm_num) ![2, 3 / 2] (1 / 2) 2 (1 / 2) 16
    (by norm_num) (by norm_num) (by norm_num) (fun q _ v => moves q v)
    (by
      intro l hl q v _ _ w
      obtain rfl := hmem l hl
      rw [nrm_rows, sub_mulVec, Pi.sub_apply, dJ_mul, dJ_mul, nrm_free, nrm_free, move]
      show |2 * (q 1 + comp v) * comp w - 2 * q 1 * comp w| ≤ _
      rw [show 2 * (q 1 + comp v) * comp w - 2 * q 1 * comp w = 2 * comp v * comp w by ring, abs_mul, abs_mul]
      norm_num)
    (by
      intro q hq
      obtain ⟨b1, -⟩ := in_ball hq
      refine ⟨fun _ => -(q 1 ^ 2 - q 0) / (2 * q 1), fun l hl => ?_, ?_⟩
      · obtain rfl := hmem l hl
        funext r
        rw [dJ_mul, Pi.neg_apply, dErr_eq]
        show 2 * q 1 * (-(q 1 ^ 2 - q 0) / (2 * q 1)) = -(q 1 ^ 2 - q 0)
        field_simp
      · rw [nrm_free, sqNorm_eq]
        show |-(q 1 ^ 2 - q 0) / (2 * q 1)| ≤ 1 / 2 * Real.sqrt ((q 1 ^ 2 - q 0) ^ 2)
        rw [Real.sqrt_sq_eq_abs, abs_div, abs_neg, abs_of_pos (by linarith : 0 < 2 * q 1), div_le_iff₀ (by linarith)]
        nlinarith [abs_nonneg (q 1 ^ 2 - q 0)])
    (by
      intro l hl q hq v
      obtain rfl := hmem l hl
      obtain ⟨b1, b2⟩ := in_ball hq
      unfold dotProduct
      rw [sum_rows, sum_free, dJ_mul]
      show 2 * q 1 * comp v * (2 * q 1 * comp v) ≤ 16 * (comp v * comp v)
      have hq4 : q 1 * q 1 ≤ 4 := by nlinarith
      have := mul_le_mul_of_nonneg_right hq4 (mul_self_nonneg (comp v))
      linarith [show 2 * q 1 * comp v * (2 * q 1 * comp v) = 4 * (q 1 * q 1 * (comp v * comp v)) by ring])
    (1 / 4) (by rw [sqNorm_eq]; show some (((3 / 2 : ℝ) ^ 2 - 2) ^ 2) = _; norm_num) (by norm_num) (by norm_num) (by norm_num)
    (fun _ => True) 1 one_pos (fun _ q u => ((), lsConstant ⟨hiMove sol, fun c v => c • v, fun _ => 0⟩ q u))
    (fun _ q u _ => ⟨trivial, 1, le_refl _, le_refl _, by rw [one_smul]; rfl⟩)
    (by show ((1 - (1 : ℝ) / 2) ^ 20 * (1 / 4)) ^ 2 ≤ 1 / 10 ^ 8; norm_num)
    (by show (16 : ℝ) * (1 / 10 ^ 12) ≤ 1 / 10 ^ 8; norm_num) J0 dq () trivial
  have h6 : r.arg 0 = 2 := h5 0 (by rw [free_eq]; simp)
  refine ⟨h1, h6, ?_⟩
  rw [sqNorm_eq] at hx
  have hx2 := Option.some.inj hx
  rw [← hx2] at hx'
  have : (r.arg 1 ^ 2 - r.arg 0) ^ 2 ≤ 1 / 10 ^ 8 := hx'
  rwa [h6] at this

open HINewtonEx in
/-- With no free variable nothing can be done about `q₁² = q₀` at `(2, 3/2)`. -/
example (o : SvdOps ℝ) (J0 : (Fin 2 → ℝ) → Jac ℝ) (maxIter dim : Nat) (dq) :
    (solve ((sol.setFreeIndices Blocks.empty).ops D o J0 coords
        fun _ q u => ((), lsConstant ⟨hiMove (sol.setFreeIndices Blocks.empty), fun c v => c • v, fun _ => 0⟩ q u))
      sol.sqThr (1 / 10 ^ 12) maxIter dim (![2, 3 / 2] : Fin 2 → ℝ) (dq, ())).status ≠ some .success := by
  have hb : HI.Built El 2 [(con, 0)] (sol.setFreeIndices Blocks.empty) := .free built
  obtain ⟨hs, hf, R, hR⟩ := hb.inv law val
  have h0 : R con.fn.key = [0] := by
    have h1 := hR.eq 0 (((sol.setFreeIndices Blocks.empty).levels[0]?).get rfl) (Option.some_get _).symm
    have h3 : atLevel [(con, 0)] 0 = [con] := rfl
    rw [h3] at h1
    simp only [List.flatMap_cons, List.flatMap_nil, List.append_nil] at h1
    exact h1.symm
  have hsat := isConstraintSatisfied_eq hs hf hR (List.mem_singleton.2 rfl : (con, 0) ∈ [(con, 0)]) (coords ![2, 3 / 2])
  refine C114_lost_constraint hb law val (con, 0) (List.mem_singleton.2 rfl) (by decide)
    (fun t ht => .inl (List.mem_singleton.1 ht)) (fun q q' hqq => ?_) o (1 / 10 ^ 12) ![2, 3 / 2] _ _ hsat ?_ _
    (fun _ q u => ⟨u, rfl⟩) maxIter dim J0 _
  · have h4 : indices (sol.setFreeIndices Blocks.empty).free.segs = [] := rfl
    show [q 1 ^ 2 - q 0] = [q' 1 ^ 2 - q' 0]
    rw [hqq 0 (by rw [h4]; simp), hqq 1 (by rw [h4]; simp)]
  · rw [h0]
    show (1 : ℝ) / 10 ^ 8 < 0 + ((3 / 2) ^ 2 - 2 - 0) * ((3 / 2) ^ 2 - 2 - 0)
    norm_num

end Hpp
