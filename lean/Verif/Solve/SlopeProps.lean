import Verif.Solve.Newton
import Verif.Solve.DescentProps
import Verif.Solve.LineSearchProps
import Mathlib.Analysis.Calculus.Deriv.Mul
import Mathlib.Analysis.Calculus.Deriv.Add
import Mathlib.Analysis.Calculus.Deriv.Slope
import Mathlib.LinearAlgebra.Matrix.Notation

/-!
# The slope computed by the backtracking line search: C90
-/

namespace Hpp

open Matrix

variable {A α : Type}

section
variable [Field α] [LinearOrder α] [IsStrictOrderedRing α]

theorem cost_normal {n : Nat} (d : DLevel α n) (x : Fin n → α) (h : ∀ y, d.cost x ≤ d.cost y) :
    d.Jᵀ *ᵥ (d.J *ᵥ x + d.e) = 0 := by
  obtain ⟨w, hw⟩ := normal_eq d.J (-d.e)
  have hmin : ∀ z, (d.J *ᵥ x - -d.e) ⬝ᵥ (d.J *ᵥ x - -d.e) ≤ (d.J *ᵥ z - -d.e) ⬝ᵥ (d.J *ᵥ z - -d.e) := by
    intro z
    simpa [DLevel.cost, sub_neg_eq_add] using h z
  have hg : d.Jᵀ *ᵥ (d.J *ᵥ w + d.e) = 0 := by
    rw [mulVec_add, mulVec_mulVec, hw, mulVec_neg, neg_add_cancel]
  have key : ∀ z, d.cost w ≤ d.cost z := by
    intro z
    have h1 : d.J *ᵥ z + d.e = (d.J *ᵥ w + d.e) + d.J *ᵥ (z - w) := by rw [mulVec_sub]; abel
    have h2 : (d.J *ᵥ w + d.e) ⬝ᵥ (d.J *ᵥ (z - w)) = 0 := by
      rw [dotProduct_mulVec, ← mulVec_transpose, hg, zero_dotProduct]
    have h3 : (d.J *ᵥ (z - w)) ⬝ᵥ (d.J *ᵥ w + d.e) = 0 := by rw [dotProduct_comm]; exact h2
    unfold DLevel.cost
    rw [h1]
    generalize d.J *ᵥ w + d.e = u at h2 h3 ⊢
    rw [add_dotProduct, dotProduct_add, dotProduct_add, h2, h3]
    have := dot_self_nonneg (d.J *ᵥ (z - w))
    linarith
  have := ls_unique d.J (-d.e) x w hmin (by
    have := key x
    simpa [DLevel.cost, sub_neg_eq_add] using this)
  rw [← this]
  exact hg

/-- The slope of a level for a step that satisfies the normal equations. -/
theorem slope_normal {n : Nat} (d : DLevel α n) (x : Fin n → α) (h : d.Jᵀ *ᵥ (d.J *ᵥ x + d.e) = 0) :
    (d.J *ᵥ x) ⬝ᵥ d.e = -((d.J *ᵥ x) ⬝ᵥ (d.J *ᵥ x)) ∧ ((d.J *ᵥ x) ⬝ᵥ d.e = 0 ↔ d.Jᵀ *ᵥ d.e = 0) := by
  have h1 : (d.J *ᵥ x) ⬝ᵥ (d.J *ᵥ x + d.e) = 0 := by
    rw [dotProduct_comm, dotProduct_mulVec, ← mulVec_transpose, h, zero_dotProduct]
  rw [dotProduct_add] at h1
  have h2 : (d.J *ᵥ x) ⬝ᵥ d.e = -((d.J *ᵥ x) ⬝ᵥ (d.J *ᵥ x)) := by linarith
  refine ⟨h2, fun h0 => ?_, fun h0 => ?_⟩
  · rw [h2, neg_eq_zero] at h0
    rw [dot_self_zero h0, zero_add] at h
    exact h
  · rw [dotProduct_comm, dotProduct_mulVec, ← mulVec_transpose, h0, zero_dotProduct]

omit [IsStrictOrderedRing α] in
theorem lexOpt_sub {n : Nat} (ds : List (DLevel α n)) : ∀ S : Set (Fin n → α), lexOpt S ds ⊆ S := by
  induction ds with
  | nil => intro S; exact fun x h => h
  | cons d ds ih => intro S x hx; exact (ih _ hx).1

/-- If a step of the set cancels all the linearised constraints so do the lexicographic minimisers. -/
theorem lexOpt_zero {n : Nat} (ds : List (DLevel α n)) : ∀ (S : Set (Fin n → α)) (v x : Fin n → α), v ∈ S →
    (∀ d ∈ ds, d.J *ᵥ v + d.e = 0) → x ∈ lexOpt S ds → ∀ d ∈ ds, d.J *ᵥ x + d.e = 0 := by
  induction ds with
  | nil => intro S v x _ _ _ d hd; simp at hd
  | cons d ds ih =>
    intro S v x hv h hx d' hd'
    have hv0 : d.cost v = 0 := by
      unfold DLevel.cost
      rw [h d (by simp), zero_dotProduct]
    rcases List.mem_cons.1 hd' with rfl | hd'
    · have hx' := lexOpt_sub ds _ hx
      have := hx'.2 v hv
      rw [hv0] at this
      exact dot_self_zero (le_antisymm this (dot_self_nonneg _))
    · have hm : v ∈ {x | x ∈ S ∧ ∀ y ∈ S, d.cost x ≤ d.cost y} := by
        refine ⟨hv, fun y _ => ?_⟩
        rw [hv0]
        exact dot_self_nonneg _
      exact ih _ v x hm (fun e he => h e (by simp [he])) hx d' hd'

end

/-! ## C90 -/

/-- Specification: sum of the squared norms of the errors of all levels. -/
def sumSq [Field α] {n : Nat} (lv : List (NLevel A α n)) (q : A) : α :=
  (lv.map fun l => l.err q ⬝ᵥ l.err q).sum

theorem foldl_add_sum {β : Type} [Field α] (f : β → α) (l : List β) : ∀ s : α,
    l.foldl (fun s d => s + f d) s = s + (l.map f).sum := by
  induction l with
  | nil => intro s; simp
  | cons d l ih => intro s; rw [List.foldl_cons, ih, List.map_cons, List.sum_cons, add_assoc]

theorem localSlope_sum [Field α] {n : Nat} (ds : List (DLevel α n)) (dq : Fin n → α) :
    localSlope ds dq = (ds.map fun d => (d.J *ᵥ dq) ⬝ᵥ d.e).sum := by
  unfold localSlope
  rw [foldl_add_sum (fun d : DLevel α n => (d.J *ᵥ dq) ⬝ᵥ d.e), zero_add]

/-- C90. What `computeLocalSlope` computes: if the Jacobians of the levels are the derivatives of their errors,
half the derivative, along the direction, of the sum of the squared errors of all levels. -/
theorem C90_derivative {n : Nat} (lv : List (NLevel A ℝ n)) (integrate : A → (Fin n → ℝ) → A) (q : A)
    (h0 : integrate q 0 = q) (dq : Fin n → ℝ)
    (hJ : ∀ l ∈ lv, ∀ i, HasDerivAt (fun t : ℝ => l.err (integrate q (t • dq)) i) ((l.J q *ᵥ dq) i) 0) :
    HasDerivAt (fun t : ℝ => sumSq lv (integrate q (t • dq)))
      (2 * localSlope (lv.map fun l => l.at q) dq) 0 := by
  rw [localSlope_sum, List.map_map]
  unfold sumSq
  induction lv with
  | nil => simpa using hasDerivAt_const (0 : ℝ) (0 : ℝ)
  | cons l lv ih =>
    have h1 := ih fun l' hl' => hJ l' (by simp [hl'])
    have h2 : HasDerivAt (fun t : ℝ => l.err (integrate q (t • dq)) ⬝ᵥ l.err (integrate q (t • dq)))
        (∑ i, (((l.J q *ᵥ dq) i) * l.err q i + l.err q i * ((l.J q *ᵥ dq) i))) 0 := by
      unfold dotProduct
      have := HasDerivAt.fun_sum (u := Finset.univ) fun i (_ : i ∈ Finset.univ) =>
        (hJ l (by simp) i).mul (hJ l (by simp) i)
      simpa [h0] using this
    have h3 := h2.fun_add h1
    simp only [List.map_cons, List.sum_cons]
    refine h3.congr_deriv ?_
    rw [mul_add]
    congr 1
    simp only [NLevel.at, dotProduct, Finset.mul_sum, Function.comp]
    refine Finset.sum_congr rfl fun i _ => ?_
    ring

/-- C90. With one level and an exact decomposition the slope is not positive: it is minus the squared norm of
the first order change of the error.  It is zero only where the gradient of the squared error is zero.
Thus the test of the validity of the direction never fails. -/
theorem C90_one_level [Field α] [LinearOrder α] [IsStrictOrderedRing α] (o : SvdOps α) (ho : o.Exact)
    (byLevel : Bool) (thr : α) {n : Nat} (d : DLevel α n) (dq : Fin n → α) {r : Fin n → α}
    (h : descend o byLevel thr [d] dq = some r) :
    localSlope [d] r = -((d.J *ᵥ r) ⬝ᵥ (d.J *ᵥ r)) ∧ localSlope [d] r ≤ 0 ∧
      (localSlope [d] r = 0 ↔ d.Jᵀ *ᵥ d.e = 0) := by
  obtain rfl := Option.some.inj h
  have hn := cost_normal d (o.solve d.J (-d.e)) fun y => by
    simpa [DLevel.cost, sub_neg_eq_add] using ho.ls d.J (-d.e) y
  have hs : localSlope [d] (o.solve d.J (-d.e)) = (d.J *ᵥ o.solve d.J (-d.e)) ⬝ᵥ d.e := by
    rw [localSlope_sum]; simp
  rw [hs]
  obtain ⟨h1, h2⟩ := slope_normal d _ hn
  refine ⟨h1, ?_, h2⟩
  rw [h1, neg_nonpos]
  exact dot_self_nonneg _

/-- C90. With several levels the direction does not increase, at first order, the error of the first
level. -/
theorem C90_first_level [Field α] [LinearOrder α] [IsStrictOrderedRing α] (o : SvdOps α) (ho : o.Exact)
    (thr : α) {n : Nat} (d : DLevel α n) (ds : List (DLevel α n)) (dq : Fin n → α) {r : Fin n → α}
    (h : descend o false thr (d :: ds) dq = some r) :
    (d.J *ᵥ r) ⬝ᵥ d.e ≤ 0 ∧ ((d.J *ᵥ r) ⬝ᵥ d.e = 0 ↔ d.Jᵀ *ᵥ d.e = 0) := by
  have h1 := lexOpt_sub ds _ (C36_lexicographic o ho thr (d :: ds) dq h)
  obtain ⟨h2, h3⟩ := slope_normal d r (cost_normal d r fun y => h1.2 y trivial)
  refine ⟨?_, h3⟩
  rw [h2, neg_nonpos]
  exact dot_self_nonneg _

/-- C90. If a step cancels the linearised constraints of all levels the slope is minus the sum of the squared
errors. -/
theorem C90_feasible [Field α] [LinearOrder α] [IsStrictOrderedRing α] (o : SvdOps α) (ho : o.Exact)
    (thr : α) {n : Nat} (ds : List (DLevel α n)) (dq v : Fin n → α) {r : Fin n → α}
    (hv : ∀ d ∈ ds, d.J *ᵥ v + d.e = 0) (h : descend o false thr ds dq = some r) :
    localSlope ds r = -(ds.map fun d => d.e ⬝ᵥ d.e).sum ∧
      (localSlope ds r < 0 ∨ ∀ d ∈ ds, d.e = 0) := by
  have h1 := lexOpt_zero ds Set.univ v r trivial hv (C36_lexicographic o ho thr ds dq h)
  have h2 : localSlope ds r = -(ds.map fun d => d.e ⬝ᵥ d.e).sum := by
    rw [localSlope_sum]
    have : ds.map (fun d => (d.J *ᵥ r) ⬝ᵥ d.e) = ds.map fun d => -(d.e ⬝ᵥ d.e) := by
      refine List.map_congr_left fun d hd => ?_
      rw [eq_neg_of_add_eq_zero_left (h1 d hd), neg_dotProduct]
    rw [this]
    clear this h1 h hv
    induction ds with
    | nil => simp
    | cons d ds ih => simp only [List.map_cons, List.sum_cons, ih]; ring
  refine ⟨h2, ?_⟩
  rw [h2]
  clear h2 h1 h hv
  induction ds with
  | nil => right; simp
  | cons d ds ih =>
    have h0 := dot_self_nonneg d.e
    simp only [List.map_cons, List.sum_cons]
    rcases ih with ih | ih
    · left; linarith
    · have hz : (ds.map fun d => d.e ⬝ᵥ d.e).sum = 0 := by
        rw [List.map_congr_left (g := fun _ => (0 : α)) fun d hd => by rw [ih d hd, zero_dotProduct]]
        simp
      rw [hz]
      by_cases he : d.e ⬝ᵥ d.e = 0
      · right
        intro d' hd'
        rcases List.mem_cons.1 hd' with rfl | hd'
        · exact dot_self_zero he
        · exact ih d' hd'
      · left
        have : 0 < d.e ⬝ᵥ d.e := lt_of_le_of_ne h0 (Ne.symm he)
        linarith

theorem bt_invalid (env : LsEnv A (Fin 1 → ℚ) ℚ) (s f0 : ℚ) (h : 0 < s) (a : A) (r : Fin 1 → ℚ) :
    backtracking env (.default ℚ) 5 s f0 a r =
      some ⟨env.integrate a (env.smul (1 / 5) r), env.smul (1 / 5) r, false, 0⟩ := by
  have : 2 * (BtParam.default ℚ).c * s > 0 := mul_pos (by norm_num [BtParam.default]) h
  unfold backtracking
  simp only
  rw [if_pos this]
  rfl

theorem cost1 (a b : ℚ) (x : Fin 1 → ℚ) :
    DLevel.cost ⟨1, !![a], ![b]⟩ x = (a * x 0 + b) * (a * x 0 + b) := by
  show (!![a] *ᵥ x + ![b]) ⬝ᵥ (!![a] *ᵥ x + ![b]) = _
  simp [dotProduct]

theorem slope1 (a b : ℚ) (x : Fin 1 → ℚ) : (!![a] *ᵥ x) ⬝ᵥ ![b] = a * x 0 * b := by
  simp [dotProduct, mulVec]

def slopeD : DLevel ℚ 1 := ⟨1, !![1], ![-1 / 2]⟩
def slopeD' : DLevel ℚ 1 := ⟨1, !![3], ![3 / 2]⟩

theorem slopeD_pos (r : Fin 1 → ℚ) (h : r ∈ lexOpt Set.univ [slopeD, slopeD']) :
    0 < localSlope [slopeD, slopeD'] r := by
  have h1 := (lexOpt_sub [slopeD'] _ h).2 ![1 / 2] trivial
  have h2 : r 0 = 1 / 2 := by
    unfold slopeD at h1
    rw [cost1, cost1] at h1
    have h3 : (1 * r 0 + -1 / 2) * (1 * r 0 + -1 / 2) ≤ 0 := h1.trans (by norm_num)
    have := mul_self_eq_zero.1 (le_antisymm h3 (mul_self_nonneg _))
    linarith
  rw [localSlope_sum]
  show 0 < (!![1] *ᵥ r) ⬝ᵥ ![-1 / 2] + ((!![3] *ᵥ r) ⬝ᵥ ![3 / 2] + 0)
  rw [slope1, slope1, h2]
  norm_num

/-- C90 fails with several levels: for every exact decomposition the slope can be positive, then the step
is multiplied by 0.2 without evaluation.  Constraints `x = 1`, then `3 x = 0`, at 1/2. -/
theorem C90_levels_refuted (o : SvdOps ℚ) (ho : o.Exact) (thr : ℚ) (dq : Fin 1 → ℚ) :
    ∃ (d d' : DLevel ℚ 1) (r : Fin 1 → ℚ), descend o false thr [d, d'] dq = some r ∧ 0 < localSlope [d, d'] r ∧
      ∀ (env : LsEnv A (Fin 1 → ℚ) ℚ) (f0 : ℚ) (a : A),
        backtracking env (.default ℚ) 5 (localSlope [d, d'] r) f0 a r =
          some ⟨env.integrate a (env.smul (1 / 5) r), env.smul (1 / 5) r, false, 0⟩ := by
  have hr : descend o false thr [slopeD, slopeD'] dq =
    some (descendLoop o false thr true [slopeD, slopeD'] none dq) := rfl
  have h := slopeD_pos _ (C36_lexicographic o ho thr _ dq hr)
  exact ⟨slopeD, slopeD', _, hr, h, fun env f0 a => bt_invalid env _ f0 h a _⟩

theorem norms_one [Field α] {n : Nat} (l : NLevel A α n) (h : l.nc = 1) (q : A) :
    l.norms q = [l.err q ⬝ᵥ l.err q] := by
  obtain ⟨m, J, err, nc, blk⟩ := l
  simp only at h
  subst h
  unfold NLevel.norms
  have : ∀ (i : Fin m) (k : Fin 1), blk i = k := fun i k => Subsingleton.elim _ _
  simp only [List.finRange_succ, List.finRange_zero, List.map_cons, List.map_nil, if_pos (this _ _), dotProduct]

/-- C90. With one level that contains one constraint, where the gradient of the squared error is not zero: all
step lengths that are small enough decrease the error sufficiently for the line search. -/
theorem C90_armijo {n : Nat} (o : SvdOps ℝ) (ho : o.Exact) (byLevel : Bool) (thr : ℝ) (l : NLevel A ℝ n)
    (h1 : l.nc = 1) (integrate : A → (Fin n → ℝ) → A) (q : A) (h0 : integrate q 0 = q) (dq : Fin n → ℝ)
    {r : Fin n → ℝ} (hr : descend o byLevel thr [l.at q] dq = some r)
    (hJ : ∀ i, HasDerivAt (fun t : ℝ => l.err (integrate q (t • r)) i) ((l.J q *ᵥ r) i) 0)
    (hg : (l.J q)ᵀ *ᵥ l.err q ≠ 0) (c : ℝ) (hc : c < 1) :
    ∃ a, 0 < a ∧ ∀ t, 0 < t → t < a →
      Armijo (newtonEnv false [l] integrate) c (localSlope [l.at q] r) (nSqNorm false [l] q) q r t := by
  obtain ⟨-, hs1, hs2⟩ := C90_one_level o ho byLevel thr (l.at q) dq hr
  have hneg : localSlope [l.at q] r < 0 := lt_of_le_of_ne hs1 fun h => hg (hs2.1 h)
  have hd := C90_derivative [l] integrate q h0 r (by simpa using hJ)
  have hlt : 2 * localSlope [l.at q] r < 2 * c * localSlope [l.at q] r := by nlinarith
  have hnorm : ∀ x, nSqNorm false [l] x = sumSq [l] x := by
    intro x
    have := dot_self_nonneg (l.err x)
    simp [nSqNorm, sumSq, norms_one l h1, max_eq_right this]
  have hev := (hasDerivAt_iff_tendsto_slope.1 hd).eventually (gt_mem_nhds hlt)
  rw [eventually_nhdsWithin_iff, Metric.eventually_nhds_iff] at hev
  obtain ⟨a, ha, hev⟩ := hev
  refine ⟨a, ha, fun t ht hta => ?_⟩
  have := hev (y := t) (by rw [Real.dist_eq, sub_zero, abs_of_pos ht]; exact hta) ht.ne'
  rw [slope_def_field, sub_zero, div_lt_iff₀ ht, zero_smul, h0] at this
  unfold Armijo newtonEnv
  simp only
  rw [hnorm, hnorm]
  linarith

/-- Level of the constraints `x + 2 = 0` and `10 x - 19/10 = 0`. -/
def maxL : NLevel (Fin 1 → ℚ) ℚ 1 where
  m := 2
  J _ := !![1; 10]
  err q := ![q 0 + 2, 10 * q 0 - 19 / 10]
  nc := 2
  blk := id

theorem maxL_norm (q : Fin 1 → ℚ) (h0 : 0 ≤ q 0) (h1 : q 0 ≤ 17 / 101) :
    nSqNorm false [maxL] q = (q 0 + 2) * (q 0 + 2) := by
  have : maxL.norms q = [(q 0 + 2) * (q 0 + 2), (10 * q 0 - 19 / 10) * (10 * q 0 - 19 / 10)] := by
    show (List.finRange 2).map (fun k => ∑ i : Fin 2, if id i = k then
      (![q 0 + 2, 10 * q 0 - 19 / 10] : Fin 2 → ℚ) i * (![q 0 + 2, 10 * q 0 - 19 / 10] : Fin 2 → ℚ) i else 0) = _
    simp [List.finRange_succ]
  simp only [nSqNorm, Bool.false_eq_true, if_false, List.flatMap_cons, List.flatMap_nil, List.append_nil, this,
    List.foldl_cons, List.foldl_nil]
  rw [max_eq_right (mul_self_nonneg _), max_eq_left]
  nlinarith

theorem maxL_dir (o : SvdOps ℚ) (ho : o.Exact) (byLevel : Bool) (thr : ℚ) (q dq r : Fin 1 → ℚ) (hq : q 0 = 0)
    (hr : descend o byLevel thr [maxL.at q] dq = some r) : r 0 = 17 / 101 ∧
    localSlope [maxL.at q] r = -17 * (17 / 101) := by
  have hn := cost_normal (maxL.at q) r fun y => by
    obtain rfl := Option.some.inj hr
    simpa [DLevel.cost, sub_neg_eq_add] using ho.ls (maxL.at q).J (-(maxL.at q).e) y
  have h1 : (!![1; 10] : Matrix (Fin 2) (Fin 1) ℚ)ᵀ *ᵥ
      (!![1; 10] *ᵥ r + ![q 0 + 2, 10 * q 0 - 19 / 10]) = 0 := hn
  have h2 := congrFun h1 0
  rw [hq] at h2
  simp [mulVec, dotProduct] at h2
  have h3 : r 0 = 17 / 101 := by linarith
  refine ⟨h3, ?_⟩
  rw [localSlope_sum]
  show (!![1; 10] *ᵥ r) ⬝ᵥ ![q 0 + 2, 10 * q 0 - 19 / 10] + 0 = _
  rw [hq]
  simp [mulVec, dotProduct, h3]
  norm_num

/-- C90. The slope is the one of the sum of the squared errors while the line search compares the maximum
over the constraints: with one level of two linear constraints the slope is negative and, for every exact
decomposition, every step length of ]0, 1] increases the error.  The line search fails and the error
increases. -/
theorem C90_max_refuted (o : SvdOps ℚ) (ho : o.Exact) (byLevel : Bool) (thr : ℚ) (dq : Fin 1 → ℚ) :
    ∃ r, descend o byLevel thr [maxL.at 0] dq = some r ∧ localSlope [maxL.at 0] r < 0 ∧
      (∀ t : ℚ, 0 < t → t ≤ 1 → nSqNorm false [maxL] 0 < nSqNorm false [maxL] (0 + t • r)) ∧
      ∃ out, backtracking (newtonEnv false [maxL] (· + ·)) (.default ℚ) 5 (localSlope [maxL.at 0] r)
        (nSqNorm false [maxL] 0) 0 r = some out ∧ out.ok = false ∧
        nSqNorm false [maxL] 0 < nSqNorm false [maxL] out.arg := by
  have hr : descend o byLevel thr [maxL.at 0] dq = some (o.solve (maxL.at 0).J (-(maxL.at 0).e)) := rfl
  refine ⟨_, hr, ?_⟩
  generalize o.solve (maxL.at 0).J (-(maxL.at 0).e) = r at hr
  obtain ⟨h1, h2⟩ := maxL_dir o ho byLevel thr 0 dq r rfl hr
  have hinc : ∀ t : ℚ, 0 < t → t ≤ 1 → nSqNorm false [maxL] 0 < nSqNorm false [maxL] (0 + t • r) := by
    intro t ht ht1
    have e : (0 + t • r : Fin 1 → ℚ) 0 = t * (17 / 101) := by simp [h1]
    rw [maxL_norm 0 (by simp) (by simp; norm_num), maxL_norm _ (by rw [e]; positivity) (by rw [e]; linarith), e]
    simp only [Pi.zero_apply, zero_add]
    nlinarith
  have hs : localSlope [maxL.at 0] r < 0 := by rw [h2]; norm_num
  refine ⟨hs, hinc, ?_⟩
  obtain ⟨out, g1, -, g2, g3⟩ := C32_backtracking (newtonEnv false [maxL] (· + ·)) (localSlope [maxL.at 0] r)
    (nSqNorm false [maxL] 0) 0 r
  refine ⟨out, g1, ?_⟩
  rcases g3 with ⟨-, -, k, hk, -, -, g4, -⟩ | ⟨g3, g4, -⟩
  · exfalso
    have h3 := hinc ((7 / 10) ^ k) (by positivity) (pow_le_one₀ (by norm_num) (by norm_num))
    have h4 : nSqNorm false [maxL] (0 + ((7 : ℚ) / 10) ^ k • r) ≤ nSqNorm false [maxL] 0 +
      ((7 : ℚ) / 10) ^ k * (2 * (1 / 1000) * localSlope [maxL.at 0] r) := g4
    have h5 : (0 : ℚ) < (7 / 10) ^ k := by positivity
    have : ((7 : ℚ) / 10) ^ k * (2 * (1 / 1000) * localSlope [maxL.at 0] r) ≤ 0 :=
      mul_nonpos_of_nonneg_of_nonpos h5.le (by linarith)
    linarith
  · refine ⟨g3, ?_⟩
    rw [g2, g4]
    exact hinc (1 / 5) (by norm_num) (by norm_num)

/-- A case that meets the hypotheses of `C90_armijo`: the constraint `x² - 2 = 0` at 1. -/
example : ∃ l : NLevel ℝ ℝ 1, l.nc = 1 ∧ (l.J 1)ᵀ *ᵥ l.err 1 ≠ 0 ∧ ∀ (r : Fin 1 → ℝ) i,
    HasDerivAt (fun t : ℝ => l.err (1 + (t • r) 0) i) ((l.J 1 *ᵥ r) i) 0 := by
  refine ⟨⟨1, fun x => !![2 * x], fun x => ![x ^ 2 - 2], 1, fun _ => 0⟩, rfl, fun h => ?_, fun r i => ?_⟩
  · have := congrFun h 0
    simp [mulVec, dotProduct] at this
    norm_num at this
  · fin_cases i
    have h1 : HasDerivAt (fun t : ℝ => 1 + t * r 0) (r 0) 0 := by
      simpa using ((hasDerivAt_id (0 : ℝ)).mul_const (r 0)).const_add 1
    have h2 := (h1.mul h1).sub_const 2
    have h3 : HasDerivAt (fun t : ℝ => (1 + t * r 0) ^ 2 - 2) (2 * r 0) 0 := by
      refine HasDerivAt.congr_deriv (h2.congr_of_eventuallyEq ?_) ?_
      · filter_upwards with t
        simp [pow_two]
      · ring
    simpa [mulVec, dotProduct] using h3

end Hpp
