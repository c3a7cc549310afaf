import Verif.HI.Jacobian
import Verif.HI.Props
import Mathlib.Analysis.Calculus.Deriv.Pow
import Mathlib.Analysis.Calculus.Deriv.Add
import Mathlib.Analysis.Calculus.Deriv.Mul
import Mathlib.Analysis.Calculus.Deriv.Comp

/-!
# C111. The reduced Jacobian of a level is the derivative of its error
-/

namespace Hpp

variable {α κ : Type}

/-! ## Errors along a curve -/

/-- A function dominated by one with a zero derivative has a zero derivative. -/
theorem hasDerivAt_zero_of_le {f g : ℝ → ℝ} (h : ∀ t, |f t - f 0| ≤ |g t|) (h0 : g 0 = 0)
    (hg : HasDerivAt g 0 0) : HasDerivAt f 0 0 := by
  rw [hasDerivAt_iff_isLittleO] at hg ⊢
  refine Asymptotics.IsBigO.trans_isLittleO (Asymptotics.IsBigO.of_bound 1 ?_) hg
  filter_upwards with t
  simpa [h0] using h t

theorem comparedError_eq_min (thr x : ℝ) : comparedError .superior thr x = min (x - thr) 0 := by
  show (if thr ≤ x then 0 else x - thr) = _
  split
  · rw [min_eq_right (by linarith)]
  · rw [min_eq_left (by linarith)]

theorem comparedError_eq_max (thr x : ℝ) : comparedError .inferior thr x = max (x + thr) 0 := by
  show (if x ≤ -thr then 0 else x + thr) = _
  split
  · rw [max_eq_right (by linarith)]
  · rw [max_eq_left (by linarith)]

/-- The comparison with the limits does not increase distances. -/
theorem comparedError_lip (t : Comp) (thr x y : ℝ) :
    |comparedError t thr x - comparedError t thr y| ≤ |x - y| := by
  cases t with
  | equalToZero => exact le_refl _
  | equality => exact le_refl _
  | superior =>
    rw [comparedError_eq_min, comparedError_eq_min]
    refine le_trans (abs_min_sub_min_le_max _ _ _ _) ?_
    rw [sub_self, abs_zero, max_eq_left (abs_nonneg _)]
    exact le_of_eq (by congr 1; ring)
  | inferior =>
    rw [comparedError_eq_max, comparedError_eq_max]
    refine le_trans (abs_max_sub_max_le_max _ _ _ _) ?_
    rw [sub_self, abs_zero, max_eq_left (abs_nonneg _)]
    exact le_of_eq (by congr 1; ring)

/-- Specification: the value is at the point where the error of an inequality stops being zero. -/
def AtLimit (t : Comp) (thr x : ℝ) : Prop :=
  (t = .superior ∧ x = thr) ∨ (t = .inferior ∧ x = -thr)

open Classical in
theorem comparedError_deriv (t : Comp) (thr : ℝ) {x : ℝ → ℝ} {x' : ℝ} (hx : HasDerivAt x x' 0)
    (hn : ¬ AtLimit t thr (x 0)) :
    HasDerivAt (fun s => comparedError t thr (x s)) (if InsideLimit t thr (x 0) then 0 else x') 0 := by
  cases t with
  | equalToZero => rw [if_neg (by rintro (⟨h, -⟩ | ⟨h, -⟩) <;> cases h)]; exact hx
  | equality => rw [if_neg (by rintro (⟨h, -⟩ | ⟨h, -⟩) <;> cases h)]; exact hx
  | superior =>
    have hne : x 0 ≠ thr := fun h => hn (.inl ⟨rfl, h⟩)
    by_cases hin : thr ≤ x 0
    · rw [if_pos (.inl ⟨rfl, hin⟩)]
      have hlt : thr < x 0 := lt_of_le_of_ne hin (Ne.symm hne)
      refine (hasDerivAt_const (0 : ℝ) (0 : ℝ)).congr_of_eventuallyEq ?_
      filter_upwards [hx.continuousAt.eventually (lt_mem_nhds hlt)] with s hs
      simp [comparedError, hs.le]
    · rw [if_neg (by rintro (⟨-, h⟩ | ⟨h, -⟩) <;> first | exact hin h | cases h)]
      refine HasDerivAt.congr_of_eventuallyEq (hx.sub_const thr) ?_
      filter_upwards [hx.continuousAt.eventually (gt_mem_nhds (not_le.1 hin))] with s hs
      simp [comparedError, not_le.2 hs]
  | inferior =>
    have hne : x 0 ≠ -thr := fun h => hn (.inr ⟨rfl, h⟩)
    by_cases hin : x 0 ≤ -thr
    · rw [if_pos (.inr ⟨rfl, hin⟩)]
      have hlt : x 0 < -thr := lt_of_le_of_ne hin hne
      refine (hasDerivAt_const (0 : ℝ) (0 : ℝ)).congr_of_eventuallyEq ?_
      filter_upwards [hx.continuousAt.eventually (gt_mem_nhds hlt)] with s hs
      simp [comparedError, hs.le]
    · rw [if_neg (by rintro (⟨h, -⟩ | ⟨-, h⟩) <;> first | exact hin h | cases h)]
      refine HasDerivAt.congr_of_eventuallyEq (hx.add_const thr) ?_
      filter_upwards [hx.continuousAt.eventually (lt_mem_nhds (not_le.1 hin))] with s hs
      simp [comparedError, not_le.2 hs]

theorem comparedError_deriv_zero (t : Comp) (thr : ℝ) {x : ℝ → ℝ} (hx : HasDerivAt x 0 0) :
    HasDerivAt (fun s => comparedError t thr (x s)) 0 0 := by
  refine hasDerivAt_zero_of_le (g := fun s => x s - x 0) (fun s => comparedError_lip t thr _ _) (by simp) ?_
  exact hx.sub_const _

open Classical in
/-- The square of the error is differentiable, even where the error is not. -/
theorem comparedError_sq_deriv (t : Comp) (thr : ℝ) {x : ℝ → ℝ} {x' : ℝ} (hx : HasDerivAt x x' 0) :
    HasDerivAt (fun s => comparedError t thr (x s) * comparedError t thr (x s))
      (2 * comparedError t thr (x 0) * (if InsideLimit t thr (x 0) then 0 else x')) 0 := by
  by_cases hn : AtLimit t thr (x 0)
  · have h0 : comparedError t thr (x 0) = 0 := by
      rcases hn with ⟨rfl, h⟩ | ⟨rfl, h⟩ <;> simp [comparedError, h]
    rw [h0, mul_zero, zero_mul]
    refine hasDerivAt_zero_of_le (g := fun s => (x s - x 0) * (x s - x 0)) (fun s => ?_) (by simp) ?_
    · have := comparedError_lip t thr (x s) (x 0)
      rw [h0, sub_zero] at this
      rw [h0, mul_zero, sub_zero, abs_mul, abs_mul]
      exact mul_le_mul this this (abs_nonneg _) (abs_nonneg _)
    · have h1 : HasDerivAt (fun s => x s - x 0) x' 0 := hx.sub_const (x 0)
      have := h1.mul h1
      rw [sub_self, mul_zero, zero_mul, add_zero] at this
      exact this
  · have := (comparedError_deriv t thr hx hn).mul (comparedError_deriv t thr hx hn)
    refine this.congr_deriv ?_
    ring

theorem sqSum_foldl (v : List ℝ) (a : ℝ) :
    v.foldl (fun s x => s + x * x) a = a + ∑ ρ ∈ Finset.range v.length, v.getD ρ 0 * v.getD ρ 0 := by
  induction v generalizing a with
  | nil => simp
  | cons x v ih =>
    rw [List.foldl_cons, ih, List.length_cons, Finset.sum_range_succ']
    simp
    ring

theorem sqSum_eq_range (v : List ℝ) :
    sqSum v = ∑ ρ ∈ Finset.range v.length, v.getD ρ 0 * v.getD ρ 0 := by
  unfold sqSum; rw [sqSum_foldl, zero_add]

/-- A sum over the indices of a list without duplicates. -/
theorem sum_over_indices (l : List Nat) (hn : l.Nodup) (n : Nat) (hlt : ∀ k ∈ l, k < n) (f : Nat → ℝ)
    (h0 : ∀ k, k < n → k ∉ l → f k = 0) :
    ∑ c ∈ Finset.range l.length, f (l.getD c 0) = ∑ k ∈ Finset.range n, f k := by
  have h1 : ∑ k ∈ Finset.range n, f k = ∑ k ∈ l.toFinset, f k := by
    symm
    apply Finset.sum_subset
    · intro k hk; exact Finset.mem_range.2 (hlt k (List.mem_toFinset.1 hk))
    · intro k hk hk'
      exact h0 k (Finset.mem_range.1 hk) fun hm => hk' (List.mem_toFinset.2 hm)
  rw [h1, List.sum_toFinset f hn, ← list_sum_range]
  congr 1
  apply List.ext_getElem?
  intro i
  rw [List.getElem?_map, List.getElem?_map]
  by_cases hi : i < l.length
  · rw [List.getElem?_range hi, List.getElem?_eq_getElem hi]
    simp [List.getD_eq_getElem?_getD, hi]
  · rw [List.getElem?_eq_none (by simpa using hi), List.getElem?_eq_none (by omega)]; rfl

/-! ## Rows of a level along a curve -/

/-- What is assumed of the functions and of the output spaces along a curve of configurations.
`Vel f c w` says that the curve `c` of the output space of `f` has velocity `w` at time `0`.
* `diff`: `D` is the derivative of the difference (dDifference_dq1, external);
* `fn`: the Jacobian of each function maps the velocity `v` of the configuration to the velocity of its value. -/
structure Moves (El : Fn ℝ κ → List ℝ → Prop) (h : List (Impl ℝ κ × Nat))
    (D : Space ℝ → List ℝ → List ℝ → Nat → Nat → ℝ) (Vel : Fn ℝ κ → (ℝ → List ℝ) → (Nat → ℝ) → Prop)
    (nv : Nat) (γ : ℝ → Nat → ℝ) (v : Nat → ℝ) : Prop where
  diff : ∀ e ∈ h, ∀ (c : ℝ → List ℝ) (w : Nat → ℝ) (r : List ℝ), Vel e.1.fn c w → El e.1.fn r →
    ∀ i, i < e.1.fn.space.nv → HasDerivAt (fun t => (e.1.fn.space.sub (c t) r).getD i 0)
      (∑ j ∈ Finset.range e.1.fn.space.nv, D e.1.fn.space r (c 0) i j * w j) 0
  fn : ∀ e ∈ h, Vel e.1.fn (fun t => e.1.fn.value (γ t))
    (fun j => ∑ k ∈ Finset.range nv, e.1.fn.jac (γ 0) j k * v k)

/-- The same, when only the free variables move. -/
structure Along (El : Fn ℝ κ → List ℝ → Prop) (h : List (Impl ℝ κ × Nat))
    (D : Space ℝ → List ℝ → List ℝ → Nat → Nat → ℝ) (Vel : Fn ℝ κ → (ℝ → List ℝ) → (Nat → ℝ) → Prop)
    (nv : Nat) (free : Segs) (γ : ℝ → Nat → ℝ) (v : Nat → ℝ) : Prop extends
    Moves El h D Vel nv γ v where
  still : ∀ k, k ∉ indices free → v k = 0
  range : ∀ k ∈ indices free, k < nv
  nodup : (indices free).Nodup

/-- Everything about a row of a level along a curve. -/
theorem level_row_along [DecidableEq κ] {El : Fn ℝ κ → List ℝ → Prop}
    {D : Space ℝ → List ℝ → List ℝ → Nat → Nat → ℝ} {Vel : Fn ℝ κ → (ℝ → List ℝ) → (Nat → ℝ) → Prop}
    {h : List (Impl ℝ κ × Nat)} {s : HI ℝ κ} {nv : Nat} {γ : ℝ → Nat → ℝ} {v : Nat → ℝ}
    {R : κ → List ℝ} (hs : HI.Inv h s) (hf : FnsOk El h) (hR : HI.RhsIs El h s R) {i : Nat}
    {l : Level ℝ κ} (hl : s.levels[i]? = some l) (thr : ℝ) (J0 : Jac ℝ)
    (ha : Moves El h D Vel nv γ v) {E : LevelEval ℝ}
    (hE : l.evalJac D thr s.free.segs (γ 0) J0 = some E) (ρ : Nat) (hρ : ρ < l.stack.fns.space.nv) :
    ∃ pre c post, ∃ (r : Nat) (t : Comp) (b : Bool) (x : ℝ → ℝ),
      (atLevel h i = pre ++ c :: post ∧ ρ = (pre.map (·.fn.space.nv)).sum + r ∧ r < c.fn.space.nv ∧
        c.mask[r]? = some b) ∧
      l.comp[ρ]? = some t ∧
      (rowMask s.free.segs (atLevel h i))[ρ]? = some (if dependsOnFree s.free.segs c then b else false) ∧
      x 0 = (l.stack.fns.space.sub (l.stack.fns.value (γ 0) (List.replicate l.stack.fns.space.nq 0))
        l.rhs).getD ρ 0 ∧
      (∀ u, ((l.error thr (γ u)).getD []).getD ρ 0 = comparedError t thr (if b then x u else 0)) ∧
      HasDerivAt x (∑ j ∈ Finset.range c.fn.space.nv, D c.fn.space (R c.fn.key) (c.fn.value (γ 0)) r j *
        ∑ k ∈ Finset.range nv, c.fn.jac (γ 0) j k * v k) 0 ∧
      ∀ k, E.jac ρ k = open Classical in if InsideLimit t thr (if b then x 0 else 0) then 0 else
          ∑ j ∈ Finset.range c.fn.space.nv,
            D c.fn.space (R c.fn.key) (c.fn.value (γ 0)) r j * c.fn.jac (γ 0) j k := by
  have hc := hs.level i l hl
  obtain ⟨E', hE', -, -, hsub, -, -, hJ⟩ := level_evalJac hs hf hR hl D thr s.free.segs (γ 0) J0
  rw [hE] at hE'
  cases hE'
  rw [hc.nv] at hρ
  obtain ⟨pre, c, post, r, hsplit, rfl, hr⟩ := row_split _ _ hρ
  have hmem : c ∈ atLevel h i := by rw [hsplit]; simp
  have hpre : ∀ y ∈ pre, y ∈ atLevel h i := fun y hy => by rw [hsplit]; simp [hy]
  have hlens : ∀ u, ∀ c ∈ atLevel h i,
      (c.fn.space.sub (c.fn.value (γ u)) (R c.fn.key)).length = c.fn.space.nv ∧
      c.mask.length = c.fn.space.nv ∧ c.comp.length = c.fn.space.nv ∧
      (maskBy c.mask (c.fn.space.sub (c.fn.value (γ u)) (R c.fn.key))).length = c.fn.space.nv ∧
      (conError thr (γ u) c (R c.fn.key)).length = c.fn.space.nv := fun u c hc =>
    conSub_length hf (mem_atLevel.1 hc) (hR.el _ (mem_atLevel.1 hc)) (γ u) thr
  obtain ⟨h1, h2, h3, h4, h5⟩ := hlens 0 c hmem
  have ht : c.comp[r]? = some (c.comp[r]'(by omega)) := List.getElem?_eq_getElem _
  have hb : c.mask[r]? = some (c.mask[r]'(by omega)) := List.getElem?_eq_getElem _
  generalize c.comp[r]'(by omega) = t at ht
  generalize c.mask[r]'(by omega) = b at hb
  have hx : ∀ u, (c.fn.space.sub (c.fn.value (γ u)) (R c.fn.key))[r]? =
      some ((c.fn.space.sub (c.fn.value (γ u)) (R c.fn.key)).getD r 0) := by
    intro u
    have := (hlens u c hmem).1
    rw [List.getD_eq_getElem?_getD, List.getElem?_eq_getElem (by omega)]; rfl
  refine ⟨pre, c, post, r, t, b, fun u => (c.fn.space.sub (c.fn.value (γ u)) (R c.fn.key)).getD r 0,
    ⟨hsplit, rfl, hr, hb⟩, ?_, ?_, ?_, ?_, ?_, ?_⟩
  · rw [hc.comp, hsplit, flatMap_getElem?_mid _ _ _ _ _ (fun y hy => (hlens 0 y (hpre y hy)).2.2.1) _
      (by omega), ht]
  · unfold rowMask
    rw [hsplit, flatMap_getElem?_mid _ _ _ _ (fun c : Impl ℝ κ => c.fn.space.nv)]
    · by_cases hd : dependsOnFree s.free.segs c = true
      · rw [if_pos hd, if_pos hd, hb]
      · rw [if_neg hd, if_neg hd, List.getElem?_replicate, if_pos (by omega)]
    · intro y hy
      have := (hlens 0 y (hpre y hy)).2.1
      split <;> simp [this]
    · split
      · omega
      · rw [List.length_replicate]; omega
  · rw [hsub, hsplit, List.getD_eq_getElem?_getD, flatMap_getElem?_mid _ _ _ _ (·.fn.space.nv)
      (fun y hy => (hlens 0 y (hpre y hy)).1) _ (by omega), hx]
    rfl
  · intro u
    rw [level_error hs hf hR hl thr (γ u), Option.getD_some, hsplit, List.getD_eq_getElem?_getD,
      flatMap_getElem?_mid _ _ _ _ (·.fn.space.nv) (fun y hy => (hlens u y (hpre y hy)).2.2.2.2) _
      (by rw [(hlens u c hmem).2.2.2.2]; exact hr)]
    unfold conError
    rw [List.getElem?_zipWith, ht]
    unfold maskBy
    rw [List.getElem?_zipWith, hb, hx]
    rfl
  · exact ha.diff _ (mem_atLevel.1 hmem) _ _ _ (ha.fn _ (mem_atLevel.1 hmem))
      (hR.el _ (mem_atLevel.1 hmem)) r hr
  · exact hJ pre c post hsplit r hr t b _ ht hb (hx 0)

theorem sum_swap_apply (n m : Nat) (D : Nat → ℝ) (J : Nat → Nat → ℝ) (v : Nat → ℝ) :
    ∑ k ∈ Finset.range m, (∑ j ∈ Finset.range n, D j * J j k) * v k =
      ∑ j ∈ Finset.range n, D j * ∑ k ∈ Finset.range m, J j k * v k := by
  simp only [Finset.sum_mul, Finset.mul_sum]
  rw [Finset.sum_comm]
  exact Finset.sum_congr rfl fun j _ => Finset.sum_congr rfl fun k _ => by ring

section
variable [DecidableEq κ] {El : Fn ℝ κ → List ℝ → Prop}
  {D : Space ℝ → List ℝ → List ℝ → Nat → Nat → ℝ} {Vel : Fn ℝ κ → (ℝ → List ℝ) → (Nat → ℝ) → Prop}
  {h : List (Impl ℝ κ × Nat)} {s : HI ℝ κ} {nv nv' : Nat} {γ : ℝ → Nat → ℝ} {v : Nat → ℝ}

omit [DecidableEq κ] in
/-- The product of a row of the reduced Jacobian and of the velocity of the free variables. -/
theorem redJ_mul (ha : Along El h D Vel nv s.free.segs γ v) (J : Nat → ℝ) :
    ∑ c ∈ Finset.range (indices s.free.segs).length,
      J ((indices s.free.segs).getD c 0) * v ((indices s.free.segs).getD c 0) =
    ∑ k ∈ Finset.range nv, J k * v k :=
  sum_over_indices _ ha.nodup nv ha.range (fun k => J k * v k)
    fun k _ hk => by rw [ha.still k hk, mul_zero]

/-- C111. Whatever the matrix it writes to holds, `computeValue<true>` succeeds and computes the same error
as `computeValue<false>`.  When the configuration moves along a curve of velocity `v` on the free
variables, the derivative of each row of the error that is solved for is the product of the
corresponding row of the reduced Jacobian and of `v`, unless the row is an inequality exactly at its limit. -/
theorem C111_reduced_jacobian (hb : HI.Built El nv' h s)
    (hl : ∀ e ∈ h, e.1.fn.space.Lawful (El e.1.fn)) (hv : ∀ e ∈ h, ∀ q, El e.1.fn (e.1.fn.value q))
    (ha : Along El h D Vel nv s.free.segs γ v) (i : Nat) (l : Level ℝ κ) (hi : s.levels[i]? = some l)
    (J0 : Jac ℝ) :
    ∃ E, l.evalJac D s.ineqThr s.free.segs (γ 0) J0 = some E ∧ l.error s.ineqThr (γ 0) = some E.error ∧
      ∀ r ρ : Nat, (indices l.rows.segs)[r]? = some ρ →
        (∀ t, l.comp[ρ]? = some t → ¬ AtLimit t s.ineqThr
          ((l.stack.fns.space.sub (l.stack.fns.value (γ 0) (List.replicate l.stack.fns.space.nq 0))
            l.rhs).getD ρ 0)) →
        HasDerivAt (fun u => ((l.error s.ineqThr (γ u)).getD []).getD ρ 0)
          (∑ c ∈ Finset.range (indices s.free.segs).length,
            E.redJ r c * v ((indices s.free.segs).getD c 0)) 0 := by
  obtain ⟨hs, hf, R, hR⟩ := hb.inv hl hv
  obtain ⟨E, hE, herr, -, -, -, hred, -⟩ := level_evalJac hs hf hR hi D s.ineqThr s.free.segs (γ 0) J0
  refine ⟨E, hE, herr, fun r ρ hrρ hlim => ?_⟩
  have hrows := C23_active_rows hb hl hv i l hi
  have hcov : (rowMask s.free.segs (atLevel h i))[ρ]? = some true :=
    (hrows.1 ρ).1 ((mem_indices _ _).1 (List.mem_of_getElem? hrρ))
  have hρ : ρ < l.stack.fns.space.nv := by
    rw [(hs.level i l hi).nv]
    have := lt_of_getElem?_some hcov
    unfold rowMask at this
    rwa [flatMap_length_sum _ _ (·.fn.space.nv)] at this
    intro c hc
    obtain ⟨_, _, _, hcb⟩ := hf.built _ (mem_atLevel.1 hc)
    have := hcb.ok.1.mask_len
    split <;> simp [this]
  obtain ⟨pre, c, post, r', t, b, x, ⟨hsplit, -, hr', -⟩, ht, hm, hx0, herr, hder, hJ⟩ :=
    level_row_along hs hf hR hi s.ineqThr J0 ha.toMoves hE ρ hρ
  rw [hcov] at hm
  have hbt : b = true := by
    simp only [Option.some.injEq] at hm
    split at hm
    · exact hm.symm
    · cases hm
  subst hbt
  have hJ' : ∀ k, E.jac ρ k = open Classical in if InsideLimit t s.ineqThr (x 0) then 0 else
      ∑ j ∈ Finset.range c.fn.space.nv,
        D c.fn.space (R c.fn.key) (c.fn.value (γ 0)) r' j * c.fn.jac (γ 0) j k := hJ
  simp only [if_true] at herr
  simp only [herr]
  have := comparedError_deriv t s.ineqThr hder (by rw [hx0]; exact hlim t ht)
  refine this.congr_deriv ?_
  have hg : (indices l.rows.segs).getD r 0 = ρ := by
    rw [List.getD_eq_getElem?_getD, hrρ]; rfl
  simp only [hred, hg]
  rw [redJ_mul ha (E.jac ρ)]
  simp only [hJ']
  by_cases hin : InsideLimit t s.ineqThr (x 0)
  · simp [hin]
  · simp only [if_neg hin]
    exact (sum_swap_apply _ _ _ _ _).symm

/-- Specification: a function does not depend on the variables that it does not flag as active. -/
def FlagsRight (h : List (Impl ℝ κ × Nat)) (q : Nat → ℝ) : Prop :=
  ∀ e ∈ h, ∀ j k : Nat, j < e.1.fn.space.nv → e.1.fn.active[k]? ≠ some true → e.1.fn.jac q j k = 0

omit [DecidableEq κ] in
theorem still_of_not_depends (ha : Along El h D Vel nv s.free.segs γ v) (hfl : FlagsRight h (γ 0))
    {e : Impl ℝ κ × Nat} (he : e ∈ h) (hd : dependsOnFree s.free.segs e.1 ≠ true) (j : Nat)
    (hj : j < e.1.fn.space.nv) : ∑ k ∈ Finset.range nv, e.1.fn.jac (γ 0) j k * v k = 0 := by
  apply Finset.sum_eq_zero
  intro k _
  by_cases hk : k ∈ indices s.free.segs
  · rw [hfl e he j k hj, zero_mul]
    intro hact
    apply hd
    unfold dependsOnFree
    rw [List.any_eq_true]
    exact ⟨k, hk, by simp [hact]⟩
  · rw [ha.still k hk, mul_zero]

/-- C111. The rows that are not solved for do not change: those out of the mask of their constraint, and
those of the constraints that depend on no free variable. -/
theorem C111_other_rows (hb : HI.Built El nv' h s)
    (hl : ∀ e ∈ h, e.1.fn.space.Lawful (El e.1.fn)) (hv : ∀ e ∈ h, ∀ q, El e.1.fn (e.1.fn.value q))
    (ha : Along El h D Vel nv s.free.segs γ v) (hfl : FlagsRight h (γ 0)) (i : Nat) (l : Level ℝ κ)
    (hi : s.levels[i]? = some l) (ρ : Nat) (hρ : ρ < l.stack.fns.space.nv)
    (hn : ρ ∉ indices l.rows.segs) :
    HasDerivAt (fun u => ((l.error s.ineqThr (γ u)).getD []).getD ρ 0) 0 0 := by
  obtain ⟨hs, hf, R, hR⟩ := hb.inv hl hv
  obtain ⟨E, hE, -, -, -, -, -, -⟩ :=
    level_evalJac hs hf hR hi D s.ineqThr s.free.segs (γ 0) fun _ _ => 0
  obtain ⟨pre, c, post, r', t, b, x, ⟨hsplit, -, hr', -⟩, ht, hm, -, herr, hder, -⟩ :=
    level_row_along hs hf hR hi s.ineqThr (fun _ _ => 0) ha.toMoves hE ρ hρ
  have hcov : (rowMask s.free.segs (atLevel h i))[ρ]? ≠ some true := fun hcov =>
    hn ((mem_indices _ _).2 (((C23_active_rows hb hl hv i l hi).1 ρ).2 hcov))
  rw [hm] at hcov
  simp only [herr]
  cases b with
  | false => exact hasDerivAt_const (0 : ℝ) (comparedError t s.ineqThr 0)
  | true =>
    have hd : dependsOnFree s.free.segs c ≠ true := fun hd => hcov (by rw [if_pos hd])
    apply comparedError_deriv_zero
    refine hder.congr_deriv ?_
    apply Finset.sum_eq_zero
    intro j hj
    rw [still_of_not_depends ha hfl (mem_atLevel.1 (by rw [hsplit]; simp : c ∈ atLevel h i)) hd j (Finset.mem_range.1 hj), mul_zero]

/-- C111. The squared norm of the error of a level is differentiable along the curve, at the limits of the
inequalities too; its derivative is twice the product of the error, of the reduced Jacobian and of
the velocity of the free variables: the rows that are left out of the reduced Jacobian do not contribute. -/
theorem C111_squared_norm (hb : HI.Built El nv' h s)
    (hl : ∀ e ∈ h, e.1.fn.space.Lawful (El e.1.fn)) (hv : ∀ e ∈ h, ∀ q, El e.1.fn (e.1.fn.value q))
    (ha : Along El h D Vel nv s.free.segs γ v) (hfl : FlagsRight h (γ 0)) (i : Nat) (l : Level ℝ κ)
    (hi : s.levels[i]? = some l) (J0 : Jac ℝ) :
    ∃ E, l.evalJac D s.ineqThr s.free.segs (γ 0) J0 = some E ∧
      HasDerivAt (fun u => sqSum ((l.error s.ineqThr (γ u)).getD []))
        (2 * ∑ r ∈ Finset.range (indices l.rows.segs).length,
          E.error.getD ((indices l.rows.segs).getD r 0) 0 *
          ∑ c ∈ Finset.range (indices s.free.segs).length,
            E.redJ r c * v ((indices s.free.segs).getD c 0)) 0 := by
  obtain ⟨hs, hf, R, hR⟩ := hb.inv hl hv
  obtain ⟨E, hE, herr0, -, -, -, hred, -⟩ := level_evalJac hs hf hR hi D s.ineqThr s.free.segs (γ 0) J0
  refine ⟨E, hE, ?_⟩
  have hrows := C23_active_rows hb hl hv i l hi
  have hlenE : ∀ u, ((l.error s.ineqThr (γ u)).getD []).length = l.stack.fns.space.nv := by
    intro u
    rw [level_error hs hf hR hi s.ineqThr (γ u), Option.getD_some, (hs.level i l hi).nv]
    exact flatMap_length_sum _ _ _ fun c hc =>
      (conSub_length hf (mem_atLevel.1 hc) (hR.el _ (mem_atLevel.1 hc)) (γ u) s.ineqThr).2.2.2.2
  have hcovLt : ∀ ρ ∈ indices l.rows.segs, ρ < l.stack.fns.space.nv := by
    intro ρ hρ
    have hcov := (hrows.1 ρ).1 ((mem_indices _ _).1 hρ)
    rw [(hs.level i l hi).nv]
    have := lt_of_getElem?_some hcov
    unfold rowMask at this
    rwa [flatMap_length_sum _ _ (·.fn.space.nv)] at this
    intro c hc
    obtain ⟨_, _, _, hcb⟩ := hf.built _ (mem_atLevel.1 hc)
    have := hcb.ok.1.mask_len
    split <;> simp [this]
  let g : Nat → ℝ := fun ρ => if ρ ∈ indices l.rows.segs then
    E.error.getD ρ 0 * ∑ k ∈ Finset.range nv, E.jac ρ k * v k else 0
  have hgsum : ∑ r ∈ Finset.range (indices l.rows.segs).length,
      E.error.getD ((indices l.rows.segs).getD r 0) 0 *
        ∑ c ∈ Finset.range (indices s.free.segs).length,
          E.redJ r c * v ((indices s.free.segs).getD c 0) =
      ∑ ρ ∈ Finset.range l.stack.fns.space.nv, g ρ := by
    rw [← sum_over_indices _ hrows.2.1.disjoint.indices_nodup _ hcovLt g
      (fun ρ _ hρ => if_neg hρ)]
    apply Finset.sum_congr rfl
    intro r hr
    have hmem : (indices l.rows.segs).getD r 0 ∈ indices l.rows.segs := by
      have := Finset.mem_range.1 hr
      rw [List.getD_eq_getElem?_getD, List.getElem?_eq_getElem this]
      exact List.getElem_mem _
    show _ = if _ then _ else _
    rw [if_pos hmem]
    simp only [hred]
    rw [redJ_mul ha (E.jac ((indices l.rows.segs).getD r 0))]
  rw [hgsum, Finset.mul_sum]
  simp only [sqSum_eq_range, hlenE]
  refine HasDerivAt.fun_sum fun ρ hρ => ?_
  have hρ' := Finset.mem_range.1 hρ
  obtain ⟨pre, c, post, r', t, b, x, ⟨hsplit, -, hr', -⟩, ht, hm, -, herr, hder, hJ⟩ :=
    level_row_along hs hf hR hi s.ineqThr J0 ha.toMoves hE ρ hρ'
  have hE0 : E.error.getD ρ 0 = comparedError t s.ineqThr (if b then x 0 else 0) := by
    rw [← herr 0, herr0]; rfl
  simp only [herr]
  by_cases hcov : ρ ∈ indices l.rows.segs
  · have hmt := (hrows.1 ρ).1 ((mem_indices _ _).1 hcov)
    rw [hmt] at hm
    have hbt : b = true := by
      simp only [Option.some.injEq] at hm
      split at hm
      · exact hm.symm
      · cases hm
    subst hbt
    have hJ' : ∀ k, E.jac ρ k = open Classical in if InsideLimit t s.ineqThr (x 0) then 0 else
        ∑ j ∈ Finset.range c.fn.space.nv,
          D c.fn.space (R c.fn.key) (c.fn.value (γ 0)) r' j * c.fn.jac (γ 0) j k := hJ
    have := comparedError_sq_deriv t s.ineqThr hder
    simp only [if_true]
    refine this.congr_deriv ?_
    rw [show g ρ = E.error.getD ρ 0 * ∑ k ∈ Finset.range nv, E.jac ρ k * v k from if_pos hcov, hE0]
    simp only [if_true, hJ']
    by_cases hin : InsideLimit t s.ineqThr (x 0)
    · simp [hin]
    · simp only [if_neg hin]
      rw [sum_swap_apply]
      ring
  · have hg0 : g ρ = 0 := if_neg hcov
    rw [hg0, mul_zero]
    have hcov' : (rowMask s.free.segs (atLevel h i))[ρ]? ≠ some true := fun h' =>
      hcov ((mem_indices _ _).2 ((hrows.1 ρ).2 h'))
    rw [hm] at hcov'
    cases b with
    | false => exact hasDerivAt_const (0 : ℝ) (comparedError t s.ineqThr 0 * comparedError t s.ineqThr 0)
    | true =>
      have hd : dependsOnFree s.free.segs c ≠ true := fun hd => hcov' (by rw [if_pos hd])
      have hz : HasDerivAt x 0 0 := by
        refine hder.congr_deriv ?_
        apply Finset.sum_eq_zero
        intro j hj
        rw [still_of_not_depends ha hfl (mem_atLevel.1 (by rw [hsplit]; simp : c ∈ atLevel h i)) hd j (Finset.mem_range.1 hj), mul_zero]
      have := comparedError_sq_deriv t s.ineqThr hz
      refine this.congr_deriv ?_
      split <;> simp

end

/-! ## `getValue` and `getReducedJacobian` -/

theorem getValueLoop_eq (ds : List (LevelEval α)) (a buf : List α)
    (hb : buf.length = (ds.map (·.output.length)).sum) :
    getValueLoop ds a.length (a ++ buf) = a ++ ds.flatMap (·.output) := by
  induction ds generalizing a buf with
  | nil => simp at hb; subst hb; simp [getValueLoop]
  | cons d ds ih =>
    simp only [List.map_cons, List.sum_cons] at hb
    have h1 : buf = buf.take d.output.length ++ buf.drop d.output.length := (List.take_append_drop _ _).symm
    have h2 : (buf.take d.output.length).length = d.output.length := by simp; omega
    have h3 := setAll_range' (buf.take d.output.length) d.output a (buf.drop d.output.length)
    rw [if_pos h2.symm, h2, List.append_assoc, ← h1] at h3
    have h4 := ih (a ++ d.output) (buf.drop d.output.length) (by simp; omega)
    rw [List.length_append] at h4
    rw [getValueLoop, h3, h4, List.flatMap_cons, List.append_assoc]

theorem getReducedLoop_out (ds : List (LevelEval α × Nat)) (row : Nat) (J : Jac α) (r k : Nat)
    (h : r < row ∨ row + (ds.map (·.2)).sum ≤ r) : getReducedLoop ds row J r k = J r k := by
  induction ds generalizing row J with
  | nil => rfl
  | cons d ds ih =>
    simp only [List.map_cons, List.sum_cons] at h
    rw [getReducedLoop, ih _ _ (by omega), if_neg (by omega)]

theorem getReducedLoop_in (pre : List (LevelEval α × Nat)) (d : LevelEval α × Nat)
    (post : List (LevelEval α × Nat)) (row : Nat) (J : Jac α) (r k : Nat) (h : r < d.2) :
    getReducedLoop (pre ++ d :: post) row J (row + (pre.map (·.2)).sum + r) k = d.1.redJ r k := by
  induction pre generalizing row J with
  | nil =>
    simp only [List.nil_append, List.map_nil, List.sum_nil, Nat.add_zero, getReducedLoop]
    rw [getReducedLoop_out _ _ _ _ _ (by omega), if_pos (by omega)]
    congr 1; omega
  | cons g pre ih =>
    simp only [List.cons_append, List.map_cons, List.sum_cons, getReducedLoop]
    rw [← ih (row + g.2)]
    congr 1; omega

theorem mapM_exists {β γ : Type} (f : β → Option γ) (l : List β) (h : ∀ x ∈ l, ∃ y, f x = some y) :
    ∃ ys, l.mapM f = some ys ∧ ys.length = l.length ∧
      ∀ (i : Nat) (x : β), l[i]? = some x → ∃ y, ys[i]? = some y ∧ f x = some y := by
  induction l with
  | nil => exact ⟨[], rfl, rfl, by simp⟩
  | cons a l ih =>
    obtain ⟨y, hy⟩ := h a (by simp)
    obtain ⟨ys, h1, h2, h3⟩ := ih fun x hx => h x (by simp [hx])
    refine ⟨y :: ys, ?_, by simp [h2], ?_⟩
    · rw [List.mapM_cons, hy, h1]; rfl
    · intro i x hx
      cases i with
      | zero =>
        simp only [List.getElem?_cons_zero, Option.some.injEq] at hx
        exact ⟨y, rfl, hx ▸ hy⟩
      | succ i => exact h3 i x (by simpa using hx)

section
variable [Ring α] [LinearOrder α] [DecidableEq κ] {El : Fn α κ → List α → Prop}
  {h : List (Impl α κ × Nat)} {s : HI α κ} {nv : Nat}

/-- C111. After `computeValue<true>`, `getValue` fills a vector of the size of the right hand side with the
values of the functions, level after level and in insertion order in a level; the rows of the matrix
filled by `getReducedJacobian` are those of the reduced Jacobians, level after level, and there are as
many as the reduced dimension of the solver: nothing is written below. -/
theorem C111_getters (hb : HI.Built El nv h s)
    (hl : ∀ e ∈ h, e.1.fn.space.Lawful (El e.1.fn)) (hv : ∀ e ∈ h, ∀ q, El e.1.fn (e.1.fn.value q))
    (D : Space α → List α → List α → Nat → Nat → α) (q : Nat → α) (J0 : Jac α) :
    ∃ ds, s.evalJac D q J0 = some ds ∧ ds.length = s.levels.length ∧
      (∀ (i : Nat) (l : Level α κ), s.levels[i]? = some l →
        ∃ E, ds[i]? = some E ∧ l.evalJac D s.ineqThr s.free.segs q J0 = some E) ∧
      (∀ buf : List α, buf.length = s.rhsSize → getValueLoop ds 0 buf =
        (List.range s.levels.length).flatMap fun i => (atLevel h i).flatMap fun c => c.fn.value q) ∧
      (∀ (J : Jac α) (i : Nat) (E : LevelEval α) (l : Level α κ) (r k : Nat), ds[i]? = some E →
        s.levels[i]? = some l → r < l.rows.nb →
        getReducedLoop (ds.zip (s.levels.map (·.rows.nb))) 0 J
          (((s.levels.take i).map (·.rows.nb)).sum + r) k = E.redJ r k) ∧
      ∀ (J : Jac α) (r k : Nat), s.reducedDim ≤ r →
        getReducedLoop (ds.zip (s.levels.map (·.rows.nb))) 0 J r k = J r k := by
  obtain ⟨hs, hf, R, hR⟩ := hb.inv hl hv
  obtain ⟨ds, h1, h2, h3⟩ := mapM_exists (Level.evalJac D s.ineqThr s.free.segs q J0) s.levels
    (fun l hl => by
      obtain ⟨i, hi⟩ := List.getElem?_of_mem hl
      obtain ⟨E, hE, -⟩ := level_evalJac hs hf hR hi D s.ineqThr s.free.segs q J0
      exact ⟨E, hE⟩)
  have hout : ds.map (·.output) =
      (List.range s.levels.length).map fun i => (atLevel h i).flatMap fun c => c.fn.value q := by
    apply List.ext_getElem?
    intro i
    rw [List.getElem?_map, List.getElem?_map]
    by_cases hi : i < s.levels.length
    · have hli := List.getElem?_eq_getElem hi
      obtain ⟨E, hE, hE'⟩ := h3 i _ hli
      obtain ⟨E', hE'', -, ho, -⟩ := level_evalJac hs hf hR hli D s.ineqThr s.free.segs q J0
      rw [hE'] at hE''; cases hE''
      rw [hE, List.getElem?_range hi]
      simp [ho]
    · rw [List.getElem?_eq_none (by omega), List.getElem?_eq_none (by simpa using hi)]
      rfl
  refine ⟨ds, h1, h2, h3, ?_, ?_, ?_⟩
  · intro buf hbuf
    have hsz : buf.length = (ds.map (·.output.length)).sum := by
      rw [hbuf]
      unfold HI.rhsSize
      have : ds.map (·.output.length) = (ds.map (·.output)).map List.length := by rw [List.map_map]; rfl
      rw [this, hout, List.map_map]
      congr 1
      apply List.ext_getElem?
      intro i
      rw [List.getElem?_map, List.getElem?_map]
      by_cases hi : i < s.levels.length
      · have hli := List.getElem?_eq_getElem hi
        rw [List.getElem?_range hi, hli]
        simp only [Option.map_some, Function.comp, Option.some.injEq]
        rw [(hs.level i _ hli).nq]
        exact (flatMap_length_sum _ _ _ fun c hc =>
          (hf.level i c hc).len _ (hf.value _ (mem_atLevel.1 hc) q)).symm
      · rw [List.getElem?_eq_none (by omega), List.getElem?_eq_none (by simpa using hi)]; rfl
    have := getValueLoop_eq ds [] buf hsz
    simp only [List.nil_append, List.length_nil] at this
    rw [this, List.flatMap_def, hout, ← List.flatMap_def]
  · intro J i E l r k hE hli hr
    have hi : i < s.levels.length := lt_of_getElem?_some hli
    have hz : (ds.zip (s.levels.map (·.rows.nb)))[i]? = some (E, l.rows.nb) := by
      rw [List.getElem?_zip_eq_some]; simp [hE, hli]
    have hsplit : ds.zip (s.levels.map (·.rows.nb)) =
        (ds.zip (s.levels.map (·.rows.nb))).take i ++ (E, l.rows.nb) ::
          (ds.zip (s.levels.map (·.rows.nb))).drop (i + 1) := by
      have hlt : i < (ds.zip (s.levels.map (·.rows.nb))).length := lt_of_getElem?_some hz
      rw [List.getElem?_eq_getElem hlt, Option.some.injEq] at hz
      conv_lhs => rw [← List.take_append_drop i (ds.zip (s.levels.map (·.rows.nb)))]
      rw [List.drop_eq_getElem_cons hlt, hz]
    have hsum : (((ds.zip (s.levels.map (·.rows.nb))).take i).map (·.2)).sum =
        ((s.levels.take i).map (·.rows.nb)).sum := by
      rw [List.map_take, List.map_take]
      congr 2
      exact List.map_snd_zip (by simp [h2])
    rw [hsplit]
    have := getReducedLoop_in ((ds.zip (s.levels.map (·.rows.nb))).take i) (E, l.rows.nb)
      ((ds.zip (s.levels.map (·.rows.nb))).drop (i + 1)) 0 J r k hr
    rwa [hsum, Nat.zero_add] at this
  · intro J r k hr
    apply getReducedLoop_out
    right
    rw [hs.rdim] at hr
    have : (ds.zip (s.levels.map (·.rows.nb))).map (·.2) = s.levels.map (·.rows.nb) :=
      List.map_snd_zip (by simp [h2])
    rw [this]; omega

end

end Hpp
