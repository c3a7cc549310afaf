import Verif.Fun.Manip
import Verif.Fun.FiniteDiffProps
import Verif.Svd.Exists
import Mathlib.LinearAlgebra.Matrix.Charpoly.Basic
import Mathlib.LinearAlgebra.Matrix.ToLinearEquiv
import Mathlib.Algebra.Polynomial.Roots

/-!
# Properties of the manipulability (C88)
-/

namespace Hpp.Manip

open Matrix

variable {m k p : Nat} {J : Fin m → Nat → ℝ} {act : List Bool} {A : Matrix (Fin m) (Fin k) ℝ} {σ τ : Fin p → ℝ}

theorem dmin_pos : 0 < dmin := by unfold dmin; positivity

theorem sum_list_filter {α : Type} [AddCommMonoid α] (l : List Nat) (g : Nat → Bool) (h : Nat → α) :
    ((l.filter g).map h).sum = (l.map fun j => if g j then h j else 0).sum := by
  induction l with
  | nil => rfl
  | cons a l ih =>
    rw [List.filter_cons]
    split
    · next hg => simp [ih, hg]
    · next hg => simp [ih, hg]

theorem gram_eq (J : Fin m → Nat → ℝ) (act : List Bool) : gram J act = activeCols J act * (activeCols J act)ᵀ := by
  ext a b
  rw [mul_apply]
  have h1 : ∑ c, activeCols J act a c * (activeCols J act)ᵀ c b = ((indices (fromLogical act)).map fun j => J a j * J b j).sum := by
    rw [← List.sum_ofFn]
    congr 1
    apply List.ext_getElem
    · simp
    · intro i h1 h2
      simp [activeCols]
  rw [h1, (C08_mask_to_intervals act).2.2, sum_list_filter, gram, Finset.sum_range, ← List.sum_ofFn]
  congr 1
  apply List.ext_getElem
  · simp
  · intro i h1 h2
    simp only [List.length_ofFn] at h1
    simp [List.getD_eq_getElem?_getD, List.getElem?_eq_getElem h1]

theorem SingularValues.gram (h : SingularValues A σ) : ∃ U : Matrix (Fin m) (Fin p) ℝ, Uᵀ * U = 1 ∧
    A * Aᵀ = U * diagonal (fun i => σ i ^ 2) * Uᵀ := by
  obtain ⟨U, V, hU, hV, e⟩ := h.eq
  refine ⟨U, hU, ?_⟩
  have : A * Aᵀ = U * diagonal σ * (Vᵀ * V) * diagonal σ * Uᵀ := by
    rw [e]
    simp only [transpose_mul, diagonal_transpose, transpose_transpose, Matrix.mul_assoc]
  rw [this, hV, Matrix.mul_one, Matrix.mul_assoc U, diagonal_mul_diagonal]
  simp only [pow_two]

theorem orth_dot {U : Matrix (Fin m) (Fin p) ℝ} (hU : Uᵀ * U = 1) (y z : Fin p → ℝ) : (U *ᵥ y) ⬝ᵥ (U *ᵥ z) = y ⬝ᵥ z := by
  rw [dotProduct_mulVec, vecMul_mulVec, ← dotProduct_mulVec, hU, one_mulVec]

/-- Value on the image of `U` -/
theorem gram_col {U : Matrix (Fin m) (Fin p) ℝ} (hU : Uᵀ * U = 1) (d : Fin p → ℝ) (y : Fin p → ℝ) :
    (U *ᵥ y) ⬝ᵥ ((U * diagonal d * Uᵀ) *ᵥ (U *ᵥ y)) = ∑ i, d i * (y i) ^ 2 := by
  rw [mulVec_mulVec, Matrix.mul_assoc, hU, Matrix.mul_one, ← mulVec_mulVec, orth_dot hU]
  unfold dotProduct
  refine Finset.sum_congr rfl fun i _ => ?_
  rw [mulVec_diagonal]
  ring

theorem SingularValues.basis (h : SingularValues A σ) (i : Fin p) : ∃ x : Fin m → ℝ, x ⬝ᵥ x = 1 ∧ x ⬝ᵥ ((A * Aᵀ) *ᵥ x) = σ i ^ 2 := by
  obtain ⟨U, hU, e⟩ := h.gram
  refine ⟨U *ᵥ Pi.single i 1, ?_, ?_⟩
  · rw [orth_dot hU]
    simp
  · rw [e, gram_col hU]
    simp [Pi.single_apply]

theorem SingularValues.ge (h : SingularValues (activeCols J act) σ) {r : ℝ} (hJ : AtLeast J act r) (_ : 0 ≤ r) (i : Fin p) : r ≤ σ i := by
  obtain ⟨x, h1, h2⟩ := h.basis i
  have := hJ x
  rw [gram_eq, h1, h2] at this
  exact abs_le_of_sq_le_sq' (by linarith) (h.nonneg i) |>.2

theorem SingularValues.le (h : SingularValues (activeCols J act) σ) {r : ℝ} (hJ : AtMost J act r) (hr : 0 ≤ r) (i : Fin p) : σ i ≤ r := by
  obtain ⟨x, h1, h2⟩ := h.basis i
  have := hJ x
  rw [gram_eq, h1, h2] at this
  exact abs_le_of_sq_le_sq' (by linarith) hr |>.2

theorem SingularValues.square (h : SingularValues (activeCols J act) σ) {r : ℝ} (hJ : AtLeast J act r) (hr : 0 < r) : p = m := by
  by_contra hne
  have hlt : p < m := lt_of_le_of_ne (h.size ▸ min_le_left _ _) hne
  obtain ⟨U, hU, e⟩ := h.gram
  have hk := LinearMap.ker_ne_bot_of_finrank_lt (f := (Uᵀ).mulVecLin) (by simpa using hlt)
  obtain ⟨x, hx, h0⟩ := (Submodule.ne_bot_iff _).1 hk
  have hx' : Uᵀ *ᵥ x = 0 := hx
  have := hJ x
  rw [gram_eq, e, ← mulVec_mulVec, hx', mulVec_zero, dotProduct_zero] at this
  have h1 : 0 ≤ x ⬝ᵥ x := Finset.sum_nonneg fun i _ => mul_self_nonneg _
  have h2 : x ⬝ᵥ x = 0 := by nlinarith [pow_pos hr 2]
  exact h0 (dotProduct_self_eq_zero.1 h2)

theorem SingularValues.det {σ : Fin m → ℝ} (h : SingularValues A σ) : (A * Aᵀ).det = (∏ i, σ i) ^ 2 := by
  obtain ⟨U, hU, e⟩ := h.gram
  rw [e, det_mul, det_mul, det_diagonal, mul_comm _ (Uᵀ.det), ← mul_assoc, ← det_mul, hU, det_one, one_mul, Finset.prod_pow]

theorem SingularValues.value_eq (h : SingularValues (activeCols J act) σ) (hJ : AtLeast J act dmin) :
    value σ = max (-Real.logb 10 (Real.sqrt (Manip.gram J act).det)) 0 := by
  obtain rfl := h.square hJ dmin_pos
  have hge := h.ge hJ dmin_pos.le
  have hp : ∀ i, 0 < σ i := fun i => lt_of_lt_of_le dmin_pos (hge i)
  rw [gram_eq, h.det, Real.sqrt_sq (Finset.prod_nonneg fun i _ => h.nonneg i), Real.logb_prod _ _ fun i _ => (hp i).ne']
  unfold value
  congr 2
  exact Finset.sum_congr rfl fun i _ => by rw [max_eq_left (hge i)]

theorem SingularValues.det_pos (h : SingularValues (activeCols J act) σ) (hJ : AtLeast J act dmin) : 0 < (Manip.gram J act).det := by
  obtain rfl := h.square hJ dmin_pos
  rw [gram_eq, h.det]
  exact pow_pos (Finset.prod_pos fun i _ => lt_of_lt_of_le dmin_pos (h.ge hJ dmin_pos.le i)) 2

theorem SingularValues.value_ge (h : SingularValues (activeCols J act) σ) (hm : m ≤ act.count true) (h0 : (Manip.gram J act).det = 0)
    {L : ℝ} (hL : 1 ≤ L) (hJ : AtMost J act L) : -Real.logb 10 dmin - (m - 1) * Real.logb 10 L ≤ value σ := by
  have hp : p = m := by
    rw [h.size, min_eq_left]
    rw [← cardinal_eq_length, C08_mask_cardinal]
    exact hm
  subst hp
  rw [gram_eq, h.det] at h0
  obtain ⟨i, -, hi⟩ := Finset.prod_eq_zero_iff.1 (pow_eq_zero_iff (two_ne_zero) |>.1 h0)
  have hd1 : dmin ≤ 1 := by
    unfold dmin
    exact pow_le_one₀ (by norm_num) (by norm_num)
  have hle : ∀ j, Real.logb 10 (max (σ j) dmin) ≤ Real.logb 10 L := fun j =>
    Real.logb_le_logb_of_le (by norm_num) (lt_max_of_lt_right dmin_pos) (max_le (h.le hJ (by linarith) j) (by linarith))
  have hsum : ∑ j, Real.logb 10 (max (σ j) dmin) ≤ Real.logb 10 dmin + (p - 1) * Real.logb 10 L := by
    rw [← Finset.add_sum_erase _ _ (Finset.mem_univ i), hi, max_eq_right dmin_pos.le]
    have := Finset.sum_le_card_nsmul (Finset.univ.erase i) (fun j => Real.logb 10 (max (σ j) dmin)) _ fun j _ => hle j
    rw [Finset.card_erase_of_mem (Finset.mem_univ i), Finset.card_univ, Fintype.card_fin, nsmul_eq_mul,
      Nat.cast_sub (by have := i.isLt; omega), Nat.cast_one] at this
    linarith
  unfold value
  refine le_trans ?_ (le_max_left _ _)
  linarith

theorem SingularValues.value_one (h : SingularValues A σ) (h1 : p = 1) (ht : (A * Aᵀ).trace = 1) : value σ = 0 := by
  subst h1
  obtain ⟨U, hU, e⟩ := h.gram
  rw [e, trace_mul_comm, ← Matrix.mul_assoc, hU, Matrix.one_mul, trace_diagonal, Fin.sum_univ_one] at ht
  have h2 : σ 0 = 1 := by
    have := h.nonneg 0
    nlinarith
  unfold value
  have hd : dmin ≤ 1 := by
    unfold dmin
    exact pow_le_one₀ (by norm_num) (by norm_num)
  rw [Fin.sum_univ_one, h2, max_eq_left hd, Real.logb_one]
  simp

/-! ### C88 -/

/-- The value is the opposite of the decimal logarithm of the square root of the determinant of `J J^T`, or 0 if it is negative. -/
theorem C88_value {svd : Svds m} (hs : svd.Ok) {X : Type} (J : X → Fin m → Nat → ℝ) (act : List Bool) (x : X)
    (hJ : AtLeast (J x) act dmin) : compute svd J act x = max (-Real.logb 10 (Real.sqrt (gram (J x) act).det)) 0 :=
  (hs _ _).value_eq hJ

/-- The value is zero exactly if the manipulability (determinant of `J J^T`) is at least one. -/
theorem C88_zero_iff {svd : Svds m} (hs : svd.Ok) {X : Type} (J : X → Fin m → Nat → ℝ) (act : List Bool) (x : X)
    (hJ : AtLeast (J x) act dmin) : compute svd J act x = 0 ↔ 1 ≤ (gram (J x) act).det := by
  have hd := (hs _ (activeCols (J x) act)).det_pos hJ
  rw [C88_value hs J act x hJ, max_eq_right_iff, neg_nonpos, Real.logb_nonneg_iff (by norm_num) (Real.sqrt_pos.2 hd), Real.one_le_sqrt]

/-- At a singular configuration the value is great: it is about 307.65 if no singular value is greater than one. -/
theorem C88_singular {svd : Svds m} (hs : svd.Ok) {X : Type} (J : X → Fin m → Nat → ℝ) (act : List Bool) (x : X)
    (hm : m ≤ act.count true) (h0 : (gram (J x) act).det = 0) {L : ℝ} (hL : 1 ≤ L) (hJ : AtMost (J x) act L) :
    -Real.logb 10 dmin - (m - 1) * Real.logb 10 L ≤ compute svd J act x :=
  (hs _ _).value_ge hm h0 hL hJ

/-- The value does not depend on the decomposition. -/
theorem C88_unique (h : SingularValues A σ) (h' : SingularValues A τ) : value σ = value τ := by
  have key : ∀ {σ : Fin p → ℝ}, SingularValues A σ → (Polynomial.X : Polynomial ℝ) ^ p * (A * Aᵀ).charpoly =
      Polynomial.X ^ m * ∏ i, (Polynomial.X - Polynomial.C (σ i ^ 2)) := by
    intro σ h
    obtain ⟨U, hU, e⟩ := h.gram
    have := charpoly_mul_comm' (U * diagonal fun i => σ i ^ 2) Uᵀ
    rw [← Matrix.mul_assoc, hU, Matrix.one_mul, charpoly_diagonal, ← e] at this
    simpa using this
  have e := (key h).symm.trans (key h')
  have e2 := mul_left_cancel₀ (pow_ne_zero _ Polynomial.X_ne_zero) e
  have e3 := congrArg Polynomial.roots e2
  have hc : ∀ σ : Fin p → ℝ, ∏ i, (Polynomial.X - Polynomial.C (σ i ^ 2)) =
      ((Finset.univ.val.map fun i => σ i ^ 2).map fun a => Polynomial.X - Polynomial.C a).prod := fun σ => by
    rw [Multiset.map_map]
    rfl
  rw [hc, hc, Polynomial.roots_multiset_prod_X_sub_C, Polynomial.roots_multiset_prod_X_sub_C] at e3
  have hv : ∀ {σ : Fin p → ℝ}, SingularValues A σ →
      value σ = max (-((Finset.univ.val.map fun i => σ i ^ 2).map fun a => Real.logb 10 (max (Real.sqrt a) dmin)).sum) 0 := by
    intro σ h
    unfold value
    rw [Multiset.map_map]
    congr 2
    refine Finset.sum_congr rfl fun i _ => ?_
    dsimp only [Function.comp]
    rw [Real.sqrt_sq (h.nonneg i)]
  rw [hv h, hv h', e3]

/-- Columns of the Jacobian: central difference of the value for active parameters, zero for the other ones -/
theorem C88_jacobian (svd : Svds m) (J : (Nat → ℝ) → Fin m → Nat → ℝ) (act : List Bool)
    (integrate : (Nat → ℝ) → (Nat → ℝ) → Nat → ℝ) (n : Nat) (x : Nat → ℝ) (M : Nat → Nat → ℝ) (j : Nat) (hj : j < n) :
    (act.getD j false = false → jacobian svd J act integrate n x M 0 j = 0) ∧
    (act.getD j false = true → ∃ h, 0 < h ∧ jacobian svd J act integrate n x M 0 j =
      (compute svd J act (integrate x (Pi.single j h)) - compute svd J act (integrate x (-Pi.single j h))) / (2 * h)) := by
  have := (FD.C45_central (FD.robotOp (1e-8 : ℝ) integrate) (FD.robotOp_lawful _ _) (compute svd J act) (fun a b _ => a - b)
    (fun j => act.getD j false) n x M).1 0 j hj
  unfold jacobian
  rw [this]
  refine ⟨fun h => by rw [if_neg (by rw [h]; decide)], fun h => ?_⟩
  rw [if_pos h]
  refine ⟨(FD.robotOp (1e-8 : ℝ) integrate).step j x, ?_, ?_⟩
  · change 0 < FD.step (1e-8 : ℝ) x j
    unfold FD.step
    dsimp only
    split_ifs with h0
    · norm_num
    · exact mul_pos (by norm_num) (lt_of_le_of_ne (abs_nonneg _) (Ne.symm h0))
  · have e : FD.single j ((FD.robotOp (1e-8 : ℝ) integrate).step j x) = Pi.single j ((FD.robotOp (1e-8 : ℝ) integrate).step j x) := by
      funext k
      simp [FD.single, Pi.single_apply]
    rw [e, div_div, mul_comm (2 : ℝ)]
    rfl

/-- With more rows than active columns, the determinant of `J J^T` is zero (the output cannot move in all directions) although the
value is zero. -/
theorem C88_tall_refuted {svd : Svds 2} (hs : svd.Ok) : ∃ (J : Unit → Fin 2 → Nat → ℝ) (act : List Bool),
    (gram (J ()) act).det = 0 ∧ AtMost (J ()) act 1 ∧ compute svd J act () = 0 := by
  refine ⟨fun _ a _ => if a = 0 then 1 else 0, [true], ?_, fun x => ?_, ?_⟩
  · rw [det_fin_two]
    simp [gram]
  · simp [gram, mulVec, dotProduct, Fin.sum_univ_two]
    nlinarith [mul_self_nonneg (x 1)]
  · have h := hs _ (activeCols (fun (a : Fin 2) (_ : Nat) => if a = 0 then (1 : ℝ) else 0) [true])
    refine h.value_one (by rw [h.size]; decide) ?_
    rw [← gram_eq]
    simp [gram, trace]

/-! ### Examples -/

/-- Decompositions that meet the contract exist. -/
theorem svds_exist (m : Nat) : ∃ svd : Svds m, svd.Ok := by
  have h : ∀ k (A : Matrix (Fin m) (Fin k) ℝ), ∃ σ : Fin (min m k) → ℝ, SingularValues A σ := by
    intro k A
    obtain ⟨s, he, hU, hV⟩ := exists_svd A
    have hk : s.k = m := by
      have h1 := trace_mul_comm s.Uᵀ s.U
      rw [he.orthU, hU, trace_one, trace_one, Fintype.card_fin, Fintype.card_fin] at h1
      exact_mod_cast h1
    have hl : s.l = k := by
      have h1 := trace_mul_comm s.Vᵀ s.V
      rw [he.orthV, hV, trace_one, trace_one, Fintype.card_fin, Fintype.card_fin] at h1
      exact_mod_cast h1
    have hpk : min m k ≤ s.k := by omega
    have hpl : min m k ≤ s.l := by omega
    have hr : s.rank ≤ min m k := by have := s.hk; have := s.hl; omega
    let g : Fin (min m k) → ℝ := fun i => if 0 ≤ s.σ i then 1 else -1
    have hg : ∀ i, g i * g i = 1 := fun i => by
      dsimp only [g]
      split <;> norm_num
    refine ⟨fun i => if i.val < s.rank then |s.σ i| else 0, rfl, fun i => ?_, leftCols s.U _ hpk * diagonal g, leftCols s.V _ hpl,
      ?_, leftCols_orth _ he.orthV _ _, ?_⟩
    · split
      · exact abs_nonneg _
      · exact le_rfl
    · rw [transpose_mul, diagonal_transpose, Matrix.mul_assoc, ← Matrix.mul_assoc _ (leftCols s.U _ hpk), leftCols_orth _ he.orthU,
        Matrix.one_mul, diagonal_mul_diagonal]
      simp only [hg]
      exact diagonal_one
    · rw [Matrix.mul_assoc (leftCols s.U _ hpk), diagonal_mul_diagonal]
      conv_lhs => rw [he.eq]
      ext i j
      rw [mul_apply, mul_apply, sum_castLE hr]
      · refine Finset.sum_congr rfl fun x _ => ?_
        rw [mul_diagonal, mul_diagonal]
        have e : g (Fin.castLE hr x) * (if (Fin.castLE hr x).val < s.rank then |s.σ (Fin.castLE hr x)| else 0) = s.σ x := by
          dsimp only [g, Fin.val_castLE]
          rw [if_pos x.2]
          split_ifs with h0
          · rw [abs_of_nonneg h0, one_mul]
          · rw [abs_of_neg (not_le.1 h0)]
            ring
        rw [e]
        rfl
      · intro x hx
        rw [mul_diagonal, if_neg (by omega), mul_zero, mul_zero, zero_mul]
  exact ⟨fun k A => (h k A).choose, fun k A => (h k A).choose_spec⟩

/-- The hypotheses of `C88_value` and `C88_zero_iff` hold: two active columns among three -/
example (svd : Svds 2) (hs : svd.Ok) :
    compute svd (fun (_ : Unit) a j => if j = 2 * a.val then 3 else if j = 1 then 7 else 0) [true, false, true] () = 0 := by
  have hg : gram (fun (a : Fin 2) j => if j = 2 * a.val then (3 : ℝ) else if j = 1 then 7 else 0) [true, false, true] = !![9, 0; 0, 9] := by
    ext a b
    fin_cases a <;> fin_cases b <;> simp [gram, Finset.sum_range_succ] <;> norm_num
  refine (C88_zero_iff hs _ _ _ fun x => ?_).2 ?_
  · rw [hg]
    have hd : dmin ≤ 1 := by
      unfold dmin
      exact pow_le_one₀ (by norm_num) (by norm_num)
    have : dmin ^ 2 ≤ 1 := pow_le_one₀ dmin_pos.le hd
    simp only [dotProduct, mulVec, Fin.sum_univ_two, cons_val_zero, cons_val_one, of_apply]
    nlinarith [mul_self_nonneg (x 0), mul_self_nonneg (x 1)]
  · rw [hg, det_fin_two]
    simp
    norm_num

/-- The hypotheses of `C88_singular` hold: proportional rows. -/
example (svd : Svds 2) (hs : svd.Ok) :
    -Real.logb 10 dmin - 1 * Real.logb 10 2 ≤ compute svd (fun (_ : Unit) _ j => if j = 0 then 1 else 0) [true, true] () := by
  have hg : gram (fun (_ : Fin 2) j => if j = 0 then (1 : ℝ) else 0) [true, true] = !![1, 1; 1, 1] := by
    ext a b
    fin_cases a <;> fin_cases b <;> simp [gram, Finset.sum_range_succ]
  have := C88_singular hs (fun (_ : Unit) _ j => if j = 0 then (1 : ℝ) else 0) [true, true] () (by decide) (by rw [hg, det_fin_two]; simp)
    (L := 2) (by norm_num) (fun x => by
      rw [hg]
      simp only [dotProduct, mulVec, Fin.sum_univ_two, cons_val_zero, cons_val_one, of_apply]
      nlinarith [mul_self_nonneg (x 0 - x 1), mul_self_nonneg (x 0), mul_self_nonneg (x 1)])
  norm_num at this ⊢
  linarith

end Hpp.Manip
