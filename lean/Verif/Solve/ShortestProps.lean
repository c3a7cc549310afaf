import Verif.Solve.DescentProps
import Verif.Svd.Props
import Verif.Svd.Exists
import Mathlib.LinearAlgebra.Matrix.Notation

/-!
# The descent direction is the shortest one, for every decomposition: C93
-/

namespace Hpp

open Matrix

variable {α : Type}

/-- What is assumed moreover of the decomposition: the columns of `getV2` are orthonormal, as columns of
the matrix V. -/
def SvdOps.Ortho [Field α] (o : SvdOps α) : Prop :=
  ∀ {m n : Nat} (M : Matrix (Fin m) (Fin n) α), (o.ker M).2ᵀ * (o.ker M).2 = 1

/-- The decompositions of `Svd/Model.lean` as they are used by the solver: `svd.solve(b)` is the product of the
pseudo-inverse by `b`, the kernel is given by `getV2` (svd.hh:56-60). -/
def svdOps [Field α] (D : ∀ {m n : Nat}, Matrix (Fin m) (Fin n) α → Svd α m n) : SvdOps α where
  solve M b := (D M).pinv *ᵥ b
  ker M := ⟨_, (D M).V2⟩

section
variable [Field α] [LinearOrder α] [IsStrictOrderedRing α] {n : Nat}

omit [LinearOrder α] [IsStrictOrderedRing α] in
theorem dot_mulVec_left {m : Nat} (M : Matrix (Fin m) (Fin n) α) (w : Fin m → α) (y : Fin n → α) :
    (Mᵀ *ᵥ w) ⬝ᵥ y = w ⬝ᵥ (M *ᵥ y) := by
  rw [mulVec_transpose, ← dotProduct_mulVec]

/-- The set of the remaining steps after all levels, and orthogonality of the direction to it. -/
theorem descendLoop_orth {o : SvdOps α} (ho : o.Exact) (hor : o.Ortho) (thr : α) (ds : List (DLevel α n)) :
    ∀ {k : Nat} (P : Matrix (Fin n) (Fin k) α) (dq : Fin n → α), Pᵀ * P = 1 → (∀ y, dq ⬝ᵥ (P *ᵥ y) = 0) →
    ∃ (k' : Nat) (K : Matrix (Fin n) (Fin k') α),
      lexOpt (Reach (some ⟨k, P⟩) dq) ds =
        Reach (some ⟨k', K⟩) (descendLoop o false thr false ds (some ⟨k, P⟩) dq) ∧
      ∀ y, descendLoop o false thr false ds (some ⟨k, P⟩) dq ⬝ᵥ (K *ᵥ y) = 0 := by
  induction ds with
  | nil => intro k P dq _ h; exact ⟨k, P, rfl, h⟩
  | cons d ds ih =>
    intro k P dq hP h
    unfold descendLoop
    by_cases hm : d.m = 0
    · rw [if_pos hm]
      obtain ⟨k', K, h1, h2⟩ := ih P dq hP h
      refine ⟨k', K, ?_, h2⟩
      show lexOpt _ ds = _
      rw [level_empty d hm]
      exact h1
    · rw [if_neg hm]
      simp only [Bool.false_eq_true, if_false, Bool.false_and]
      have hS := level_some ho P d dq _ rfl
      set dq' := dq + P *ᵥ o.solve (d.J * P) (-d.e - d.J *ᵥ dq) with hdq'
      obtain ⟨w, hw⟩ := ho.range (d.J * P) (-d.e - d.J *ᵥ dq)
      have hK := ho.ker_sub (d.J * P)
      have hO : ∀ y, dq' ⬝ᵥ ((P * (o.ker (d.J * P)).2) *ᵥ y) = 0 := by
        intro y
        rw [hdq', add_dotProduct, ← mulVec_mulVec, h, zero_add, hw]
        have : ∀ a b : Fin k → α, (P *ᵥ a) ⬝ᵥ (P *ᵥ b) = a ⬝ᵥ b := by
          intro a b
          have := dot_mulVec_left Pᵀ a (P *ᵥ b)
          rw [transpose_transpose, mulVec_mulVec, hP, one_mulVec] at this
          exact this
        rw [this, dot_mulVec_left, mulVec_mulVec, hK, zero_mulVec, dotProduct_zero]
      have hstop : ds.isEmpty = true → lexOpt (Reach (some ⟨k, P⟩) dq) (d :: ds) =
          Reach (some ⟨_, P * (o.ker (d.J * P)).2⟩) dq' := by
        intro he
        rw [List.isEmpty_iff.1 he]
        exact hS
      by_cases he : ds.isEmpty = true
      · rw [if_pos he]
        exact ⟨_, _, hstop he, hO⟩
      · rw [if_neg he]
        by_cases h0 : (o.ker (d.J * P)).1 = 0
        · rw [if_pos h0]
          refine ⟨_, _, ?_, hO⟩
          show lexOpt _ ds = _
          rw [hS, reach_zero ⟨_, P * (o.ker (d.J * P)).2⟩ h0, lexOpt_singleton]
        · rw [if_neg h0]
          have hP' : (P * (o.ker (d.J * P)).2)ᵀ * (P * (o.ker (d.J * P)).2) = 1 := by
            rw [transpose_mul, Matrix.mul_assoc, ← Matrix.mul_assoc Pᵀ P, hP, Matrix.one_mul, hor]
          obtain ⟨k', K, h1, h2⟩ := ih (P * (o.ker (d.J * P)).2) dq' hP' hO
          refine ⟨k', K, ?_, h2⟩
          show lexOpt _ ds = _
          rw [hS]
          exact h1

theorem descend_orth {o : SvdOps α} (ho : o.Exact) (hor : o.Ortho) (thr : α) (levels : List (DLevel α n))
    (h : levels.length ≤ 1 ∨ ∃ d ds, levels = d :: ds ∧ d.m ≠ 0) (dq : Fin n → α) {r : Fin n → α}
    (hr : descend o false thr levels dq = some r) :
    ∃ (k' : Nat) (K : Matrix (Fin n) (Fin k') α),
      lexOpt Set.univ levels = Reach (some ⟨k', K⟩) r ∧ ∀ y, r ⬝ᵥ (K *ᵥ y) = 0 := by
  have first : ∀ d : DLevel α n,
      {x | x ∈ (Set.univ : Set (Fin n → α)) ∧ ∀ y ∈ (Set.univ : Set (Fin n → α)), d.cost x ≤ d.cost y} =
        Reach (some (o.ker d.J)) (o.solve d.J (-d.e)) ∧
      ∀ y, o.solve d.J (-d.e) ⬝ᵥ ((o.ker d.J).2 *ᵥ y) = 0 := by
    intro d
    refine ⟨level_none ho d 0 _ (by simp), fun y => ?_⟩
    obtain ⟨w, hw⟩ := ho.range d.J (-d.e)
    rw [hw, dot_mulVec_left, mulVec_mulVec, ho.ker_sub, zero_mulVec, dotProduct_zero]
  match levels, h, hr with
  | [d], _, hr =>
    obtain rfl := Option.some.inj hr
    exact ⟨_, _, (first d).1, (first d).2⟩
  | d :: d' :: ds, h, hr =>
    have hm : d.m ≠ 0 := by
      rcases h with h | ⟨d0, ds0, h1, h2⟩
      · simp at h
      · rw [(List.cons.inj h1).1]; exact h2
    obtain rfl := Option.some.inj hr
    obtain ⟨hS, hO⟩ := first d
    unfold descendLoop
    rw [if_neg hm]
    simp only [if_true, Bool.false_and, Bool.false_eq_true, if_false, List.isEmpty_cons]
    by_cases h0 : (o.ker d.J).1 = 0
    · rw [if_pos h0]
      refine ⟨_, _, ?_, hO⟩
      show lexOpt _ (d' :: ds) = _
      rw [hS, reach_zero _ h0, lexOpt_singleton]
    · rw [if_neg h0]
      obtain ⟨k', K, h1, h2⟩ := descendLoop_orth ho hor thr (d' :: ds) (o.ker d.J).2 (o.solve d.J (-d.e)) (hor d.J) hO
      refine ⟨k', K, ?_, h2⟩
      show lexOpt _ (d' :: ds) = _
      rw [hS]
      exact h1

end

theorem rightCols_orth [Field α] {p c : Nat} (M : Matrix (Fin p) (Fin c) α) (h : Mᵀ * M = 1) (r : Nat) (hr : r ≤ c) :
    (rightCols M r hr)ᵀ * rightCols M r hr = 1 ∧ (leftCols M r hr)ᵀ * rightCols M r hr = 0 := by
  constructor
  · ext i j
    have := congrFun (congrFun h ⟨r + i.val, by omega⟩) ⟨r + j.val, by omega⟩
    rw [mul_apply] at this ⊢
    rw [show (∑ x, (rightCols M r hr)ᵀ i x * rightCols M r hr x j) =
      ∑ x, Mᵀ ⟨r + i.val, by omega⟩ x * M x ⟨r + j.val, by omega⟩ from rfl, this, one_apply, one_apply]
    congr 1
    simp only [Fin.mk.injEq, eq_iff_iff]
    exact ⟨fun h => Fin.ext (by omega), fun h => by rw [h]⟩
  · ext i j
    have := congrFun (congrFun h (Fin.castLE hr i)) ⟨r + j.val, by omega⟩
    rw [mul_apply] at this ⊢
    rw [show (∑ x, (leftCols M r hr)ᵀ i x * rightCols M r hr x j) =
      ∑ x, Mᵀ (Fin.castLE hr i) x * M x ⟨r + j.val, by omega⟩ from rfl, this, one_apply, if_neg]
    · rfl
    · intro h
      have := congrArg Fin.val h
      simp only [Fin.val_castLE] at this
      omega

/-! ## C93 -/

/-- C93. Singular value decompositions with full matrices V (svd.hh, contract of C42) satisfy everything that is
assumed of the decomposition in C36, C90, C91 and here. -/
theorem C93_decomposition [Field α] [LinearOrder α] [IsStrictOrderedRing α]
    (D : ∀ {m n : Nat}, Matrix (Fin m) (Fin n) α → Svd α m n)
    (hD : ∀ {m n : Nat} (M : Matrix (Fin m) (Fin n) α), (D M).Exact M ∧ (D M).V * (D M).Vᵀ = 1) :
    (svdOps D).Exact ∧ (svdOps D).Ortho := by
  refine ⟨⟨fun {m n} M b y => ?_, fun {m n} M b => ?_, fun {m n} M => ?_, fun {m n} M x hx => ?_⟩, fun {m n} M => ?_⟩
  · obtain ⟨h, -⟩ := hD M
    show (M *ᵥ ((D M).pinv *ᵥ b) - b) ⬝ᵥ (M *ᵥ ((D M).pinv *ᵥ b) - b) ≤ _
    have e1 : M *ᵥ y - b = M *ᵥ (y - (D M).pinv *ᵥ b) + (M *ᵥ ((D M).pinv *ᵥ b) - b) := by
      rw [mulVec_sub]; abel
    have e2 : (M *ᵥ (y - (D M).pinv *ᵥ b)) ⬝ᵥ (M *ᵥ ((D M).pinv *ᵥ b) - b) = 0 := by
      have e3 : Mᵀ *ᵥ (M *ᵥ ((D M).pinv *ᵥ b) - b) = 0 := by
        rw [mulVec_sub, mulVec_mulVec b M, h.a_pinv, mulVec_mulVec]
        have := congrArg transpose h.span_a
        rw [transpose_mul, transpose_mul, transpose_transpose] at this
        rw [this, sub_self]
      rw [dotProduct_comm, dotProduct_mulVec, ← mulVec_transpose, e3, zero_dotProduct]
    rw [e1, add_dotProduct, dotProduct_add, dotProduct_add, e2,
      dotProduct_comm (M *ᵥ ((D M).pinv *ᵥ b) - b) (M *ᵥ (y - (D M).pinv *ᵥ b)), e2]
    have := dot_self_nonneg (M *ᵥ (y - (D M).pinv *ᵥ b))
    linarith
  · obtain ⟨h, -⟩ := hD M
    obtain ⟨-, h2, -, h4⟩ := C42_pseudo_inverse (D M) M h
    refine ⟨((D M).pinvᵀ * (D M).pinv) *ᵥ b, ?_⟩
    show (D M).pinv *ᵥ b = _
    rw [mulVec_mulVec, ← Matrix.mul_assoc, ← transpose_mul, h4, h2]
  · obtain ⟨h, -⟩ := hD M
    show M * (D M).V2 = 0
    have e : (D M).V1ᵀ * (D M).V2 = 0 := (rightCols_orth (D M).V h.orthV _ _).2
    have e2 : M * (D M).V2 = M * ((D M).V1 * (D M).V1ᵀ) * (D M).V2 := by rw [h.a_span]
    rw [e2, Matrix.mul_assoc, Matrix.mul_assoc, e, Matrix.mul_zero, Matrix.mul_zero]
  · obtain ⟨h, hf⟩ := hD M
    refine ⟨(D M).V2ᵀ *ᵥ x, ?_⟩
    show x = (D M).V2 *ᵥ ((D M).V2ᵀ *ᵥ x)
    have e : (D M).V1 * (D M).V1ᵀ + (D M).V2 * (D M).V2ᵀ = 1 := by rw [← hf]; exact split_cols (D M).V _ _
    have e2 : ((D M).V1 * (D M).V1ᵀ) *ᵥ x = 0 := by
      rw [← h.pinv_a, ← mulVec_mulVec, hx, mulVec_zero]
    have := congrArg (· *ᵥ x) e
    simp only [add_mulVec, e2, zero_add, one_mulVec] at this
    rw [mulVec_mulVec]
    exact this.symm
  · show (D M).V2ᵀ * (D M).V2 = 1
    exact (rightCols_orth (D M).V (hD M).1.orthV (D M).rank (D M).hl).1

/-- Such decompositions exist for all real matrices. -/
theorem exists_exact_ortho : ∃ o : SvdOps ℝ, o.Exact ∧ o.Ortho :=
  ⟨_, C93_decomposition (fun M => (exists_svd M).choose)
    fun M => ⟨(exists_svd M).choose_spec.1, (exists_svd M).choose_spec.2.2⟩⟩

/-- C93. Among the lexicographic minimisers of the linearised errors of the levels, the direction computed is the
shortest one, and the only one of this length.  The first level must not be empty if there are several
levels. -/
theorem C93_shortest_partial [Field α] [LinearOrder α] [IsStrictOrderedRing α] (o : SvdOps α) (ho : o.Exact)
    (hor : o.Ortho) (thr : α) {n : Nat} (levels : List (DLevel α n))
    (h : levels.length ≤ 1 ∨ ∃ d ds, levels = d :: ds ∧ d.m ≠ 0) (dq : Fin n → α) {r : Fin n → α}
    (hr : descend o false thr levels dq = some r) (x : Fin n → α) (hx : x ∈ lexOpt Set.univ levels) :
    r ⬝ᵥ r ≤ x ⬝ᵥ x ∧ (x ⬝ᵥ x = r ⬝ᵥ r → x = r) := by
  obtain ⟨k', K, h1, h2⟩ := descend_orth ho hor thr levels h dq hr
  rw [h1] at hx
  obtain ⟨y, rfl⟩ := hx
  have e : (r + K *ᵥ y) ⬝ᵥ (r + K *ᵥ y) = r ⬝ᵥ r + (K *ᵥ y) ⬝ᵥ (K *ᵥ y) := by
    rw [add_dotProduct, dotProduct_add, dotProduct_add, h2, dotProduct_comm (K *ᵥ y) r, h2]
    ring
  have h0 := dot_self_nonneg (K *ᵥ y)
  refine ⟨by linarith, fun he => ?_⟩
  rw [dot_self_zero (u := K *ᵥ y) (by linarith), add_zero]

/-- C93. Thus it depends neither on the decomposition nor on what the previous iterations have left. -/
theorem C93_unique_partial [Field α] [LinearOrder α] [IsStrictOrderedRing α] (o o' : SvdOps α) (ho : o.Exact)
    (hor : o.Ortho) (ho' : o'.Exact) (hor' : o'.Ortho) (thr thr' : α) {n : Nat} (levels : List (DLevel α n))
    (h : levels.length ≤ 1 ∨ ∃ d ds, levels = d :: ds ∧ d.m ≠ 0) (dq dq' : Fin n → α) :
    descend o false thr levels dq = descend o' false thr' levels dq' := by
  cases hl : levels with
  | nil => rfl
  | cons d ds =>
    rw [← hl]
    have hs : ∀ (o : SvdOps α) (thr : α) (dq : Fin n → α), ∃ r, descend o false thr levels dq = some r := by
      intro o thr dq
      rw [hl]
      cases ds <;> exact ⟨_, rfl⟩
    obtain ⟨r, hr⟩ := hs o thr dq
    obtain ⟨r', hr'⟩ := hs o' thr' dq'
    obtain ⟨g1, g2⟩ := C93_shortest_partial o ho hor thr levels h dq hr r'
      (C36_lexicographic o' ho' thr' levels dq' hr')
    obtain ⟨g3, -⟩ := C93_shortest_partial o' ho' hor' thr' levels h dq' hr' r
      (C36_lexicographic o ho thr levels dq hr)
    rw [hr, hr', g2 (le_antisymm g3 g1)]

/-- A case with two levels that meets the hypotheses of the two theorems above. -/
example : ∃ o : SvdOps ℝ, o.Exact ∧ o.Ortho ∧ ∃ d ds,
    ([⟨1, !![1, 0, 0], ![3]⟩, ⟨1, !![1, 1, 0], ![2]⟩] : List (DLevel ℝ 3)) = d :: ds ∧ d.m ≠ 0 := by
  obtain ⟨o, h1, h2⟩ := exists_exact_ortho
  exact ⟨o, h1, h2, _, _, rfl, by simp⟩

/-- C93 fails if the first level is empty and there is another one: for every decomposition and every length the
direction may be longer than the shortest minimiser. -/
theorem C93_empty_first_refuted [Field α] [LinearOrder α] [IsStrictOrderedRing α] (o : SvdOps α) (ho : o.Exact)
    (byLevel : Bool) (thr : α) :
    ∃ levels : List (DLevel α 2), (0 : Fin 2 → α) ∈ lexOpt Set.univ levels ∧
      ∀ c : α, ∃ (dq r : Fin 2 → α), descend o byLevel thr levels dq = some r ∧ c * c ≤ r ⬝ᵥ r := by
  refine ⟨[⟨0, 0, 0⟩, ⟨1, !![1, 0], ![0]⟩], ?_, fun c => ?_⟩
  · refine ⟨⟨trivial, fun y _ => by simp [DLevel.cost]⟩, fun y _ => ?_⟩
    simp only [DLevel.cost]
    have : (!![1, 0] *ᵥ (0 : Fin 2 → α) + ![0] : Fin 1 → α) = 0 := by
      funext i; fin_cases i; simp
    rw [this, dotProduct_zero]
    exact dot_self_nonneg _
  · obtain ⟨w, hw⟩ := ho.range (!![1, 0] : Matrix (Fin 1) (Fin 2) α) (-![0] - !![1, 0] *ᵥ ![0, c])
    have hr : descendLoop o byLevel thr true [⟨0, 0, 0⟩, ⟨1, !![1, 0], ![0]⟩] none ![0, c] =
        ![0, c] + o.solve (!![1, 0] : Matrix (Fin 1) (Fin 2) α) (-![0] - !![1, 0] *ᵥ ![0, c]) := by
      simp [descendLoop]
    refine ⟨![0, c], _, rfl, ?_⟩
    rw [hr]
    set r := ![0, c] + o.solve (!![1, 0] : Matrix (Fin 1) (Fin 2) α) (-![0] - !![1, 0] *ᵥ ![0, c]) with hrr
    have h1 : r 1 = c := by rw [hrr, hw]; simp [mulVec, dotProduct]
    have : r ⬝ᵥ r = r 0 * r 0 + r 1 * r 1 := by simp [dotProduct, Fin.sum_univ_two]
    rw [this, h1]
    nlinarith [mul_self_nonneg (r 0)]

end Hpp
