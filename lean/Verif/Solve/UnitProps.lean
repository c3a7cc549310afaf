import Verif.Solve.OrderProps
import Verif.HI.OrderProps

/-!
# C135. Change of unit: descent direction, line searches and iterations

Sources: `/repo/include/hpp/constraints/solver/impl/hierarchical-iterative.hh`, lines 39-181 and
`/repo/src/solver/hierarchical-iterative.cc`, lines 653-672 and 744-823.

The statement about solvers built by insertion of constraints is in `HI/UnitProps.lean`.
-/

namespace Hpp

open Matrix

variable {α : Type}

/-- A level whose error and Jacobian are expressed in another unit: multiplied by `c`. -/
def DLevel.inUnit [Field α] {n : Nat} (c : α) (d : DLevel α n) : DLevel α n := ⟨d.m, c • d.J, c • d.e⟩

/-- Specification: the levels are the same up to the unit: the squared norm of the linearised error is multiplied by the same
number everywhere. -/
structure DLevel.SameUpTo [Field α] {n : Nat} (c : α) (d d' : DLevel α n) : Prop where
  empty : d.m = 0 ↔ d'.m = 0
  cost : ∀ x, d'.cost x = c * c * d.cost x

section
variable [Field α] {n : Nat}

theorem inUnit_cost (c : α) (d : DLevel α n) (x : Fin n → α) : (d.inUnit c).cost x = c * c * d.cost x := by
  obtain ⟨m, J, e⟩ := d
  dsimp only [DLevel.cost, DLevel.inUnit]
  rw [smul_mulVec, ← smul_add, smul_dotProduct, dotProduct_smul, smul_eq_mul, smul_eq_mul]
  exact (mul_assoc _ _ _).symm

theorem inUnit_inv {c : α} (hc : c ≠ 0) (d : DLevel α n) : (d.inUnit c⁻¹).inUnit c = d := by
  obtain ⟨m, J, e⟩ := d
  dsimp only [DLevel.inUnit]
  rw [smul_smul, smul_smul, mul_inv_cancel₀ hc, one_smul, one_smul]

theorem DLevel.SameUpTo.same {c : α} (hc : c ≠ 0) {d d' : DLevel α n} (h : d.SameUpTo c d') : d.Same (d'.inUnit c⁻¹) := by
  refine ⟨h.empty, fun x => ?_⟩
  rw [inUnit_cost, h.cost, ← mul_assoc]
  have : c⁻¹ * c⁻¹ * (c * c) = 1 := by field_simp
  rw [this, one_mul]

/-- The decompositions, applied to the matrices in the other unit -/
def SvdOps.inUnit (c : α) (o : SvdOps α) : SvdOps α where
  solve M b := o.solve (c • M) (c • b)
  ker M := o.ker (c • M)

end

section
variable [Field α] [LinearOrder α] [IsStrictOrderedRing α] {n : Nat}

theorem SvdOps.Exact.inUnit {c : α} (hc : 0 < c) {o : SvdOps α} (h : o.Exact) : (o.inUnit c).Exact where
  ls M b y := by
    have h1 := h.ls (c • M) (c • b) y
    have e : ∀ z, (c • M) *ᵥ z - c • b = c • (M *ᵥ z - b) := by intro z; rw [smul_mulVec, smul_sub]
    rw [e, e] at h1
    simp only [smul_dotProduct, dotProduct_smul, smul_eq_mul] at h1
    exact le_of_mul_le_mul_left (le_of_mul_le_mul_left h1 hc) hc
  range M b := by
    obtain ⟨w, hw⟩ := h.range (c • M) (c • b)
    refine ⟨c • w, ?_⟩
    show o.solve (c • M) (c • b) = _
    rw [hw, transpose_smul, smul_mulVec, mulVec_smul]
  ker_sub M := by
    have h1 := h.ker_sub (c • M)
    rw [smul_mul] at h1
    exact (smul_eq_zero.1 h1).resolve_left hc.ne'
  ker_sup M x hx := h.ker_sup (c • M) x (by rw [smul_mulVec, hx, smul_zero])

omit [LinearOrder α] [IsStrictOrderedRing α] in
theorem SvdOps.Ortho.inUnit (c : α) {o : SvdOps α} (h : o.Ortho) : (o.inUnit c).Ortho := fun M => h (c • M)

theorem descendLoop_inUnit {c : α} (hc : 0 < c) (o : SvdOps α) (byLevel : Bool) (thr : α) : ∀ (ds : List (DLevel α n)) (first : Bool)
    (proj : Proj α n) (dq : Fin n → α),
    descendLoop o byLevel (c * c * thr) first (ds.map (DLevel.inUnit c)) proj dq =
      descendLoop (o.inUnit c) byLevel thr first ds proj dq := by
  intro ds
  induction ds with
  | nil => intros; rfl
  | cons d ds ih =>
    intro first proj dq
    obtain ⟨m, J, e⟩ := d
    rw [List.map_cons, show (⟨m, J, e⟩ : DLevel α n).inUnit c = ⟨m, c • J, c • e⟩ from rfl]
    unfold descendLoop
    dsimp only
    by_cases hm : m = 0
    · rw [if_pos hm, if_pos hm]
      exact ih _ _ _
    · rw [if_neg hm, if_neg hm]
      have he : (if first = true then -(c • e) else -(c • e) - (c • J) *ᵥ dq) =
          c • (if first = true then -e else -e - J *ᵥ dq) := by
        rw [smul_mulVec]
        split
        · rw [smul_neg]
        · rw [smul_sub, smul_neg]
      rw [he]
      generalize (if first = true then -e else -e - J *ᵥ dq) = err
      have hlt : decide ((c • err) ⬝ᵥ (c • err) > c * c * thr) = decide (err ⬝ᵥ err > thr) := by
        rw [smul_dotProduct, dotProduct_smul, smul_eq_mul, smul_eq_mul, ← mul_assoc]
        simp only [gt_iff_lt, mul_lt_mul_iff_right₀ (mul_pos hc hc)]
      have hmt : (ds.map (DLevel.inUnit c)).isEmpty = ds.isEmpty := by cases ds <;> rfl
      have hs : o.solve (c • J) (c • err) = (o.inUnit c).solve J err := rfl
      have hk : o.ker (c • J) = (o.inUnit c).ker J := rfl
      cases proj with
      | none =>
        dsimp only
        rw [hlt, hmt, hs, hk]
        simp only [ih]
      | some P =>
        obtain ⟨k, P⟩ := P
        dsimp only
        have hs' : o.solve (c • J * P) (c • err) = (o.inUnit c).solve (J * P) err := by rw [smul_mul]; rfl
        have hk' : o.ker (c • J * P) = (o.inUnit c).ker (J * P) := by rw [smul_mul]; rfl
        rw [hlt, hmt, hs, hs', hk']
        simp only [ih]

theorem descend_inUnit {c : α} (hc : 0 < c) (o : SvdOps α) (byLevel : Bool) (thr : α) (ds : List (DLevel α n)) (dq : Fin n → α) :
    descend o byLevel (c * c * thr) (ds.map (DLevel.inUnit c)) dq = descend (o.inUnit c) byLevel thr ds dq := by
  match ds with
  | [] => rfl
  | [d] =>
    show some (o.solve (c • d.J) (-(c • d.e))) = _
    rw [← smul_neg]
    rfl
  | d :: d' :: ds => exact congrArg some (descendLoop_inUnit hc o byLevel thr (d :: d' :: ds) true none dq)

omit [LinearOrder α] [IsStrictOrderedRing α] in
theorem forall₂_same {c : α} (hc : c ≠ 0) {L L' : List (DLevel α n)} (h : List.Forall₂ (DLevel.SameUpTo c) L L') :
    List.Forall₂ DLevel.Same L (L'.map (DLevel.inUnit c⁻¹)) := by
  induction h with
  | nil => exact .nil
  | cons hd _ ih => exact .cons (hd.same hc) ih

/-- C135. The descent direction does not depend on the unit in which the errors are expressed: with or without
`solveLevelByLevel`, provided that the threshold is converted. -/
theorem C135_direction {o o' : SvdOps α} (ho : o.Exact) (hor : o.Ortho) (ho' : o'.Exact) (hor' : o'.Ortho) (byLevel : Bool)
    {c : α} (hc : 0 < c) (thr : α) {L L' : List (DLevel α n)} (h : List.Forall₂ (DLevel.SameUpTo c) L L') (dq : Fin n → α) :
    descend o byLevel thr L dq = descend o' byLevel (c * c * thr) L' dq := by
  have hL : L' = (L'.map (DLevel.inUnit c⁻¹)).map (DLevel.inUnit c) := by
    rw [List.map_map]
    have : (DLevel.inUnit c ∘ DLevel.inUnit c⁻¹ : DLevel α n → DLevel α n) = id := by funext d; exact inUnit_inv hc.ne' d
    rw [this, List.map_id]
  rw [hL, descend_inUnit hc]
  exact C128_direction ho hor (ho'.inUnit hc) (hor'.inUnit c) byLevel thr (forall₂_same hc.ne' h) dq

/-- C135. The slope is multiplied by the square of the unit, -/
theorem C135_slope {c : α} (hc : 0 < c) {L L' : List (DLevel α n)} (h : List.Forall₂ (DLevel.SameUpTo c) L L') (dq : Fin n → α) :
    localSlope L' dq = c * c * localSlope L dq := by
  rw [C128_slope (forall₂_same hc.ne' h) dq]
  have key : ∀ (L' : List (DLevel α n)) (a : α), L'.foldl (fun s d => s + (d.J *ᵥ dq) ⬝ᵥ d.e) (c * c * a) =
      c * c * (L'.map (DLevel.inUnit c⁻¹)).foldl (fun s d => s + (d.J *ᵥ dq) ⬝ᵥ d.e) a := by
    intro L'
    induction L' with
    | nil => intro a; rfl
    | cons d L' ih =>
      intro a
      rw [List.map_cons, List.foldl_cons, List.foldl_cons, ← ih]
      congr 1
      obtain ⟨m, J, e⟩ := d
      show c * c * a + (J *ᵥ dq) ⬝ᵥ e = c * c * (a + ((c⁻¹ • J) *ᵥ dq) ⬝ᵥ (c⁻¹ • e))
      rw [smul_mulVec, smul_dotProduct, dotProduct_smul, smul_eq_mul, smul_eq_mul]
      have := hc.ne'
      field_simp
  have := key L' 0
  rwa [mul_zero] at this

/-- C135. and saturation blocks the same columns. -/
theorem C135_saturation {c : α} (hc : 0 < c) {d d' : DLevel α n} (h : d.SameUpTo c d') (s : Fin n → α) :
    (satLevel s d).SameUpTo c (satLevel s d') := by
  have h1 := C128_saturation (h.same hc.ne') s
  have h2 : satLevel s (d'.inUnit c⁻¹) = (satLevel s d').inUnit c⁻¹ := by
    clear h h1
    obtain ⟨m, J, e⟩ := d'
    dsimp only [DLevel.inUnit, satLevel]
    have hg : ∀ j, ((c⁻¹ • J)ᵀ *ᵥ (c⁻¹ • e)) j = c⁻¹ * c⁻¹ * (Jᵀ *ᵥ e) j := by
      intro j
      rw [transpose_smul, smul_mulVec, mulVec_smul, smul_smul]
      rfl
    have hlt : ∀ j, s j * ((c⁻¹ • J)ᵀ *ᵥ (c⁻¹ • e)) j < 0 ↔ s j * (Jᵀ *ᵥ e) j < 0 := by
      intro j
      have hp : 0 < c⁻¹ * c⁻¹ := mul_pos (inv_pos.2 hc) (inv_pos.2 hc)
      rw [hg, mul_left_comm]
      have := mul_lt_mul_iff_right₀ hp (b := s j * (Jᵀ *ᵥ e) j) (c := 0)
      rwa [mul_zero] at this
    simp only [hlt]
    congr 1
    funext i j
    show _ = c⁻¹ * (if s j * (Jᵀ *ᵥ e) j < 0 then 0 else J i j)
    rw [mul_ite, mul_zero]
    rfl
  rw [h2] at h1
  refine ⟨h1.empty, fun x => ?_⟩
  rw [h1.cost, inUnit_cost]
  have := hc.ne'
  field_simp

end

/-! ## Line searches -/

/-- Specification: two line searches choose the same step, in two units: the squared error and the slope that the second one reads
are multiplied by `c`. -/
def LineSearch.SameUpTo {A S : Type} (c : ℝ) (ls ls' : LineSearch A S) : Prop :=
  ∀ (V : Type) (env : LsEnv A V ℝ) (slope : A → V → ℝ) (st : S) (q : A) (u : V),
    ls' V { env with err := fun q => c * env.err q } (fun q u => c * slope q u) st q u = ls V env slope st q u

theorem btLoop_unit {A V : Type} {c : ℝ} (hc : 0 < c) (env : LsEnv A V ℝ) (p : BtParam ℝ) (a : A) (u : V) (f0 t : ℝ) : ∀ (fuel : Nat)
    (alpha : ℝ) (evals : Nat), btLoop { env with err := fun q => c * env.err q } p a u (c * f0) (c * t) fuel alpha evals =
      btLoop env p a u f0 t fuel alpha evals := by
  intro fuel
  induction fuel with
  | zero => intros; rfl
  | succ fuel ih =>
    intro alpha evals
    unfold btLoop
    dsimp only
    have h : (c * f0 - c * env.err (env.integrate a (env.smul alpha u)) ≥ -alpha * (c * t)) ↔
        f0 - env.err (env.integrate a (env.smul alpha u)) ≥ -alpha * t := by
      rw [← mul_sub, mul_left_comm]
      exact mul_le_mul_iff_right₀ hc
    simp only [h, ih]
    rfl

/-- C135. The line searches of the library; `ErrorNormBased` reads the threshold, which is converted. -/
theorem C135_line_searches {A : Type} {c : ℝ} (hc : 0 < c) (thr : ℝ) :
    (lineConstant : LineSearch A Unit).SameUpTo c lineConstant ∧ (lineBacktracking : LineSearch A Unit).SameUpTo c lineBacktracking ∧
    (lineFixedSequence : LineSearch A (FixedSeq ℝ)).SameUpTo c lineFixedSequence ∧
    (lineErrorNormBased thr : LineSearch A ErrNormBased).SameUpTo c (lineErrorNormBased (c * thr)) := by
  refine ⟨fun V env slope st q u => rfl, fun V env slope st q u => ?_, fun V env slope st q u => rfl, fun V env slope st q u => ?_⟩
  · unfold lineBacktracking backtracking
    dsimp only
    have ht : 2 * (BtParam.default ℝ).c * (c * slope q u) = c * (2 * (BtParam.default ℝ).c * slope q u) := by ring
    have hlt : c * (2 * (BtParam.default ℝ).c * slope q u) > 0 ↔ 2 * (BtParam.default ℝ).c * slope q u > 0 :=
      mul_pos_iff_of_pos_left hc
    rw [ht, btLoop_unit hc]
    simp only [hlt]
    rfl
  · unfold lineErrorNormBased ErrNormBased.call
    dsimp only
    rw [mul_div_mul_left _ _ hc.ne']

/-! ## Iterations -/

section
variable {A M : Type} [Field α] [LinearOrder α] [IsStrictOrderedRing α]

theorem solveEnd_unit {c : α} (hc : 0 < c) (thr n : α) (left : Nat) (st : Option Status) :
    solveEnd (c * thr) (c * n) left st = solveEnd thr n left st := by
  unfold solveEnd
  simp only [mul_lt_mul_iff_right₀ hc]

theorem solveLoop_unit {c : α} (hc : 0 < c) {o o' : Ops A M α} (hn : ∀ a, o'.norm a = c * o.norm a) (hd : o'.dir = o.dir)
    (hs : o'.search = o.search) (thr dqMin : α) : ∀ (left iter dec : Nat) (prev : Option α) (a : A) (m : M) (n : α) (st : Option Status),
    solveLoop o' (c * thr) dqMin left iter dec (prev.map (c * ·)) a m (c * n) st =
      solveLoop o thr dqMin left iter dec prev a m n st := by
  intro left
  induction left with
  | zero =>
    intros
    unfold solveLoop
    rw [solveEnd_unit hc]
  | succ left ih =>
    intro iter dec prev a m n st
    unfold solveLoop
    simp only [mul_lt_mul_iff_right₀ hc, solveEnd_unit hc, hd, hs, hn]
    refine if_congr Iff.rfl (if_congr Iff.rfl rfl ?_) rfl
    cases prev with
    | none => exact ih _ _ (some _) _ _ _ _
    | some p =>
      simp only [Option.map_some, mul_lt_mul_iff_right₀ hc]
      exact ih _ _ (some _) _ _ _ _

/-- C135. The iterations are the same if the squared norms of the errors and their threshold are multiplied by the same number. -/
theorem C135_iterations {c : α} (hc : 0 < c) {o o' : Ops A M α} (hn : ∀ a, o'.norm a = c * o.norm a) (hd : o'.dir = o.dir)
    (hs : o'.search = o.search) (thr dqMin : α) (maxIter rd : Nat) (a : A) (m : M) :
    solve o' (c * thr) dqMin maxIter rd a m = solve o thr dqMin maxIter rd a m := by
  unfold solve
  simp only [hn, mul_lt_mul_iff_right₀ hc]
  exact if_congr Iff.rfl rfl (solveLoop_unit hc hn hd hs thr dqMin _ _ _ none _ _ _ _)

end

end Hpp
