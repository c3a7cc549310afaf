import Verif.Solve.ShortestProps
import Verif.Solve.NewtonProps
import Mathlib.Data.Matrix.Mul
import Mathlib.Tactic.LinearCombination

/-!
# Units, priorities and redundant constraints: C132

Source: `/repo/src/solver/hierarchical-iterative.cc`, lines 744-823 (`computeDescentDirection`, model in `Solve/Descent.lean`).

When the linearised constraints have a common solution, the direction computed depends on the set of their solutions only: neither on
the units of the constraints, nor on their priorities, their order, their repetitions, nor on constraints that are consequences of the
others.
-/

namespace Hpp

open Matrix

variable {A α S : Type}

/-- Specification: a step cancels the linearised constraints of all levels. -/
def Cancels [Field α] {n : Nat} (L : List (DLevel α n)) (x : Fin n → α) : Prop := ∀ d ∈ L, d.J *ᵥ x + d.e = 0

/-- There is a level, and the first one is not empty unless it is the only one (see `C93_empty_first_refuted`). -/
def FirstLevel {n : Nat} (L : List (DLevel α n)) : Prop := ∃ d ds, L = d :: ds ∧ (ds = [] ∨ d.m ≠ 0)

/-- Specification: the levels of two lists have the same rows, whatever the order, the repetitions and the levels they are in. -/
def SameRows {n : Nat} (L L' : List (DLevel α n)) : Prop :=
  ∀ (r : Fin n → α) (c : α), (∃ d ∈ L, ∃ i, d.J i = r ∧ d.e i = c) ↔ (∃ d ∈ L', ∃ i, d.J i = r ∧ d.e i = c)

/-- Specification: the constraints of a level in other units, or combined by an invertible matrix: `N` goes back to the first ones. -/
def Rescaled [Field α] {n : Nat} (d d' : DLevel α n) : Prop :=
  ∃ (M : Matrix (Fin d'.m) (Fin d.m) α) (N : Matrix (Fin d.m) (Fin d'.m) α),
    N * M = 1 ∧ d'.J = M * d.J ∧ d'.e = M *ᵥ d.e

section
variable [Field α] [LinearOrder α] [IsStrictOrderedRing α] {n : Nat}

theorem FirstLevel.cond {L : List (DLevel α n)} (h : FirstLevel L) :
    L.length ≤ 1 ∨ ∃ d ds, L = d :: ds ∧ d.m ≠ 0 := by
  obtain ⟨d, ds, rfl, h⟩ := h
  rcases h with rfl | h
  · left; simp
  · exact Or.inr ⟨d, ds, rfl, h⟩

omit [IsStrictOrderedRing α] in
theorem FirstLevel.some {L : List (DLevel α n)} (h : FirstLevel L) (o : SvdOps α) (thr : α) (dq : Fin n → α) :
    ∃ r, descend o false thr L dq = some r := by
  obtain ⟨d, ds, rfl, -⟩ := h
  cases ds <;> exact ⟨_, rfl⟩

/-- The direction is determined by the set of the lexicographic minimisers. -/
theorem same_minimisers {o o' : SvdOps α} (ho : o.Exact) (hor : o.Ortho) (ho' : o'.Exact) (hor' : o'.Ortho) (thr thr' : α)
    {L L' : List (DLevel α n)} (hL : FirstLevel L) (hL' : FirstLevel L') (h : lexOpt Set.univ L = lexOpt Set.univ L')
    (dq dq' : Fin n → α) : descend o false thr L dq = descend o' false thr' L' dq' := by
  obtain ⟨r, hr⟩ := hL.some o thr dq
  obtain ⟨r', hr'⟩ := hL'.some o' thr' dq'
  have m : r ∈ lexOpt Set.univ L := C36_lexicographic o ho thr L dq hr
  have m' : r' ∈ lexOpt Set.univ L' := C36_lexicographic o' ho' thr' L' dq' hr'
  obtain ⟨g1, g2⟩ := C93_shortest_partial o ho hor thr L hL.cond dq hr r' (h ▸ m')
  obtain ⟨g3, -⟩ := C93_shortest_partial o' ho' hor' thr' L' hL'.cond dq' hr' r (h ▸ m)
  rw [hr, hr', g2 (le_antisymm g3 g1)]

theorem lexOpt_mem_zero (L : List (DLevel α n)) : ∀ (S : Set (Fin n → α)) (v : Fin n → α), v ∈ S → Cancels L v → v ∈ lexOpt S L := by
  induction L with
  | nil => intro S v hv _; exact hv
  | cons d L ih =>
    intro S v hv h
    refine ih _ v ⟨hv, fun y _ => ?_⟩ fun d' hd' => h d' (by simp [hd'])
    unfold DLevel.cost
    rw [h d (by simp), dotProduct_zero]
    exact dot_self_nonneg _

theorem lexOpt_cancels {L : List (DLevel α n)} (h : ∃ v, Cancels L v) : lexOpt Set.univ L = {x | Cancels L x} := by
  obtain ⟨v, hv⟩ := h
  ext x
  exact ⟨fun hx => lexOpt_zero L Set.univ v x trivial hv hx, fun hx => lexOpt_mem_zero L Set.univ x trivial hx⟩

omit [LinearOrder α] [IsStrictOrderedRing α] in
theorem SameRows.cancels {L L' : List (DLevel α n)} (h : SameRows L L') (x : Fin n → α) (hx : Cancels L x) : Cancels L' x := by
  intro d hd
  funext i
  obtain ⟨d', hd', j, e1, e2⟩ := (h (d.J i) (d.e i)).2 ⟨d, hd, i, rfl, rfl⟩
  have := congrFun (hx d' hd') j
  simp only [Pi.add_apply, mulVec, Pi.zero_apply] at this ⊢
  rw [← e1, ← e2]
  exact this

omit [LinearOrder α] [IsStrictOrderedRing α] in
theorem Rescaled.cancels {d d' : DLevel α n} (h : Rescaled d d') (x : Fin n → α) :
    d.J *ᵥ x + d.e = 0 ↔ d'.J *ᵥ x + d'.e = 0 := by
  obtain ⟨M, N, h1, h2, h3⟩ := h
  have e : d'.J *ᵥ x + d'.e = M *ᵥ (d.J *ᵥ x + d.e) := by rw [h2, h3, mulVec_add, mulVec_mulVec]
  rw [e]
  constructor
  · intro h; rw [h, mulVec_zero]
  · intro h
    have := congrArg (N *ᵥ ·) h
    simpa [mulVec_mulVec, h1] using this

end

/-! ## C132 -/

/-- C132. If the linearised constraints have a common solution the direction depends on the set of their solutions only. -/
theorem C132_solutions [Field α] [LinearOrder α] [IsStrictOrderedRing α] {n : Nat} (o o' : SvdOps α) (ho : o.Exact) (hor : o.Ortho)
    (ho' : o'.Exact) (hor' : o'.Ortho) (thr thr' : α) (L L' : List (DLevel α n)) (hL : FirstLevel L) (hL' : FirstLevel L')
    (hv : ∃ v, Cancels L v) (h : ∀ x, Cancels L x ↔ Cancels L' x) (dq dq' : Fin n → α) :
    descend o false thr L dq = descend o' false thr' L' dq' ∧
      ∃ r, descend o false thr L dq = some r ∧ Cancels L r ∧ ∀ x, Cancels L x → x ≠ r → r ⬝ᵥ r < x ⬝ᵥ x := by
  have e : lexOpt Set.univ L = lexOpt Set.univ L' := by
    obtain ⟨v, hv'⟩ := hv
    rw [lexOpt_cancels ⟨v, hv'⟩, lexOpt_cancels ⟨v, (h v).1 hv'⟩]
    ext x
    exact h x
  refine ⟨same_minimisers ho hor ho' hor' thr thr' hL hL' e dq dq', ?_⟩
  obtain ⟨r, hr⟩ := hL.some o thr dq
  have hm : r ∈ lexOpt Set.univ L := C36_lexicographic o ho thr L dq hr
  rw [lexOpt_cancels hv] at hm
  refine ⟨r, hr, hm, fun x hx hne => ?_⟩
  obtain ⟨g1, g2⟩ := C93_shortest_partial o ho hor thr L hL.cond dq hr x (by rw [lexOpt_cancels hv]; exact hx)
  exact lt_of_le_of_ne g1 fun he => hne (g2 he.symm)

/-- C132. Priorities, order and repetitions do not matter then: two lists of levels with the same rows give the same direction. -/
theorem C132_priorities [Field α] [LinearOrder α] [IsStrictOrderedRing α] {n : Nat} (o : SvdOps α) (ho : o.Exact) (hor : o.Ortho)
    (thr : α) (L L' : List (DLevel α n)) (hL : FirstLevel L) (hL' : FirstLevel L') (hv : ∃ v, Cancels L v) (h : SameRows L L')
    (dq dq' : Fin n → α) : descend o false thr L dq = descend o false thr L' dq' :=
  (C132_solutions o o ho hor ho hor thr thr L L' hL hL' hv
    (fun x => ⟨h.cancels x, SameRows.cancels (fun r c => (h r c).symm) x⟩) dq dq').1

/-- C132. The units of the constraints do not matter then, nor invertible combinations of the rows of each level. -/
theorem C132_units [Field α] [LinearOrder α] [IsStrictOrderedRing α] {n : Nat} (o : SvdOps α) (ho : o.Exact) (hor : o.Ortho)
    (thr : α) (L L' : List (DLevel α n)) (hL : FirstLevel L) (hL' : FirstLevel L') (hv : ∃ v, Cancels L v)
    (h : List.Forall₂ Rescaled L L') (dq dq' : Fin n → α) : descend o false thr L dq = descend o false thr L' dq' := by
  refine (C132_solutions o o ho hor ho hor thr thr L L' hL hL' hv (fun x => ?_) dq dq').1
  clear hL hL' hv
  induction h with
  | nil => exact Iff.rfl
  | cons h1 _ ih =>
    simp only [Cancels, List.mem_cons, forall_eq_or_imp] at ih ⊢
    exact and_congr (h1.cancels x) ih

section
variable [Field α] [LinearOrder α] [IsStrictOrderedRing α] {n : Nat}

/-- Midpoints. -/
def Midpoints (T : Set (Fin n → α)) : Prop := ∀ x ∈ T, ∀ y ∈ T, (1 / 2 : α) • (x + y) ∈ T

theorem cost_midpoint (d : DLevel α n) (x y : Fin n → α) :
    d.cost ((1 / 2 : α) • (x + y)) = 1 / 2 * d.cost x + 1 / 2 * d.cost y -
      1 / 4 * ((d.J *ᵥ x - d.J *ᵥ y) ⬝ᵥ (d.J *ᵥ x - d.J *ᵥ y)) := by
  unfold DLevel.cost
  rw [mulVec_smul, mulVec_add]
  generalize d.J *ᵥ x = u
  generalize d.J *ᵥ y = v
  simp only [dotProduct, Finset.mul_sum, ← Finset.sum_add_distrib, ← Finset.sum_sub_distrib]
  refine Finset.sum_congr rfl fun i _ => ?_
  simp only [Pi.add_apply, Pi.smul_apply, Pi.sub_apply, smul_eq_mul]
  ring

/-- Two minimisers have the same first order change of the error. -/
theorem minimisers_image (d : DLevel α n) {T : Set (Fin n → α)} (hT : Midpoints T) {x y : Fin n → α}
    (hx : x ∈ T ∧ ∀ z ∈ T, d.cost x ≤ d.cost z) (hy : y ∈ T ∧ ∀ z ∈ T, d.cost y ≤ d.cost z) :
    d.J *ᵥ x = d.J *ᵥ y ∧ d.cost ((1 / 2 : α) • (x + y)) = d.cost x := by
  have h1 := hx.2 _ (hT x hx.1 y hy.1)
  have h2 := hx.2 y hy.1
  have h3 := hy.2 x hx.1
  have h4 := cost_midpoint d x y
  have h5 := dot_self_nonneg (d.J *ᵥ x - d.J *ᵥ y)
  have h6 : (d.J *ᵥ x - d.J *ᵥ y) ⬝ᵥ (d.J *ᵥ x - d.J *ᵥ y) = 0 := by linarith
  refine ⟨sub_eq_zero.1 (dot_self_zero h6), ?_⟩
  rw [h4, h6]
  linarith

theorem lexOpt_image (L : List (DLevel α n)) : ∀ T : Set (Fin n → α), Midpoints T →
    Midpoints (lexOpt T L) ∧ ∀ x ∈ lexOpt T L, ∀ y ∈ lexOpt T L, ∀ d ∈ L, d.J *ᵥ x = d.J *ᵥ y := by
  induction L with
  | nil => intro T hT; exact ⟨hT, by simp⟩
  | cons d L ih =>
    intro T hT
    have hM : Midpoints {x | x ∈ T ∧ ∀ y ∈ T, d.cost x ≤ d.cost y} := by
      intro x hx y hy
      refine ⟨hT x hx.1 y hy.1, fun z hz => ?_⟩
      rw [(minimisers_image d hT hx hy).2]
      exact hx.2 z hz
    obtain ⟨h1, h2⟩ := ih _ hM
    refine ⟨h1, fun x hx y hy d' hd' => ?_⟩
    rcases List.mem_cons.1 hd' with rfl | hd'
    · exact (minimisers_image d' hT (lexOpt_sub L _ hx) (lexOpt_sub L _ hy)).1
    · exact h2 x hx y hy d' hd'

omit [IsStrictOrderedRing α] in
theorem lexOpt_append (L L' : List (DLevel α n)) : ∀ T : Set (Fin n → α), lexOpt T (L ++ L') = lexOpt (lexOpt T L) L' := by
  induction L with
  | nil => intro T; rfl
  | cons d L ih => intro T; exact ih _

end

/-- C132. Without any condition of consistency: a level whose rows are combinations of those of the levels of higher priority is
ignored, even if it contradicts them.  The condition says that the rows are combinations: every velocity in the kernels of the Jacobians of
the higher levels is in the kernel of its Jacobian. -/
theorem C132_redundant [Field α] [LinearOrder α] [IsStrictOrderedRing α] {n : Nat} (o o' : SvdOps α) (ho : o.Exact) (hor : o.Ortho)
    (ho' : o'.Exact) (hor' : o'.Ortho) (thr thr' : α) (L L' : List (DLevel α n)) (d : DLevel α n) (hL : FirstLevel (L ++ L'))
    (hL' : FirstLevel (L ++ d :: L')) (h : ∀ x, (∀ d' ∈ L, d'.J *ᵥ x = 0) → d.J *ᵥ x = 0) (dq dq' : Fin n → α) :
    descend o false thr (L ++ d :: L') dq = descend o' false thr' (L ++ L') dq' := by
  refine same_minimisers ho hor ho' hor' thr thr' hL' hL ?_ dq dq'
  rw [lexOpt_append, lexOpt_append]
  show lexOpt {x | x ∈ lexOpt Set.univ L ∧ ∀ y ∈ lexOpt Set.univ L, d.cost x ≤ d.cost y} L' = _
  congr 1
  ext x
  refine ⟨fun hx => hx.1, fun hx => ⟨hx, fun y hy => ?_⟩⟩
  have h1 := (lexOpt_image L Set.univ (fun _ _ _ _ => trivial)).2 x hx y hy
  have h2 := h (x - y) fun d' hd' => by rw [mulVec_sub, h1 d' hd', sub_self]
  rw [mulVec_sub, sub_eq_zero] at h2
  unfold DLevel.cost
  rw [h2]

/-- C132. Whole iterations on linear constraints: two lists of levels with the same solutions, such a solution exists.  With the same
line search, whose step length depends neither on the error nor on the Jacobian (constant steps, fixed sequence), the same
configurations are visited. -/
theorem C132_path [Field α] [LinearOrder α] [IsStrictOrderedRing α] {n : Nat} (o o' : SvdOps α) (ho : o.Exact) (hor : o.Ortho)
    (ho' : o'.Exact) (hor' : o'.Ortho) (opt opt' : Bool) (thr thr' : α) (lv lv' : List (NLevel A α n))
    (integrate : A → (Fin n → α) → A) (hlin : LinearLevels integrate lv) (hlin' : LinearLevels integrate lv')
    (hf : ∀ q, FirstLevel (lv.map fun l => l.at q)) (hf' : ∀ q, FirstLevel (lv'.map fun l => l.at q))
    (hsame : ∀ q v, Solves integrate lv q v ↔ Solves integrate lv' q v) (I : S → Prop) (bmin : α)
    (ls : S → A → (Fin n → α) → S × LsOut A (Fin n → α)) (hls : StepsIn integrate I bmin ls) (q : A)
    (hq : ∃ v, Solves integrate lv q v) (dq : Fin n → α) (s : S) (hs : I s) (k : Nat) :
    traj (newtonOps o false opt thr lv ls) q (dq, s) k = traj (newtonOps o' false opt' thr' lv' ls) q (dq, s) k := by
  have hc : ∀ (lv : List (NLevel A α n)), LinearLevels integrate lv → ∀ q v,
      Solves integrate lv q v ↔ Cancels (lv.map fun l => l.at q) v := by
    intro lv hlin q v
    unfold Solves Cancels
    simp only [List.mem_map, forall_exists_index, and_imp, forall_apply_eq_imp_iff₂]
    refine forall₂_congr fun l hl => ?_
    rw [(hlin l hl q v).1, add_comm]
    rfl
  induction k with
  | zero => rfl
  | succ k ih =>
    obtain ⟨⟨v, hv⟩, -, -⟩ := newton_traj (opt := opt) (thr := thr) ho hlin hls hq dq hs k
    show (newtonOps o false opt thr lv ls).search _ _ = (newtonOps o' false opt' thr' lv' ls).search _ _
    rw [← ih]
    set p := traj (newtonOps o false opt thr lv ls) q (dq, s) k with hp
    have hd := (C132_solutions o o' ho hor ho' hor' thr thr' (lv.map fun l => l.at p.1) (lv'.map fun l => l.at p.1) (hf _) (hf' _)
      ⟨v, (hc lv hlin _ _).1 hv⟩ (fun x => by rw [← hc lv hlin, ← hc lv' hlin']; exact hsame _ x) p.2.1 p.2.1).1
    show ((ls p.2.2 p.1 _).2.arg, _, (ls p.2.2 p.1 _).1) = _
    simp only [newtonOps]
    rw [hd]

/-- The line searches Constant and FixedSequence do not depend on the levels. -/
example [Field α] [LinearOrder α] {n : Nat} (opt opt' : Bool) (lv lv' : List (NLevel A α n)) (integrate : A → (Fin n → α) → A) :
    lsC opt lv integrate = lsC opt' lv' integrate ∧ lsF opt lv integrate = lsF opt' lv' integrate := ⟨rfl, rfl⟩

/-! ### Cases -/

namespace RedEx

/-- x = 1 from 0 -/
def isOne : DLevel ℚ 1 := ⟨1, !![1], ![-1]⟩
/-- x = 0 from 0 -/
def isNil : DLevel ℚ 1 := ⟨1, !![1], ![0]⟩
/-- both, the first one in units that are `c` times smaller -/
def both (c : ℚ) : DLevel ℚ 1 := ⟨2, !![c; 1], ![-c, 0]⟩

theorem both_min (o : SvdOps ℚ) (ho : o.Exact) (c thr : ℚ) (dq : Fin 1 → ℚ) (r : Fin 1 → ℚ)
    (h : descend o false thr [both c] dq = some r) : (c * c + 1) * r 0 = c * c := by
  have hm := lexOpt_sub [] _ (C36_lexicographic o ho thr [both c] dq h)
  have hn : ((!![c; 1] : Matrix (Fin 2) (Fin 1) ℚ)ᵀ *ᵥ ((!![c; 1] : Matrix (Fin 2) (Fin 1) ℚ) *ᵥ r + ![-c, 0])) 0 = 0 :=
    congrFun (cost_normal (both c) r fun y => hm.2 y trivial) 0
  simp [mulVec, dotProduct, Fin.sum_univ_two] at hn
  linear_combination hn

end RedEx

open RedEx in
/-- C132 fails for constraints that have no common solution.  One variable and the constraints x = 1 and x = 0 with the same priority: the
direction is c² / (c² + 1) if the first one is multiplied by c, and 1 if it has the higher priority. -/
theorem C132_conflict_refuted (o : SvdOps ℚ) (ho : o.Exact) (hor : o.Ortho) (thr : ℚ) (dq : Fin 1 → ℚ) :
    (∀ c : ℚ, c ≠ 0 → Rescaled (both 1) (both c)) ∧ SameRows [isOne, isNil] [both 1] ∧
    descend o false thr [both 1] dq = some ![1 / 2] ∧ descend o false thr [both 2] dq = some ![4 / 5] ∧
    descend o false thr [isOne, isNil] dq = some ![1] := by
  have key : ∀ c x : ℚ, (c * c + 1) * x = c * c → descend o false thr [both c] dq = some ![x] := by
    intro c x hx
    obtain ⟨r, hr⟩ : ∃ r, descend o false thr [both c] dq = some r := ⟨_, rfl⟩
    rw [hr]
    have h1 := both_min o ho c thr dq r hr
    have h2 : c * c + 1 ≠ 0 := by nlinarith [mul_self_nonneg c]
    have h3 : r 0 = x := mul_left_cancel₀ h2 (h1.trans hx.symm)
    congr 1
    funext i
    fin_cases i
    exact h3
  refine ⟨fun c hc => ?_, ?_, key 1 _ (by norm_num), key 2 _ (by norm_num), ?_⟩
  · refine ⟨!![c, 0; 0, 1], !![c⁻¹, 0; 0, 1], ?_, ?_, ?_⟩
    · have e : (!![c⁻¹, 0; 0, 1] * !![c, 0; 0, 1] : Matrix (Fin 2) (Fin 2) ℚ) = 1 := by
        ext i j
        fin_cases i <;> fin_cases j <;> simp [mul_apply, Fin.sum_univ_two, hc]
      exact e
    · have e : (!![c; 1] : Matrix (Fin 2) (Fin 1) ℚ) = (!![c, 0; 0, 1] : Matrix (Fin 2) (Fin 2) ℚ) * (!![1; 1] : Matrix (Fin 2) (Fin 1) ℚ) := by
        ext i j
        fin_cases i <;> fin_cases j <;> simp [mul_apply, Fin.sum_univ_two]
      exact e
    · have e : ![-c, 0] = (!![c, 0; 0, 1] : Matrix (Fin 2) (Fin 2) ℚ) *ᵥ ![-1, 0] := by
        ext i
        fin_cases i <;> simp [mulVec, dotProduct, Fin.sum_univ_two]
      exact e
  · intro r c
    constructor
    · rintro ⟨d, hd, i, rfl, rfl⟩
      simp only [List.mem_cons, List.not_mem_nil, or_false] at hd
      rcases hd with rfl | rfl
      · refine ⟨both 1, by simp, (0 : Fin 2), ?_, ?_⟩
        · funext j; fin_cases i; fin_cases j; rfl
        · fin_cases i; rfl
      · refine ⟨both 1, by simp, (1 : Fin 2), ?_, ?_⟩
        · funext j; fin_cases i; fin_cases j; rfl
        · fin_cases i; rfl
    · rintro ⟨d, hd, i, rfl, rfl⟩
      obtain rfl := List.mem_singleton.1 hd
      have hi : i = (0 : Fin 2) ∨ i = (1 : Fin 2) := by
        revert i
        show ∀ i : Fin 2, i = 0 ∨ i = 1
        decide
      rcases hi with rfl | rfl
      · exact ⟨isOne, by simp, (0 : Fin 1), by funext j; fin_cases j; rfl, rfl⟩
      · exact ⟨isNil, by simp, (0 : Fin 1), by funext j; fin_cases j; rfl, rfl⟩
  · obtain ⟨r, hr⟩ : ∃ r, descend o false thr [isOne, isNil] dq = some r := ⟨_, rfl⟩
    rw [hr]
    have hm := lexOpt_sub [isNil] _ (C36_lexicographic o ho thr [isOne, isNil] dq hr)
    have hn : ((!![1] : Matrix (Fin 1) (Fin 1) ℚ)ᵀ *ᵥ ((!![1] : Matrix (Fin 1) (Fin 1) ℚ) *ᵥ r + ![-1])) 0 = 0 :=
      congrFun (cost_normal isOne r fun y => hm.2 y trivial) 0
    simp [mulVec, dotProduct] at hn
    congr 1
    funext i
    fin_cases i
    show r 0 = 1
    linarith

open RedEx in
/-- A case for `C132_solutions`, `C132_priorities` and `C132_units`: x = 1, repeated with a lower priority, or multiplied by 2. -/
example : FirstLevel [isOne] ∧ FirstLevel [isOne, isOne] ∧ SameRows [isOne] [isOne, isOne] ∧ Cancels [isOne] ![1] ∧
    Rescaled isOne ⟨1, !![2], ![-2]⟩ := by
  refine ⟨⟨_, _, rfl, Or.inl rfl⟩, ⟨_, _, rfl, Or.inr (by simp [isOne])⟩, fun r c => by simp, fun d hd => ?_, !![2], !![1 / 2], ?_, ?_, ?_⟩
  · obtain rfl := List.mem_singleton.1 hd
    have e : (!![1] : Matrix (Fin 1) (Fin 1) ℚ) *ᵥ ![1] + ![-1] = 0 := by
      ext i
      fin_cases i
      simp
    exact e
  · have e : (!![1 / 2] * !![2] : Matrix (Fin 1) (Fin 1) ℚ) = 1 := by
      ext i j
      fin_cases i; fin_cases j
      simp
    exact e
  · have e : (!![2] : Matrix (Fin 1) (Fin 1) ℚ) = (!![2] : Matrix (Fin 1) (Fin 1) ℚ) * (!![1] : Matrix (Fin 1) (Fin 1) ℚ) := by
      ext i j
      fin_cases i; fin_cases j
      simp
    exact e
  · have e : ![-2] = (!![2] : Matrix (Fin 1) (Fin 1) ℚ) *ᵥ ![-1] := by
      ext i
      fin_cases i
      simp
    exact e

open RedEx in
/-- A case for `C132_redundant`: x = 0 of lower priority than x = 1. -/
example : FirstLevel ([isOne] ++ []) ∧ FirstLevel ([isOne] ++ isNil :: []) ∧
    ∀ x, (∀ d' ∈ [isOne], d'.J *ᵥ x = 0) → isNil.J *ᵥ x = 0 :=
  ⟨⟨_, _, rfl, Or.inl rfl⟩, ⟨_, _, rfl, Or.inr (by simp [isOne])⟩, fun x h => h isOne (by simp)⟩

/-- A case for `C132_path`: x = 1 once or with two priorities. -/
example : ∃ l : NLevel (Fin 1 → ℚ) ℚ 1, LinearLevels (fun q v => q + v) [l] ∧ LinearLevels (fun q v => q + v) [l, l] ∧
    (∀ q, FirstLevel ([l].map fun l => l.at q)) ∧ (∀ q, FirstLevel ([l, l].map fun l => l.at q)) ∧
    (∀ q v, Solves (fun q v => q + v) [l] q v ↔ Solves (fun q v => q + v) [l, l] q v) ∧
    (∃ v, Solves (fun q v => q + v) [l] 0 v) ∧
    StepsIn (fun q v => q + v) (fun _ => True) (1 : ℚ) (lsC false [l] fun q v => q + v) := by
  have hl : ∀ q v : Fin 1 → ℚ, (fun _ : Fin 1 => (q + v) 0 - 1) = (fun _ => q 0 - 1) + (!![1] : Matrix (Fin 1) (Fin 1) ℚ) *ᵥ v := by
    intro q v
    funext i
    fin_cases i
    show q 0 + v 0 - 1 = q 0 - 1 + ∑ j : Fin 1, (!![1] : Matrix (Fin 1) (Fin 1) ℚ) 0 j * v j
    simp
    ring
  refine ⟨⟨1, fun _ => !![1], fun q _ => q 0 - 1, 1, fun _ => 0⟩, ?_, ?_, fun q => ⟨_, _, rfl, Or.inl rfl⟩,
    fun q => ⟨_, _, rfl, Or.inr (by simp [NLevel.at])⟩, fun q v => by simp [Solves], ⟨fun _ => 1, ?_⟩,
    fun s q u _ => ⟨trivial, 1, le_refl _, le_refl _, by rw [one_smul]; rfl⟩⟩
  · intro l h q v
    obtain rfl := List.mem_singleton.1 h
    exact ⟨hl q v, rfl⟩
  · intro l h q v
    simp only [List.mem_cons, List.not_mem_nil, or_false, or_self] at h
    subst h
    exact ⟨hl q v, rfl⟩
  · intro l h
    obtain rfl := List.mem_singleton.1 h
    funext i
    show (0 + 1 : ℚ) - 1 = 0
    norm_num

end Hpp
