import Verif.Solve.DescentLemmas
import Mathlib.Data.Fin.VecNotation
import Mathlib.LinearAlgebra.FreeModule.Finite.Matrix
import Mathlib.Data.Rat.Cast.Order
import Mathlib.Tactic.NormNum
import Mathlib.Tactic.FieldSimp
import Mathlib.Tactic.FinCases

/-!
# Descent direction: C36, C72
-/

namespace Hpp

open Matrix

variable {α : Type}

/-! ## C36 -/

/-- C36. The direction does not depend on the one computed before if there is one level or if the first
level has rows. Missing: empty first level (see `C36_stale_refuted`). -/
theorem C36_current_partial [Field α] [LinearOrder α] (o : SvdOps α) (byLevel : Bool) (thr : α) {n : Nat}
    (levels : List (DLevel α n)) (h : levels.length ≤ 1 ∨ ∃ d ds, levels = d :: ds ∧ d.m ≠ 0)
    (dq dq' : Fin n → α) :
    descend o byLevel thr levels dq = descend o byLevel thr levels dq' := by
  match levels, h with
  | [], _ => rfl
  | [d], _ => rfl
  | d :: d' :: ds, h =>
    have hm : d.m ≠ 0 := by
      rcases h with h | ⟨e, es, h, hm⟩
      · simp at h
      · obtain ⟨rfl, -⟩ := List.cons.inj h
        exact hm
    show some (descendLoop _ _ _ _ _ _ _) = some (descendLoop _ _ _ _ _ _ _)
    unfold descendLoop
    simp [hm]

/-- C36 fails if the first level is empty: for every exact decomposition, with an empty level followed by
the constraint `x₀ = 0` for two variables, the component of the step along `x₁` is the one of the step
computed before. -/
theorem C36_stale_refuted [Field α] [LinearOrder α] (o : SvdOps α) (ho : o.Exact) (byLevel : Bool) (thr : α) :
    ∃ levels : List (DLevel α 2), ∀ dq : Fin 2 → α, ∃ r,
      descend o byLevel thr levels dq = some r ∧ r 1 = dq 1 := by
  refine ⟨[⟨0, 0, 0⟩, ⟨1, !![1, 0], ![0]⟩], fun dq => ⟨_, rfl, ?_⟩⟩
  obtain ⟨w, hw⟩ := ho.range (!![1, 0] : Matrix (Fin 1) (Fin 2) α) (-![0] - !![1, 0] *ᵥ dq)
  have hr : descendLoop o byLevel thr true [⟨0, 0, 0⟩, ⟨1, !![1, 0], ![0]⟩] none dq =
      dq + o.solve (!![1, 0] : Matrix (Fin 1) (Fin 2) α) (-![0] - !![1, 0] *ᵥ dq) := by
    simp [descendLoop]
  rw [hr, hw]
  simp [mulVec, dotProduct]

/-- C36 fails also if all levels are empty (at least two): the previous step is used again. -/
theorem C36_all_empty_refuted [Field α] [LinearOrder α] (o : SvdOps α) (byLevel : Bool) (thr : α) {n : Nat}
    (k : Nat) (dq : Fin n → α) :
    descend o byLevel thr (List.replicate (k + 2) ⟨0, 0, 0⟩) dq = some dq := by
  show some (descendLoop _ _ _ _ (List.replicate (k + 2) _) _ _) = _
  have : ∀ (m : Nat) (first : Bool), descendLoop o byLevel thr first
      (List.replicate m (⟨0, 0, 0⟩ : DLevel α n)) none dq = dq := by
    intro m
    induction m with
    | zero => intro first; rfl
    | succ m ih => intro first; rw [List.replicate_succ]; simpa [descendLoop] using ih false
  rw [this]

/-- C36. With an exact decomposition the step is optimal level by level: it minimises the norm of the
linearised constraints of the first level, among these steps the norm of the second level, etc.
Whatever the previous step, whatever levels are empty. -/
theorem C36_lexicographic [Field α] [LinearOrder α] [IsStrictOrderedRing α] (o : SvdOps α) (ho : o.Exact)
    (thr : α) {n : Nat} (levels : List (DLevel α n)) (dq : Fin n → α) {r : Fin n → α}
    (h : descend o false thr levels dq = some r) : r ∈ lexOpt Set.univ levels := by
  match levels, h with
  | [d], h =>
    obtain rfl := Option.some.inj h
    refine ⟨trivial, fun y _ => ?_⟩
    have := ho.ls d.J (-d.e) y
    simpa [DLevel.cost, sub_neg_eq_add] using this
  | d :: d' :: ds, h =>
    have hr : r = descendLoop o false thr true (d :: d' :: ds) none dq := (Option.some.inj h).symm
    obtain ⟨k, h1, h2, -⟩ := descendLoop_lex ho false thr (d :: d' :: ds) true none dq fun _ => rfl
    rw [h2 rfl, List.take_length] at h1
    rw [hr]
    exact h1

/-- C36. With `solveLevelByLevel` the step is optimal for the first levels, at least up to the first one
that has rows. -/
theorem C36_level_by_level [Field α] [LinearOrder α] [IsStrictOrderedRing α] (o : SvdOps α) (ho : o.Exact)
    (byLevel : Bool) (thr : α) {n : Nat} (levels : List (DLevel α n)) (dq : Fin n → α) {r : Fin n → α}
    (h : descend o byLevel thr levels dq = some r) :
    ∃ k, r ∈ lexOpt Set.univ (levels.take k) ∧ (k < levels.length → ∃ d ∈ levels.take k, d.m ≠ 0) := by
  match levels, h with
  | [d], h =>
    obtain rfl := Option.some.inj h
    refine ⟨1, ⟨trivial, fun y _ => ?_⟩, fun h => by simp at h⟩
    have := ho.ls d.J (-d.e) y
    simpa [DLevel.cost, sub_neg_eq_add] using this
  | d :: d' :: ds, h =>
    have hr : r = descendLoop o byLevel thr true (d :: d' :: ds) none dq := (Option.some.inj h).symm
    obtain ⟨k, h1, -, h3⟩ := descendLoop_lex ho byLevel thr (d :: d' :: ds) true none dq fun _ => rfl
    refine ⟨k, by rw [hr]; exact h1, fun hk => ?_⟩
    obtain ⟨h4, e, h5, h6⟩ := h3 hk
    refine ⟨e, ?_, h6⟩
    refine List.mem_of_getElem? (i := k - 1) ?_
    rw [List.getElem?_take]
    rw [if_pos (by omega)]
    exact h5

/-- Operations on `dq_` between two calls of `update`. -/
inductive DqOp (α : Type) (n : Nat) where
  /-- `expandDqSmall` -/
  | expand (small : Fin n → α)
  /-- `computeDescentDirection` without levels -/
  | zero
  /-- product by a step length, in a line search -/
  | scale (a : α)

def DqOp.apply [Field α] {n : Nat} (free : Fin n → Nat) (dq : Nat → α) : DqOp α n → Nat → α
  | .expand small => Hpp.expand free small dq
  | .zero => fun _ => 0
  | .scale a => fun i => a * dq i

theorem expandFold_notMem {n : Nat} (free : Fin n → Nat) (small : Fin n → α) (l : List (Fin n)) :
    ∀ (dq : Nat → α) (i : Nat), (∀ j ∈ l, free j ≠ i) →
      (l.foldl (fun d j => Function.update d (free j) (small j)) dq) i = dq i := by
  induction l with
  | nil => intros; rfl
  | cons x l ih =>
    intro dq i h
    rw [List.foldl_cons, ih _ _ fun j hj => h j (by simp [hj])]
    exact Function.update_of_ne (h x (by simp)).symm _ _

theorem expand_notMem {n : Nat} (free : Fin n → Nat) (small : Fin n → α) (dq : Nat → α) (i : Nat)
    (h : ∀ j, free j ≠ i) : expand free small dq i = dq i :=
  expandFold_notMem free small _ dq i fun j _ => h j

theorem expand_mem {n : Nat} (free : Fin n → Nat) (hinj : Function.Injective free) (small : Fin n → α)
    (dq : Nat → α) (j : Fin n) : expand free small dq (free j) = small j := by
  have : ∀ (l : List (Fin n)), l.Nodup → j ∈ l → ∀ dq : Nat → α,
      (l.foldl (fun d j => Function.update d (free j) (small j)) dq) (free j) = small j := by
    intro l
    induction l with
    | nil => intro _ h; simp at h
    | cons x l ih =>
      intro hn hj dq
      rw [List.nodup_cons] at hn
      rw [List.foldl_cons]
      rcases List.mem_cons.1 hj with rfl | hj
      · rw [expandFold_notMem]
        · exact Function.update_self _ _ _
        · intro k hk h
          exact hn.1 (hinj h ▸ hk)
      · exact ih hn.2 hj _
  exact this _ (List.nodup_finRange n) (List.mem_finRange j) dq

/-- C36. Variables that are not free are not moved: after `update`, whatever the sequence of directions
computed and of line searches, the step is zero on these variables; on the free variables it is the
direction computed. -/
theorem C36_free_only [Field α] {n : Nat} (free : Fin n → Nat) (hinj : Function.Injective free)
    (ops : List (DqOp α n)) :
    (∀ i, (∀ j, free j ≠ i) → (ops.foldl (DqOp.apply free) fun _ => 0) i = 0) ∧
    ∀ (small : Fin n → α) j, ((ops ++ [DqOp.expand small]).foldl (DqOp.apply free) fun _ => 0) (free j) = small j := by
  constructor
  · intro i hi
    induction ops using List.reverseRecOn with
    | nil => rfl
    | append_singleton ops x ih =>
      rw [List.foldl_append]
      cases x with
      | expand small =>
        show expand _ _ _ i = 0
        rw [expand_notMem _ _ _ _ hi, ih]
      | zero => rfl
      | scale a =>
        show a * _ = 0
        rw [ih, mul_zero]
  · intro small j
    rw [List.foldl_append]
    exact expand_mem free hinj small _ j

example : (List.range 5).map (([.expand ![2, 4], .scale (1 / 2)] : List (DqOp ℚ 2)).foldl
    (DqOp.apply ![1, 3]) fun _ => 0) = [0, 1, 0, 2, 0] := by
  decide +kernel

/-! ## C72 -/

/-- Specification: the variable `j` is at a bound (`s j` is -1 at the lower bound, 1 at the upper one) and
the steepest descent direction of the squared error of the level, `-Jᵀ e`, moves it outwards. -/
def PushedOut [Field α] [LinearOrder α] {n : Nat} (s : Fin n → α) (d : DLevel α n) (j : Fin n) : Prop :=
  (s j = 1 ∧ 0 < (-(d.Jᵀ *ᵥ d.e)) j) ∨ (s j = -1 ∧ (-(d.Jᵀ *ᵥ d.e)) j < 0)

theorem pushedOut_iff [Field α] [LinearOrder α] [IsStrictOrderedRing α] {n : Nat} (s : Fin n → α)
    (hs : ∀ j, s j = -1 ∨ s j = 0 ∨ s j = 1) (d : DLevel α n) (j : Fin n) :
    s j * (d.Jᵀ *ᵥ d.e) j < 0 ↔ PushedOut s d j := by
  unfold PushedOut
  rw [Pi.neg_apply]
  have h1 : (-1 : α) ≠ 1 := by
    intro h
    have : (0 : α) < 1 := one_pos
    linarith
  rcases hs j with h | h | h <;> rw [h]
  · constructor
    · intro h'; right; exact ⟨rfl, by linarith⟩
    · rintro (⟨h', _⟩ | ⟨_, h'⟩)
      · exact absurd h' h1
      · linarith
  · simp
  · constructor
    · intro h'; left; exact ⟨rfl, by linarith⟩
    · rintro (⟨_, h'⟩ | ⟨h', _⟩)
      · linarith
      · exact absurd h'.symm h1

/-- C72. `computeSaturation` sets to zero exactly the columns of the variables that are at a bound and that
the error of the level pushes out, and modifies nothing else. -/
theorem C72_columns [Field α] [LinearOrder α] [IsStrictOrderedRing α] {n : Nat} (s : Fin n → α)
    (hs : ∀ j, s j = -1 ∨ s j = 0 ∨ s j = 1) (m : Nat) (J : Matrix (Fin m) (Fin n) α) (e : Fin m → α) :
    ∃ J', satLevel s ⟨m, J, e⟩ = ⟨m, J', e⟩ ∧
      (∀ j, PushedOut s ⟨m, J, e⟩ j → ∀ i, J' i j = 0) ∧
      (∀ j, ¬ PushedOut s ⟨m, J, e⟩ j → ∀ i, J' i j = J i j) := by
  refine ⟨_, rfl, fun j hj i => ?_, fun j hj i => ?_⟩
  · exact if_pos ((pushedOut_iff s hs ⟨m, J, e⟩ j).2 hj)
  · exact if_neg fun h => hj ((pushedOut_iff s hs ⟨m, J, e⟩ j).1 h)

theorem solve_zero_col [Field α] [LinearOrder α] {o : SvdOps α} (ho : o.Exact) {m n : Nat}
    (J : Matrix (Fin m) (Fin n) α) (b : Fin m → α) (j : Fin n) (h : ∀ i, J i j = 0) : o.solve J b j = 0 := by
  obtain ⟨w, hw⟩ := ho.range J b
  rw [hw]
  simp [mulVec, dotProduct, h]

/-- C72. With one level, after `computeSaturation` the direction does not move the variables at a bound that
the error pushes out. -/
theorem C72_blocked [Field α] [LinearOrder α] [IsStrictOrderedRing α] (o : SvdOps α) (ho : o.Exact)
    (byLevel : Bool) (thr : α) {n : Nat} (s : Fin n → α) (hs : ∀ j, s j = -1 ∨ s j = 0 ∨ s j = 1)
    (d : DLevel α n) (dq : Fin n → α) :
    ∃ r, descend o byLevel thr [satLevel s d] dq = some r ∧ ∀ j, PushedOut s d j → r j = 0 := by
  refine ⟨_, rfl, fun j hj => ?_⟩
  obtain ⟨m, J, e⟩ := d
  obtain ⟨J', h1, h2, -⟩ := C72_columns s hs m J e
  rw [h1]
  exact solve_zero_col ho J' (-e) j (h2 j hj)

example : PushedOut (![1, 0, -1] : Fin 3 → ℚ) ⟨1, !![1, 1, 1], ![-2]⟩ 0 ∧
    ¬ PushedOut (![1, 0, -1] : Fin 3 → ℚ) ⟨1, !![1, 1, 1], ![-2]⟩ 1 ∧
    ¬ PushedOut (![1, 0, -1] : Fin 3 → ℚ) ⟨1, !![1, 1, 1], ![-2]⟩ 2 := by
  simp [PushedOut, mulVec, dotProduct]
  norm_num

theorem normal_eq [Field α] [LinearOrder α] [IsStrictOrderedRing α] {m n : Nat}
    (N : Matrix (Fin m) (Fin n) α) (v : Fin m → α) : ∃ w, (Nᵀ * N) *ᵥ w = Nᵀ *ᵥ v := by
  have hle : LinearMap.range (Nᵀ * N).mulVecLin ≤ LinearMap.range Nᵀ.mulVecLin := by
    rintro _ ⟨x, rfl⟩
    exact ⟨N *ᵥ x, by simp⟩
  have heq : LinearMap.range (Nᵀ * N).mulVecLin = LinearMap.range Nᵀ.mulVecLin := by
    refine Submodule.eq_of_le_of_finrank_eq hle ?_
    show (Nᵀ * N).rank = Nᵀ.rank
    rw [rank_transpose_mul_self, rank_transpose]
  have hv : Nᵀ.mulVecLin v ∈ LinearMap.range (Nᵀ * N).mulVecLin := heq ▸ ⟨v, rfl⟩
  exact hv

theorem exists_ls [Field α] [LinearOrder α] [IsStrictOrderedRing α] {m n : Nat}
    (M : Matrix (Fin m) (Fin n) α) (b : Fin m → α) :
    ∃ w : Fin m → α, ∀ y : Fin n → α,
      (M *ᵥ (Mᵀ *ᵥ w) - b) ⬝ᵥ (M *ᵥ (Mᵀ *ᵥ w) - b) ≤ (M *ᵥ y - b) ⬝ᵥ (M *ᵥ y - b) := by
  obtain ⟨x, hx⟩ := normal_eq M b
  obtain ⟨w, hw⟩ := normal_eq Mᵀ x
  rw [transpose_transpose, ← mulVec_mulVec] at hw
  refine ⟨w, fun y => ?_⟩
  rw [hw]
  have h1 : M *ᵥ y - b = (M *ᵥ x - b) + M *ᵥ (y - x) := by rw [mulVec_sub]; abel
  have h2 : (M *ᵥ x - b) ⬝ᵥ (M *ᵥ (y - x)) = 0 := by
    rw [dotProduct_mulVec, ← mulVec_transpose, mulVec_sub, mulVec_mulVec, hx, sub_self, zero_dotProduct]
  have h3 : (M *ᵥ (y - x)) ⬝ᵥ (M *ᵥ x - b) = 0 := by rw [dotProduct_comm]; exact h2
  rw [h1, add_dotProduct, dotProduct_add, dotProduct_add, h2, h3]
  have := dot_self_nonneg (M *ᵥ (y - x))
  linarith

theorem exists_ker [Field α] {m n : Nat} (M : Matrix (Fin m) (Fin n) α) :
    ∃ K : Σ r : Nat, Matrix (Fin n) (Fin r) α, M * K.2 = 0 ∧ ∀ x, M *ᵥ x = 0 → ∃ y, x = K.2 *ᵥ y := by
  let b := Module.finBasis α (LinearMap.ker M.mulVecLin)
  refine ⟨⟨_, Matrix.of fun i j => (b j : Fin n → α) i⟩, ?_, fun x hx => ?_⟩
  · ext i j
    have : M *ᵥ (b j : Fin n → α) = 0 := (b j).2
    exact congrFun this i
  · have h := b.sum_repr ⟨x, hx⟩
    refine ⟨fun j => b.repr ⟨x, hx⟩ j, ?_⟩
    have h' := congrArg Subtype.val h
    rw [Submodule.coe_sum] at h'
    funext i
    have := congrFun h' i
    rw [Finset.sum_apply] at this
    refine Eq.trans this.symm ?_
    simp [mulVec, dotProduct, mul_comm]

/-- A decomposition with the properties assumed exists over every ordered field: the hypotheses of the
theorems above can be met. -/
theorem exists_exact [Field α] [LinearOrder α] [IsStrictOrderedRing α] : ∃ o : SvdOps α, o.Exact :=
  ⟨⟨fun M b => Mᵀ *ᵥ (exists_ls M b).choose, fun M => (exists_ker M).choose⟩,
    ⟨fun M b y => (exists_ls M b).choose_spec y, fun _ _ => ⟨_, rfl⟩,
      fun M => (exists_ker M).choose_spec.1, fun M x hx => (exists_ker M).choose_spec.2 x hx⟩⟩

/-- A case with three levels, the second one empty, that meets the hypotheses of `C36_current_partial`. -/
example : ∃ d ds, ([⟨1, !![1, 0], ![3]⟩, ⟨0, 0, 0⟩, ⟨1, !![1, 1], ![2]⟩] : List (DLevel ℚ 2)) = d :: ds ∧
    d.m ≠ 0 := ⟨_, _, rfl, by simp⟩

/-- The lexicographic minimiser of this case. -/
example : lexOpt Set.univ ([⟨1, !![1, 0], ![3]⟩, ⟨0, 0, 0⟩, ⟨1, !![1, 1], ![2]⟩] : List (DLevel ℚ 2)) ⊆
    {![-3, 1]} := by
  intro x hx
  obtain ⟨⟨⟨-, h1⟩, -⟩, h2⟩ := hx
  have h1 := h1 ![-3, 1] trivial
  simp [DLevel.cost, dotProduct] at h1
  have e0 : x 0 = -3 := by nlinarith [mul_self_nonneg (x 0 + 3)]
  have h2 := h2 ![-3, 1] ⟨⟨trivial, fun y _ => by
    simp [DLevel.cost, dotProduct]; exact mul_self_nonneg _⟩, fun y _ => by
    simp [DLevel.cost]⟩
  simp [DLevel.cost, dotProduct] at h2
  have e1 : x 1 = 1 := by rw [e0] at h2; nlinarith [mul_self_nonneg (x 1 - 1)]
  show x = _
  funext i
  fin_cases i
  · exact e0
  · exact e1

end Hpp
