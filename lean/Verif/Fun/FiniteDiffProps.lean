import Verif.Fun.FiniteDiff
import Mathlib.Algebra.Order.Field.Basic
import Mathlib.Algebra.BigOperators.Group.Finset.Basic
import Mathlib.Algebra.BigOperators.Ring.Finset
import Mathlib.Algebra.BigOperators.Group.Finset.Piecewise
import Mathlib.Algebra.Order.Ring.Rat
import Mathlib.Tactic.FieldSimp
import Mathlib.Tactic.Ring

/-!
# Jacobians by finite differences: C45
-/

namespace Hpp.FD

variable {α X Y : Type}

/-- What the loops need: `reset` undoes `integrate`. -/
def Op.Lawful (op : Op α X) : Prop := ∀ b x h j, op.reset x j (op.integ b x h j x) = x

/-- The vector with component `j` only. -/
def single [Zero α] (j : Nat) (t : α) : Nat → α := fun k => if k = j then t else 0

/-- The point reached along direction `j` from `x`, forward or backward. -/
def Op.at' [Zero α] (op : Op α X) (b : Bool) (x : X) (j : Nat) : X := op.integ b x (single j (op.step j x)) j x

section
variable [Field α]

theorem update_zero (j : Nat) (t : α) : Function.update (fun _ => 0) j t = single j t := by
  funext k
  unfold single
  by_cases h : k = j
  · subst h; rw [Function.update_self, if_pos rfl]
  · rw [Function.update_of_ne h, if_neg h]

theorem update_single (j : Nat) (t : α) : Function.update (single j t) j 0 = fun _ => 0 := by
  funext k
  unfold single
  by_cases h : k = j
  · subst h; rw [Function.update_self]
  · rw [Function.update_of_ne h, if_neg h]

omit [Field α] in
theorem setCol_same (J : Nat → Nat → α) (j : Nat) (c : Nat → α) (i : Nat) : setCol J j c i j = c i :=
  Function.update_self ..

omit [Field α] in
theorem setCol_other (J : Nat → Nat → α) (j : Nat) (c : Nat → α) (i k : Nat) (h : k ≠ j) :
    setCol J j c i k = J i k := Function.update_of_ne h ..

theorem forward_inv (op : Op α X) (hop : op.Lawful) (f : X → Y) (sub : Y → Y → Nat → α) (adp : Nat → Bool) (x : X)
    (J : Nat → Nat → α) (n : Nat) :
    let st := (List.range n).foldl (fwdStep op f sub adp x (f x)) ⟨x, fun _ => 0, J, [x]⟩
    st.xdx = x ∧ st.h = (fun _ => 0) ∧
    (∀ i j, st.J i j = if j < n then
      (if adp j then sub (f (op.at' true x j)) (f x) i / op.step j x else 0) else J i j) ∧
    st.pts = x :: ((List.range n).filter adp).map fun j => op.at' true x j := by
  induction n with
  | zero => exact ⟨rfl, rfl, fun i j => by simp, rfl⟩
  | succ n ih =>
    rw [List.range_succ, List.foldl_append]
    simp only [List.foldl_cons, List.foldl_nil]
    obtain ⟨i1, i2, i3, i4⟩ := ih
    generalize (List.range n).foldl (fwdStep op f sub adp x (f x)) ⟨x, fun _ => 0, J, [x]⟩ = st at i1 i2 i3 i4
    unfold fwdStep
    cases ha : adp n with
    | false =>
      simp only [Bool.not_false, if_true]
      refine ⟨i1, i2, fun i j => ?_, ?_⟩
      · by_cases hj : j = n
        · subst hj
          rw [setCol_same, if_pos (Nat.lt_succ_self _), ha]; simp
        · rw [setCol_other _ _ _ _ _ hj, i3]
          congr 1
          simp only [eq_iff_iff]
          omega
      · rw [i4, List.filter_append]
        simp [ha]
    | true =>
      simp only [Bool.not_true, Bool.false_eq_true, if_false, i1, i2, update_zero, update_single]
      refine ⟨hop _ _ _ _, trivial, fun i j => ?_, ?_⟩
      · by_cases hj : j = n
        · subst hj
          rw [setCol_same, if_pos (Nat.lt_succ_self _), ha, if_pos rfl]
          congr 1
          simp [single]
        · rw [setCol_other _ _ _ _ _ hj, i3]
          congr 1
          simp only [eq_iff_iff]
          omega
      · rw [i4, List.filter_append]
        simp [ha, Op.at']

theorem central_inv (op : Op α X) (hop : op.Lawful) (f : X → Y) (sub : Y → Y → Nat → α) (adp : Nat → Bool) (x : X)
    (J : Nat → Nat → α) (n : Nat) :
    let st := (List.range n).foldl (ctrStep op f sub adp x) ⟨x, x, fun _ => 0, J, []⟩
    st.xp = x ∧ st.xm = x ∧ st.h = (fun _ => 0) ∧
    (∀ i j, st.J i j = if j < n then
      (if adp j then sub (f (op.at' true x j)) (f (op.at' false x j)) i / op.step j x / 2 else 0) else J i j) ∧
    st.pts = ((List.range n).filter adp).flatMap fun j => [op.at' false x j, op.at' true x j] := by
  induction n with
  | zero => exact ⟨rfl, rfl, rfl, fun i j => by simp, rfl⟩
  | succ n ih =>
    rw [List.range_succ, List.foldl_append]
    simp only [List.foldl_cons, List.foldl_nil]
    obtain ⟨i1, i1', i2, i3, i4⟩ := ih
    generalize (List.range n).foldl (ctrStep op f sub adp x) ⟨x, x, fun _ => 0, J, []⟩ = st at i1 i1' i2 i3 i4
    unfold ctrStep
    cases ha : adp n with
    | false =>
      simp only [Bool.not_false, if_true]
      refine ⟨i1, i1', i2, fun i j => ?_, ?_⟩
      · by_cases hj : j = n
        · subst hj
          rw [setCol_same, if_pos (Nat.lt_succ_self _), ha]; simp
        · rw [setCol_other _ _ _ _ _ hj, i3]
          congr 1
          simp only [eq_iff_iff]
          omega
      · rw [i4, List.filter_append]
        simp [ha]
    | true =>
      simp only [Bool.not_true, Bool.false_eq_true, if_false, i1, i1', i2, update_zero, update_single]
      refine ⟨hop _ _ _ _, hop _ _ _ _, trivial, fun i j => ?_, ?_⟩
      · by_cases hj : j = n
        · subst hj
          rw [setCol_same, if_pos (Nat.lt_succ_self _), ha, if_pos rfl]
          congr 2
          simp [single]
        · rw [setCol_other _ _ _ _ _ hj, i3]
          congr 1
          simp only [eq_iff_iff]
          omega
      · rw [i4, List.filter_append]
        simp [ha, Op.at']

/-- C45. Forward differences, for any configuration space whose operations satisfy `Lawful`: each column is the
quotient of the difference of the values at the point reached from `x` along this direction and at `x`; the columns of
inactive variables are zero; the function is evaluated at these points only. -/
theorem C45_forward (op : Op α X) (hop : op.Lawful) (f : X → Y) (sub : Y → Y → Nat → α) (adp : Nat → Bool) (n : Nat)
    (x : X) (J : Nat → Nat → α) :
    (∀ i j, j < n → (forward op f sub adp n x J).1 i j =
      if adp j then sub (f (op.integ true x (single j (op.step j x)) j x)) (f x) i / op.step j x else 0) ∧
    (forward op f sub adp n x J).2 =
      x :: ((List.range n).filter adp).map fun j => op.integ true x (single j (op.step j x)) j x := by
  obtain ⟨-, -, h3, h4⟩ := forward_inv op hop f sub adp x J n
  exact ⟨fun i j hj => (h3 i j).trans (if_pos hj), h4⟩

/-- C45. Central differences. -/
theorem C45_central (op : Op α X) (hop : op.Lawful) (f : X → Y) (sub : Y → Y → Nat → α) (adp : Nat → Bool) (n : Nat)
    (x : X) (J : Nat → Nat → α) :
    (∀ i j, j < n → (central op f sub adp n x J).1 i j =
      if adp j then sub (f (op.integ true x (single j (op.step j x)) j x))
        (f (op.integ false x (single j (op.step j x)) j x)) i / op.step j x / 2 else 0) ∧
    (central op f sub adp n x J).2 = ((List.range n).filter adp).flatMap fun j =>
      [op.integ false x (single j (op.step j x)) j x, op.integ true x (single j (op.step j x)) j x] := by
  obtain ⟨-, -, -, h3, h4⟩ := central_inv op hop f sub adp x J n
  exact ⟨fun i j hj => (h3 i j).trans (if_pos hj), h4⟩

end

section
variable [Field α] [LinearOrder α] [IsStrictOrderedRing α]

omit [IsStrictOrderedRing α] in
theorem vecOp_lawful (eps : α) : (vecOp eps).Lawful := by
  intro b x h j
  funext k
  by_cases hk : k = j
  · subst hk; exact Function.update_self ..
  · exact (Function.update_of_ne hk ..).trans (Function.update_of_ne hk ..)

omit [IsStrictOrderedRing α] in
theorem robotOp_lawful (eps : α) (integrate : (Nat → α) → (Nat → α) → Nat → α) :
    (robotOp eps integrate).Lawful := fun _ _ _ _ => rfl

/-- C45. The step is not zero if the parameter is not. -/
theorem C45_step (eps : α) (h : eps ≠ 0) (x : Nat → α) (i : Nat) : step eps x i ≠ 0 := by
  unfold step
  simp only
  split_ifs with hr
  · exact h
  · exact mul_ne_zero h hr

omit [IsStrictOrderedRing α] in
theorem vec_at (eps : α) (b : Bool) (x : Nat → α) (j : Nat) :
    (vecOp eps).integ b x (single j ((vecOp eps).step j x)) j x =
      Function.update x j (x j + if b then step eps x j else -step eps x j) := by
  show Function.update x j _ = _
  simp [single, vecOp]

omit [IsStrictOrderedRing α] in
/-- C45. On a vector space: number of evaluations, at most the dimension plus one, resp. twice the dimension; each at a
point that differs from `x` by one active variable at most. -/
theorem C45_points (eps : α) (f : (Nat → α) → Nat → α) (adp : Nat → Bool) (n : Nat) (x : Nat → α)
    (J : Nat → Nat → α) :
    let fw := (forward (vecOp eps) f (fun a b i => a i - b i) adp n x J).2
    let ct := (central (vecOp eps) f (fun a b i => a i - b i) adp n x J).2
    fw.length ≤ n + 1 ∧ ct.length ≤ 2 * n ∧
    ∀ y, y ∈ fw ∨ y ∈ ct → y = x ∨ ∃ j, j < n ∧ adp j = true ∧ (∀ k, k ≠ j → y k = x k) ∧
      (y j = x j + step eps x j ∨ y j = x j - step eps x j) := by
  have hfw := (C45_forward (vecOp eps) (vecOp_lawful eps) f (fun a b i => a i - b i) adp n x J).2
  have hct := (C45_central (vecOp eps) (vecOp_lawful eps) f (fun a b i => a i - b i) adp n x J).2
  simp only [vec_at] at hfw hct
  have hl : ((List.range n).filter adp).length ≤ n := by
    have := List.length_filter_le adp (List.range n)
    simpa using this
  have hpt : ∀ (b : Bool) (j : Nat), j ∈ (List.range n).filter adp →
      ∃ j', j' < n ∧ adp j' = true ∧
        (∀ k, k ≠ j' → Function.update x j (x j + if b then step eps x j else -step eps x j) k = x k) ∧
      (Function.update x j (x j + if b then step eps x j else -step eps x j) j' = x j' + step eps x j' ∨
        Function.update x j (x j + if b then step eps x j else -step eps x j) j' = x j' - step eps x j') := by
    intro b j hj
    obtain ⟨h1, h2⟩ := List.mem_filter.1 hj
    refine ⟨j, List.mem_range.1 h1, h2, fun k hk => Function.update_of_ne hk .., ?_⟩
    rw [Function.update_self]
    cases b
    · right; simp [sub_eq_add_neg]
    · left; simp
  refine ⟨?_, ?_, ?_⟩
  · simp only [hfw, List.length_cons, List.length_map]; omega
  · simp only [hct, List.length_flatMap, List.length_cons, List.length_nil]
    simp only [List.map_const', List.sum_replicate, nsmul_eq_mul, Nat.cast_id]
    omega
  · rintro y (hy | hy)
    · rw [hfw] at hy
      rcases List.mem_cons.1 hy with rfl | hy
      · exact Or.inl rfl
      · obtain ⟨j, hj, rfl⟩ := List.mem_map.1 hy
        exact Or.inr (hpt true j hj)
    · rw [hct] at hy
      obtain ⟨j, hj, hy⟩ := List.mem_flatMap.1 hy
      rcases List.mem_cons.1 hy with rfl | hy
      · exact Or.inr (hpt false j hj)
      · rw [List.mem_singleton.1 hy]
        exact Or.inr (hpt true j hj)

/-- C45. Forward differences are exact in each active direction along which the function is affine. -/
theorem C45_forward_exact (eps : α) (he : eps ≠ 0) (f : (Nat → α) → Nat → α) (adp : Nat → Bool) (n : Nat)
    (x : Nat → α) (J : Nat → Nat → α) (j : Nat) (hj : j < n) (ha : adp j = true) (i : Nat) (a : α)
    (hf : ∀ t, f (Function.update x j (x j + t)) i = f x i + a * t) :
    (forward (vecOp eps) f (fun a b i => a i - b i) adp n x J).1 i j = a := by
  rw [(C45_forward (vecOp eps) (vecOp_lawful eps) f (fun a b i => a i - b i) adp n x J).1 i j hj, if_pos ha, vec_at]
  simp only [if_true]
  rw [hf, add_sub_cancel_left]
  exact mul_div_cancel_right₀ _ (C45_step eps he x j)

/-- C45. Central differences are exact in each active direction along which the function is a polynomial of degree at
most two. -/
theorem C45_central_exact (eps : α) (he : eps ≠ 0) (f : (Nat → α) → Nat → α) (adp : Nat → Bool) (n : Nat)
    (x : Nat → α) (J : Nat → Nat → α) (j : Nat) (hj : j < n) (ha : adp j = true) (i : Nat) (a b : α)
    (hf : ∀ t, f (Function.update x j (x j + t)) i = f x i + a * t + b * t * t) :
    (central (vecOp eps) f (fun a b i => a i - b i) adp n x J).1 i j = a := by
  rw [(C45_central (vecOp eps) (vecOp_lawful eps) f (fun a b i => a i - b i) adp n x J).1 i j hj, if_pos ha, vec_at,
    vec_at]
  simp only [if_true, Bool.false_eq_true, if_false]
  rw [hf, hf]
  have h0 := C45_step eps he x j
  have : (vecOp eps).step j x = step eps x j := rfl
  rw [this]
  field_simp
  ring

/-- C45. Affine functions: both give the matrix, for every point, every step and every previous content, provided
that the columns of the inactive variables are zero. -/
theorem C45_affine (eps : α) (he : eps ≠ 0) (A : Nat → Nat → α) (b : Nat → α) (n : Nat) (adp : Nat → Bool)
    (hA : ∀ i j, j < n → adp j = false → A i j = 0) (x : Nat → α) (J : Nat → Nat → α) (i j : Nat) (hj : j < n) :
    let f := fun (x : Nat → α) i => (∑ k ∈ Finset.range n, A i k * x k) + b i
    (forward (vecOp eps) f (fun a b i => a i - b i) adp n x J).1 i j = A i j ∧
    (central (vecOp eps) f (fun a b i => a i - b i) adp n x J).1 i j = A i j := by
  intro f
  cases ha : adp j with
  | false =>
    rw [(C45_forward (vecOp eps) (vecOp_lawful eps) f (fun a b i => a i - b i) adp n x J).1 i j hj,
      (C45_central (vecOp eps) (vecOp_lawful eps) f (fun a b i => a i - b i) adp n x J).1 i j hj, ha, hA i j hj ha]
    simp
  | true =>
    have hf : ∀ t, f (Function.update x j (x j + t)) i = f x i + A i j * t := by
      intro t
      show (∑ k ∈ Finset.range n, A i k * Function.update x j (x j + t) k) + b i =
        (∑ k ∈ Finset.range n, A i k * x k) + b i + A i j * t
      have : (∑ k ∈ Finset.range n, A i k * Function.update x j (x j + t) k) =
          (∑ k ∈ Finset.range n, A i k * x k) + A i j * t := by
        rw [show A i j * t = ∑ k ∈ Finset.range n, if k = j then A i k * t else 0 by
          rw [Finset.sum_ite_eq' (Finset.range n) j fun k => A i k * t, if_pos (Finset.mem_range.2 hj)],
          ← Finset.sum_add_distrib]
        refine Finset.sum_congr rfl fun k _ => ?_
        by_cases hk : k = j
        · subst hk; rw [Function.update_self, if_pos rfl, mul_add]
        · rw [Function.update_of_ne hk, if_neg hk, add_zero]
      rw [this, add_right_comm]
    exact ⟨C45_forward_exact eps he f adp n x J j hj ha i _ hf,
      C45_central_exact eps he f adp n x J j hj ha i _ 0 (fun t => by rw [hf]; ring)⟩

end

/-- `(x, y, z) ↦ 3 x - 2 z + 1`, second variable inactive, at `(5, 7, 0)`; and `(x, y) ↦ x²` where forward
differences are not exact. -/
example :
    let f := fun (x : Nat → ℚ) (_ : Nat) => 3 * x 0 - 2 * x 2 + 1
    let x : Nat → ℚ := fun i => [5, 7, 0].getD i 0
    (List.range 3).map ((forward (vecOp (1/10)) f (fun a b i => a i - b i) (· != 1) 3 x fun _ _ => 9).1 0) =
      [3, 0, -2] ∧
    (forward (vecOp (1/10)) (fun x (_ : Nat) => x 0 * x 0) (fun a b i => a i - b i) (fun _ => true) 3 x
      fun _ _ => 9).1 0 0 = 21/2 ∧
    (central (vecOp (1/10)) (fun x (_ : Nat) => x 0 * x 0) (fun a b i => a i - b i) (fun _ => true) 3 x
      fun _ _ => 9).1 0 0 = 10 := by decide +kernel

end Hpp.FD
