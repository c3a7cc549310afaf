import Verif.Fun.SubsetProps
import Verif.Segments.Spec
import Mathlib.Algebra.BigOperators.Group.Finset.Basic
import Mathlib.Algebra.BigOperators.Ring.Finset

/-!
# `ActiveSetDifferentiableFunction`

Source: `/repo/include/hpp/constraints/active-set-differentiable-function.hh`.  As in `Verif.Fun.Subset`, the Jacobian is
written in the buffer of the caller; `none`: a block out of the matrix, which is undefined behaviour.
-/

namespace Hpp

variable {α : Type}

/-- `jacobian.middleCols(s.first, s.second).setZero()` in a matrix with `nv` columns
(active-set-differentiable-function.hh:82). -/
def zeroCols [Zero α] (nv : Nat) (s : Seg) (J : Nat → Nat → α) : Option (Nat → Nat → α) :=
  if s.first + s.len ≤ nv then some fun i j => if s.first ≤ j ∧ j < s.first + s.len then 0 else J i j else none

/-- Loop over `intervals_` (active-set-differentiable-function.hh:80-82). -/
def zeroLoop [Zero α] (nv : Nat) : Segs → (Nat → Nat → α) → Option (Nat → Nat → α)
  | [], J => some J
  | s :: l, J => (zeroCols nv s J).bind (zeroLoop nv l)

/-- A function whose Jacobian may be undefined behaviour. -/
structure UFun (α : Type) where
  nq : Nat
  nv : Nat
  no : Nat
  value : (Nat → α) → Nat → α
  jac : (Nat → α) → (Nat → Nat → α) → Option (Nat → Nat → α)
  activeQ : Nat → Bool
  active : Nat → Bool

def BFun.toU (g : BFun α) : UFun α := ⟨g.nq, g.nv, g.no, g.value, fun x J => some (g.jac x J), g.activeQ, g.active⟩

/-- Constructor (active-set-differentiable-function.hh:54-61), `impl_compute` (73-76) and `impl_jacobian` (78-83).  The
flags of the variables are those that the constructor of the base class sets (differentiable-function.cc:243-252): those
of `f` are not copied.  The name and the context are not modelled. -/
def UFun.activeSet [Zero α] (g : UFun α) (intervals : Segs) : UFun α where
  nq := g.nq
  nv := g.nv
  no := g.no
  value := g.value
  jac arg J := (g.jac arg J).bind (zeroLoop g.nv intervals)
  activeQ := fun _ => true
  active := fun _ => true

/-! ## Specification -/

/-- Whatever the buffer contained, the Jacobian written in it is `D`. -/
def UFun.Determined (g : UFun α) (D : (Nat → α) → Nat → Nat → α) : Prop :=
  ∀ x B, ∃ J, g.jac x B = some J ∧ ∀ i j, i < g.no → j < g.nv → J i j = D x i j

/-- `D` with the columns of the intervals replaced by zero. -/
noncomputable def saturatedJac [Zero α] (D : (Nat → α) → Nat → Nat → α) (l : Segs) (x : Nat → α) (i j : Nat) : α :=
  open Classical in if Covers l j then 0 else D x i j

/-- A flag that is false: the column of the Jacobian is zero.  A flag that is true: somewhere it is not. -/
def ExactFlags [Zero α] (g : UFun α) (D : (Nat → α) → Nat → Nat → α) : Prop :=
  ∀ j, j < g.nv → (g.active j = false ↔ ∀ x i, i < g.no → D x i j = 0)

/-! ## Theorems -/

theorem zeroLoop_spec [Zero α] (nv : Nat) (l : Segs) (J : Nat → Nat → α) :
    (∀ J', zeroLoop nv l J = some J' → ∀ i j, (Covers l j → J' i j = 0) ∧ (¬ Covers l j → J' i j = J i j)) ∧
    ((∃ J', zeroLoop nv l J = some J') ↔ ∀ s ∈ l, s.first + s.len ≤ nv) := by
  induction l generalizing J with
  | nil =>
    refine ⟨fun J' h i j => ?_, by simp [zeroLoop]⟩
    obtain rfl := Option.some.inj h
    exact ⟨fun h => by simp [Covers] at h, fun _ => rfl⟩
  | cons s l ih =>
    unfold zeroLoop zeroCols
    by_cases hs : s.first + s.len ≤ nv
    · rw [if_pos hs]
      simp only [Option.bind_some]
      obtain ⟨h1, h2⟩ := ih fun i j => if s.first ≤ j ∧ j < s.first + s.len then 0 else J i j
      refine ⟨fun J' h i j => ?_, ?_⟩
      · obtain ⟨a, b⟩ := h1 J' h i j
        have hcov : Covers (s :: l) j ↔ (s.first ≤ j ∧ j < s.first + s.len) ∨ Covers l j := by
          simp [Covers, Seg.Has]
        rw [hcov]
        by_cases hc : Covers l j
        · exact ⟨fun _ => a hc, fun h => absurd (Or.inr hc) h⟩
        · have hb := b hc
          by_cases hj : s.first ≤ j ∧ j < s.first + s.len
          · rw [if_pos hj] at hb
            exact ⟨fun _ => hb, fun h => absurd (Or.inl hj) h⟩
          · rw [if_neg hj] at hb
            exact ⟨fun h => absurd h (by tauto), fun _ => hb⟩
      · rw [h2]; simp [hs]
    · rw [if_neg hs]
      refine ⟨fun J' h => by simp at h, ⟨fun ⟨J', h⟩ => by simp at h, fun h => absurd (h s (by simp)) hs⟩⟩

/-- C112. The value is that of the function, the Jacobian is that of the function with the columns of the intervals set
to zero, whatever the buffer contained, and the sizes are those of the function. -/
theorem C112_active_set [Zero α] (g : UFun α) (D : (Nat → α) → Nat → Nat → α) (hg : g.Determined D) (l : Segs)
    (hl : ∀ s ∈ l, s.first + s.len ≤ g.nv) :
    (∀ x, (g.activeSet l).value x = g.value x) ∧
    ((g.activeSet l).nq = g.nq ∧ (g.activeSet l).nv = g.nv ∧ (g.activeSet l).no = g.no) ∧
    (g.activeSet l).Determined (saturatedJac D l) := by
  refine ⟨fun _ => rfl, ⟨rfl, rfl, rfl⟩, fun x B => ?_⟩
  obtain ⟨J, hJ, hD⟩ := hg x B
  obtain ⟨h1, h2⟩ := zeroLoop_spec g.nv l J
  obtain ⟨J', hJ'⟩ := h2.2 hl
  refine ⟨J', ?_, fun i j hi hj => ?_⟩
  · show (g.jac x B).bind _ = _
    rw [hJ]; exact hJ'
  · unfold saturatedJac
    split
    · next h => exact (h1 J' hJ' i j).1 h
    · next h => rw [(h1 J' hJ' i j).2 h]; exact hD i j hi hj

/-- C112. When one interval is not in the matrix, each evaluation of the Jacobian is undefined behaviour. -/
theorem C112_out_of_range [Zero α] (g : UFun α) (D : (Nat → α) → Nat → Nat → α) (hg : g.Determined D) (l : Segs)
    (s : Seg) (hs : s ∈ l) (hr : g.nv < s.first + s.len) (x : Nat → α) (B : Nat → Nat → α) :
    (g.activeSet l).jac x B = none := by
  obtain ⟨J, hJ, -⟩ := hg x B
  show (g.jac x B).bind _ = _
  rw [hJ]
  show zeroLoop g.nv l J = none
  cases h : zeroLoop g.nv l J with
  | none => rfl
  | some J' => exact absurd (((zeroLoop_spec g.nv l J).2.1 ⟨J', h⟩) s hs) (by omega)

/-- C112. For motions where the variables of the intervals do not move, the Jacobian gives the same velocities as that
of the function. -/
theorem C112_still {α : Type} [Semiring α] (g : UFun α) (D : (Nat → α) → Nat → Nat → α) (hg : g.Determined D) (l : Segs)
    (hl : ∀ s ∈ l, s.first + s.len ≤ g.nv) (x v : Nat → α) (hv : ∀ j, Covers l j → v j = 0) (B : Nat → Nat → α) :
    ∃ J, (g.activeSet l).jac x B = some J ∧ ∀ i, i < g.no →
      ∑ j ∈ Finset.range g.nv, J i j * v j = ∑ j ∈ Finset.range g.nv, D x i j * v j := by
  obtain ⟨-, -, hD⟩ := C112_active_set g D hg l hl
  obtain ⟨J, hJ, h⟩ := hD x B
  refine ⟨J, hJ, fun i hi => Finset.sum_congr rfl fun j hj => ?_⟩
  rw [h i j hi (Finset.mem_range.1 hj)]
  unfold saturatedJac
  split
  · next hc => rw [hv j hc]; simp
  · rfl

/-- C112. For each velocity, the Jacobian gives the velocity of the function for the motion where the variables of the
intervals are stopped. -/
theorem C112_stopped {α : Type} [Semiring α] (g : UFun α) (D : (Nat → α) → Nat → Nat → α) (hg : g.Determined D)
    (l : Segs) (hl : ∀ s ∈ l, s.first + s.len ≤ g.nv) (x v w : Nat → α) (hw : ∀ j, Covers l j → w j = 0)
    (hvw : ∀ j, ¬ Covers l j → w j = v j) (B : Nat → Nat → α) :
    ∃ J, (g.activeSet l).jac x B = some J ∧ ∀ i, i < g.no →
      ∑ j ∈ Finset.range g.nv, J i j * v j = ∑ j ∈ Finset.range g.nv, D x i j * w j := by
  obtain ⟨-, -, hD⟩ := C112_active_set g D hg l hl
  obtain ⟨J, hJ, h⟩ := hD x B
  refine ⟨J, hJ, fun i hi => Finset.sum_congr rfl fun j hj => ?_⟩
  rw [h i j hi (Finset.mem_range.1 hj)]
  unfold saturatedJac
  split
  · next hc => rw [hw j hc]; simp
  · next hc => rw [hvw j hc]

/-- C112. Two lists of intervals with the same columns, in any order, overlapping or not, and the decoration of a
decorated function: same Jacobian. -/
theorem C112_same_columns [Zero α] (g : UFun α) (D : (Nat → α) → Nat → Nat → α) (hg : g.Determined D) (l m k : Segs)
    (hl : ∀ s ∈ l, s.first + s.len ≤ g.nv) (hm : ∀ s ∈ m, s.first + s.len ≤ g.nv)
    (hk : ∀ s ∈ k, s.first + s.len ≤ g.nv) (hc : ∀ j, Covers k j ↔ Covers l j ∨ Covers m j) (x : Nat → α)
    (B B' : Nat → Nat → α) :
    ∃ J J', ((g.activeSet l).activeSet m).jac x B = some J ∧ (g.activeSet k).jac x B' = some J' ∧
      ∀ i j, i < g.no → j < g.nv → J i j = J' i j := by
  obtain ⟨-, -, h1⟩ := C112_active_set g D hg l hl
  obtain ⟨-, -, h2⟩ := C112_active_set (g.activeSet l) _ h1 m hm
  obtain ⟨-, -, h3⟩ := C112_active_set g D hg k hk
  obtain ⟨J, hJ, e⟩ := h2 x B
  obtain ⟨J', hJ', e'⟩ := h3 x B'
  refine ⟨J, J', hJ, hJ', fun i j hi hj => ?_⟩
  rw [e i j hi hj, e' i j hi hj]
  unfold saturatedJac
  by_cases h : Covers l j <;> by_cases h' : Covers m j <;> simp [hc, h, h']

/-! ## Examples -/

open SubX

theorem mulFun_U : mulFun.toU.Determined fun x _ j => if j = 0 then x 1 else x 0 :=
  fun x B => ⟨_, rfl, fun i j hi hj => mulFun_det x B i j hi hj⟩

/-- The second variable of `(x, y) ↦ x y` is saturated; the buffer contained 7. -/
example : ∃ J, (mulFun.toU.activeSet [⟨1, 1⟩]).jac (fun k => if k = 0 then 3 else 5) (fun _ _ => 7) = some J ∧
    J 0 0 = 5 ∧ J 0 1 = 0 := by
  obtain ⟨-, -, h⟩ := C112_active_set mulFun.toU _ mulFun_U [⟨1, 1⟩] (by decide)
  obtain ⟨J, hJ, e⟩ := h (fun k => if k = 0 then 3 else 5) fun _ _ => 7
  refine ⟨J, hJ, ?_, ?_⟩
  · rw [e 0 0 (by decide) (by decide)]; simp [saturatedJac, Covers, Seg.Has]
  · rw [e 0 1 (by decide) (by decide)]; simp [saturatedJac, Covers, Seg.Has]

example : (mulFun.toU.activeSet [⟨0, 1⟩, ⟨1, 2⟩]).jac (fun _ => 1) (fun _ _ => 7) = none :=
  C112_out_of_range mulFun.toU _ mulFun_U _ ⟨1, 2⟩ (by decide) (by decide) _ _

/-- C112 is false for the flags: a saturated variable is declared active. -/
theorem C112_flags_refuted : ∃ (g : UFun Int) (D : (Nat → Int) → Nat → Nat → Int), g.Determined D ∧ ExactFlags g D ∧
    ∃ l : Segs, (∀ s ∈ l, s.first + s.len ≤ g.nv) ∧ ¬ ExactFlags (g.activeSet l) (saturatedJac D l) := by
  refine ⟨mulFun.toU, _, mulFun_U, ?_, [⟨1, 1⟩], by decide, ?_⟩
  · intro j hj
    have hj' : j < 2 := hj
    refine ⟨fun h => (by cases h), fun h => ?_⟩
    have := h (fun _ => 1) 0 (by decide)
    simp at this
  · intro h
    have := (h 1 (by decide)).2 fun x i _ => by simp [saturatedJac, Covers, Seg.Has]
    cases this

end Hpp
