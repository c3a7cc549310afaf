import Verif.Fun.Subset
import Mathlib.Algebra.Ring.Int.Defs
import Mathlib.Tactic.Abel

/-!
# Functions of a subset of the variables: C44
-/

namespace Hpp

variable {α : Type}

/-! ## Specification -/

/-- Whatever the buffer contained, the Jacobian written in it is `D`. -/
def BFun.Determined (g : BFun α) (D : (Nat → α) → Nat → Nat → α) : Prop :=
  ∀ x B i j, i < g.no → j < g.nv → g.jac x B i j = D x i j

/-- The values do not depend on the inactive variables. -/
def BFun.Respects (g : BFun α) : Prop :=
  ∀ x y : Nat → α, (∀ j, j < g.nq → g.activeQ j = true → x j = y j) → ∀ i, i < g.no → g.value x i = g.value y i

/-- Column `j` is in the interval. -/
abbrev InSeg (s : Seg) (j : Nat) : Prop := s.first ≤ j ∧ j < s.first + s.len

/-- The Jacobian of a function of the variables of an interval: zero out of the interval. -/
def subsetJac [Zero α] (D : (Nat → α) → Nat → Nat → α) (sa sd : Seg) (x : Nat → α) (i j : Nat) : α :=
  if InSeg sd j then D (fun k => x (sa.first + k)) i (j - sd.first) else 0

/-- The buffer is zero out of the given columns. -/
def ZeroOut [Zero α] (no : Nat) (P : Nat → Prop) (J : Nat → Nat → α) : Prop := ∀ i j, i < no → ¬P j → J i j = 0

/-- Successive computations in the same buffer. -/
def BFun.calls (g : BFun α) (args : List (Nat → α)) (J : Nat → Nat → α) : Nat → Nat → α :=
  args.foldl (fun J x => g.jac x J) J

/-! ## Function of a subset -/

/-- C44. Value and Jacobian on the selected columns; the other columns are those of the buffer. -/
theorem C44_subset (g : BFun α) (D : (Nat → α) → Nat → Nat → α) (hg : g.Determined D) (nArgs nDers : Nat)
    (sa sd : Seg) (hsd : sd.len = g.nv) (x : Nat → α) (J : Nat → Nat → α) :
    let f := g.subset nArgs nDers sa sd
    (∀ i, f.value x i = g.value (fun k => x (sa.first + k)) i) ∧
    (∀ i j, i < f.no → InSeg sd j → f.jac x J i j = D (fun k => x (sa.first + k)) i (j - sd.first)) ∧
    (∀ i j, i < f.no → ¬InSeg sd j → f.jac x J i j = J i j) := by
  refine ⟨fun _ => rfl, fun i j hi hj => ?_, fun i j hi hj => ?_⟩
  · show (if _ then _ else _) = _
    rw [if_pos hj]
    exact hg _ _ _ _ hi (by have := hj.1; have := hj.2; omega)
  · show (if _ then _ else _) = _
    rw [if_neg hj]

/-- C44, part. In a buffer that is zero out of the selected columns, for instance zero at the beginning, whatever
the number of computations done in this buffer, the last one leaves the Jacobian at the last argument.  Missing: other
buffers, see `C44_subset_refuted`. -/
theorem C44_subset_partial [Zero α] (g : BFun α) (D : (Nat → α) → Nat → Nat → α) (hg : g.Determined D)
    (nArgs nDers : Nat) (sa sd : Seg) (hsd : sd.len = g.nv) (J : Nat → Nat → α)
    (hJ : ZeroOut g.no (InSeg sd) J) (args : List (Nat → α)) (x : Nat → α) :
    ∀ i j, i < g.no → (g.subset nArgs nDers sa sd).calls (args ++ [x]) J i j = subsetJac D sa sd x i j := by
  have key : ∀ (args : List (Nat → α)) (J : Nat → Nat → α), ZeroOut g.no (InSeg sd) J →
      ZeroOut g.no (InSeg sd) ((g.subset nArgs nDers sa sd).calls args J) := by
    intro args
    induction args with
    | nil => exact fun J h => h
    | cons a l ih =>
      intro J h
      refine ih _ fun i j hi hj => ?_
      beta_reduce
      rw [(C44_subset g D hg nArgs nDers sa sd hsd a J).2.2 i j hi hj, h i j hi hj]
  intro i j hi
  unfold BFun.calls
  rw [List.foldl_append]
  show (g.subset nArgs nDers sa sd).jac x ((g.subset nArgs nDers sa sd).calls args J) i j = _
  unfold subsetJac
  split_ifs with hj
  · exact (C44_subset g D hg nArgs nDers sa sd hsd x _).2.1 i j hi hj
  · rw [(C44_subset g D hg nArgs nDers sa sd hsd x _).2.2 i j hi hj, key args J hJ i j hi hj]

/-- C44. The value of a function of a subset does not depend on the variables announced as inactive. -/
theorem C44_subset_active (g : BFun α) (hg : g.Respects) (nArgs nDers : Nat) (sa sd : Seg) (hsa : sa.len = g.nq)
    (hin : sa.first + sa.len ≤ nArgs) : (g.subset nArgs nDers sa sd).Respects := by
  intro x y hxy i hi
  refine hg _ _ (fun j hj ha => ?_) i hi
  refine hxy (sa.first + j) (by show _ < nArgs; omega) ?_
  show (if _ then _ else _) = _
  rw [if_pos ⟨by omega, by omega⟩, Nat.add_sub_cancel_left]
  exact ha

/-! ## Difference -/

/-- The Jacobian of the difference: that of the left part minus that of the right part. -/
def differenceJac [Zero α] [Sub α] (D : (Nat → α) → Nat → Nat → α) (lsa lsd rsa rsd : Seg) (x : Nat → α)
    (i j : Nat) : α := subsetJac D lsa lsd x i j - subsetJac D rsa rsd x i j

/-- The intervals do not overlap. -/
def SegDisjoint (s t : Seg) : Prop := ∀ j, ¬(InSeg s j ∧ InSeg t j)

/-- C44. What the Jacobian of a difference is, for any intervals: the right part wins where they overlap, and
the columns of none are those of the buffer. -/
theorem C44_difference [AddGroup α] (g : BFun α) (D : (Nat → α) → Nat → Nat → α) (hg : g.Determined D)
    (nArgs nDers : Nat) (lsa lsd rsa rsd : Seg) (hl : lsd.len = g.nv) (hr : rsd.len = g.nv) (x : Nat → α)
    (J : Nat → Nat → α) :
    let f := g.difference nArgs nDers lsa lsd rsa rsd
    (∀ i, f.value x i = g.value (fun k => x (lsa.first + k)) i - g.value (fun k => x (rsa.first + k)) i) ∧
    (∀ i j, i < g.no → InSeg rsd j → f.jac x J i j = -D (fun k => x (rsa.first + k)) i (j - rsd.first)) ∧
    (∀ i j, i < g.no → ¬InSeg rsd j → InSeg lsd j →
      f.jac x J i j = D (fun k => x (lsa.first + k)) i (j - lsd.first)) ∧
    (∀ i j, i < g.no → ¬InSeg rsd j → ¬InSeg lsd j → f.jac x J i j = J i j) := by
  have hjac : ∀ i j, (g.difference nArgs nDers lsa lsd rsa rsd).jac x J i j =
      (let J1 := setCols lsd (g.jac (segment lsa x) fun i => segment lsd (J i)) J
       let J2 := setCols rsd (g.jac (segment rsa x) fun i => segment rsd (J1 i)) J1
       setCols rsd (fun i k => -segment rsd (J2 i) k) J2) i j := fun _ _ => rfl
  refine ⟨fun _ => rfl, fun i j hi hj => ?_, fun i j hi hj hj' => ?_, fun i j hi hj hj' => ?_⟩
  · rw [hjac]
    unfold setCols setSegment segment
    simp only
    rw [if_pos hj, show rsd.first + (j - rsd.first) = j by have := hj.1; omega, if_pos hj]
    congr 1
    exact hg _ _ _ _ hi (by have := hj.1; have := hj.2; omega)
  · rw [hjac]
    unfold setCols setSegment
    simp only
    rw [if_neg hj, if_neg hj, if_pos hj']
    exact hg _ _ _ _ hi (by have := hj'.1; have := hj'.2; omega)
  · rw [hjac]
    unfold setCols setSegment
    simp only
    rw [if_neg hj, if_neg hj, if_neg hj']

/-- C44, part, for a difference on intervals that do not overlap and a buffer that is zero out of these intervals,
whatever the number of computations done in this buffer.  Missing: see `C44_difference_overlap_refuted`. -/
theorem C44_difference_partial [AddGroup α] (g : BFun α) (D : (Nat → α) → Nat → Nat → α) (hg : g.Determined D)
    (nArgs nDers : Nat) (lsa lsd rsa rsd : Seg) (hl : lsd.len = g.nv) (hr : rsd.len = g.nv)
    (hd : SegDisjoint lsd rsd) (J : Nat → Nat → α) (hJ : ZeroOut g.no (fun j => InSeg lsd j ∨ InSeg rsd j) J)
    (args : List (Nat → α)) (x : Nat → α) :
    ∀ i j, i < g.no → (g.difference nArgs nDers lsa lsd rsa rsd).calls (args ++ [x]) J i j =
      differenceJac D lsa lsd rsa rsd x i j := by
  have key : ∀ (args : List (Nat → α)) (J : Nat → Nat → α), ZeroOut g.no (fun j => InSeg lsd j ∨ InSeg rsd j) J →
      ZeroOut g.no (fun j => InSeg lsd j ∨ InSeg rsd j)
        ((g.difference nArgs nDers lsa lsd rsa rsd).calls args J) := by
    intro args
    induction args with
    | nil => exact fun J h => h
    | cons a l ih =>
      intro J h
      refine ih _ fun i j hi hj => ?_
      beta_reduce
      rw [(C44_difference g D hg nArgs nDers lsa lsd rsa rsd hl hr a J).2.2.2 i j hi (fun h => hj (Or.inr h))
        (fun h => hj (Or.inl h)), h i j hi hj]
  intro i j hi
  unfold BFun.calls
  rw [List.foldl_append]
  show (g.difference nArgs nDers lsa lsd rsa rsd).jac x
    ((g.difference nArgs nDers lsa lsd rsa rsd).calls args J) i j = _
  obtain ⟨-, h1, h2, h3⟩ := C44_difference g D hg nArgs nDers lsa lsd rsa rsd hl hr x
    ((g.difference nArgs nDers lsa lsd rsa rsd).calls args J)
  unfold differenceJac subsetJac
  by_cases hjr : InSeg rsd j
  · rw [if_pos hjr, if_neg fun h => hd j ⟨h, hjr⟩, zero_sub]
    exact h1 i j hi hjr
  · rw [if_neg hjr, sub_zero]
    by_cases hjl : InSeg lsd j
    · rw [if_pos hjl]
      exact h2 i j hi hjr hjl
    · rw [if_neg hjl, h3 i j hi hjr hjl]
      exact key args J hJ i j hi fun h => h.elim hjl hjr

/-- C44. The value of a difference does not depend on the variables announced as inactive, if the intervals do not
overlap. -/
theorem C44_difference_active_partial [AddGroup α] (g : BFun α) (hg : g.Respects) (nArgs nDers : Nat)
    (lsa lsd rsa rsd : Seg) (hl : lsa.len = g.nq) (hr : rsa.len = g.nq) (hlin : lsa.first + lsa.len ≤ nArgs)
    (hrin : rsa.first + rsa.len ≤ nArgs) (hd : SegDisjoint lsa rsa) :
    (g.difference nArgs nDers lsa lsd rsa rsd).Respects := by
  intro x y hxy i hi
  show g.value _ i - g.value _ i = g.value _ i - g.value _ i
  congr 1
  · refine hg _ _ (fun j hj ha => ?_) i hi
    refine hxy (lsa.first + j) (by show _ < nArgs; omega) ?_
    show (if _ then _ else _) = _
    have hin : InSeg lsa (lsa.first + j) := ⟨by omega, by omega⟩
    rw [if_neg fun h => hd _ ⟨hin, h⟩]
    show (if _ then _ else _) = _
    rw [if_pos hin, Nat.add_sub_cancel_left]
    exact ha
  · refine hg _ _ (fun j hj ha => ?_) i hi
    refine hxy (rsa.first + j) (by show _ < nArgs; omega) ?_
    show (if _ then _ else _) = _
    rw [if_pos ⟨by omega, by omega⟩, Nat.add_sub_cancel_left]
    exact ha

/-! ## Examples -/

namespace SubX

/-- `(a, b) ↦ a * b`, with its Jacobian. -/
def mulFun : BFun Int where
  nq := 2
  nv := 2
  no := 1
  value x _ := x 0 * x 1
  jac x _ _ j := if j = 0 then x 1 else x 0
  activeQ _ := true
  active _ := true

/-- `(a, b) ↦ a`, the second variable is inactive. -/
def firstFun : BFun Int where
  nq := 2
  nv := 2
  no := 1
  value x _ := x 0
  jac _ _ _ j := if j = 0 then 1 else 0
  activeQ j := j == 0
  active j := j == 0

theorem mulFun_det : mulFun.Determined fun x _ j => if j = 0 then x 1 else x 0 := fun _ _ _ _ _ _ => rfl

theorem firstFun_respects : firstFun.Respects := fun _ _ h _ _ => h 0 (by decide) rfl

end SubX

open SubX

/-- Five variables, the function of variables 1 and 2 minus that of variables 3 and 4. -/
example : SegDisjoint ⟨1, 2⟩ ⟨3, 2⟩ ∧ ZeroOut 1 (fun j => InSeg ⟨1, 2⟩ j ∨ InSeg ⟨3, 2⟩ j) (fun _ _ => (0 : Int)) ∧
    (let f := mulFun.difference 5 5 ⟨1, 2⟩ ⟨1, 2⟩ ⟨3, 2⟩ ⟨3, 2⟩
     let x : Nat → Int := fun i => [9, 2, 3, 4, 5].getD i 0
     f.value x 0 = -14 ∧ (List.range 5).map (f.jac x (fun _ _ => 0) 0) = [0, 3, 2, -5, -4]) := by
  refine ⟨?_, fun _ _ _ _ => rfl, by decide⟩
  rintro j ⟨⟨h1, h2⟩, h3, h4⟩
  simp at h1 h2 h3 h4
  omega

/-- C44 is false in other buffers: the columns out of the interval keep what the buffer contained, although
`jacobian` is announced to store the Jacobian in its argument. -/
theorem C44_subset_refuted : mulFun.Determined (fun x _ j => if j = 0 then x 1 else x 0) ∧
    (mulFun.subset 3 3 ⟨1, 2⟩ ⟨1, 2⟩).jac (fun _ => 1) (fun _ _ => 7) 0 0 = 7 ∧
    subsetJac (fun x _ j => if j = 0 then x 1 else x 0) ⟨1, 2⟩ ⟨1, 2⟩ (fun _ => (1 : Int)) 0 0 = 0 :=
  ⟨mulFun_det, by decide⟩

/-- C44 is false for a difference on overlapping intervals: the right part overwrites the left part.  Here
`q0 q1 - q1 q2`, whose derivative with respect to `q1` is `q0 - q2`. -/
theorem C44_difference_overlap_refuted : mulFun.Determined (fun x _ j => if j = 0 then x 1 else x 0) ∧
    (let x : Nat → Int := fun i => [5, 2, 3].getD i 0
     (mulFun.difference 3 3 ⟨0, 2⟩ ⟨0, 2⟩ ⟨1, 2⟩ ⟨1, 2⟩).jac x (fun _ _ => 0) 0 1 = -3 ∧
     differenceJac (fun x _ j => if j = 0 then x 1 else x 0) ⟨0, 2⟩ ⟨0, 2⟩ ⟨1, 2⟩ ⟨1, 2⟩ x 0 1 = 2) :=
  ⟨mulFun_det, by decide⟩

/-- C44 is false for the active variables of a difference on overlapping intervals: here `q1 - q0`, where variable
1, inactive in the right part, is announced as inactive. -/
theorem C44_difference_active_refuted : firstFun.Respects ∧
    ¬(firstFun.difference 3 3 ⟨1, 2⟩ ⟨1, 2⟩ ⟨0, 2⟩ ⟨0, 2⟩).Respects := by
  refine ⟨firstFun_respects, fun h => ?_⟩
  have := h (fun i => if i = 1 then 1 else 0) (fun _ => 0) (fun j hj ha => ?_) 0 (by decide)
  · exact absurd this (by decide)
  · change j < 3 at hj
    match j, hj with
    | 0, _ => rfl
    | 1, _ => exact absurd ha (by decide)
    | 2, _ => rfl

end Hpp
