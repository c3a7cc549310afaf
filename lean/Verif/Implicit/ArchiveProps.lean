import Verif.Implicit.Archive

/-!
# Properties of the serialization of constraints: C98
-/

namespace Hpp

variable {α κ : Type}

/-- C98, part. A constraint that is written in an archive and read again has the same function, right hand side
function, comparison types, mask, index sets and number of parameters, and is equal to the one that was written.
Missing: the buffers, see `C98_constraint_refuted`. -/
theorem C98_constraint_partial [DecidableEq κ] {fn : Fn α κ} {mask : List Bool} {comp : List Comp}
    {b : ImplBuf α κ} (hb : ImplBuf.Built fn mask comp b) :
    let b' := ImplBuf.load b.save
    b'.c.fn = b.c.fn ∧ b'.c.rhsFn = b.c.rhsFn ∧ b'.c.comp = b.c.comp ∧ b'.c.mask = b.c.mask ∧
      b'.c.rhsSize = b.c.rhsSize ∧ b'.c.paramSize = b.c.paramSize ∧ b'.c.activeRows = b.c.activeRows ∧
      b'.c.inactiveRows = b.c.inactiveRows ∧ b'.c.ineq = b.c.ineq ∧ b'.c.eq = b.c.eq ∧
      b'.c.isEqual b.c = true := by
  obtain ⟨h1, -⟩ := hb.fields
  intro b'
  refine ⟨rfl, rfl, rfl, rfl, rfl, ?_, ?_, ?_, ?_, ?_, ?_⟩
  · rw [h1]
  · rw [h1]
  · rw [h1]
  · rw [h1]
  · rw [h1]
  · simp [Impl.isEqual, b', ImplBuf.load, ImplBuf.save]

/-- C98. As long as no archive is read, the buffers have the right sizes: the right hand side of a configuration is
defined and is the one of the specification. -/
theorem C98_fresh_defined [Zero α] {fn : Fn α κ} {mask : List Bool} {comp : List Comp}
    {b : ImplBuf α κ} (hb : ImplBuf.Built fn mask comp b) (q : Nat → α) :
    b.rhsFromConfig q = some (b.c.rhsFromConfig q) ∧
    ∀ (s : α) (g : Fn α κ), b.c.rhsFn = some g → g.space.nq = fn.space.nq →
      b.rhsAt s = some (g.value fun _ => s) := by
  obtain ⟨-, h2, h3, h4, h5, h6⟩ := hb.fields
  constructor
  · unfold ImplBuf.rhsFromConfig Impl.rhsFromConfig
    rw [if_neg (by rw [h2, h3]; simp), if_neg, if_neg (by rw [h2, h4]; simp), h2, h4]
    rw [List.any_eq_true]
    rintro ⟨i, hi, hi'⟩
    rw [h6] at hi
    have := equalityIndices_lt _ i hi
    simp only [decide_eq_true_eq] at hi'
    omega
  · intro s g hg hn
    unfold ImplBuf.rhsAt
    rw [hg]
    simp only
    rw [if_neg (by rw [h3, hn]; simp)]

/-- C98 fails for the buffers: whatever the constraint, unless its output is empty, the right hand side of a
configuration cannot be computed with the constraint that was read, nor the value of its right hand side
function: the code writes outside of an empty vector. -/
theorem C98_constraint_refuted [Zero α] {fn : Fn α κ} {mask : List Bool} {comp : List Comp}
    {b : ImplBuf α κ} (hb : ImplBuf.Built fn mask comp b) (hn : fn.space.nq ≠ 0) (q : Nat → α) :
    (ImplBuf.load b.save).rhsFromConfig q = none ∧
    ∀ (s : α) (g : Fn α κ), b.c.rhsFn = some g → g.space.nq = fn.space.nq →
      (ImplBuf.load b.save).rhsAt s = none := by
  obtain ⟨-, h2, -⟩ := hb.fields
  constructor
  · unfold ImplBuf.rhsFromConfig
    rw [if_pos]
    show (0 : Nat) ≠ b.c.fn.space.nq
    rw [h2]; exact hn.symm
  · intro s g hg hg'
    unfold ImplBuf.rhsAt
    rw [show (ImplBuf.load b.save).c.rhsFn = some g from hg]
    simp only
    rw [if_pos]
    show (0 : Nat) ≠ g.space.nq
    rw [hg']; exact hn.symm

namespace ArchEx

/-- `q ↦ (q 0, q 1)` -/
def fn : Fn Int Nat where
  key := 3
  inputSize := 2
  inputDer := 2
  spaceId := 2
  space := vectorSpace Int 2
  value q := [q 0, q 1]
  jac _ := fun i j => if i = j then 1 else 0
  activeQ := [true, true]
  active := [true, true]

def b : ImplBuf Int Nat := (ImplBuf.create fn [.equality, .equalToZero] [true, false]).get (by decide +kernel)

theorem b_built : ImplBuf.Built fn [true, false] [.equality, .equalToZero] b :=
  .create _ _ (Option.some_get _).symm

end ArchEx

open ArchEx in
example : b.rhsFromConfig (fun i => 5 + i) = some [5, 0] ∧
    (ImplBuf.load b.save).rhsFromConfig (fun i => 5 + i) = none ∧
    (ImplBuf.load b.save).c.activeRows = [⟨0, 1⟩] ∧ fn.space.nq ≠ 0 := by decide +kernel

end Hpp
