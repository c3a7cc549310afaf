import Verif.Implicit.Props

/-!
# Serialization of `Implicit`

Source: `/repo/src/implicit.cc`, lines 212-220 and 246-260, `/repo/include/hpp/constraints/implicit.hh`, lines 283-301.

`Implicit` evaluates its function in two buffers, `output_` and `logOutput_`, that are members.  Here a constraint is
taken together with the sizes of the two buffers; the content of an archive is the list of the members that are
written.
-/

namespace Hpp

variable {α κ : Type}

/-- A constraint with the sizes of `output_` and `logOutput_` (implicit.hh:293-294). -/
structure ImplBuf (α κ : Type) where
  c : Impl α κ
  outSize : Nat
  logSize : Nat

/-- `create`, which calls the constructor (implicit.cc:114-136, 190-200): the buffers are those of the output
space. -/
def ImplBuf.create (fn : Fn α κ) (comp : List Comp) (mask : List Bool) : Option (ImplBuf α κ) :=
  (Impl.create fn comp mask).map fun c => ⟨c, fn.space.nq, fn.space.nv⟩

/-- What `serialize` writes (implicit.cc:246-255).  `weak_` is left out.  The functions are written with their own
`serialize`: they are taken here to be restored as they were. -/
structure ImplSaved (α κ : Type) where
  comp : List Comp
  rhsSize : Nat
  fn : Fn α κ
  rhsFn : Option (Fn α κ)
  mask : List Bool

/-- `serialize` with an output archive (implicit.cc:246-260). -/
def ImplBuf.save (b : ImplBuf α κ) : ImplSaved α κ :=
  ⟨b.c.comp, b.c.rhsSize, b.c.fn, b.c.rhsFn, b.c.mask⟩

/-- `serialize` with an input archive (implicit.cc:246-260), into a default constructed constraint
(implicit.hh:298): the index sets are computed again, nothing is done with the buffers. -/
def ImplBuf.load (d : ImplSaved α κ) : ImplBuf α κ where
  c :=
    { comp := d.comp
      rhsSize := d.rhsSize
      paramSize := computeParameterSize d.comp
      fn := d.fn
      rhsFn := d.rhsFn
      mask := d.mask
      activeRows := (computeActiveRows d.mask []).1
      inactiveRows := (computeActiveRows d.mask []).2
      ineq := ineqFrom 0 d.comp
      eq := equalityIndices d.comp
      output := [] }
  outSize := 0
  logSize := 0

/-- `rightHandSideFromConfig` (implicit.cc:212-220) with its buffers.  `none`: the function writes `nq` values in a
buffer of another size, or the rows of `equalityIndices_` are out of `logOutput_`, or the exponential reads a vector
of another size. -/
def ImplBuf.rhsFromConfig [Zero α] (b : ImplBuf α κ) (q : Nat → α) : Option (List α) :=
  if b.outSize ≠ b.c.fn.space.nq then none
  else if (indices b.c.eq.segs).any (fun i => decide (b.logSize ≤ i)) then none
  else if b.logSize ≠ b.c.fn.space.nv then none
  else some (b.c.fn.space.exp
    (keepEquality b.logSize b.c.eq.segs (b.c.fn.space.log (b.c.fn.value q))))

/-- `rightHandSideAt` (implicit.cc:86-93) with its buffer. -/
def ImplBuf.rhsAt (b : ImplBuf α κ) (s : α) : Option (List α) :=
  match b.c.rhsFn with
  | none => some b.c.output
  | some g => if b.outSize ≠ g.space.nq then none else some (g.value fun _ => s)

/-- Constraints with buffers obtained by construction followed by any sequence of calls that do not load an
archive. -/
inductive ImplBuf.Built (fn : Fn α κ) (mask : List Bool) : List Comp → ImplBuf α κ → Prop
  | create (comp : List Comp) (b : ImplBuf α κ) : ImplBuf.create fn comp mask = some b → Built fn mask comp b
  | setComparison (comp comp' : List Comp) (b : ImplBuf α κ) : Built fn mask comp b →
      comp'.length = fn.space.nv → Built fn mask comp' { b with c := b.c.setComparison comp' }
  | setRhsFn (comp : List Comp) (b : ImplBuf α κ) (f : Option (Fn α κ)) (c' : Impl α κ) :
      Built fn mask comp b → b.c.setRhsFn f = .ok c' → Built fn mask comp { b with c := c' }
  | rhsAt (comp : List Comp) (b : ImplBuf α κ) (s : α) : Built fn mask comp b →
      Built fn mask comp { b with c := (b.c.rhsAt s).1 }

/-- What remains true: everything that the archive holds determines the other members. -/
theorem ImplBuf.Built.fields {fn : Fn α κ} {mask : List Bool} {comp : List Comp} {b : ImplBuf α κ}
    (hb : ImplBuf.Built fn mask comp b) :
    b.c = { (ImplBuf.load b.save).c with output := b.c.output } ∧ b.c.fn = fn ∧ b.outSize = fn.space.nq ∧
      b.logSize = fn.space.nv ∧ b.c.comp.length = fn.space.nv ∧ b.c.eq = equalityIndices b.c.comp := by
  induction hb with
  | create comp b h =>
    unfold ImplBuf.create at h
    rw [Option.map_eq_some_iff] at h
    obtain ⟨c, hc, rfl⟩ := h
    unfold Impl.create at hc
    generalize (if mask.isEmpty then List.replicate fn.space.nv true else mask) = m at hc
    unfold Impl.mk' at hc
    split at hc
    · rename_i hl
      simp only [Option.some.injEq] at hc
      subst hc
      exact ⟨rfl, rfl, rfl, rfl, hl.1, rfl⟩
    · simp at hc
  | setComparison comp comp' b _ hl ih =>
    obtain ⟨h1, h2, h3, h4, h5, h6⟩ := ih
    refine ⟨?_, h2, h3, h4, hl, rfl⟩
    obtain ⟨c, m, n⟩ := b
    simp only [Impl.setComparison, ImplBuf.load, ImplBuf.save] at h1 ⊢
    rw [h1]
  | setRhsFn comp b f c' _ hf ih =>
    obtain ⟨h1, h2, h3, h4, h5, h6⟩ := ih
    rw [Impl.setRhsFn_ok hf]
    refine ⟨?_, h2, h3, h4, h5, h6⟩
    obtain ⟨c, m, n⟩ := b
    simp only [ImplBuf.load, ImplBuf.save] at h1 ⊢
    rw [h1]
  | rhsAt comp b s _ ih =>
    obtain ⟨h1, h2, h3, h4, h5, h6⟩ := ih
    unfold Impl.rhsAt
    split
    · exact ⟨h1, h2, h3, h4, h5, h6⟩
    · refine ⟨?_, h2, h3, h4, h5, h6⟩
      obtain ⟨c, m, n⟩ := b
      simp only [ImplBuf.load, ImplBuf.save] at h1 ⊢
      rw [h1]

/-- The rows of the comparison types `Equality` are in the range of the comparison types. -/
theorem equalityIndices_lt (comp : List Comp) : ∀ i ∈ indices (equalityIndices comp).segs, i < comp.length := by
  intro i hi
  exact lt_of_getElem?_some ((equalityIndices_mem comp i).1 hi)

end Hpp
