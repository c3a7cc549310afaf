import Mathlib.Data.List.Basic

/-!
# Model of `extract` and of the copy of solvers: sharing of the constraints

Sources: `/repo/src/solver/hierarchical-iterative.cc`, lines 213-253 (copy constructor) and 326-336 (`extract`);
`/repo/src/solver/by-substitution.cc`, lines 63-77 (copy constructor) and 119-140 (`extract`);
`/repo/src/explicit-constraint-set.cc`, lines 453-462 (`replace`);
`/repo/include/hpp/constraints/implicit-constraint-set.hh`, lines 122-131 (`replace`);
`/repo/src/implicit.cc`, lines 168-183 and 212 (copy of a constraint).

Constraints are objects of a heap, held by shared pointers: the addresses are the ranks in the heap, which
only grows.  The functions are immutable here and shared.  Everything that a solver holds by value is left out.
-/

namespace Hpp.Extract

/-- What a constraint holds by value or by pointer: `fn`: the function (and, for explicit constraints, the rest of
what never changes), `comp`: the comparison types, `rhs`: the right hand side function, of type `F`. -/
structure Obj (F : Type) where
  fn : Nat
  comp : List Nat
  rhs : Option F

/-- The pointers held by a solver: `constraints_`, the constraints of all the levels of `stacks_`, those of the data of
`explicit_`. -/
structure Slv where
  cons : List Nat
  stk : List Nat
  expl : List Nat

variable {F : Type}

/-- `oldToNew`: the `k`-th constraint is replaced by the object at address `n + k`. -/
def replaced (cons : List Nat) (n : Nat) (r : Nat) : Nat :=
  match cons.idxOf? r with
  | some k => n + k
  | none => r

/-- Copies of the constraints (`c->copy()`), placed at the end of the heap.  A pointer out of the heap is ignored. -/
def copies (heap : List (Obj F)) (cons : List Nat) : List (Obj F) := cons.filterMap fun r => heap[r]?

/-- Copy constructors of `HierarchicalIterative` and of `BySubstitution`. -/
def copySlv (heap : List (Obj F)) (s : Slv) : List (Obj F) × Slv :=
  (heap ++ copies heap s.cons,
    ⟨(List.range s.cons.length).map fun k => heap.length + k,
      s.stk.map (replaced s.cons heap.length), s.expl.map (replaced s.cons heap.length)⟩)

/-- `c->rightHandSideFunction(DifferentiableFunction::extract(c->rightHandSideFunction(), interval))` if there is a
function; `f` is the restriction to the interval. -/
def Obj.restrict (f : F → F) (o : Obj F) : Obj F := { o with rhs := o.rhs.map f }

/-- The constraints at the given addresses are restricted. -/
def restrictAt (f : F → F) (refs : List Nat) (heap : List (Obj F)) : List (Obj F) :=
  heap.mapIdx fun k o => if k ∈ refs then o.restrict f else o

/-- `HierarchicalIterative::extract`: heap, this, result. -/
def hiExtract (f : F → F) (heap : List (Obj F)) (s : Slv) : List (Obj F) × Slv × Slv :=
  let (heap, res) := copySlv heap s
  (restrictAt f res.cons heap, s, res)

/-- `BySubstitution::extract`: heap, this, result.  The last instruction, `explicit_.replace(oldToNew)`,
modifies `this`. -/
def bsExtract (f : F → F) (heap : List (Obj F)) (s : Slv) : List (Obj F) × Slv × Slv :=
  let n := heap.length
  let (heap, res) := copySlv heap s
  (restrictAt f res.cons heap, { s with expl := s.expl.map (replaced s.cons n) }, res)

/-- Assignment of the comparison types of a constraint (implicit.cc:104-108), or of its right hand side function
(implicit.cc:53-83). -/
def write (r : Nat) (o : Obj F) (heap : List (Obj F)) : List (Obj F) := heap.set r o

/-- What a solver reads through its pointers. -/
def view (heap : List (Obj F)) (s : Slv) : List (Option (Obj F)) × List (Option (Obj F)) × List (Option (Obj F)) :=
  (s.cons.map (heap[·]?), s.stk.map (heap[·]?), s.expl.map (heap[·]?))

/-- The pointers of a solver are in the heap, those of the parts are among the constraints, each of which occurs
once. -/
structure Slv.Ok (heap : List (Obj F)) (s : Slv) : Prop where
  valid : ∀ r ∈ s.cons, r < heap.length
  stk : ∀ r ∈ s.stk, r ∈ s.cons
  expl : ∀ r ∈ s.expl, r ∈ s.cons
  nodup : s.cons.Nodup

end Hpp.Extract
