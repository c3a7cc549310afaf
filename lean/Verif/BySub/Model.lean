import Verif.HI.Props
import Verif.HI.SatProps
import Verif.ECS.Deriv

/-!
# Model of `solver::BySubstitution`: constraints, right hand sides, satisfaction

Sources: `/repo/src/solver/by-substitution.cc` and
`/repo/include/hpp/constraints/solver/by-substitution.hh`.

The base class `HierarchicalIterative` is the field `hi`.  Its member `constraints_` also receives here the
constraints that became explicit (by-substitution.cc:101): this list is the field `all`, while `hi.constraints`
only keeps those inserted by `HierarchicalIterative::add`.  No function of the base class modelled in `HI` reads
`constraints_` but `contains` (overridden below as `BS.contains`), `rightHandSideAt`, `merge`,
`definesSubmanifoldOf` and `save`.

`update()` calls the virtual function `computeActiveRowsOfJ`: for this class the active rows of a level are
`BS.rows`, a function of the state; the fields `rows` of the levels and `reducedDim` of `hi`, which hold what the
base class computes, are not used here.
-/

namespace Hpp

/-- The part of an `Explicit` constraint (explicit.hh) that `Implicit` does not have.  `id` stands for the
pointer `inputToOutput_`, that `isEqual` compares. -/
structure EPart (α : Type) where
  id : Nat
  inQ : Segs
  outQ : Segs
  inV : Segs
  outV : Segs
  outVal : List α → List α → List α
  jac : List α → List α → List α → Nat → Nat → α

/-- A constraint: `expl` is its explicit part if `dynamic_cast<Explicit>` succeeds. -/
structure BCon (α κ : Type) where
  impl : Impl α κ
  expl : Option (EPart α)

variable {α κ : Type}

/-- The constraint as seen by `ExplicitConstraintSet`. -/
def EPart.econ (c : Impl α κ) (e : EPart α) : ECon α κ :=
  ⟨c.fn.key, e.inQ, e.outQ, e.inV, e.outV, c.comp, c.fn.space, c.fn.value, e.outVal, e.jac⟩

def BCon.econ (c : BCon α κ) : Option (ECon α κ) := c.expl.map (EPart.econ c.impl)

/-- `Explicit::isEqual` (explicit.cc:127-141) after the comparison of the implicit parts. -/
def EPart.same (a b : EPart α) : Bool :=
  decide (a.id = b.id) && decide (a.inQ = b.inQ) && decide (a.outQ = b.outQ) &&
    decide (a.inV = b.inV) && decide (a.outV = b.outV)

/-- `operator==` (implicit.cc:40-43) with `isEqual` of both classes (implicit.cc:181-188,
explicit.cc:127-141): an explicit constraint is never equal to an implicit one. -/
def BCon.isEqual [DecidableEq κ] (a b : BCon α κ) : Bool :=
  a.impl.isEqual b.impl &&
    match a.expl, b.expl with
    | none, none => true
    | some x, some y => x.same y
    | _, _ => false

/-- Members of `BySubstitution`. -/
structure BS (α κ : Type) where
  hi : HI α κ
  all : List (BCon α κ)
  ex : ECS α κ

/-- Constructor (by-substitution.cc:58-61). -/
def BS.init (α κ : Type) [Zero α] (nq nv : Nat) (eps : α) : BS α κ :=
  ⟨HI.init α κ nv, [], ECS.init nq nv eps⟩

/-- `contains` (hierarchical-iterative.cc:255-261) on the list of all the constraints. -/
def BS.contains [DecidableEq κ] (s : BS α κ) (c : BCon α κ) : Bool := s.all.any fun d => d.isEqual c

/-- `HierarchicalIterative::add(nm, priority)` from `add` (line 112). -/
def BS.addImplicit [DecidableEq κ] (s : BS α κ) (c : BCon α κ) (p : Nat) : BS α κ × Except Err Bool :=
  match s.hi.add c.impl p with
  | (_, some e) => (s, .error e)
  | (hi, none) => ({ s with hi := hi, all := s.all ++ [c] }, .ok true)

/-- `explicitConstraintSetHasChanged` (by-substitution.cc:142-146): `freeVariables(notOutDers)`, which
calls `update()`. -/
def BS.explicitChanged (s : BS α κ) : BS α κ := { s with hi := s.hi.setFreeIndices s.ex.notOutDers }

/-- `add` (by-substitution.cc:79-117): the state, and what is returned or thrown.  The explicit set throws before
being modified. -/
def BS.add [DecidableEq κ] (fuel : Nat) (s : BS α κ) (c : BCon α κ) (p : Nat) (junk : List α := []) :
    BS α κ × Except Err Bool :=
  if s.contains c then (s, .ok false)
  else
    match c.econ with
    | none => s.addImplicit c p
    | some e =>
      match s.ex.add fuel e junk with
      | .error er => (s, .error er)
      | .ok (none, ex) => { s with ex := ex }.addImplicit c p
      | .ok (some _, ex) => ({ s with ex := ex, all := s.all ++ [c] }.explicitChanged, .ok true)

/-! ## Right hand sides -/

/-- `rightHandSide(constraint, rhs)` (by-substitution.cc:331-339). -/
def BS.setRhs [Zero α] [DecidableEq κ] (s : BS α κ) (c : BCon α κ) (v : List α) : Option (BS α κ × Bool) :=
  match s.hi.setRhs c.impl v with
  | none => none
  | some (hi, true) => some ({ s with hi := hi }, true)
  | some (hi, false) =>
    match c.econ with
    | none => some ({ s with hi := hi }, false)
    | some e => some ({ s with hi := hi, ex := (s.ex.setRhsOf e v).1 }, (s.ex.setRhsOf e v).2)

/-- `rightHandSideFromConfig(constraint, config)` (by-substitution.cc:321-329). -/
def BS.rhsFromConfigOne [Zero α] [DecidableEq κ] (s : BS α κ) (c : BCon α κ) (q : Nat → α) :
    Option (BS α κ × Bool) :=
  match s.hi.rhsFromConfigOne c.impl q with
  | none => none
  | some (hi, true) => some ({ s with hi := hi }, true)
  | some (hi, false) =>
    match c.econ with
    | none => some ({ s with hi := hi }, false)
    | some e => some ({ s with hi := hi, ex := (s.ex.rhsFromInputOf e q).1 }, (s.ex.rhsFromInputOf e q).2)

/-- `getRightHandSide(constraint, rhs)` (by-substitution.cc:341-349). -/
def BS.getRhs [DecidableEq κ] (s : BS α κ) (c : BCon α κ) : Option (Option (List α)) :=
  match s.hi.getRhs c.impl with
  | none => none
  | some (some r) => some (some r)
  | some none => some (c.econ.bind fun e => s.ex.getRhsOf e)

/-- `rightHandSideFromConfig(config)` (by-substitution.cc:312-319), without the returned vector. -/
def BS.rhsFromConfig [Zero α] (s : BS α κ) (q : Nat → α) : BS α κ :=
  { s with hi := s.hi.rhsFromConfig q, ex := s.ex.rhsFromInput q }

/-- `v.head(n)`; `none`: out of range. -/
def headOf (v : List α) (n : Nat) : Option (List α) := if n ≤ v.length then some (v.take n) else none

/-- `rightHandSide(rhs)` (by-substitution.cc:351-356): both parts get the head of the vector. -/
def BS.setRhsVec [Zero α] (s : BS α κ) (v : List α) : Option (BS α κ) := do
  let top ← headOf v s.hi.rhsSize
  let hi ← s.hi.setRhsVec top
  let bot ← headOf v s.ex.rhsSize
  let ex ← s.ex.setRhs bot
  some { s with hi := hi, ex := ex }

/-- `rightHandSide()` (by-substitution.cc:358-365). -/
def BS.rhs (s : BS α κ) : List α := s.hi.rhs ++ s.ex.getRhs

/-- `rightHandSideSize()` (by-substitution.cc:367-371). -/
def BS.rhsSize (s : BS α κ) : Nat := s.hi.rhsSize + s.ex.rhsSize

/-! ## Satisfaction -/

/-- `errorThreshold(threshold)` (by-substitution.hh:265-268). -/
def BS.setThreshold [Mul α] (s : BS α κ) (t : α) : BS α κ :=
  { s with hi := { s.hi with sqThr := t * t }, ex := { s.ex with threshold := t } }

/-- `errorSize()` (by-substitution.hh:204-206). -/
def BS.errorSize (s : BS α κ) : Nat := s.hi.dimension + s.ex.outDers.nb

/-- `residualError` (hierarchical-iterative.cc:721-728): the errors of the levels, one after the other. -/
def HI.residual [Zero α] [Add α] [Sub α] [Neg α] [LT α] [DecidableLT α] (s : HI α κ) (q : Nat → α) :
    Option (List α) :=
  (s.levels.mapM fun l : Level α κ => l.error s.ineqThr q).map List.flatten

/-- `isSatisfied(arg)` and `isSatisfied(arg, error)` (by-substitution.hh:211-236): the error, and the answer. -/
def BS.isSatisfied [Zero α] [One α] [Add α] [Sub α] [Neg α] [Mul α] [Max α] [LT α] [DecidableEq α] [DecidableLT α]
    (s : BS α κ) (q : Nat → α) : Option (List α × Bool) := do
  let it ← s.hi.isSatisfied q
  let e ← s.hi.residual q
  let r := s.ex.isSatisfied q (-1)
  some (e ++ r.1, it && r.2)

/-- `isConstraintSatisfied` (by-substitution.cc:373-382).  The explicit set finds the constraint by its
function, also if it is not an instance of `Explicit`: the key is enough (explicit-constraint-set.cc:98-118). -/
def BS.isConstraintSatisfied [Zero α] [Add α] [Sub α] [Neg α] [Mul α] [LT α] [DecidableLT α] [DecidableEq κ]
    (s : BS α κ) (c : BCon α κ) (q : Nat → α) : Option (Option (List α × Bool)) :=
  match s.hi.isConstraintSatisfied c.impl q with
  | none => none
  | some (some r) => some (some r)
  | some none => some (((s.ex.data.find? fun d => d.c.key = c.impl.fn.key).map fun d =>
      (d.error q, decide (sqNorm (d.error q) < s.ex.threshold * s.ex.threshold))))

/-! ## Active rows -/

/-- `inOutDofDependencies` (explicit-constraint-set.cc:464-474), entry at row `i` of `outDers_` and column `k` of
`inDers_`.  Rows that are not output of a constraint are not initialised (there is none:
property C11). -/
def ECS.dofDep (s : ECS α κ) (v k : Nat) : Nat :=
  match (s.derFn[v]?).join with
  | some j => s.dep j k
  | none => 0

/-- Whether the rows of a constraint are kept (by-substitution.cc:223-245). -/
def BS.rowActive (s : BS α κ) (c : Impl α κ) : Bool :=
  (indices s.hi.free.segs).any (fun i => c.fn.active.getD i false) ||
  (decide (0 < s.ex.outDers.nb * s.ex.inDers.nb) &&
    (indices s.ex.inDers.segs).any fun k =>
      (((indices s.ex.outDers.segs).map fun v => s.ex.dofDep v k * if c.fn.active.getD v false then 1 else 0).sum != 0))

/-- Loop of `computeActiveRowsOfJ` (by-substitution.cc:220-252). -/
def BS.rowsLoop (s : BS α κ) : List (Impl α κ) → Nat → Segs
  | [], _ => []
  | c :: l, offset =>
    (if s.rowActive c then c.activeRows.map (fun g => ⟨g.first + offset, g.len⟩) else []) ++
    s.rowsLoop l (offset + c.fn.space.nv)

/-- `computeActiveRowsOfJ` (by-substitution.cc:206-256). -/
def BS.rows (s : BS α κ) (l : Level α κ) : Blocks :=
  (Blocks.ofSegs (s.rowsLoop l.stack.cs 0)).update true true true

/-- `reducedDimension()`, as computed by `update()` (hierarchical-iterative.cc:364-407). -/
def BS.reducedDim (s : BS α κ) : Nat := (s.hi.levels.map fun l => (s.rows l).nb).sum

end Hpp
