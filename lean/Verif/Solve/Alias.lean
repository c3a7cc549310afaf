import Mathlib.Logic.Function.Basic
import Mathlib.Data.List.Basic

/-!
# Model of the sharing of output spaces between a solver and its copies

Sources: `/repo/src/solver/hierarchical-iterative.cc`, lines 213-253 (copy constructor), 263-303 (`add`),
364-407 (`update`), 623-646 (`computeValue`), `/repo/include/hpp/constraints/implicit-constraint-set.hh`, lines
59-80 and 118-127, `/repo/include/hpp/constraints/differentiable-function-set.hh`, lines 62-81.

Vector spaces are objects of a heap, known by a reference: `*outputSpace_ *= space` modifies the object.
Only what concerns the sizes is represented: the coefficients and the values of the functions are not
(they are in `Verif.HI`).
-/

namespace Hpp.Alias

/-- Sizes `nq`, `nv` of a space. -/
abbrev Dim := Nat × Nat

/-- A level.  `fnRef`: `outputSpace_` of the function of the stack; `dataRef`: space of
`datas_[i].output` and `datas_[i].rightHandSide`; `vec`: sizes of the vectors of `datas_[i]`; `cons`: functions
of the level and their sizes. -/
structure Lvl where
  fnRef : Nat
  dataRef : Nat
  vec : Dim
  cons : List (Nat × Dim)

/-- A solver: levels, and for each function its ranks (`iq_`, `iv_`) and its priority. -/
structure Slv where
  levels : List Lvl
  ranks : List (Nat × Nat × Dim)

/-- The heap and the solvers of a program. -/
structure World where
  heap : Nat → Dim
  next : Nat
  slv : Nat → Slv

def World.init : World := ⟨fun _ => (0, 0), 0, fun _ => ⟨[], []⟩⟩

/-- `update` (lines 364-407): output and right hand side get the space of the function of the stack. -/
def updateLvl (heap : Nat → Dim) (l : Lvl) : Lvl := { l with dataRef := l.fnRef, vec := heap l.fnRef }

/-- `stacks_.resize(minSize); datas_.resize(minSize)` (lines 277-281): new levels with their own empty spaces. -/
def grow (n : Nat) (next : Nat) (ls : List Lvl) : List Lvl :=
  ls ++ (List.range (n - ls.length)).map fun k => ⟨next + k, next + k, (0, 0), []⟩

/-- Operations of a program. -/
inductive Op where
  /-- `solver[i].add(c, p)`, with `c` of sizes `d` -/
  | add (i : Nat) (c : Nat) (d : Dim) (p : Nat)
  /-- `solver[j] = copy of solver[i]` -/
  | copy (i j : Nat)
  /-- `solver[i].update()`, through `freeVariables` -/
  | update (i : Nat)

/-- Spaces of the function sets of the copied stacks (implicit-constraint-set.hh:118-127): the sizes are added again
to a new space, starting from reference `next`. -/
def copyLevels (next : Nat) (ls : List Lvl) : List Lvl :=
  ls.mapIdx fun k l => { l with fnRef := next + k }

def sumDim (cs : List (Nat × Dim)) : Dim := cs.foldl (fun s c => (s.1 + c.2.1, s.2 + c.2.2)) (0, 0)

def World.step (w : World) : Op → World
  | .add i c d p =>
    let s := w.slv i
    let ls := grow (p + 1) w.next s.levels
    match ls[p]? with
    | none => w
    | some l =>
      let rank := w.heap l.dataRef
      let heap := Function.update w.heap l.fnRef ((w.heap l.fnRef).1 + d.1, (w.heap l.fnRef).2 + d.2)
      let ls' := ls.set p { l with cons := l.cons ++ [(c, d)] }
      ⟨heap, w.next + (p + 1 - s.levels.length),
        Function.update w.slv i ⟨ls'.map (updateLvl heap), s.ranks ++ [(c, p, rank)]⟩⟩
  | .copy i j =>
    let s := w.slv i
    ⟨fun r => match s.levels[r - w.next]? with
        | some l => if w.next ≤ r then sumDim l.cons else w.heap r
        | none => w.heap r,
      w.next + s.levels.length,
      Function.update w.slv j ⟨copyLevels w.next s.levels, s.ranks⟩⟩
  | .update i =>
    { w with slv := Function.update w.slv i ⟨(w.slv i).levels.map (updateLvl w.heap), (w.slv i).ranks⟩ }

def World.run (w : World) (ops : List Op) : World := ops.foldl World.step w

/-- Observation: sizes of the spaces by which `computeValue` (line 636: `d.output - d.rightHandSide`) reads the
vectors, and sizes of these vectors. -/
def World.reads (w : World) (i : Nat) : List (Dim × Dim) :=
  (w.slv i).levels.map fun l => (w.heap l.dataRef, l.vec)

/-- Observation: `computeValue` reads inside of the vectors. -/
def World.computeOk (w : World) (i : Nat) : Bool := (w.reads i).all fun p => decide (p.1 = p.2)

/-- Observation: ranks of the functions. -/
def World.ranks (w : World) (i : Nat) : List (Nat × Nat × Dim) := (w.slv i).ranks

end Hpp.Alias
