import Verif.Common.Space

/-!
# Model of `ExplicitConstraintSet`

Source: `/repo/src/explicit-constraint-set.cc` and
`/repo/include/hpp/constraints/explicit-constraint-set.hh`.

Configurations are functions `Nat → α` (index ↦ coordinate), of which the code only uses the
indices smaller than `nq`.
-/

namespace Hpp

/-- Outcomes other than a normal return: a C++ exception, undefined behaviour or failed assertion,
or a loop / recursion that has not finished within the given number of steps. -/
inductive Err where
  | throws | ub | noFuel
deriving DecidableEq, Repr

/-- An `Explicit` constraint (explicit.hh, explicit.cc).
* `key` identifies the function up to `==` (the searches of `explicit-constraint-set.cc` compare shared pointers,
  constraints and functions; equal constraints have equal functions, so the last test decides);
* `h` is `function().value`, the implicit formulation; `outVal qin rhs` is `outputValue`
  (explicit.cc:106-111, explicit/relative-pose.cc:70-76); `jac qin fval rhs` is
  `jacobianOutputValue` (explicit.cc:113-125). -/
structure ECon (α κ : Type) where
  key : κ
  inQ : Segs
  outQ : Segs
  inV : Segs
  outV : Segs
  comp : List Comp
  space : Space α
  h : (Nat → α) → List α
  outVal : List α → List α → List α
  jac : List α → List α → List α → Nat → Nat → α

/-- `ExplicitConstraintSet::Data` (explicit-constraint-set.hh:473-485, explicit-constraint-set.cc:128-142).  `fval` is
`f_value`, which the code never assigns. -/
structure EData (α κ : Type) where
  c : ECon α κ
  rhs : List α
  fval : List α
  eq : Blocks

/-- Constructor of `Data` (explicit-constraint-set.cc:128-142). -/
def EData.new {α κ : Type} (c : ECon α κ) (junk : List α) : EData α κ :=
  ⟨c, c.space.neutral, junk, equalityIndices c.comp⟩

/-- The members of `ExplicitConstraintSet` (explicit-constraint-set.hh:471-505).
`argFn`/`derFn` are `argFunction_`/`derFunction_` with `none` for `-1`. -/
structure ECS (α κ : Type) where
  nq : Nat
  nv : Nat
  data : List (EData α κ)
  argFn : List (Option Nat)
  derFn : List (Option Nat)
  inArgs : Blocks
  notOutArgs : Blocks
  outArgs : Blocks
  inDers : Blocks
  notOutDers : Blocks
  outDers : Blocks
  order : List Nat
  dep : Nat → Nat → Nat
  errorSize : Nat
  threshold : α

/-- Constructor (explicit-constraint-set.hh:175-194). -/
def ECS.init {α κ : Type} (nq nv : Nat) (eps : α) : ECS α κ where
  nq := nq
  nv := nv
  data := []
  argFn := List.replicate nq none
  derFn := List.replicate nv none
  inArgs := Blocks.empty
  notOutArgs := Blocks.empty.add 0 nq
  outArgs := Blocks.empty
  inDers := Blocks.empty
  notOutDers := Blocks.empty.add 0 nv
  outDers := Blocks.empty
  order := []
  dep := fun _ _ => 0
  errorSize := 0
  threshold := eps

/-- The loop detection (explicit-constraint-set.cc:179-195): a queue of configuration indices that must be known before
the new constraint.  `true` means that an output of the new constraint was reached.  `ins` are the
`inputConf()` of the constraints of `data_`. -/
def bfs (ins : List Segs) (argFn : List (Option Nat)) (o : Seg) :
    Nat → List Nat → Except Err Bool
  | _, [] => .ok false
  | 0, _ :: _ => .error .noFuel
  | fuel + 1, i :: q =>
    if o.first ≤ i ∧ i < o.first + o.len then .ok true
    else match argFn[i]? with
      | none => .error .ub
      | some none => bfs ins argFn o fuel q
      | some (some j) => match ins[j]? with
        | none => .error .ub
        | some l => bfs ins argFn o fuel (q ++ indices l)

/-- State of the depth-first ordering: `computationOrder_[0..iOrder)`, `computed`,
`inOutDependencies_`. -/
structure OrdSt where
  order : List Nat
  computed : List Bool
  dep : Nat → Nat → Nat

/-- `computeOrder` (explicit-constraint-set.cc:293-314).  `fuel` bounds the depth of the recursion; `ins` are the
`inputVelocity()` of the constraints of `data_`. -/
def computeOrder (ins : List Segs) (derFn : List (Option Nat)) :
    Nat → Nat → OrdSt → Except Err OrdSt
  | 0, _, _ => .error .noFuel
  | fuel + 1, iE, st =>
    match st.computed[iE]?, ins[iE]? with
    | some true, _ => .ok st
    | some false, some l => do
      let st ← (indices l).foldlM (init := st) fun st v =>
        match derFn[v]? with
        | none => .error .ub
        | some none =>
          .ok { st with dep := fun r k => if r = iE ∧ k = v then st.dep r k + 1 else st.dep r k }
        | some (some j) => do
          let st ← computeOrder ins derFn fuel j st
          .ok { st with dep := fun r k => if r = iE then st.dep r k + st.dep j k else st.dep r k }
      if st.order.length < ins.length then
        .ok { st with order := st.order ++ [iE], computed := st.computed.set iE true }
      else .error .ub
    | _, _ => .error .ub

/-- The ordering loop at the end of `add` (explicit-constraint-set.cc:231-238). -/
def orderAll (ins : List Segs) (derFn : List (Option Nat)) (fuel : Nat) : Except Err OrdSt :=
  (List.range ins.length).foldlM (init := ⟨[], List.replicate ins.length false, fun _ _ => 0⟩)
    fun st i => computeOrder ins derFn fuel i st

/-- `lview(argFunction_).setConstant(idx)` (explicit-constraint-set.cc:200-203). -/
def setConst (v : List (Option Nat)) (l : List Nat) (idx : Nat) : List (Option Nat) :=
  l.foldl (fun v i => v.set i (some idx)) v

/-- The difference of two index sets never fails (property C03); `none` would be a failed
assertion. -/
def diffOrUb (r : Option Segs) : Except Err Segs :=
  match r with
  | some s => .ok s
  | none => .error .ub

/-- The bookkeeping once the constraint is accepted (explicit-constraint-set.cc:196-239). -/
def ECS.insert {α κ : Type} (fuel : Nat) (s : ECS α κ) (c : ECon α κ) (o od : Seg) (junk : List α) :
    Except Err (Option Nat × ECS α κ) := do
  let idx := s.data.length
  let argFn := setConst s.argFn (indices c.outQ) idx
  let derFn := setConst s.derFn (indices c.outV) idx
  let data := s.data ++ [EData.new c junk]
  let outArgs := (s.outArgs.add o.first o.len).update true true true
  let notOutArgs ← diffOrUb (diffSegSegs ⟨0, s.nq⟩ outArgs.segs)
  let inArgs ← diffOrUb (diffSegsSegs (addSegs s.inArgs.segs c.inQ) outArgs.segs)
  let outDers := (s.outDers.add od.first od.len).update true true true
  let notOutDers ← diffOrUb (diffSegSegs ⟨0, s.nv⟩ outDers.segs)
  let inDers ← diffOrUb (diffSegsSegs (addSegs s.inDers.segs c.inV) outDers.segs)
  let st ← orderAll (data.map fun d => d.c.inV) derFn fuel
  .ok (some idx, { s with
    data := data
    argFn := argFn
    derFn := derFn
    outArgs := outArgs
    notOutArgs := Blocks.ofSegs notOutArgs
    inArgs := (Blocks.ofSegs inArgs).update false true true
    outDers := outDers
    notOutDers := Blocks.ofSegs notOutDers
    inDers := (Blocks.ofSegs inDers).update false true true
    order := st.order
    dep := st.dep
    errorSize := s.errorSize + c.space.nv })

/-- `add` (explicit-constraint-set.cc:144-240).  Returns (`none` for `-1` / the index of the constraint, resulting set).
Accesses to `argFunction_`/`derFunction_` out of range are undefined behaviour. -/
def ECS.add {α κ : Type} (fuel : Nat) (s : ECS α κ) (c : ECon α κ) (junk : List α := []) :
    Except Err (Option Nat × ECS α κ) :=
  match c.outQ, c.outV with
  | [o], [od] =>
    if c.inQ.any (fun i => overlap i o) then .error .throws
    else if c.comp.any (fun t => t ≠ .equalToZero ∧ t ≠ .equality) then .ok (none, s)
    else if ¬ (o.first + o.len ≤ s.nq) then .error .ub
    else if (indices c.outQ).any (fun i => (s.argFn[i]?.join).isSome) then .ok (none, s)
    else match bfs (s.data.map fun d => d.c.inQ) s.argFn o fuel (indices c.inQ) with
      | .error e => .error e
      | .ok true => .ok (none, s)
      | .ok false =>
        if ¬ (od.first + od.len ≤ s.nv) then .error .ub
        else s.insert fuel c o od junk
  | _, _ => .error .ub

/-! ## Evaluation -/

/-- `solveExplicitConstraint` (explicit-constraint-set.cc:255-262). -/
def solveOne {α κ : Type} (d : EData α κ) (q : Nat → α) : Nat → α :=
  lview q d.c.outQ (d.c.outVal (rview q d.c.inQ) d.rhs)

/-- `solve` (explicit-constraint-set.cc:60-65): the constraints in the order of `computationOrder_`. -/
def ECS.solve {α κ : Type} (s : ECS α κ) (q : Nat → α) : Nat → α :=
  s.order.foldl (fun q i => match s.data[i]? with
    | some d => solveOne d q
    | none => q) q

/-- Squared norm of a vector. -/
def sqNorm {α : Type} [Zero α] [Add α] [Mul α] (v : List α) : α :=
  v.foldl (fun a x => a + x * x) 0

/-- Error of one constraint, `h_value - rhs_implicit` (explicit-constraint-set.cc:77-80). -/
def EData.error {α κ : Type} (d : EData α κ) (q : Nat → α) : List α :=
  d.c.space.sub (d.c.h q) d.rhs

/-- Loop of `isSatisfied` (explicit-constraint-set.cc:73-84): stacked error, largest squared norm. -/
def satLoop {α κ : Type} [Zero α] [Add α] [Mul α] [Max α] (q : Nat → α) :
    List (EData α κ) → List α × α → List α × α
  | [], r => r
  | d :: l, (e, m) => satLoop q l (e ++ d.error q, max m (sqNorm (d.error q)))

/-- `isSatisfied(arg, error, errorThreshold)` (explicit-constraint-set.cc:67-88): stacked error and answer. -/
def ECS.isSatisfied {α κ : Type} [Zero α] [One α] [Neg α] [Add α] [Mul α] [Max α] [LT α]
    [DecidableEq α] [DecidableLT α] (s : ECS α κ) (q : Nat → α) (thr : α) : List α × Bool :=
  let thr := if thr = -1 then s.threshold else thr
  let r := satLoop q s.data ([], 0)
  (r.1, decide (r.2 < thr * thr))

/-- `isConstraintSatisfied` (explicit-constraint-set.cc:98-118): (found, satisfied, error). -/
def ECS.isConstraintSatisfied {α κ : Type} [Zero α] [Add α] [Mul α] [LT α] [DecidableLT α]
    [DecidableEq κ] (s : ECS α κ) (c : ECon α κ) (q : Nat → α) : Option (Bool × List α) :=
  (s.data.find? fun d => d.c.key = c.key).map fun d =>
    (decide (sqNorm (d.error q) < s.threshold * s.threshold), d.error q)

/-- `contains` (explicit-constraint-set.cc:242-253). -/
def ECS.contains {α κ : Type} [DecidableEq κ] (s : ECS α κ) (c : ECon α κ) : Bool :=
  s.data.any fun d => d.c.key = c.key

/-! ## Right hand sides -/

/-- `rightHandSideFromInput(i, arg)` (explicit-constraint-set.cc:337-350). -/
def EData.rhsFromInput {α κ : Type} [Zero α] (d : EData α κ) (q : Nat → α) : EData α κ :=
  { d with rhs := d.c.space.exp (keepEquality d.c.space.nv d.eq.segs (d.c.space.log (d.c.h q))) }

/-- `rightHandSideFromInput(arg)` (explicit-constraint-set.cc:316-322). -/
def ECS.rhsFromInput {α κ : Type} [Zero α] (s : ECS α κ) (q : Nat → α) : ECS α κ :=
  { s with data := s.data.map fun d => d.rhsFromInput q }

/-- Apply a function to the first element satisfying a test; tells whether one was found. -/
def updateFirst {β : Type} (p : β → Bool) (f : β → β) : List β → List β × Bool
  | [] => ([], false)
  | x :: l => if p x then (f x :: l, true) else
    let r := updateFirst p f l
    (x :: r.1, r.2)

/-- `rightHandSideFromInput(constraint, arg)` (explicit-constraint-set.cc:324-335). -/
def ECS.rhsFromInputOf {α κ : Type} [Zero α] [DecidableEq κ] (s : ECS α κ) (c : ECon α κ)
    (q : Nat → α) : ECS α κ × Bool :=
  let r := updateFirst (fun d => d.c.key = c.key) (fun d => d.rhsFromInput q) s.data
  ({ s with data := r.1 }, r.2)

/-- `rightHandSide(i, rhs)` (explicit-constraint-set.cc:400-414), assertions on the input not modelled. -/
def EData.setRhs {α κ : Type} [Zero α] (d : EData α κ) (v : List α) : EData α κ :=
  { d with rhs := d.c.space.exp (keepEquality d.c.space.nv d.eq.segs (d.c.space.log v)) }

/-- `rightHandSide(constraint, rhs)` (explicit-constraint-set.cc:374-385). -/
def ECS.setRhsOf {α κ : Type} [Zero α] [DecidableEq κ] (s : ECS α κ) (c : ECon α κ)
    (v : List α) : ECS α κ × Bool :=
  let r := updateFirst (fun d => d.c.key = c.key) (fun d => d.setRhs v) s.data
  ({ s with data := r.1 }, r.2)

/-- `getRightHandSide(constraint, rhs)` (explicit-constraint-set.cc:387-398). -/
def ECS.getRhsOf {α κ : Type} [DecidableEq κ] (s : ECS α κ) (c : ECon α κ) : Option (List α) :=
  (s.data.find? fun d => d.c.key = c.key).map fun d => d.rhs

/-- `rightHandSideSize` (explicit-constraint-set.cc:430-435). -/
def ECS.rhsSize {α κ : Type} (s : ECS α κ) : Nat :=
  s.data.foldl (fun n d => n + d.c.space.nq) 0

/-- Loop of `rightHandSide(rhs)` (explicit-constraint-set.cc:352-372): each constraint takes the next `nq` components. -/
def setRhsLoop {α κ : Type} [Zero α] : List (EData α κ) → List α → List (EData α κ)
  | [], _ => []
  | d :: l, v => d.setRhs (v.take d.c.space.nq) :: setRhsLoop l (v.drop d.c.space.nq)

/-- `rightHandSide(rhs)` (explicit-constraint-set.cc:352-372).  A vector of the wrong size is out of bounds or fails the
final assertion. -/
def ECS.setRhs {α κ : Type} [Zero α] (s : ECS α κ) (v : List α) : Option (ECS α κ) :=
  if v.length = s.rhsSize then some { s with data := setRhsLoop s.data v } else none

/-- `rightHandSide()` (explicit-constraint-set.cc:416-428). -/
def ECS.getRhs {α κ : Type} (s : ECS α κ) : List α := s.data.flatMap fun d => d.rhs

/-! ## Jacobian -/

/-- A matrix as a function of its row and column. -/
abbrev Jac (α : Type) := Nat → Nat → α

/-- Product of the Jacobian `D` of a constraint with the rows `rows` of `J`, column `k`. -/
def dotRow {α : Type} [Zero α] [Add α] [Mul α] (D : Nat → α) (rows : List Nat) (J : Jac α)
    (k : Nat) : α :=
  (rows.zipIdx.map fun p => D p.2 * J p.1 k).foldl (· + ·) 0

/-- `computeJacobian` (explicit-constraint-set.cc:283-291): rows `outputVelocity` and columns `inDers_` of `J` are set to
`d.jacobian * Jin`, where `Jin` is a copy of rows `inputVelocity` and columns `inDers_`. -/
def jacOne {α κ : Type} [Zero α] [Add α] [Mul α] (inDers : Segs) (d : EData α κ)
    (D : Nat → Nat → α) (J : Jac α) : Jac α := fun r k =>
  if k ∈ indices inDers then
    match (indices d.c.outV).idxOf? r with
    | some m => dotRow (D m) (indices d.c.inV) J k
    | none => J r k
  else J r k

/-- Matrix computed for constraint `d` by the first loop (explicit-constraint-set.cc:270-277). -/
def EData.jacAt {α κ : Type} (d : EData α κ) (q : Nat → α) : Nat → Nat → α :=
  d.c.jac (rview q d.c.inQ) d.fval d.rhs

/-- `jacobian` (explicit-constraint-set.cc:264-281). -/
def ECS.jacobian {α κ : Type} [Zero α] [One α] [Add α] [Mul α] (s : ECS α κ) (q : Nat → α) : Jac α :=
  let J0 : Jac α := fun r k =>
    match (indices s.notOutDers.segs).idxOf? r, (indices s.notOutDers.segs).idxOf? k with
    | some i, some j => if i = j then 1 else 0
    | _, _ => 0
  s.order.foldl (fun J i => match s.data[i]? with
    | some d => jacOne s.inDers.segs d (d.jacAt q) J
    | none => J) J0

/-! ## Other accessors -/

/-- `replace` (explicit-constraint-set.cc:453-462): the constraints are swapped for their replacement, the right hand
sides are kept. -/
def ECS.replace {α κ : Type} (s : ECS α κ) (m : ECon α κ → Option (ECon α κ)) : ECS α κ :=
  { s with data := s.data.map fun d => match m d.c with
    | some c => { d with c := c }
    | none => d }

end Hpp
