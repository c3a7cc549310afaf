import Verif.ECS.Model

/-!
# Model of `Implicit`, `ImplicitConstraintSet`, `DifferentiableFunctionSet` and of the comparison
type expressions

Source: `/repo/src/implicit.cc`, `/repo/include/hpp/constraints/implicit.hh`,
`/repo/include/hpp/constraints/implicit-constraint-set.hh`,
`/repo/include/hpp/constraints/differentiable-function-set.hh`,
`/repo/include/hpp/constraints/comparison-types.hh`.
-/

namespace Hpp

/-! ## Comparison type expressions (comparison-types.hh) -/

/-- `internal::ReplicateCompType` (comparison-types.hh:41-50). -/
structure RepComp where
  type : Comp
  n : Nat
deriving DecidableEq, Repr

/-- `push_to` (comparison-types.hh:45-47), also the loops of lines 99, 118, 125 and 156. -/
def RepComp.pushTo (r : RepComp) (v : List Comp) : List Comp := go r.n v
where
  /-- The loop `for (i = 0; i < n; ++i) v.push_back(type)`. -/
  go : Nat → List Comp → List Comp
    | 0, v => v
    | k + 1, v => go k (v ++ [r.type])

/-- Conversion to `ComparisonTypes_t` (comparison-types.hh:49). -/
def RepComp.toVec (r : RepComp) : List Comp := List.replicate r.n r.type

/-- `operator*(int, ComparisonType)` (comparison-types.hh:54-60).  The argument is an `int` cast to
`size_t`; only non negative values are considered. -/
def compMul (n : Nat) (c : Comp) : RepComp := ⟨c, n⟩

/-- What an expression evaluates to. -/
inductive CVal where
  | one (c : Comp)
  | rep (r : RepComp)
  | vec (v : List Comp)
deriving DecidableEq, Repr

/-- The overloads of `operator<<` (comparison-types.hh:62-119, 150-157).  There is none with a vector
as right operand (`none`: does not compile). -/
def compShift : CVal → CVal → Option CVal
  | .one a, .one b => some (.vec [a, b])
  | .rep a, .one b => some (.vec (a.pushTo [] ++ [b]))
  | .one a, .rep b => some (.vec (b.pushTo [a]))
  | .vec v, .one c => some (.vec (v ++ [c]))
  | .vec v, .rep c => some (.vec (c.pushTo v))
  | .rep a, .rep b => some (.vec (b.pushTo a.toVec))
  | _, .vec _ => none

/-- `operator==(ComparisonTypes_t, ReplicateCompType)` (comparison-types.hh:121-128). -/
def compEqRep (v : List Comp) (r : RepComp) : Bool :=
  if v.length ≠ r.n then false else v.all (fun c => c = r.type)

/-- Expressions. -/
inductive CExpr where
  | type (c : Comp)
  | mul (n : Nat) (c : Comp)
  | shift (a b : CExpr)
deriving DecidableEq, Repr

/-- Evaluation of an expression. -/
def CExpr.eval : CExpr → Option CVal
  | .type c => some (.one c)
  | .mul n c => some (.rep (compMul n c))
  | .shift a b => do compShift (← a.eval) (← b.eval)

/-- Conversion of the result to a vector, as when it is passed to a constraint. -/
def CVal.toVec : CVal → Option (List Comp)
  | .one _ => none
  | .rep r => some r.toVec
  | .vec v => some v

/-! ## Functions -/

/-- A `DifferentiableFunction` as seen by constraints.
* `key` identifies the function up to `==`;
* `spaceId` identifies the output space up to `==` of Lie group spaces;
* `active` is `activeDerivativeParameters()`. -/
structure Fn (α κ : Type) where
  key : κ
  inputSize : Nat
  inputDer : Nat
  spaceId : Nat
  space : Space α
  value : (Nat → α) → List α
  jac : (Nat → α) → Jac α
  activeQ : List Bool
  active : List Bool

/-! ## `Implicit` -/

/-- Members of `Implicit` (implicit.hh:281-294) that matter: `rhs_` is never read but for its size
(see `Impl.isEqual`). -/
structure Impl (α κ : Type) where
  comp : List Comp
  rhsSize : Nat
  paramSize : Nat
  fn : Fn α κ
  rhsFn : Option (Fn α κ)
  mask : List Bool
  activeRows : Segs
  inactiveRows : Blocks
  ineq : List Nat
  eq : Blocks
  output : List α

/-- `computeParameterSize` (implicit.cc:44-52). -/
def computeParameterSize (c : List Comp) : Nat :=
  c.foldl (fun n t => if t = .equality then n + 1 else n) 0

/-- Loop of `computeActiveRows` (implicit.cc:141-146): unit intervals appended to `activeRows_` (not
cleared) and to the local `inactiveRows`. -/
def activeLoop (i : Nat) : List Bool → Segs × Segs → Segs × Segs
  | [], r => r
  | b :: m, (a, ia) => activeLoop (i + 1) m (if b then (a ++ [⟨i, 1⟩], ia) else (a, ia ++ [⟨i, 1⟩]))

/-- `computeActiveRows` (implicit.cc:139-150). -/
def computeActiveRows (mask : List Bool) (old : Segs) : Segs × Blocks :=
  let r := activeLoop 0 mask (old, [])
  (shrink r.1, Blocks.ofSegs (shrink r.2))

/-- Inequality part of `computeIndices` (implicit.cc:155-158). -/
def ineqFrom (i : Nat) : List Comp → List Nat
  | [] => []
  | t :: r => (if t = .superior ∨ t = .inferior then [i] else []) ++ ineqFrom (i + 1) r

/-- Constructor (implicit.cc:114-136); `none`: a failed assertion. -/
def Impl.mk' {α κ : Type} (fn : Fn α κ) (comp : List Comp) (mask : List Bool) (junk : List α := []) :
    Option (Impl α κ) :=
  if comp.length = fn.space.nv ∧ mask.length = fn.space.nv then
    some
      { comp := comp
        rhsSize := fn.space.nq
        paramSize := computeParameterSize comp
        fn := fn
        rhsFn := none
        mask := mask
        activeRows := (computeActiveRows mask []).1
        inactiveRows := (computeActiveRows mask []).2
        ineq := ineqFrom 0 comp
        eq := equalityIndices comp
        output := junk }
  else none

/-- `Implicit::create` (implicit.cc:190-200): an empty mask means all rows. -/
def Impl.create {α κ : Type} (fn : Fn α κ) (comp : List Comp) (mask : List Bool) :
    Option (Impl α κ) :=
  Impl.mk' fn comp (if mask.isEmpty then List.replicate fn.space.nv true else mask)

/-- `comparisonType(comp)` (implicit.cc:104-108). -/
def Impl.setComparison {α κ : Type} (c : Impl α κ) (comp : List Comp) : Impl α κ :=
  { c with comp := comp, paramSize := computeParameterSize comp, ineq := ineqFrom 0 comp,
           eq := equalityIndices comp }

/-- `rightHandSideFunction(rhsF)` (implicit.cc:54-84). -/
def Impl.setRhsFn {α κ : Type} (c : Impl α κ) (f : Option (Fn α κ)) : Except Err (Impl α κ) :=
  match f with
  | none => .ok { c with rhsFn := none }
  | some g =>
    if g.inputSize ≠ 1 ∨ g.inputDer ≠ 1 then .error .throws
    else if g.spaceId ≠ c.fn.spaceId then .error .throws
    else if c.comp.any (fun t => t ≠ .equality) then .error .throws
    else .ok { c with rhsFn := some g }

/-- `rightHandSideAt(s)` (implicit.cc:86-93): returns the internal buffer, evaluated only if there is
a right hand side function. -/
def Impl.rhsAt {α κ : Type} (c : Impl α κ) (s : α) : Impl α κ × List α :=
  match c.rhsFn with
  | none => (c, c.output)
  | some g =>
    let v := g.value (fun _ => s)
    ({ c with output := v }, v)

/-- `rightHandSideFromConfig` (implicit.cc:212-220): the new right hand side. -/
def Impl.rhsFromConfig {α κ : Type} [Zero α] (c : Impl α κ) (q : Nat → α) : List α :=
  c.fn.space.exp (keepEquality c.fn.space.nv c.eq.segs (c.fn.space.log (c.fn.value q)))

/-- `checkRightHandSide` (implicit.cc:222-229); the comparison of space pointers is not modelled (the
argument is taken in the output space of the function). -/
def Impl.checkRhs {α κ : Type} [Zero α] [DecidableEq α] (c : Impl α κ) (r : List α) : Bool :=
  (c.comp.zip (c.fn.space.log r)).all fun p => p.1 = .equality || p.2 = 0

/-- `setInactiveRowsToZero` (implicit.cc:110-112). -/
def Impl.zeroInactive {α κ : Type} [Zero α] (c : Impl α κ) (e : List α) : List α :=
  lwrite e c.inactiveRows.segs (List.replicate (indices c.inactiveRows.segs).length 0)

/-- `isEqual` (implicit.cc:181-188); `==` on functions is symmetric here (see C46), so that the test
with swapped arguments gives the same answer. -/
def Impl.isEqual {α κ : Type} [DecidableEq κ] (c c' : Impl α κ) : Bool :=
  decide (c.comp = c'.comp) && decide (c.rhsSize = c'.rhsSize) && decide (c.fn.key = c'.fn.key)

/-! ## Product of Lie group spaces (external, hpp-pinocchio) -/

/-- Product of two spaces: `LiegroupSpace::operator*=`. -/
def Space.prod {α : Type} (a b : Space α) : Space α where
  nq := a.nq + b.nq
  nv := a.nv + b.nv
  neutral := a.neutral ++ b.neutral
  exp v := a.exp (v.take a.nv) ++ b.exp (v.drop a.nv)
  log g := a.log (g.take a.nq) ++ b.log (g.drop a.nq)
  sub g h := a.sub (g.take a.nq) (h.take a.nq) ++ b.sub (g.drop a.nq) (h.drop a.nq)

/-- The empty product. -/
def Space.empty (α : Type) : Space α where
  nq := 0
  nv := 0
  neutral := []
  exp _ := []
  log _ := []
  sub _ _ := []

/-! ## `DifferentiableFunctionSet` -/

/-- Members of `DifferentiableFunctionSet` (differentiable-function-set.hh; sizes and active parameters
are those of the base class). -/
structure FnSet (α κ : Type) where
  fns : List (Fn α κ)
  inputSize : Nat
  inputDer : Nat
  activeQ : List Bool
  active : List Bool
  space : Space α

/-- Constructor (differentiable-function-set.hh:96-99). -/
def FnSet.init (α κ : Type) : FnSet α κ := ⟨[], 0, 0, [], [], Space.empty α⟩

/-- `add` (differentiable-function-set.hh:64-81); `none`: a failed assertion (or an Eigen assertion when
the sizes of the arrays differ). -/
def FnSet.add {α κ : Type} (s : FnSet α κ) (f : Fn α κ) : Option (FnSet α κ) :=
  if s.fns.isEmpty then
    some { s with fns := [f], inputSize := f.inputSize, inputDer := f.inputDer, activeQ := f.activeQ,
                  active := f.active, space := s.space.prod f.space }
  else if s.inputSize = f.inputSize ∧ s.inputDer = f.inputDer ∧ s.activeQ.length = f.activeQ.length ∧
      s.active.length = f.active.length then
    some { s with fns := s.fns ++ [f], activeQ := List.zipWith (· || ·) s.activeQ f.activeQ,
                  active := List.zipWith (· || ·) s.active f.active, space := s.space.prod f.space }
  else none

/-- Loop of `impl_compute` (differentiable-function-set.hh:104-117): the results are written one after
the other. -/
def fnSetValue {α κ : Type} (q : Nat → α) : List (Fn α κ) → Nat → List α → List α
  | [], _, r => r
  | f :: l, row, r =>
    fnSetValue q l (row + f.space.nq) (setAll r ((List.range' row f.space.nq).zip (f.value q)))

/-- `impl_compute` into a vector `out`. -/
def FnSet.value {α κ : Type} (s : FnSet α κ) (q : Nat → α) (out : List α) : List α :=
  fnSetValue q s.fns 0 out

/-- Loop of `impl_jacobian` (differentiable-function-set.hh:118-126). -/
def fnSetJac {α κ : Type} (q : Nat → α) : List (Fn α κ) → Nat → Jac α → Jac α
  | [], _, J => J
  | f :: l, row, J =>
    fnSetJac q l (row + f.space.nv) fun r k =>
      if row ≤ r ∧ r < row + f.space.nv then f.jac q (r - row) k else J r k

/-- `impl_jacobian` into a matrix `J`. -/
def FnSet.jacobian {α κ : Type} (s : FnSet α κ) (q : Nat → α) (J : Jac α) : Jac α :=
  fnSetJac q s.fns 0 J

/-! ## `ImplicitConstraintSet` -/

/-- Members of `ImplicitConstraintSet`: those of `Implicit` (with a `DifferentiableFunctionSet` as
function) and the constraints (implicit-constraint-set.hh:133). -/
structure ImplSet (α κ : Type) where
  fns : FnSet α κ
  cs : List (Impl α κ)
  comp : List Comp
  mask : List Bool
  activeRows : Segs
  inactiveRows : Blocks
  ineq : List Nat
  eq : Blocks
  paramSize : Nat

/-- Constructor (implicit-constraint-set.hh:103-110). -/
def ImplSet.init (α κ : Type) : ImplSet α κ :=
  ⟨FnSet.init α κ, [], [], [], [], ⟨[], 0⟩, [], ⟨[], 0⟩, 0⟩

/-- `add` (implicit-constraint-set.hh:61-81).  `activeRows_` is not cleared before being recomputed,
`parameterSize_` is not updated. -/
def ImplSet.add {α κ : Type} (s : ImplSet α κ) (c : Impl α κ) : Option (ImplSet α κ) := do
  let fns ← s.fns.add c.fn
  let comp := s.comp ++ c.comp
  let mask := s.mask ++ c.mask
  let r := computeActiveRows mask s.activeRows
  some { s with
    fns := fns
    cs := s.cs ++ [c]
    comp := comp
    mask := mask
    activeRows := r.1
    inactiveRows := r.2
    ineq := ineqFrom 0 comp
    eq := equalityIndices comp }

/-- `rightHandSideFromConfig`, inherited from `Implicit` (implicit.cc:212-220). -/
def ImplSet.rhsFromConfig {α κ : Type} [Zero α] (s : ImplSet α κ) (q : Nat → α) (buf : List α) :
    List α :=
  s.fns.space.exp (keepEquality s.fns.space.nv s.eq.segs (s.fns.space.log (s.fns.value q buf)))

/-- `setInactiveRowsToZero`, inherited. -/
def ImplSet.zeroInactive {α κ : Type} [Zero α] (s : ImplSet α κ) (e : List α) : List α :=
  lwrite e s.inactiveRows.segs (List.replicate (indices s.inactiveRows.segs).length 0)

/-! ## Inequalities (hierarchical-iterative.cc:53-81) -/

/-- `compare<Superior, ComputeJac>` (hierarchical-iterative.cc:54-67): new value, and whether the row
of the Jacobian is set to zero. -/
def compare1 {α : Type} [Zero α] [Add α] [Sub α] [Neg α] [LT α] [DecidableLT α] (sup : Bool)
    (val thr : α) : α × Bool :=
  if (sup && decide (val < thr)) || (!sup && decide (-thr < val)) then
    (if sup then val - thr else val + thr, false)
  else (0, true)

/-- `applyComparison` (hierarchical-iterative.cc:69-81).  An index out of range is undefined
behaviour (`none`). -/
def applyComparison {α : Type} [Zero α] [Add α] [Sub α] [Neg α] [LT α] [DecidableLT α]
    (comp : List Comp) (thr : α) : List Nat → List α × Jac α → Option (List α × Jac α)
  | [], r => some r
  | j :: l, (v, J) =>
    match comp[j]?, v[j]? with
    | some .superior, some x =>
      let c := compare1 true x thr
      applyComparison comp thr l (v.set j c.1, if c.2 then fun r k => if r = j then 0 else J r k else J)
    | some .inferior, some x =>
      let c := compare1 false x thr
      applyComparison comp thr l (v.set j c.1, if c.2 then fun r k => if r = j then 0 else J r k else J)
    | some _, some _ => applyComparison comp thr l (v, J)
    | _, _ => none

end Hpp
