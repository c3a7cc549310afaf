import Verif.Implicit.Model

/-!
# Model of `solver::HierarchicalIterative`: constraints, levels, right hand sides, satisfaction

Source: `/repo/src/solver/hierarchical-iterative.cc` and
`/repo/include/hpp/constraints/solver/hierarchical-iterative.hh`.

`stacks_` and `datas_` always have the same size (they are resized together): level `i` is here the
pair `(stacks_[i], datas_[i])`.  The members that only hold the result of the last evaluation
(`output`, `error`, `jacobian`, `reducedJ`) are not part of the state: they are recomputed by
`levelError` and `levelJac`; see `HI/Descent.lean` for the values that survive.

Assertions that only exist in debug builds (`assert(configSpace_->nv() == f.inputDerivativeSize())` at
line 390 fails on a level without constraint) are not modelled, except where said so.

The output space of `datas_[i].output` is here the one of the stack.  They are the same C++ object
after `update()`, but not in a copied solver: see `HI/Alias.lean`.
-/

namespace Hpp

/-- One priority level: `stacks_[i]` and `datas_[i]` (hierarchical-iterative.hh:562-591). -/
structure Level (α κ : Type) where
  stack : ImplSet α κ
  comp : List Comp
  ineq : List Nat
  eq : Blocks
  /-- rows of `activeRowsOfJ` -/
  rows : Blocks
  rhs : List α

/-- `ImplicitConstraintSet()` and `Data()`. -/
def Level.init (α κ : Type) : Level α κ :=
  ⟨ImplSet.init α κ, [], [], Blocks.empty, Blocks.empty, []⟩

/-- Members of `HierarchicalIterative` (hierarchical-iterative.hh:612-640) that matter.  The maps from
functions are searched with `find_if` and `==` on functions: here association lists indexed by the
key of the function. -/
structure HI (α κ : Type) where
  sqThr : α
  ineqThr : α
  maxIter : Nat
  nv : Nat
  levels : List (Level α κ)
  constraints : List (Impl α κ)
  iq : List (κ × Nat)
  iv : List (κ × Nat)
  prio : List (κ × Nat)
  free : Blocks
  dimension : Nat
  reducedDim : Nat
  lastIsOptional : Bool
  byLevel : Bool

variable {α κ : Type}

/-- `find_if(m.begin(), m.end(), [&f](arg) { return *arg.first == *f; })`. -/
def lookupKey [DecidableEq κ] (m : List (κ × Nat)) (k : κ) : Option Nat :=
  (m.find? fun p => p.1 = k).map (·.2)

/-- Constructor (hierarchical-iterative.cc:179-211). -/
def HI.init (α κ : Type) [Zero α] (nv : Nat) : HI α κ :=
  ⟨0, 0, 0, nv, [], [], [], [], [], Blocks.empty.add 0 nv, 0, 0, false, false⟩

/-- Loop of `computeActiveRowsOfJ` (hierarchical-iterative.cc:418-430).  An active parameter missing
from the array is taken as inactive. -/
def activeRowsLoop (free : Segs) : List (Impl α κ) → Nat → Segs
  | [], _ => []
  | c :: l, offset =>
    (if (indices free).any (fun i => c.fn.active.getD i false) then
      c.activeRows.map (fun s => ⟨s.first + offset, s.len⟩) else []) ++
    activeRowsLoop free l (offset + c.fn.space.nv)

/-- `computeActiveRowsOfJ` (hierarchical-iterative.cc:409-434). -/
def Level.computeRows (free : Segs) (l : Level α κ) : Blocks :=
  (Blocks.ofSegs (activeRowsLoop free l.stack.cs 0)).update true true true

/-- Body of the loop of `update` (hierarchical-iterative.cc:370-400). -/
def Level.update (free : Segs) (l : Level α κ) : Level α κ :=
  { l with rows := l.computeRows free, rhs := l.stack.fns.space.neutral }

/-- `update` (hierarchical-iterative.cc:364-407). -/
def HI.update (s : HI α κ) : HI α κ :=
  let levels := s.levels.map (Level.update s.free.segs)
  { s with
    levels := levels
    dimension := (levels.map (·.stack.fns.space.nv)).sum
    reducedDim := (levels.map (·.rows.nb)).sum }

/-- Loop on the comparison types in `add` (hierarchical-iterative.cc:290-297). -/
def Level.pushComp : List Comp → Level α κ → Level α κ
  | [], l => l
  | t :: r, l => Level.pushComp r
    (match t with
     | .superior => { l with ineq := l.ineq ++ [l.comp.length], comp := l.comp ++ [t] }
     | .inferior => { l with ineq := l.ineq ++ [l.comp.length], comp := l.comp ++ [t] }
     | .equality => { l with eq := l.eq.add l.comp.length 1, comp := l.comp ++ [t] }
     | .equalToZero => { l with comp := l.comp ++ [t] })

/-- `add` (hierarchical-iterative.cc:263-303): the new state and the error, if any. -/
def HI.add [DecidableEq κ] (s : HI α κ) (c : Impl α κ) (p : Nat) : HI α κ × Option Err :=
  if s.prio.any (fun e => e.1 = c.fn.key) then (s, some .throws)
  else
    let levels := s.levels ++ List.replicate (p + 1 - s.levels.length) (Level.init α κ)
    match levels[p]? with
    | none => (s, some .ub)
    | some lv =>
      match lv.stack.add c with
      | none => (s, some .ub)
      | some st =>
        let lv' := Level.pushComp c.comp { lv with stack := st }
        let lv'' := { lv' with eq := lv'.eq.update true true true }
        ({ s with
            prio := s.prio ++ [(c.fn.key, p)]
            iq := s.iq ++ [(c.fn.key, lv.stack.fns.space.nq)]
            iv := s.iv ++ [(c.fn.key, lv.stack.fns.space.nv)]
            levels := levels.set p lv''
            constraints := s.constraints ++ [c] }.update, none)

/-- `contains` (hierarchical-iterative.cc:255-261). -/
def HI.contains [DecidableEq κ] (s : HI α κ) (c : Impl α κ) : Bool :=
  s.constraints.any fun d => d.isEqual c

/-- `merge` (hierarchical-iterative.cc:305-324): the loop stops at the first exception. -/
def HI.mergeLoop [DecidableEq κ] (prio : List (κ × Nat)) :
    List (Impl α κ) → HI α κ → HI α κ × Option Err
  | [], s => (s, none)
  | c :: l, s =>
    if s.contains c then HI.mergeLoop prio l s
    else
      match s.add c ((lookupKey prio c.fn.key).getD 0) with
      | (s', none) => HI.mergeLoop prio l s'
      | (s', some e) => (s', some e)

def HI.merge [DecidableEq κ] (s other : HI α κ) : HI α κ × Option Err :=
  HI.mergeLoop other.prio other.constraints s

/-- `freeVariables(intervals)` (hierarchical-iterative.hh:383-389). -/
def HI.setFree (s : HI α κ) (l : Segs) : HI α κ :=
  { s with free := (l.foldl (fun (b : Blocks) (i : Seg) => b.add i.first i.len) Blocks.empty).update true true true }.update

/-- `freeVariables(indices)` (hierarchical-iterative.hh:395-398). -/
def HI.setFreeIndices (s : HI α κ) (b : Blocks) : HI α κ := { s with free := b }.update

/-- `activeParameters` / `activeDerivativeParameters` (hierarchical-iterative.cc:338-362); `none`: arrays
of different sizes. -/
def orArrays (n : Nat) (l : List (List Bool)) : Option (List Bool) :=
  l.foldlM (fun a b => if a.length = b.length then some (List.zipWith (· || ·) a b) else none)
    (List.replicate n false)

def HI.activeDerivativeParameters (s : HI α κ) : Option (List Bool) :=
  orArrays s.nv (s.levels.map (·.stack.fns.active))

/-! ## Right hand side -/

/-- `v.segment(i, n)` used as a value; `none`: out of range. -/
def segGet (v : List α) (i n : Nat) : Option (List α) :=
  if i + n ≤ v.length then some ((v.drop i).take n) else none

/-- `v.segment(i, n) = w`; `none`: out of range or of the wrong size. -/
def segSet (v : List α) (i n : Nat) (w : List α) : Option (List α) :=
  if i + n ≤ v.length ∧ w.length = n then some (v.take i ++ w ++ v.drop (i + n)) else none

/-- Write the right hand side of the function of `c` in its level.  `some (s, false)`: the function is
not in the solver. -/
def HI.writeRhs [DecidableEq κ] (s : HI α κ) (c : Impl α κ) (v : List α) : Option (HI α κ × Bool) :=
  match lookupKey s.iq c.fn.key with
  | none => some (s, false)
  | some iq =>
    match lookupKey s.prio c.fn.key with
    | none => some (s, false)
    | some i =>
      match s.levels[i]? with
      | none => none
      | some lv =>
        match segSet lv.rhs iq c.fn.space.nq v with
        | none => none
        | some r => some ({ s with levels := s.levels.set i { lv with rhs := r } }, true)

/-- `rightHandSide(constraint, v)` (hierarchical-iterative.cc:471-502).  The final assertion
(`checkRightHandSide`) is not modelled: the value is stored as it is. -/
def HI.setRhs [DecidableEq κ] (s : HI α κ) (c : Impl α κ) (v : List α) : Option (HI α κ × Bool) :=
  s.writeRhs c v

/-- `rightHandSideFromConfig(constraint, q)` (hierarchical-iterative.cc:446-469). -/
def HI.rhsFromConfigOne [Zero α] [DecidableEq κ] (s : HI α κ) (c : Impl α κ) (q : Nat → α) :
    Option (HI α κ × Bool) :=
  s.writeRhs c (c.rhsFromConfig q)

/-- `rightHandSideFromConfig(q)` (hierarchical-iterative.cc:436-444), without the returned vector (see
`HI.rhs`).  `buf` is the content of the buffer of the stack before the call. -/
def Level.rhsFromConfig [Zero α] (q : Nat → α) (l : Level α κ) : Level α κ :=
  { l with rhs := l.stack.rhsFromConfig q (List.replicate l.stack.fns.space.nq 0) }

def HI.rhsFromConfig [Zero α] (s : HI α κ) (q : Nat → α) : HI α κ :=
  { s with levels := s.levels.map (Level.rhsFromConfig q) }

/-- `getRightHandSide` (hierarchical-iterative.cc:504-527): outer `none`: undefined behaviour, inner
`none`: returns `false`. -/
def HI.getRhs [DecidableEq κ] (s : HI α κ) (c : Impl α κ) : Option (Option (List α)) :=
  match lookupKey s.prio c.fn.key with
  | none => some none
  | some i =>
    match lookupKey s.iq c.fn.key with
    | none => some none
    | some iq =>
      match s.levels[i]? with
      | none => none
      | some lv => (segGet lv.rhs iq c.fn.space.nq).map some

/-- `rightHandSide(v)` (hierarchical-iterative.cc:564-587).  The ranks `iq`, `iv` are cumulated over
the levels and used both in the argument and in the vectors of the level. -/
def HI.setRhsLoop : List (Level α κ) → Nat → Nat → List α → Option (List (Level α κ))
  | [], _, _, _ => some []
  | l :: r, iq, iv, v => do
    let nq := l.stack.fns.space.nq
    let nv := l.stack.fns.space.nv
    let out ← segGet v iq nq
    -- `d.comparison[iv + k]` for all `k < nv`
    if nv ≠ 0 ∧ l.comp.length < iv + nv then none
    let rhs ← segSet l.rhs iq nq (l.stack.fns.space.exp (l.stack.fns.space.log out))
    let rest ← HI.setRhsLoop r (iq + nq) (iv + nv) v
    some ({ l with rhs := rhs } :: rest)

def HI.setRhsVec (s : HI α κ) (v : List α) : Option (HI α κ) :=
  (HI.setRhsLoop s.levels 0 0 v).map fun l => { s with levels := l }

/-- `rightHandSide()` (hierarchical-iterative.cc:600-614). -/
def HI.rhs (s : HI α κ) : List α := s.levels.flatMap (·.rhs)

/-- `rightHandSideSize` (hierarchical-iterative.cc:616-621). -/
def HI.rhsSize (s : HI α κ) : Nat := (s.levels.map (·.stack.fns.space.nq)).sum

/-- `rightHandSideAt(s)` (hierarchical-iterative.cc:589-598).  The evaluation buffers of the
constraints are not part of the state here. -/
def HI.rhsAtLoop [DecidableEq κ] (t : α) : List (Impl α κ) → HI α κ → Option (HI α κ)
  | [], s => some s
  | c :: l, s =>
    if c.paramSize ≠ 0 ∧ c.rhsFn.isSome then do
      let (s', _) ← s.setRhs c (c.rhsAt t).2
      HI.rhsAtLoop t l s'
    else HI.rhsAtLoop t l s

def HI.rhsAt [DecidableEq κ] (s : HI α κ) (t : α) : Option (HI α κ) := HI.rhsAtLoop t s.constraints s

/-! ## Values and errors -/

/-- Sum of the squares, in order (`squaredNorm`). -/
def sqSum [Zero α] [Add α] [Mul α] (v : List α) : α := v.foldl (fun s x => s + x * x) 0

/-- Evaluation of the error of one level (hierarchical-iterative.cc:629-640, without Jacobian):
`d.error`. -/
def Level.error [Zero α] [Add α] [Sub α] [Neg α] [LT α] [DecidableLT α] (thr : α) (q : Nat → α) (l : Level α κ) :
    Option (List α) :=
  let out := l.stack.fns.value q (List.replicate l.stack.fns.space.nq 0)
  let e := l.stack.zeroInactive (l.stack.fns.space.sub out l.rhs)
  (applyComparison l.comp thr l.ineq (e, fun _ _ => 0)).map (·.1)

/-- Inner loop of `computeError` (hierarchical-iterative.cc:701-708): segments of the error of one
level, by constraint, with `std::max(a, b) = (a < b) ? b : a`. -/
def worstOfLevel [Zero α] [Add α] [Mul α] [LT α] [DecidableLT α] (err : List α) :
    List (Impl α κ) → Nat → α → Option α
  | [], _, m => some m
  | c :: l, iv, m => do
    let e ← segGet err iv c.fn.space.nv
    let x := sqSum e
    worstOfLevel err l (iv + c.fn.space.nv) (if m < x then x else m)

/-- Outer loop of `computeError`. -/
def worstOf [Zero α] [Add α] [Mul α] [LT α] [DecidableLT α] :
    List (List (Impl α κ) × List α) → α → Option α
  | [], m => some m
  | (cs, err) :: l, m => do
    let m' ← worstOfLevel err cs 0 m
    worstOf l m'

/-- Levels taken into account by `computeError`: all but the last one if it is optional
(hierarchical-iterative.cc:695-696).  `none`: `stacks_.size() - 1` underflows. -/
def mandatory {β : Type} (lastIsOptional : Bool) (l : List β) : Option (List β) :=
  if lastIsOptional then (if l.isEmpty then none else some l.dropLast) else some l

/-- `computeValue<false>` then `computeError` (hierarchical-iterative.cc:623-646, 694-710): the value
of `squaredNorm_`. -/
def HI.sqNorm [Zero α] [Add α] [Sub α] [Neg α] [Mul α] [LT α] [DecidableLT α] (s : HI α κ) (q : Nat → α) : Option α := do
  let errs ← s.levels.mapM (fun l => (l.error s.ineqThr q).map fun e => (l.stack.cs, e))
  let ls ← mandatory s.lastIsOptional errs
  worstOf ls 0

/-- `isSatisfied(q)` (hierarchical-iterative.hh:338-342). -/
def HI.isSatisfied [Zero α] [Add α] [Sub α] [Neg α] [Mul α] [LT α] [DecidableLT α] (s : HI α κ) (q : Nat → α) : Option Bool :=
  (s.sqNorm q).map fun n => decide (n < s.sqThr)

/-- `isConstraintSatisfied` (hierarchical-iterative.cc:529-562): `some none`: not found, otherwise
the error and the returned value. -/
def HI.isConstraintSatisfied [Zero α] [Add α] [Sub α] [Neg α] [Mul α] [LT α] [DecidableLT α] [DecidableEq κ] (s : HI α κ) (c : Impl α κ)
    (q : Nat → α) : Option (Option (List α × Bool)) :=
  match lookupKey s.prio c.fn.key with
  | none => some none
  | some i =>
    match lookupKey s.iq c.fn.key, s.levels[i]? with
    | some iq, some lv =>
      (segGet lv.rhs iq c.fn.space.nq).map fun r =>
        let e := c.zeroInactive (c.fn.space.sub (c.fn.value q) r)
        some (e, decide (sqSum e < s.sqThr))
    | _, _ => none

/-- `definesSubmanifoldOf` (hierarchical-iterative.cc:730-742). -/
def HI.definesSubmanifoldOf [DecidableEq κ] (s other : HI α κ) : Bool :=
  other.constraints.all fun c => s.constraints.any fun d => d.fn.key = c.fn.key

/-! ## Serialization -/

/-- What is written by `save` (hierarchical-iterative.cc:899-923).  `saturate_` and `configSpace_` are
left out but for the size of the latter. -/
structure HISaved (α κ : Type) where
  sqThr : α
  ineqThr : α
  maxIter : Nat
  nv : Nat
  lastIsOptional : Bool
  constraints : List (Impl α κ)
  priorities : List Nat

def HI.save [DecidableEq κ] (s : HI α κ) : HISaved α κ :=
  ⟨s.sqThr, s.ineqThr, s.maxIter, s.nv, s.lastIsOptional, s.constraints,
    s.constraints.map fun c => (lookupKey s.prio c.fn.key).getD 0⟩

/-- Loop of `load` (hierarchical-iterative.cc:893-894). -/
def HI.loadLoop [DecidableEq κ] : List (Impl α κ × Nat) → HI α κ → HI α κ × Option Err
  | [], s => (s, none)
  | (c, p) :: l, s =>
    match s.add c p with
    | (s', none) => HI.loadLoop l s'
    | (s', some e) => (s', some e)

/-- `load` (hierarchical-iterative.cc:872-897), into a default constructed solver: the default
constructor (hierarchical-iterative.hh:650) leaves `dimension_`, `reducedDimension_` and
`solveLevelByLevel_` uninitialised (`junk`). -/
def HI.load [Zero α] [DecidableEq κ] (junk : Nat × Nat × Bool) (d : HISaved α κ) :
    HI α κ × Option Err :=
  HI.loadLoop (d.constraints.zip d.priorities)
    { HI.init α κ d.nv with
      sqThr := d.sqThr
      ineqThr := d.ineqThr
      maxIter := d.maxIter
      lastIsOptional := d.lastIsOptional
      dimension := junk.1
      reducedDim := junk.2.1
      byLevel := junk.2.2 }

end Hpp
