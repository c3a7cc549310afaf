import Verif.Fun.Equality
import Verif.Common.Space

/-!
# Model of the comparison of constraints

Sources: `/repo/src/implicit.cc`, lines 40-43 and 181-188; `/repo/src/explicit.cc`, lines 74-100, 127-141, 145-180;
`/repo/src/locked-joint.cc`, lines 53-93, 103-171, 191-211.

A constraint is made of the members that its copy constructor copies and that `isEqual` reads.  Functions are found at
addresses of a memory; addresses are natural numbers.  The calls of virtual functions are resolved by the class of the
object.  `none` stands for undefined behaviour (`rankInConfiguration()` reads the first element of a vector,
locked-joint.cc:87-93; comparison of contact functions, see `FnEq.opEq`).  The classes `explicit_::RelativePose` and
`explicit_::ConvexShapeContact` have the method of `Explicit`; `ImplicitConstraintSet` has that of `Implicit`.
-/

namespace Hpp.ConEq

open FnEq (Obj)

/-- Members of `Explicit` (explicit.hh:264-269): address of `inputToOutput_`, inputs and outputs. -/
structure Ex where
  io : Nat
  inQ : Segs
  outQ : Segs
  inV : Segs
  outV : Segs
deriving DecidableEq

/-- Class of a constraint and members of this class.  `LockedJoint` derives from `Explicit` (locked-joint.hh:66). -/
inductive Kind where
  | implicit
  | explicit (e : Ex)
  | locked (e : Ex) (name : String) (space : Nat)

/-- A constraint: comparison types, mask, size of the right hand side, address of the function. -/
structure Con where
  comp : List Comp
  mask : List Bool
  rhsSize : Nat
  fn : Nat
  kind : Kind

/-- `dynamic_cast<const Explicit&>` -/
def Con.asExplicit (c : Con) : Option Ex :=
  match c.kind with
  | .implicit => none
  | .explicit e => some e
  | .locked e _ _ => some e

/-- `dynamic_cast<const LockedJoint&>` -/
def Con.asLocked (c : Con) : Option (Ex × String × Nat) :=
  match c.kind with
  | .locked e n s => some (e, n, s)
  | _ => none

/-- `if (!x) return false; return y` -/
def andThen (x y : Option Bool) : Option Bool :=
  match x with
  | none => none
  | some false => some false
  | some true => y

variable {α : Type} [DecidableEq α]

/-- `!(function_ != other.function_ && *function_ != *other.function_)` (implicit.cc:184) -/
def fnEq (h : Nat → Obj α) (a b : Nat) : Option Bool :=
  if a = b then some true else FnEq.opEq (h a) (h b)

/-- `Implicit::isEqual` (implicit.cc:181-188) up to line 185 -/
def implEq (h : Nat → Obj α) (a b : Con) : Option Bool :=
  if a.comp ≠ b.comp then some false
  else if a.rhsSize ≠ b.rhsSize then some false
  else fnEq h a.fn b.fn

/-- Comparison of the members of `Explicit` (explicit.cc:131-135) -/
def exEq (a b : Ex) : Bool :=
  if a.io ≠ b.io then false
  else if a.inQ ≠ b.inQ then false
  else if a.outQ ≠ b.outQ then false
  else if a.inV ≠ b.inV then false
  else if a.outV ≠ b.outV then false
  else true

/-- `rankInConfiguration() != lj.rankInConfiguration()` (locked-joint.cc:202), and likewise in velocity -/
def rankEq (a b : Segs) : Option Bool :=
  match a[0]?, b[0]? with
  | some x, some y => some (decide (x.first = y.first))
  | _, _ => none

/-- `LockedJoint::isEqual` (locked-joint.cc:198-211) after the cast, up to line 204 -/
def lockedEq (h : Nat → Obj α) (a b : Con) (ea : Ex) (na : String) (sa : Nat) (eb : Ex) (nb : String) (sb : Nat) :
    Option Bool :=
  andThen (implEq h a b) <|
    if na ≠ nb then some false
    else andThen (rankEq ea.outQ eb.outQ) <| andThen (rankEq ea.outV eb.outV) <| some (decide (sa = sb))

/-- `isEqual(other, false)`: virtual, the class of `a` determines the method. -/
def isEqual0 (h : Nat → Obj α) (a b : Con) : Option Bool :=
  match a.kind with
  | .implicit => implEq h a b
  | .explicit ea =>
    match b.asExplicit with
    | none => some false
    | some eb => some (exEq ea eb)
  | .locked ea na sa =>
    match b.asLocked with
    | none => some false
    | some (eb, nb, sb) => lockedEq h a b ea na sa eb nb sb

/-- `operator==`, that is `isEqual(other, true)` (implicit.cc:40-43). -/
def opEq (h : Nat → Obj α) (a b : Con) : Option Bool :=
  match a.kind with
  | .implicit => andThen (implEq h a b) (isEqual0 h b a)
  | .explicit ea =>
    andThen (andThen (implEq h a b) (isEqual0 h b a)) <|
      match b.asExplicit with
      | none => some false
      | some eb => andThen (some (exEq ea eb)) (isEqual0 h b a)
  | .locked ea na sa =>
    match b.asLocked with
    | none => some false
    | some (eb, nb, sb) => andThen (lockedEq h a b ea na sa eb nb sb) (isEqual0 h b a)

/-! ## Construction -/

/-- Memory: the function at each address, and the first free address. -/
structure Mem (α : Type) where
  obj : Nat → Obj α
  next : Nat

/-- `new` for a function -/
def Mem.alloc (m : Mem α) (o : Obj α) : Nat × Mem α :=
  (m.next, ⟨fun a => if a = m.next then o else m.obj a, m.next + 1⟩)

/-- `Implicit::create` (implicit.cc:190-200); `nq`: size of the elements of the output space of the function. -/
def createImplicit (g nq : Nat) (comp : List Comp) (mask : List Bool) : Con := ⟨comp, mask, nq, g, .implicit⟩

/-- Implicit part of an explicit constraint: constructor of `ImplicitFunction` (explicit/implicit-function.cc:164-183)
from the explicit function at `e.io`; `qs`, `vs`: sizes of the configuration space; `rn`: vector space of the
dimension of the tangent space of a space. -/
def implicitFunction (rn : Nat → Nat) (qs vs : Nat) (m : Mem α) (e : Ex) : Obj α :=
  ⟨"implicit " ++ (m.obj e.io).name, qs, vs, rn (m.obj e.io).space, .implicit e.io e.inQ e.outQ e.inV e.outV⟩

/-- Constructor of `Explicit` (explicit.cc:145-159).  The right hand side has the size of the output of the implicit
function, here that of the comparison types. -/
def explicitBase (rn : Nat → Nat) (qs vs : Nat) (m : Mem α) (e : Ex) (comp : List Comp) (mask : List Bool)
    (kind : Kind) : Con × Mem α :=
  let r := m.alloc (implicitFunction rn qs vs m e)
  (⟨comp, mask, comp.length, r.1, kind⟩, r.2)

/-- `Explicit::create` (explicit.cc:79-98) -/
def createExplicit (rn : Nat → Nat) (qs vs : Nat) (m : Mem α) (e : Ex) (comp : List Comp) (mask : List Bool) :
    Con × Mem α := explicitBase rn qs vs m e comp mask (.explicit e)

/-- `LockedJoint::create` of a joint and of a value (locked-joint.cc:56-62, 103-123): `q`, `v`: intervals of the joint;
`space`: configuration space of the joint.  The name of the constant function depends on the joint and on the value. -/
def createLocked (rn : Nat → Nat) (qs vs : Nat) (fname : String → List α → String) (m : Mem α) (joint : String)
    (q v : Seg) (space : Nat) (value : List α) : Con × Mem α :=
  let r := m.alloc ⟨fname joint value, 0, 0, space, .constant value⟩
  let e : Ex := ⟨r.1, [], [q], [], [v]⟩
  explicitBase rn qs vs r.2 e (List.replicate v.len .equality) (List.replicate v.len true) (.locked e joint space)

/-- `LockedJoint::create` of some degrees of freedom of a joint, or of the extra degrees of freedom of a robot
(locked-joint.cc:64-78, 125-171): the arguments given to `Explicit` are in another order, `outputConf_` is empty and
`inputVelocity_` holds the interval of configuration variables. -/
def createPartial (rn : Nat → Nat) (qs vs : Nat) (m : Mem α) (name fname : String) (q v : Seg) (space : Nat)
    (value : List α) (mask : List Bool) : Con × Mem α :=
  let r := m.alloc ⟨fname, 0, 0, space, .constant value⟩
  let e : Ex := ⟨r.1, [], [], [q], [v]⟩
  explicitBase rn qs vs r.2 e (List.replicate v.len .equality) mask (.locked e name space)

/-- `copy()` (implicit.cc:165-179 and 202-210, explicit.cc:100-106 and 174-180, locked-joint.cc:80-85 and 191-196): the members are
copied, functions are shared. -/
def Con.copy (c : Con) : Con := ⟨c.comp, c.mask, c.rhsSize, c.fn, c.kind⟩

end Hpp.ConEq
