import Verif.Fun.Archive
import Verif.Solve.SaturationProps

/-!
# Saturation objects: memory accesses and serialization

Sources: `/repo/src/solver/hierarchical-iterative.cc`, lines 114-119 and 138-144 (`saturate`), 931-955 (`serialize`);
`/repo/include/hpp/constraints/solver/hierarchical-iterative.hh`, lines 104-153 (classes and constructors).

Vectors are lists: an index out of a vector is undefined behaviour (`none`).
-/

namespace Hpp

variable {α : Type}

/-- `saturation::Bounds` (hierarchical-iterative.hh:131-144). -/
structure SatBounds (α : Type) where
  lb : List α
  ub : List α
  iq2iv : List Nat

/-- `Bounds(lb, ub)` (hierarchical-iterative.hh:134-139). -/
def SatBounds.mk2 (lb ub : List α) : SatBounds α := ⟨lb, ub, List.range ub.length⟩

/-- `Bounds()` (hierarchical-iterative.hh:133). -/
def SatBounds.default (α : Type) : SatBounds α := ⟨[], [], []⟩

/-- Vectors that `saturate` writes, and the local variable `sat`. -/
structure SatMem (α : Type) where
  qSat : List α
  sat : List Int
  ret : Bool

/-- Iteration `i` of `Bounds::saturate` (hierarchical-iterative.cc:141-142). -/
def SatBounds.step [LE α] [DecidableLE α] (b : SatBounds α) (q : List α) (m : SatMem α) (i : Nat) : Option (SatMem α) :=
  match b.lb[i]?, b.ub[i]?, q[i]?, b.iq2iv[i]? with
  | some l, some u, some v, some j =>
    if i < m.qSat.length ∧ j < m.sat.length then
      let c := clamp l u v
      some ⟨m.qSat.set i c.1, m.sat.set j c.2.1, m.ret || c.2.2⟩
    else none
  | _, _, _, _ => none

/-- Loop of `Bounds::saturate` on a list of indices. -/
def SatBounds.loop [LE α] [DecidableLE α] (b : SatBounds α) (q : List α) : List Nat → SatMem α → Option (SatMem α)
  | [], m => some m
  | i :: l, m => (b.step q m i).bind (b.loop q l)

/-- `Bounds::saturate` (hierarchical-iterative.cc:138-144). -/
def SatBounds.saturate [LE α] [DecidableLE α] (b : SatBounds α) (q qSat : List α) (sat : List Int) :
    Option (SatMem α) :=
  b.loop q (List.range q.length) ⟨qSat, sat, false⟩

/-! ## Serialization -/

/-- Objects that `saturate_` may point to; a `std::function` and a robot are numbers. -/
inductive SatObj
  | base
  | function (i : Nat)
  | bounds (b : SatBounds ℝ)
  | device (robot : Nat)

open FArch

/-- `serialize` of `Bounds` (hierarchical-iterative.cc:945-953); `serialize_vector` (external) restores a vector. -/
def SatBounds.serialize : Ser (SatBounds ℝ) :=
  seqs [field sVec (·.lb) fun b v => { b with lb := v }, field sVec (·.ub) fun b v => { b with ub := v }]

/-- `ar & saturate_` (boost, external): class of the object, then its members.  `Bounds` and `Device` are exported
(hierarchical-iterative.cc:930-931) and `Base` is the declared class; other classes are errors. -/
def SatObj.serialize : Ser SatObj := fun ar x =>
  if ar.saving then
    match x with
    | .base => (sStr ar "Base").map fun p => (p.1, x)
    | .function _ => none
    | .bounds b => (sStr ar "Bounds").bind fun p => (SatBounds.serialize p.1 b).map fun r => (r.1, x)
    | .device d => (sStr ar "Device").bind fun p => (sRobot p.1 d).map fun r => (r.1, x)
  else
    (sStr ar "").bind fun p =>
      if p.2 = "Base" then some (p.1, .base)
      else if p.2 = "Bounds" then (SatBounds.serialize p.1 (SatBounds.default ℝ)).map fun r => (r.1, .bounds r.2)
      else if p.2 = "Device" then (sRobot p.1 0).map fun r => (r.1, .device r.2)
      else none

/-- Object loaded from the archive in which an object was saved. -/
def SatObj.reload (x : SatObj) : Option SatObj :=
  (SatObj.serialize ⟨true, []⟩ x).bind fun p => (SatObj.serialize ⟨false, p.1.toks⟩ .base).map (·.2)

end Hpp
