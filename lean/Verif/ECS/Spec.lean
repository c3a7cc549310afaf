import Verif.ECS.Model
import Mathlib.Logic.Relation

/-!
# Specification vocabulary for explicit constraint sets

Only the constraints themselves are used here (which variables they read and write), none of the
bookkeeping of `ExplicitConstraintSet`.
-/

namespace Hpp

variable {α κ : Type}

/-- The constraint takes configuration variable `i` as input. -/
def Reads (c : ECon α κ) (i : Nat) : Prop := Covers c.inQ i

/-- The constraint computes configuration variable `i`. -/
def Writes (c : ECon α κ) (i : Nat) : Prop := Covers c.outQ i

/-- Same for velocity variables. -/
def ReadsV (c : ECon α κ) (i : Nat) : Prop := Covers c.inV i
def WritesV (c : ECon α κ) (i : Nat) : Prop := Covers c.outV i

/-- `c` takes as input an output of `c'`. -/
def Depends (c c' : ECon α κ) : Prop := ∃ i, Reads c i ∧ Writes c' i

/-- Variable `y` is an input of the constraint of `cs` computing `x`. -/
def Before (cs : List (ECon α κ)) (x y : Nat) : Prop := ∃ c ∈ cs, Writes c x ∧ Reads c y

/-- Variable `y` is needed, directly or through constraints of `cs`, to evaluate `c`. -/
def Needs (cs : List (ECon α κ)) (c : ECon α κ) (y : Nat) : Prop :=
  ∃ x, Reads c x ∧ Relation.ReflTransGen (Before cs) x y

/-- Comparison types accepted by an explicit constraint. -/
def IsEq (t : Comp) : Prop := t = .equalToZero ∨ t = .equality

/-- `c` can be added to the constraints `cs`. -/
structure Compatible (cs : List (ECon α κ)) (c : ECon α κ) : Prop where
  comp : ∀ t ∈ c.comp, IsEq t
  fresh : ∀ c' ∈ cs, ∀ i, ¬ (Writes c i ∧ Writes c' i)
  noLoop : ∀ y, Needs cs c y → ¬ Writes c y

/-- The variables of the constraint exist, and its outputs are one interval (the only case
supported by the code, explicit-constraint-set.cc:145-148). -/
structure WellFormed (nq nv : Nat) (c : ECon α κ) : Prop where
  outQ : ∃ o, c.outQ = [o] ∧ o.first + o.len ≤ nq
  outV : ∃ o, c.outV = [o] ∧ o.first + o.len ≤ nv
  inQ : ∀ i, Reads c i → i < nq
  inV : ∀ i, ReadsV c i → i < nv

/-- Configuration and velocity variables tell the same story: intervals of configuration variables
and of velocity variables designate the same joints (see `coherent_of_joints`). -/
structure Coherent (c c' : ECon α κ) : Prop where
  dep : (∃ v, ReadsV c v ∧ WritesV c' v) → Depends c c'
  dep' : Depends c c' → ∃ v, ReadsV c v ∧ WritesV c' v
  out : (∃ v, WritesV c v ∧ WritesV c' v) → ∃ i, Writes c i ∧ Writes c' i

/-- All pairs of constraints of a list are coherent. -/
def AllCoherent (cs : List (ECon α κ)) : Prop := ∀ c ∈ cs, ∀ c' ∈ cs, Coherent c c'

/-- The constraints of the set, in insertion order. -/
def ECS.cons (s : ECS α κ) : List (ECon α κ) := s.data.map fun d => d.c

/-- Sets of explicit constraints reachable by any history of calls. -/
inductive ECS.Built [Zero α] [DecidableEq κ] (nq nv : Nat) : ECS α κ → Prop
  | init (eps : α) : Built nq nv (ECS.init nq nv eps)
  | add (s : ECS α κ) (fuel : Nat) (c : ECon α κ) (junk : List α) (r : Option Nat) (s' : ECS α κ) :
      Built nq nv s → s.add fuel c junk = .ok (r, s') → Built nq nv s'
  | rhsFromInput (s : ECS α κ) (q : Nat → α) : Built nq nv s → Built nq nv (s.rhsFromInput q)
  | rhsFromInputOf (s : ECS α κ) (c : ECon α κ) (q : Nat → α) :
      Built nq nv s → Built nq nv (s.rhsFromInputOf c q).1
  | setRhsOf (s : ECS α κ) (c : ECon α κ) (v : List α) :
      Built nq nv s → Built nq nv (s.setRhsOf c v).1
  | setRhs (s : ECS α κ) (v : List α) (s' : ECS α κ) :
      Built nq nv s → s.setRhs v = some s' → Built nq nv s'
  | threshold (s : ECS α κ) (t : α) : Built nq nv s → Built nq nv { s with threshold := t }

/-- The explicit constraint holds at `q`: its outputs are those computed from its inputs. -/
def EData.Holds (d : EData α κ) (q : Nat → α) : Prop :=
  rview q d.c.outQ = d.c.outVal (rview q d.c.inQ) d.rhs

/-- The constraint function returns as many components as there are outputs, for the current right
hand side (see `outLen_of_lawful`). -/
def EData.OutLen (d : EData α κ) : Prop :=
  ∀ x, (d.c.outVal x d.rhs).length = (indices d.c.outQ).length

end Hpp
