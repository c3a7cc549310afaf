import Verif.ECS.Model

/-!
# Locked joints

Source: `/repo/src/locked-joint.cc`; `Explicit` constructor and `outputValue`: `/repo/src/explicit.cc:106-111, 145-160`.

Simplifications: names of joints are dropped (they only appear in messages and in `isEqual`, see C46); the Lie group of the joint is
an abstract space with sum and difference.  Asserts are not modelled (release build); `none` stands for an access to the
first element of an empty vector.
-/

namespace Hpp

variable {α κ : Type}

/-- Configuration space of the joint (`LiegroupSpace`, external): `integrate x v` is `x += v`, `diff x y` is `x - y`. -/
structure JSpace (α : Type) where
  nq : Nat
  nv : Nat
  integrate : List α → List α → List α
  diff : List α → List α → List α

/-- `LiegroupSpace::Rn (n)` -/
def JSpace.rn [Add α] [Sub α] (n : Nat) : JSpace α := ⟨n, n, List.zipWith (· + ·), List.zipWith (· - ·)⟩

/-- `Implicit::parameterSpace` of an explicit constraint: the output space of `explicit_::ImplicitFunction` is the vector space of
dimension `nv` (implicit-function.cc). -/
def vspace [Zero α] [Sub α] (n : Nat) : Space α :=
  ⟨n, n, List.replicate n 0, fun v => v, fun v => v, List.zipWith (· - ·)⟩

/-- Constructor `Explicit (configSpace, function, inputConf, outputConf, inputVelocity, outputVelocity, comp, mask)`
(explicit.cc:145-160), arguments in this order, with `Explicit::outputValue` (explicit.cc:106-111) and the implicit function
`q_out - f (q_in)` (implicit-function.cc).  The function `f` takes its values in `sp`; `jac` is its Jacobian. -/
def explicitCon [Zero α] [Sub α] (key : κ) (sp : JSpace α) (f : List α → List α) (jac : List α → Nat → Nat → α)
    (inputConf outputConf inputVelocity outputVelocity : Segs) (comp : List Comp) : ECon α κ where
  key := key
  inQ := inputConf
  outQ := outputConf
  inV := inputVelocity
  outV := outputVelocity
  comp := comp
  space := vspace sp.nv
  h := fun q => sp.diff (rview q outputConf) (f (rview q inputConf))
  outVal := fun qin rhs => sp.integrate (f qin) rhs
  jac := fun qin _ _ => jac qin

/-- What `LockedJoint` uses of a joint: ranks, sizes and configuration space -/
structure LJoint (α : Type) where
  rankInConfiguration : Nat
  rankInVelocity : Nat
  space : JSpace α

/-- `LockedJoint (joint, value)` (locked-joint.cc:103-123) -/
def lockedJoint [Zero α] [Sub α] (key : κ) (j : LJoint α) (value : List α) : ECon α κ :=
  explicitCon key j.space (fun _ => value) (fun _ _ _ => 0)
    [] [⟨j.rankInConfiguration, j.space.nq⟩] [] [⟨j.rankInVelocity, j.space.nv⟩] (List.replicate j.space.nv .equality)

/-- `LockedJoint (joint, index, value)` (locked-joint.cc:125-147) -/
def lockedJointPartial [Zero α] [Add α] [Sub α] (key : κ) (j : LJoint α) (index : Nat) (value : List α) : ECon α κ :=
  explicitCon key (JSpace.rn (j.space.nq - index)) (fun _ => value) (fun _ _ _ => 0)
    [] [] [⟨j.rankInConfiguration, j.space.nq - index⟩] [⟨j.rankInVelocity, j.space.nv - index⟩]
    (List.replicate (j.space.nv - index) .equality)

/-- `LockedJoint (device, index, value)` (locked-joint.cc:149-173): `nq`, `nv` sizes of the configurations and velocities of the
robot, `extra` the dimension of its extra configuration space -/
def lockedJointExtra [Zero α] [Add α] [Sub α] (key : κ) (nq nv extra index : Nat) (value : List α) : ECon α κ :=
  explicitCon key (JSpace.rn value.length) (fun _ => value) (fun _ _ _ => 0)
    [] [] [⟨nq - extra + index, value.length⟩] [⟨nv - extra + index, value.length⟩]
    (List.replicate value.length .equality)

/-- `rankInConfiguration`, `rankInVelocity` (locked-joint.cc:87-93) -/
def ECon.rankInConfiguration (c : ECon α κ) : Option Nat := c.outQ.head?.map (·.first)
def ECon.rankInVelocity (c : ECon α κ) : Option Nat := c.outV.head?.map (·.first)

/-! ### Specification -/

/-- The constraint computes variables `first`, ..., `first + value.length - 1` and no other, sets them to `value` for the right
hand side set at construction, and reads no variable. -/
structure Locks (c : ECon α κ) (first : Nat) (value : List α) : Prop where
  reads : ∀ i, ¬ Covers c.inQ i
  readsV : ∀ i, ¬ Covers c.inV i
  writes : ∀ i, Covers c.outQ i ↔ first ≤ i ∧ i < first + value.length
  inside : ∀ (q : Nat → α) (junk : List α) (i : Nat), i < value.length →
    some (solveOne (EData.new c junk) q (first + i)) = value[i]?
  outside : ∀ (q : Nat → α) (junk : List α) (i : Nat), i < first ∨ first + value.length ≤ i →
    solveOne (EData.new c junk) q i = q i

end Hpp
