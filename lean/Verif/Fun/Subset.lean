import Verif.Segments.Model
import Mathlib.Algebra.Group.Defs

/-!
# Models of functions of a subset of the variables

Sources: `/repo/include/hpp/constraints/function/of-parameter-subset.hh` and `/repo/src/function/of-parameter-subset.cc`;
`/repo/include/hpp/constraints/function/difference.hh` and `/repo/src/function/difference.cc`.

A Jacobian is written in a buffer given by the caller: `jac` takes the argument and the previous content.  Vectors and
matrices are functions of their indices.  The output spaces are vector spaces.
-/

namespace Hpp

structure BFun (α : Type) where
  nq : Nat
  nv : Nat
  no : Nat
  value : (Nat → α) → Nat → α
  jac : (Nat → α) → (Nat → Nat → α) → Nat → Nat → α
  activeQ : Nat → Bool
  active : Nat → Bool

variable {α : Type}

/-- `arg.segment(s.first, s.second)` -/
def segment {β : Type} (s : Seg) (x : Nat → β) : Nat → β := fun k => x (s.first + k)

/-- `v.segment(s.first, s.second) = x` -/
def setSegment {β : Type} (s : Seg) (x v : Nat → β) : Nat → β :=
  fun k => if s.first ≤ k ∧ k < s.first + s.len then x (k - s.first) else v k

/-- Assignment of `J.middleCols(s.first, s.second)`. -/
def setCols (s : Seg) (X J : Nat → Nat → α) : Nat → Nat → α := fun i => setSegment s (X i) (J i)

/-- Constructor of `OfParameterSubset` (of-parameter-subset.cc:42-59), `impl_compute` and `impl_jacobian`
(of-parameter-subset.hh:81-88). -/
def BFun.subset (g : BFun α) (nArgs nDers : Nat) (sa sd : Seg) : BFun α where
  nq := nArgs
  nv := nDers
  no := g.no
  value arg := g.value (segment sa arg)
  jac arg J := setCols sd (g.jac (segment sa arg) fun i => segment sd (J i)) J
  activeQ := setSegment sa g.activeQ fun _ => false
  active := setSegment sd g.active fun _ => false

/-- Constructor of `Difference` (difference.cc:43-70), `impl_compute` and `impl_jacobian` (difference.hh:63-75). -/
def BFun.difference [Sub α] [Neg α] (g : BFun α) (nArgs nDers : Nat) (lsa lsd rsa rsd : Seg) : BFun α where
  nq := nArgs
  nv := nDers
  no := g.no
  value arg i := g.value (segment lsa arg) i - g.value (segment rsa arg) i
  jac arg J :=
    let J := setCols lsd (g.jac (segment lsa arg) fun i => segment lsd (J i)) J
    let J := setCols rsd (g.jac (segment rsa arg) fun i => segment rsd (J i)) J
    setCols rsd (fun i k => -segment rsd (J i) k) J
  activeQ := setSegment rsa g.activeQ (setSegment lsa g.activeQ fun _ => false)
  active := setSegment rsd g.active (setSegment lsd g.active fun _ => false)

end Hpp
