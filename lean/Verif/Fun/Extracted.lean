import Mathlib.Order.Defs.LinearOrder
import Mathlib.Algebra.Group.Defs

/-!
# Model of the restriction of a function of one variable to an interval

Sources: `/repo/src/extracted-function.hh`; `/repo/src/differentiable-function.cc`, lines 226-230.
-/

namespace Hpp

/-- A `DifferentiableFunction`: sizes of the input, value, Jacobian.  `E` is the output space, taken for a
vector space; only the column of the Jacobian of a function of one variable is represented. -/
structure Fun1 (α E : Type) where
  inputSize : Nat
  inputDer : Nat
  value : List α → E
  jac : List α → E

/-- Constructor of `ExtractedFunction` (extracted-function.hh:77-99), `impl_compute` (lines 50-61) and
`impl_jacobian` (lines 63-75). `none`: the exceptions of the constructor. -/
def Fun1.extracted {α E : Type} [LinearOrder α] [Add α] [Sub α] [Neg E] [Zero α] (f : Fun1 α E) (t1 t2 : α) :
    Option (Fun1 α E) :=
  let reversed := decide (t2 < t1)
  if f.inputSize ≠ 1 then none
  else if f.inputDer ≠ 1 then none
  else some {
    inputSize := f.inputSize
    inputDer := f.inputDer
    value := fun arg => if reversed then f.value [t1 - arg.getD 0 0] else f.value [t1 + arg.getD 0 0]
    jac := fun arg => if reversed then -f.jac [t1 - arg.getD 0 0] else f.jac [arg.getD 0 0 - t1] }

/-- `DifferentiableFunction::extract` (differentiable-function.cc:226-230) -/
def Fun1.extract {α E : Type} [LinearOrder α] [Add α] [Sub α] [Neg E] [Zero α] (f : Fun1 α E) (t1 t2 : α) :
    Option (Fun1 α E) :=
  if t1 = 0 ∧ 0 < t2 then some f else f.extracted t1 t2

end Hpp
