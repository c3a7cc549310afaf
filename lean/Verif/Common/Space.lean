import Verif.Segments.Model
import Verif.Segments.Spec

/-!
# Comparison types, vectors, Lie group elements

Common vocabulary of the constraint models.
-/

namespace Hpp

/-- `ComparisonType` (used by include/hpp/constraints/comparison-types.hh:41-156; declared in fwd.hh). -/
inductive Comp where
  | equalToZero | equality | superior | inferior
deriving DecidableEq, Repr

/-- Output space of a function (`LiegroupSpace` of hpp-pinocchio, external): sizes of the
representation of elements and of velocities, neutral element, exponential, logarithm and
difference `sub a b = a - b`.  Elements are vectors of size `nq` (`LiegroupElement::vector()`).
Nothing is assumed here; the laws are in `Space.Lawful`. -/
structure Space (α : Type) where
  nq : Nat
  nv : Nat
  neutral : List α
  exp : List α → List α
  log : List α → List α
  sub : List α → List α → List α

/-! ## Views of vectors

`rview`/`lview` of a vector (matrix-view.hh).  Property C07 shows that the C++ views read and write
exactly these coefficients in this order. -/

/-- `indices.rview(q)` for a configuration vector given as a function of the index. -/
def rview {α : Type} (q : Nat → α) (l : Segs) : List α := (indices l).map q

/-- Successive assignments `q[i] = v`. -/
def assignAll {α : Type} (q : Nat → α) : List (Nat × α) → (Nat → α)
  | [] => q
  | (i, v) :: r => assignAll (fun k => if k = i then v else q k) r

/-- `indices.lview(q) = vals`. -/
def lview {α : Type} (q : Nat → α) (l : Segs) (vals : List α) : Nat → α :=
  assignAll q ((indices l).zip vals)

/-- `indices.rview(v)` for a finite vector. -/
def lread {α : Type} [Zero α] (v : List α) (l : Segs) : List α := (indices l).map (v.getD · 0)

/-- Successive assignments in a finite vector. -/
def setAll {α : Type} (v : List α) : List (Nat × α) → List α
  | [] => v
  | (i, x) :: r => setAll (v.set i x) r

/-- `indices.lview(v) = vals` for a finite vector. -/
def lwrite {α : Type} (v : List α) (l : Segs) (vals : List α) : List α :=
  setAll v ((indices l).zip vals)

/-- Row intervals of the `Equality` components, before sorting (explicit-constraint-set.cc:136-140,
implicit.cc:155-161). -/
def equalityRowsFrom (i : Nat) : List Comp → Blocks → Blocks
  | [], b => b
  | .equality :: r, b => equalityRowsFrom (i + 1) r (b.add i 1)
  | _ :: r, b => equalityRowsFrom (i + 1) r b

/-- `equalityIndices` (explicit-constraint-set.cc:136-141, implicit.cc:152-163). -/
def equalityIndices (c : List Comp) : Blocks :=
  (equalityRowsFrom 0 c Blocks.empty).update true true true

/-- `logRhsImplicit.setZero(); eq.lview(logRhsImplicit) = eq.rview(logRhs)`
(explicit-constraint-set.cc:347-348, 358-363, 404-407; implicit.cc:216-217). -/
def keepEquality {α : Type} [Zero α] (nv : Nat) (eq : Segs) (v : List α) : List α :=
  lwrite (List.replicate nv 0) eq (lread v eq)

/-! ## Specification -/

/-- What `keepEquality` is expected to do: keep the components compared with `Equality`, zero the
other ones. -/
def maskEq {α : Type} [Zero α] (c : List Comp) (v : List α) : List α :=
  List.zipWith (fun c x => if c = Comp.equality then x else 0) c v

/-- Laws of the output space used by some theorems.  `El` recognises the vectors that represent an
element (e.g. unit quaternions).  `log (exp v) = v` is not assumed for all `v` (false on `SO(3)`),
but only for the logarithms of elements with some components set to zero: these stay in the ball
where the logarithm takes its values. -/
structure Space.Lawful {α : Type} [Zero α] (sp : Space α) (El : List α → Prop) : Prop where
  neutral_mem : El sp.neutral
  log_len : ∀ g, El g → (sp.log g).length = sp.nv
  len : ∀ g, El g → g.length = sp.nq
  exp_mem : ∀ v, v.length = sp.nv → El (sp.exp v)
  exp_log : ∀ g, El g → sp.exp (sp.log g) = g
  exp_zero : sp.exp (List.replicate sp.nv 0) = sp.neutral
  log_exp_mask : ∀ g c, El g → c.length = sp.nv →
    sp.log (sp.exp (maskEq c (sp.log g))) = maskEq c (sp.log g)
  sub_len : ∀ g h, El g → El h → (sp.sub g h).length = sp.nv
  sub_eq_zero : ∀ g h, El g → El h → (sp.sub g h = List.replicate sp.nv 0 ↔ g = h)

/-- The vector space of dimension `n`: the operations of `LiegroupSpace::Rn(n)`. -/
def vectorSpace (α : Type) [Zero α] [Sub α] (n : Nat) : Space α where
  nq := n
  nv := n
  neutral := List.replicate n 0
  exp v := v
  log v := v
  sub := List.zipWith (· - ·)

end Hpp
