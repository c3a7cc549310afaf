import Verif.Sym.Props
import Verif.Svd.Props

/-!
# Matrices of expressions

Model of `MatrixOfExpressions`. Source: `/repo/include/hpp/constraints/symbolic-calculus.hh`, lines 864-1071.

The elements are expressions whose values are vectors of size 3 (the only instantiation, `static-stability.hh:128` and
`qp-static-stability.hh:111`): the value is a matrix with `3 p` rows and `c` columns, row `3 i + a` being coordinate `a` of
row `i` of elements. `jacobian_` is modelled by its blocks. Extra degrees of freedom are not modelled. The singular value
decomposition (Eigen) is a parameter.
-/

namespace Hpp.Stab

open Matrix Hpp.Sym

variable {n p c : Nat}

/-- `elements_` -/
structure Moe (p c : Nat) where
  el : Fin p → Fin c → Expr ℝ

/-- Members of the matrix, and members of the nodes of the elements. -/
structure MMem (n p c : Nat) where
  st : St ℝ n
  value : Matrix (Fin (p * 3)) (Fin c) ℝ
  jac : Fin p → Fin c → Matrix (Fin 3) (Fin n) ℝ
  svd : Svd ℝ (p * 3) c
  pi : Matrix (Fin c) (Fin (p * 3)) ℝ
  vV : Bool
  jV : Bool
  svdV : Bool
  piV : Bool

/-- Order of the loops `for i, for j` -/
def cells (p c : Nat) : List (Fin p × Fin c) :=
  (List.finRange p).flatMap fun i => (List.finRange c).map fun j => (i, j)

/-- Row `3 i + a` -/
def row (i : Fin p) (a : Fin 3) : Fin (p * 3) := finProdFinEquiv (i, a)

/-- `i` and `a` for row `3 i + a` -/
def unrow (r : Fin (p * 3)) : Fin p × Fin 3 := finProdFinEquiv.symm r

/-- `value_.block (r, c, nr, nc) = v` (line 939) -/
def setBlock (M : Matrix (Fin (p * 3)) (Fin c) ℝ) (x : Fin p × Fin c) (v : V3 ℝ) : Matrix (Fin (p * 3)) (Fin c) ℝ :=
  fun r k => if (unrow r).1 = x.1 ∧ k = x.2 then v (unrow r).2 else M r k

/-- Body of the loop of `impl_value` (lines 936-939) -/
def Moe.valueStep (f : Moe p c) (w : World ℝ n) (s : St ℝ n × Matrix (Fin (p * 3)) (Fin c) ℝ) (x : Fin p × Fin c) :
    St ℝ n × Matrix (Fin (p * 3)) (Fin c) ℝ :=
  let st := computeValue w (f.el x.1 x.2) s.1
  (st, setBlock s.2 x (st (f.el x.1 x.2).id).value)

/-- `computeValue` (lines 202-206) with `impl_value` (lines 930-944) -/
def Moe.computeValue (f : Moe p c) (w : World ℝ n) (m : MMem n p c) : MMem n p c :=
  if m.vV then m
  else
    let s := (cells p c).foldl (f.valueStep w) (m.st, m.value)
    { m with st := s.1, value := s.2, vV := true }

/-- Body of the loop of `impl_jacobian` (lines 951-954) -/
noncomputable def Moe.jacStep (f : Moe p c) (w : World ℝ n) (s : St ℝ n × (Fin p → Fin c → Matrix (Fin 3) (Fin n) ℝ))
    (x : Fin p × Fin c) : St ℝ n × (Fin p → Fin c → Matrix (Fin 3) (Fin n) ℝ) :=
  let st := computeJac w (f.el x.1 x.2) s.1
  (st, fun i j => if i = x.1 ∧ j = x.2 then (st (f.el x.1 x.2).id).jac else s.2 i j)

/-- `computeJacobian` (lines 207-211) with `impl_jacobian` (lines 945-959) -/
noncomputable def Moe.computeJac (f : Moe p c) (w : World ℝ n) (m : MMem n p c) : MMem n p c :=
  if m.jV then m
  else
    let s := (cells p c).foldl (f.jacStep w) (m.st, m.jac)
    { m with st := s.1, jac := s.2, jV := true }

/-- `computeSVD` (lines 963-969) -/
def Moe.computeSVD (f : Moe p c) (svdOf : Matrix (Fin (p * 3)) (Fin c) ℝ → Svd ℝ (p * 3) c) (w : World ℝ n)
    (m : MMem n p c) : MMem n p c :=
  if m.svdV then m
  else
    let m := f.computeValue w m
    { m with svd := svdOf m.value, svdV := true }

/-- `computePseudoInverse` (lines 970-977) -/
noncomputable def Moe.computePinv (f : Moe p c) (svdOf : Matrix (Fin (p * 3)) (Fin c) ℝ → Svd ℝ (p * 3) c) (w : World ℝ n)
    (m : MMem n p c) : MMem n p c :=
  if m.piV then m
  else
    let m := f.computeValue w m
    let m := f.computeSVD svdOf w m
    { m with pi := m.svd.pinv, piV := true }

/-- Calls of `computeJacobian` on the elements (lines 1016 and 1038) -/
noncomputable def Moe.touch (f : Moe p c) (w : World ℝ n) (m : MMem n p c) : MMem n p c :=
  { m with st := (cells p c).foldl (fun st x => Sym.computeJac w (f.el x.1 x.2) st) m.st }

/-- `jacobianTimes` (lines 1005-1025): members, and `cache`. -/
noncomputable def Moe.jacobianTimes (f : Moe p c) (w : World ℝ n) (m : MMem n p c) (rhs : Fin c → ℝ) :
    MMem n p c × Matrix (Fin (p * 3)) (Fin n) ℝ :=
  (f.touch w m, (cells p c).foldl (fun (cache : Matrix (Fin (p * 3)) (Fin n) ℝ) x => fun r k =>
    if (unrow r).1 = x.1 then cache r k + m.jac x.1 x.2 (unrow r).2 k * rhs x.2 else cache r k) 0)

/-- `rhs.segment (r, nr)` (line 1041) -/
def seg (rhs : Fin (p * 3) → ℝ) (i : Fin p) : V3 ℝ := fun a => rhs (row i a)

/-- `jacobianTransposeTimes` (lines 1027-1047): members, and `cache`. -/
noncomputable def Moe.jacobianTransposeTimes (f : Moe p c) (w : World ℝ n) (m : MMem n p c) (rhs : Fin (p * 3) → ℝ) :
    MMem n p c × Matrix (Fin c) (Fin n) ℝ :=
  (f.touch w m, (cells p c).foldl (fun (cache : Matrix (Fin c) (Fin n) ℝ) x => fun j k =>
    if j = x.2 then cache j k + (seg rhs x.1 ᵥ* m.jac x.1 x.2) k else cache j k) 0)

/-- `computePseudoInverseJacobian` (lines 978-1003): members, and `pij_`. `svd_.solve` is the product by the
pseudo-inverse. -/
noncomputable def Moe.pinvJacobian (f : Moe p c) (svdOf : Matrix (Fin (p * 3)) (Fin c) ℝ → Svd ℝ (p * 3) c) (w : World ℝ n)
    (m : MMem n p c) (rhs : Fin (p * 3) → ℝ) : MMem n p c × Matrix (Fin c) (Fin n) ℝ :=
  let m := f.computeJac w m
  let m := f.computePinv svdOf w m
  let piTrhs := m.svd.pinv *ᵥ rhs
  let x := f.jacobianTimes w m piTrhs
  let m := x.1
  let pij := -m.pi * x.2
  let pkInv := m.svd.onKernelOfInv true
  let x := f.jacobianTransposeTimes w m (pkInv *ᵥ rhs)
  let m := x.1
  let pij := pij + (m.pi * m.piᵀ) * x.2
  let x := f.jacobianTransposeTimes w m (m.piᵀ *ᵥ piTrhs)
  let m := x.1
  let pk := m.svd.onKernel true
  let pij := pij + pk * x.2
  (m, pij)

/-- `invalidate` (lines 1051-1057) -/
def Moe.invalidate (f : Moe p c) (m : MMem n p c) : MMem n p c :=
  { m with
    st := (cells p c).foldl (fun st x => Sym.invalidate (f.el x.1 x.2) st) m.st
    vV := false, jV := false, svdV := false, piV := false }

/-! ### Specification -/

/-- The matrix of the values of the elements -/
def Moe.mat (f : Moe p c) (w : World ℝ n) : Matrix (Fin (p * 3)) (Fin c) ℝ :=
  fun r j => (f.el (unrow r).1 j).denote w (unrow r).2

/-- Contract of the decomposition: exact, with all the singular vectors. -/
structure SvdContract (svdOf : Matrix (Fin (p * 3)) (Fin c) ℝ → Svd ℝ (p * 3) c) : Prop where
  exact : ∀ A, (svdOf A).Exact A
  fullU : ∀ A, (svdOf A).U * (svdOf A).Uᵀ = 1
  fullV : ∀ A, (svdOf A).V * (svdOf A).Vᵀ = 1

/-- Nodes of the elements -/
def Moe.S (f : Moe p c) (a : Expr ℝ) : Prop := ∃ i j, Sub a (f.el i j)

/-- Elements that the code handles, with consistent addresses. -/
structure Moe.Wf (f : Moe p c) : Prop where
  addr : ∀ {a b : Expr ℝ}, f.S a → f.S b → a.id = b.id → a = b
  handled : ∀ i j, (f.el i j).Handled

/-- Elements just after their construction, or later -/
def Moe.Built (f : Moe p c) (m : MMem n p c) : Prop := ∀ i j, Constructed m.st (f.el i j)

end Hpp.Stab
