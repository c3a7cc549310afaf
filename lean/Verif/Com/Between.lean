import Verif.Com.Relative

/-!
# Center of mass between the feet

Model of `ComBetweenFeet`. Sources: `/repo/src/com-between-feet.cc`, `/repo/include/hpp/constraints/com-between-feet.hh`.

The function contains symbolic expressions (`Verif.Sym.Model`) the nodes of which keep their members from one evaluation to
the next.
-/

namespace Hpp.Com

open Matrix Hpp.Sym Hpp.Pose

variable {n e : Nat}

/-- Arguments of the constructor (com-between-feet.cc:73-80) -/
structure Between where
  jL : Nat
  jR : Nat
  pL : V3 ℝ
  pR : V3 ℝ
  jRef : Nat
  pRef : V3 ℝ
  comc : Nat
  mask : List Bool

/-! Expressions built by the constructor (com-between-feet.cc:84-98); numbers are the addresses of the nodes, shared as in
the code. -/

def Between.com (f : Between) : Expr ℝ := .leaf 0 (.com f.comc)
def Between.left (f : Between) : Expr ℝ := .leaf 1 (.pointIn f.jL f.pL)
def Between.right (f : Between) : Expr ℝ := .leaf 2 (.pointIn f.jR f.pR)
def Between.u (f : Between) : Expr ℝ := .bin 3 .diff f.right f.left
def Between.xmxl (f : Between) : Expr ℝ := .bin 4 .diff f.com f.left
def Between.xmxr (f : Between) : Expr ℝ := .bin 5 .diff f.com f.right
noncomputable def Between.ecrossu (f : Between) : Expr ℝ :=
  .bin 6 .cross (.bin 7 .diff f.com (.un 8 (.smul (1 / 2)) (.bin 9 .sum f.left f.right))) f.u
noncomputable def Between.expr (f : Between) : Expr ℝ := .un 10 (.rot true f.jRef) f.ecrossu

/-- Members that change: nodes, and the two scalar products. -/
structure BMem (n : Nat) where
  st : St ℝ n
  dl : DotCache ℝ n
  dr : DotCache ℝ n

/-- State of an evaluation: members, result (`β`: number, or row), `index`. -/
structure BRun (n : Nat) (β : Type) where
  mem : BMem n
  out : Nat → β
  index : Nat

def Between.m (f : Between) (i : Nat) : Bool := f.mask.getD i false

/-- `impl_compute` (com-between-feet.cc:102-127): the four blocks -/
def Between.value0 (f : Between) (w : World ℝ n) (s : BRun n ℝ) : BRun n ℝ :=
  if f.m 0 then
    let st := computeValue w f.com (invalidate f.com s.mem.st)
    ⟨{ s.mem with st := st }, Function.update s.out s.index (((st 0).value - f.pRef) 2), s.index + 1⟩
  else s

noncomputable def Between.value1 (f : Between) (w : World ℝ n) (s : BRun n ℝ) : BRun n ℝ :=
  if f.m 1 then
    let st := computeValue w f.expr (invalidate f.expr s.mem.st)
    ⟨{ s.mem with st := st }, Function.update s.out s.index ((st 10).value 2), s.index + 1⟩
  else s

def Between.value2 (f : Between) (w : World ℝ n) (s : BRun n ℝ) : BRun n ℝ :=
  if f.m 2 then
    let x := dotValue w f.xmxl f.u (dotInvalidate f.xmxl f.u (s.mem.st, s.mem.dl))
    ⟨{ s.mem with st := x.1, dl := x.2 }, Function.update s.out s.index x.2.value, s.index + 1⟩
  else s

def Between.value3 (f : Between) (w : World ℝ n) (s : BRun n ℝ) : BRun n ℝ :=
  if f.m 3 then
    let x := dotValue w f.xmxr f.u (dotInvalidate f.xmxr f.u (s.mem.st, s.mem.dr))
    ⟨{ s.mem with st := x.1, dr := x.2 }, Function.update s.out s.index x.2.value, s.index⟩
  else s

noncomputable def Between.value (f : Between) (w : World ℝ n) (m : BMem n) (out : Nat → ℝ) : BRun n ℝ :=
  f.value3 w (f.value2 w (f.value1 w (f.value0 w ⟨m, out, 0⟩)))

/-- `impl_jacobian` (com-between-feet.cc:129-159): the four blocks. Only the left columns of the rows are written. -/
noncomputable def Between.jac0 (f : Between) (w : World ℝ n) (s : BRun n (Fin n ⊕ Fin e → ℝ)) : BRun n (Fin n ⊕ Fin e → ℝ) :=
  if f.m 0 then
    let st := computeJac w f.com (invalidate f.com s.mem.st)
    ⟨{ s.mem with st := st }, writeRow s.out s.index ((st 0).jac 2), s.index + 1⟩
  else s

noncomputable def Between.jac1 (f : Between) (w : World ℝ n) (s : BRun n (Fin n ⊕ Fin e → ℝ)) : BRun n (Fin n ⊕ Fin e → ℝ) :=
  if f.m 1 then
    let st := computeJac w f.expr (invalidate f.expr s.mem.st)
    ⟨{ s.mem with st := st }, writeRow s.out s.index ((st 10).jac 2), s.index + 1⟩
  else s

noncomputable def Between.jac2 (f : Between) (w : World ℝ n) (s : BRun n (Fin n ⊕ Fin e → ℝ)) : BRun n (Fin n ⊕ Fin e → ℝ) :=
  if f.m 2 then
    let x := dotJac w f.xmxl f.u (dotInvalidate f.xmxl f.u (s.mem.st, s.mem.dl))
    ⟨{ s.mem with st := x.1, dl := x.2 }, writeRow s.out s.index x.2.jac, s.index + 1⟩
  else s

noncomputable def Between.jac3 (f : Between) (w : World ℝ n) (s : BRun n (Fin n ⊕ Fin e → ℝ)) : BRun n (Fin n ⊕ Fin e → ℝ) :=
  if f.m 3 then
    let x := dotJac w f.xmxr f.u (dotInvalidate f.xmxr f.u (s.mem.st, s.mem.dr))
    ⟨{ s.mem with st := x.1, dr := x.2 }, writeRow s.out s.index x.2.jac, s.index⟩
  else s

noncomputable def Between.jacobian (f : Between) (w : World ℝ n) (m : BMem n) (J : Rows2 n e) : BRun n (Fin n ⊕ Fin e → ℝ) :=
  f.jac3 w (f.jac2 w (f.jac1 w (f.jac0 w ⟨m, J, 0⟩)))

/-! ### Specification -/

/-- The four components (com-between-feet.hh:49-66), without the expressions: height of the center of mass, distance (up to
the norm) to the line between the feet in the horizontal plane of the reference joint, abscissas along this line. -/
noncomputable def Between.component (f : Between) (w : World ℝ n) (i : Nat) : ℝ :=
  let x := w.com f.comc
  let xL := w.R f.jL *ᵥ f.pL + w.p f.jL
  let xR := w.R f.jR *ᵥ f.pR + w.p f.jR
  match i with
  | 0 => x 2 - f.pRef 2
  | 1 => ((w.R f.jRef)ᵀ *ᵥ crossProduct (x - (1 / 2 : ℝ) • (xL + xR)) (xR - xL)) 2
  | 2 => (x - xL) ⬝ᵥ (xR - xL)
  | _ => (x - xR) ⬝ᵥ (xR - xL)

end Hpp.Com
