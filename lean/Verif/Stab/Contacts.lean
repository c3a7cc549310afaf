import Verif.Stab.MoeProps

/-!
# Matrix of the wrenches of contact forces

Sources: constructors of `StaticStability` (`/repo/src/static-stability.cc`, lines 47-78) and of `QPStaticStability`
(`/repo/src/qp-static-stability.cc`, lines 56-135).
-/

namespace Hpp.Stab

open Matrix Hpp.Sym

variable {n : Nat}

/-- `Contact_t` (static-stability.hh:49-59) -/
structure ContactPt where
  joint : Nat
  point : V3 ℝ
  normal : V3 ℝ

/-- `ForceData` (convex-shape-contact.hh:130-136): joint, points, normal. -/
structure Forces where
  joint : Nat
  points : List (V3 ℝ)
  normal : V3 ℝ

/-- A column of the matrix: contact, and number of the object that represents the normal (several columns may share it). -/
structure Col where
  contact : ContactPt
  grp : Nat

/-- Columns for a vector of contacts (static-stability.cc:69-77, qp-static-stability.cc:84-92) -/
def colsOfContacts (l : List ContactPt) : List Col := l.zipIdx.map fun x => ⟨x.1, x.2⟩

/-- Columns for a vector of force data (qp-static-stability.cc:123-134): one normal for all the points. -/
def colsOfForces (l : List Forces) : List Col :=
  l.zipIdx.flatMap fun x => x.1.points.map fun P => ⟨⟨x.1.joint, P, x.1.normal⟩, x.2⟩

/-! Nodes, with their addresses (static-stability.cc:68-76, qp-static-stability.cc:83-91, 121-131) -/

def nodeOG (com : Nat) : Expr ℝ := .leaf 0 (.com com)
def nodeN (x : Col) : Expr ℝ := .leaf (4 * x.grp + 1) (.vectorIn x.contact.joint x.contact.normal)
def nodeOP (i : Nat) (x : Col) : Expr ℝ := .leaf (4 * i + 4) (.pointIn x.contact.joint x.contact.point)
def nodeDiff (com i : Nat) (x : Col) : Expr ℝ := .bin (4 * i + 3) .diff (nodeOG com) (nodeOP i x)
def nodeCross (com i : Nat) (x : Col) : Expr ℝ := .bin (4 * i + 2) .cross (nodeDiff com i x) (nodeN x)

/-- `phi_` -/
def phi (com : Nat) (l : List Col) : Moe 2 l.length where
  el := fun i j => if i = 0 then nodeN l[j] else nodeCross com j l[j]

/-- `Gravity` (static-stability.cc:44-45, qp-static-stability.cc:51-52) -/
def gravity : Fin (2 * 3) → ℝ := fun r => if r = 2 then -1 else 0

/-- `MinusGravity` (qp-static-stability.cc:53-54) -/
def minusGravity : Fin (2 * 3) → ℝ := fun r => if r = 2 then 1 else 0

/-! ### Specification -/

/-- Position of a contact point, normal, in the world -/
def ContactPt.pos (x : ContactPt) (w : World ℝ n) : V3 ℝ := w.R x.joint *ᵥ x.point + w.p x.joint
def ContactPt.nrm (x : ContactPt) (w : World ℝ n) : V3 ℝ := w.R x.joint *ᵥ x.normal

/-- Resultant of the forces of intensities `F` along the normals and of a unit weight -/
def resultant (l : List Col) (w : World ℝ n) (F : Fin l.length → ℝ) : V3 ℝ :=
  (∑ j, F j • l[j].contact.nrm w) - ![0, 0, 1]

/-- Moment about the center of mass of the forces -/
def moment (com : Nat) (l : List Col) (w : World ℝ n) (F : Fin l.length → ℝ) : V3 ℝ :=
  ∑ j, F j • crossProduct (l[j].contact.pos w - w.com com) (l[j].contact.nrm w)

/-- The forces balance gravity. -/
def Balanced (com : Nat) (l : List Col) (w : World ℝ n) (F : Fin l.length → ℝ) : Prop :=
  resultant l w F = 0 ∧ moment com l w F = 0

end Hpp.Stab
