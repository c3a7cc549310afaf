import Verif.Pose.Setters
import Verif.Pose.RelTransf
import Verif.Com.Relative
import Verif.Explicit.ImplicitFn

/-!
# Serialization of the functions

Sources: `serialize` of the functions that have one: `/repo/src/differentiable-function.cc`, `/repo/src/affine-function.cc`,
`/repo/src/relative-com.cc`, `/repo/src/generic-transformation.cc`, `/repo/src/explicit/implicit-function.cc`,
`/repo/src/explicit/relative-transformation.cc`; `/repo/src/serialization.hh`, `/repo/include/hpp/constraints/serialization.hh`.

As in boost, the same function writes and reads: with an output archive, `ar & x` appends `x`, with an input archive it takes the
first element that was not read yet and assigns it to `x`.

Simplifications: an archive is a list of tokens (the format of the file and the names of the elements are not modelled); robots, center
of mass computations and joints are tokens, restored by `hpp-pinocchio` (external); weak pointers are not modelled; scalars are real
numbers.
-/

namespace Hpp.FArch

open Hpp Hpp.Sym Hpp.Pose Hpp.Explicit

/-- Elements of an archive -/
inductive Tok
  | nat (n : Nat)
  | bool (b : Bool)
  | bits (l : List Bool)
  | str (s : String)
  | space (l : List LieKind)
  | robot (i : Nat)
  | comc (i : Nat)
  | joint (j : Option Nat)
  | pose (M : SE3 ℝ)
  | vec3 (v : V3 ℝ)
  | vec (v : List ℝ)
  | mat (m : List (List ℝ))
  | segs (l : Segs)

/-- An archive: what has been written so far (`saving`), or what remains to be read -/
structure Ar where
  saving : Bool
  toks : List Tok

/-- `ar & member`: function that may read or modify the archive and the object.  `none`: error of the archive -/
abbrev Ser (σ : Type) := Ar → σ → Option (Ar × σ)

variable {σ β : Type}

/-- `ar & x` for a member stored in one element -/
def prim (enc : β → Tok) (dec : Tok → Option β) : Ser β := fun ar x =>
  if ar.saving then some (⟨true, ar.toks ++ [enc x]⟩, x)
  else match ar.toks with
    | [] => none
    | t :: ts => (dec t).map fun y => (⟨false, ts⟩, y)

/-- A member of an object -/
def field (m : Ser β) (get : σ → β) (set : σ → β → σ) : Ser σ := fun ar x =>
  (m ar (get x)).map fun p => (p.1, set x p.2)

/-- A pointer to an object: the object is created by the default constructor (`blank`) when it is read -/
def object (m : Ser β) (blank : β) : Ser β := fun ar x => m ar (if ar.saving then x else blank)

/-- Statements in sequence -/
def seqs : List (Ser σ) → Ser σ
  | [] => fun ar x => some (ar, x)
  | s :: l => fun ar x => (s ar x).bind fun p => seqs l p.1 p.2

/-- `if (c) ...` -/
def when (c : σ → Bool) (s : Ser σ) : Ser σ := fun ar x => if c x then s ar x else some (ar, x)

/-- `if (!Archive::is_saving::value) ...` -/
def onLoad (f : σ → σ) : Ser σ := fun ar x => if ar.saving then some (ar, x) else some (ar, f x)

def sNat : Ser Nat := prim .nat fun | .nat n => some n | _ => none
def sBool : Ser Bool := prim .bool fun | .bool n => some n | _ => none
def sBits : Ser (List Bool) := prim .bits fun | .bits n => some n | _ => none
def sStr : Ser String := prim .str fun | .str n => some n | _ => none
def sSpace : Ser (List LieKind) := prim .space fun | .space n => some n | _ => none
def sRobot : Ser Nat := prim .robot fun | .robot n => some n | _ => none
def sComc : Ser Nat := prim .comc fun | .comc n => some n | _ => none
def sPose : Ser (SE3 ℝ) := prim .pose fun | .pose n => some n | _ => none
def sVec3 : Ser (V3 ℝ) := prim .vec3 fun | .vec3 n => some n | _ => none
def sVec : Ser (List ℝ) := prim .vec fun | .vec n => some n | _ => none
def sMat : Ser (List (List ℝ)) := prim .mat fun | .mat n => some n | _ => none
def sSegs : Ser Segs := prim .segs fun | .segs n => some n | _ => none

/-- A pointer to a joint -/
def sJointPtr : Ser (Option Nat) := prim .joint fun | .joint n => some n | _ => none

/-- `serialize_joint` (src/serialization.hh:7-14) -/
def serializeJoint : Ser (Option Nat) := fun ar j =>
  let joint : Option Nat := if ar.saving then j else none
  (sJointPtr ar joint).map fun p => (p.1, if p.1.saving then j else p.2)

/-- `n` elements of a vector that is read -/
def readN (m : Ser β) (blank : β) : Nat → Ar → Option (Ar × List β)
  | 0, ar => some (ar, [])
  | n + 1, ar => (m ar blank).bind fun p => (readN m blank n p.1).map fun r => (r.1, p.2 :: r.2)

/-- The elements of a vector that is written -/
def writeAll (m : Ser β) : List β → Ar → Option Ar
  | [], ar => some ar
  | x :: l, ar => (m ar x).bind fun p => writeAll m l p.1

/-- `ar & std::vector` (boost, external): number of elements and elements -/
def sVector (m : Ser β) (blank : β) : Ser (List β) := fun ar l =>
  (sNat ar l.length).bind fun p =>
    if p.1.saving then (writeAll m l p.1).map fun a => (a, l) else readN m blank p.2 p.1

/-- `RowBlockIndices`, `ColBlockIndices` (matrix-view.hh:168-198, 693-698, 801): one of the vectors of segments is an empty structure -/
structure Idx where
  nbRows : Nat
  nbCols : Nat
  segs : Segs

/-- `MatrixBlocks<false, false>` -/
structure MBlk where
  nbRows : Nat
  nbCols : Nat
  rows : Segs
  cols : Segs

/-- `serialize` of `MatrixBlocks` (include/hpp/constraints/serialization.hh:40-57) when the indices have one dimension -/
def Idx.serialize : Ser Idx := seqs [
  field sNat Idx.nbRows (fun x v => { x with nbRows := v }),
  field sNat Idx.nbCols (fun x v => { x with nbCols := v }),
  field sSegs Idx.segs (fun x v => { x with segs := v })]

/-- `serialize` of `MatrixBlocks` (include/hpp/constraints/serialization.hh:40-57) -/
def MBlk.serialize : Ser MBlk := seqs [
  field sNat MBlk.nbRows (fun x v => { x with nbRows := v }),
  field sNat MBlk.nbCols (fun x v => { x with nbCols := v }),
  field sSegs MBlk.rows (fun x v => { x with rows := v }),
  field sSegs MBlk.cols (fun x v => { x with cols := v })]

/-- Default constructors (matrix-view.hh:552) -/
def Idx.blank : Idx := ⟨0, 0, []⟩
def MBlk.blank : MBlk := ⟨0, 0, [], []⟩

/-- `RowBlockIndices(segments)` (matrix-view.hh:590-594) -/
def Idx.rows (l : Segs) : Idx := ⟨cardinal l, 0, l⟩

/-- `ColBlockIndices(segments)` (matrix-view.hh:590-594) -/
def Idx.cols (l : Segs) : Idx := ⟨0, cardinal l, l⟩

/-- `MatrixBlocks(rows, cols)` (matrix-view.hh:558-562) -/
def MBlk.new (r c : Segs) : MBlk := ⟨cardinal r, cardinal c, r, c⟩

/-! ### Base class -/

/-- Members of `DifferentiableFunction` (differentiable-function.hh:237-258) -/
structure Base where
  inputSize : Nat
  inputDer : Nat
  space : List LieKind
  activeQ : List Bool
  activeV : List Bool
  name : String
  context : String

def nqOf (l : List LieKind) : Nat := (l.map LieKind.nq).sum

/-- Constructors (differentiable-function.cc:232-251) -/
def Base.new (nq nv : Nat) (space : List LieKind) (name : String) : Base :=
  ⟨nq, nv, space, List.replicate nq true, List.replicate nv true, name, ""⟩

/-- The vectors of flags have the sizes of the arguments: no function changes these sizes. -/
structure Base.Sized (b : Base) : Prop where
  q : b.activeQ.length = b.inputSize
  v : b.activeV.length = b.inputDer

/-- `DifferentiableFunction ()`: the sizes are not initialized (differentiable-function.hh:267), the vectors are empty -/
def Base.blank (n k : Nat) : Base := ⟨n, k, [], [], [], "", ""⟩

/-- `DifferentiableFunction::serialize` (differentiable-function.cc:258-270) -/
def Base.serialize : Ser Base := seqs [
  field sNat Base.inputSize (fun x v => { x with inputSize := v }),
  field sNat Base.inputDer (fun x v => { x with inputDer := v }),
  field sSpace Base.space (fun x v => { x with space := v }),
  when (fun b => decide (0 < b.inputSize)) (field sBits Base.activeQ (fun x v => { x with activeQ := v })),
  when (fun b => decide (0 < b.inputDer)) (field sBits Base.activeV (fun x v => { x with activeV := v })),
  field sStr Base.name (fun x v => { x with name := v }),
  field sStr Base.context (fun x v => { x with context := v })]

/-! ### Affine functions -/

structure AffineObj where
  base : Base
  J : List (List ℝ)
  b : List ℝ

/-- `AffineFunction::serialize` (affine-function.cc:46-51) -/
def AffineObj.serialize : Ser AffineObj := seqs [
  field Base.serialize AffineObj.base (fun x v => { x with base := v }),
  field sMat AffineObj.J (fun x v => { x with J := v }),
  field sVec AffineObj.b (fun x v => { x with b := v })]

structure ConstantObj where
  base : Base
  c : List ℝ
  cSpace : List LieKind

/-- `ConstantFunction::serialize` (affine-function.cc:55-59): an element of a Lie group is a vector and a space -/
def ConstantObj.serialize : Ser ConstantObj := seqs [
  field Base.serialize ConstantObj.base (fun x v => { x with base := v }),
  field sVec ConstantObj.c (fun x v => { x with c := v }),
  field sSpace ConstantObj.cSpace (fun x v => { x with cSpace := v })]

structure IdentityObj where
  base : Base

/-- `Identity::serialize` (affine-function.cc:38-41) -/
def IdentityObj.serialize : Ser IdentityObj := seqs [
  field Base.serialize IdentityObj.base (fun x v => { x with base := v })]

/-! ### Relative center of mass -/

/-- Members of `RelativeCom` (relative-com.hh:120-126) -/
structure RelComObj where
  base : Base
  robot : Nat
  comc : Nat
  joint : Option Nat
  reference : V3 ℝ
  mask : List Bool
  nominal : Bool

/-- Constructor (relative-com.cc:87-102) -/
def RelComObj.of (base : Base) (robot : Nat) (f : Com.RelCom) : RelComObj :=
  ⟨base, robot, f.comc, some f.joint, f.reference, f.mask, f.mask.getD 0 false && f.mask.getD 1 false && f.mask.getD 2 false⟩

/-- `RelativeCom::serialize` (relative-com.cc:175-187) -/
def RelComObj.serialize : Ser RelComObj := seqs [
  field Base.serialize RelComObj.base (fun x v => { x with base := v }),
  field sRobot RelComObj.robot (fun x v => { x with robot := v }),
  field sComc RelComObj.comc (fun x v => { x with comc := v }),
  field sJointPtr RelComObj.joint (fun x v => { x with joint := v }),
  field sVec3 RelComObj.reference (fun x v => { x with reference := v }),
  field sBits RelComObj.mask (fun x v => { x with mask := v }),
  onLoad (fun x => { x with nominal := x.mask.getD 0 false && x.mask.getD 1 false && x.mask.getD 2 false })]

/-! ### Generic transformations -/

/-- Members of `GenericTransformation` (generic-transformation.hh:361-365) and of its model `m_`
(generic-transformation.hh:44-52, 77-81).  The first four fields are the parameters of the template. -/
structure GTObj where
  rel : Bool
  pos : Bool
  ori : Bool
  ose3 : Bool
  base : Base
  robot : Nat
  joint1 : Option Nat
  joint2 : Option Nat
  R1isID : Bool
  R2isID : Bool
  t1isZero : Bool
  t2isZero : Bool
  F1 : SE3 ℝ
  F2 : SE3 ℝ
  fullPos : Bool
  fullOri : Bool
  rowOri : Nat
  cols : Nat
  vind : Idx
  mask : List Bool

/-- `liegroupSpace` (generic-transformation.cc:43-64); `none`: exception -/
def liegroupSpace (ose3 : Bool) (mask : List Bool) : Option (List LieKind) :=
  if ose3 then
    match mask.count true - 3 with
    | 0 => some [.other 4 3]
    | 1 => some [.other 1 1, .other 4 3]
    | 2 => some [.other 2 2, .other 4 3]
    | 3 => some [.r3so3]
    | _ => none
  else some [.other (mask.count true) (mask.count true)]

/-- The object in the state `s` (see `Verif.Pose.Setters`): `Vindices_` and what follows are those of the constructor
(generic-transformation.cc:180-207); `nv`: number of degrees of freedom without the extra ones, `name` the name of the function -/
def GTObj.of (s : GTS) (space : List LieKind) (robot nv : Nat) (name context : String) : GTObj where
  rel := s.g.rel
  pos := s.g.pos
  ori := s.g.ori
  ose3 := s.g.ose3
  base := ⟨s.active.1.length, s.active.2.length, space, s.active.1, s.active.2, name, context⟩
  robot := robot
  joint1 := s.g.joint1
  joint2 := s.g.joint2
  R1isID := s.R1isID
  R2isID := s.R2isID
  t1isZero := s.t1isZero
  t2isZero := s.t2isZero
  F1 := s.g.F1
  F2 := s.g.F2
  fullPos := s.g.fullPos
  fullOri := s.g.fullOri
  rowOri := s.g.rowOri
  cols := nv
  vind := .rows (fromLogical s.g.valueMask)
  mask := s.g.mask

/-- The members as a state of `Verif.Pose.Setters` -/
def GTObj.state (o : GTObj) : GTS where
  g := ⟨o.rel, o.pos, o.ori, o.ose3, o.joint1, o.joint2, o.F1, o.F2, o.mask⟩
  R1isID := o.R1isID
  R2isID := o.R2isID
  t1isZero := o.t1isZero
  t2isZero := o.t2isZero
  active := (o.base.activeQ, o.base.activeV)

/-- `serialize` of `GenericTransformationModel` (generic-transformation.cc:329-355): the joint 1 is a member of the relative model
only. -/
def GTObj.serializeModel : Ser GTObj := seqs [
  field serializeJoint GTObj.joint2 (fun x v => { x with joint2 := v }),
  field sBool GTObj.R1isID (fun x v => { x with R1isID := v }),
  field sBool GTObj.R2isID (fun x v => { x with R2isID := v }),
  field sBool GTObj.t1isZero (fun x v => { x with t1isZero := v }),
  field sBool GTObj.t2isZero (fun x v => { x with t2isZero := v }),
  field sPose GTObj.F1 (fun x v => { x with F1 := v }),
  field sPose GTObj.F2 (fun x v => { x with F2 := v }),
  field sBool GTObj.fullPos (fun x v => { x with fullPos := v }),
  field sBool GTObj.fullOri (fun x v => { x with fullOri := v }),
  field sNat GTObj.rowOri (fun x v => { x with rowOri := v }),
  field sNat GTObj.cols (fun x v => { x with cols := v }),
  when GTObj.rel (field serializeJoint GTObj.joint1 (fun x v => { x with joint1 := v }))]

/-- `GenericTransformation::serialize` (generic-transformation.cc:281-292): `Vindices_` is not written. -/
def GTObj.serialize : Ser GTObj := seqs [
  field Base.serialize GTObj.base (fun x v => { x with base := v }),
  field sRobot GTObj.robot (fun x v => { x with robot := v }),
  GTObj.serializeModel,
  field sBits GTObj.mask (fun x v => { x with mask := v })]

/-- `GenericTransformation () : m_ (0)` (generic-transformation.hh:367, 55-67, 82-83) of an instance of the template; the members that
are not initialized are arguments -/
def GTObj.blank (rel pos ori ose3 : Bool) (n k robot rowOri : Nat) (fullPos fullOri : Bool) : GTObj where
  rel := rel
  pos := pos
  ori := ori
  ose3 := ose3
  base := .blank n k
  robot := robot
  joint1 := none
  joint2 := none
  R1isID := true
  R2isID := true
  t1isZero := true
  t2isZero := true
  F1 := SE3.one
  F2 := SE3.one
  fullPos := fullPos
  fullOri := fullOri
  rowOri := rowOri
  cols := 0
  vind := .blank
  mask := []

/-- `impl_compute` (generic-transformation.cc:219-233) with the indices that are stored.  `none`: the result has not the size of the
view assigned to it (assertion of Eigen in debug mode, undefined otherwise) -/
noncomputable def GTObj.value (o : GTObj) (quat : M3 ℝ → List ℝ) (M : Nat → SE3 ℝ) : Option (List ℝ) :=
  if o.vind.nbRows = nqOf o.base.space then some (lread (o.state.rawValue quat M) o.vind.segs) else none

/-! ### Explicit relative transformation -/

/-- Members of `explicit_::RelativeTransformation` (explicit/relative-transformation.hh:163-173).  `q_`, `tmpJac_`, ... are assigned
before each use. -/
structure RelTrObj where
  base : Base
  robot : Nat
  parent : Option Nat
  joint1 : Option Nat
  joint2 : Option Nat
  F1 : SE3 ℝ
  F2 : SE3 ℝ
  inConf : Idx
  inVel : Idx
  outConf : Idx
  outVel : Idx
  F12 : SE3 ℝ

/-- Constructor (explicit/relative-transformation.cc:103-122) -/
def RelTrObj.of (f : RelTr) (robot : Nat) (name : String) : RelTrObj where
  base := .new (cardinal f.inConf) (cardinal f.inVel) [.se3] name
  robot := robot
  parent := some (f.robot.parent f.joint2)
  joint1 := f.joint1
  joint2 := some f.joint2
  F1 := f.F1
  F2 := f.F2
  inConf := .rows f.inConf
  inVel := .cols f.inVel
  outConf := .rows f.outConf
  outVel := .rows (f.robot.outVel f.joint2)
  F12 := f.F1F2inv

/-- `explicit_::RelativeTransformation::serialize` (explicit/relative-transformation.cc:246-265) -/
def RelTrObj.serialize : Ser RelTrObj := seqs [
  field Base.serialize RelTrObj.base (fun x v => { x with base := v }),
  field sRobot RelTrObj.robot (fun x v => { x with robot := v }),
  field serializeJoint RelTrObj.parent (fun x v => { x with parent := v }),
  field serializeJoint RelTrObj.joint1 (fun x v => { x with joint1 := v }),
  field serializeJoint RelTrObj.joint2 (fun x v => { x with joint2 := v }),
  field sPose RelTrObj.F1 (fun x v => { x with F1 := v }),
  field sPose RelTrObj.F2 (fun x v => { x with F2 := v }),
  field Idx.serialize RelTrObj.inConf (fun x v => { x with inConf := v }),
  field Idx.serialize RelTrObj.inVel (fun x v => { x with inVel := v }),
  field Idx.serialize RelTrObj.outConf (fun x v => { x with outConf := v }),
  field Idx.serialize RelTrObj.outVel (fun x v => { x with outVel := v }),
  field sPose RelTrObj.F12 (fun x v => { x with F12 := v })]

/-! ### Implicit function of an explicit constraint -/

/-- Sizes of the buffers `qIn_`, `f_qIn_`, `qOut_`, `result_`, `Jf_` -/
structure Buffers where
  qIn : Nat
  fqIn : Nat
  qOut : Nat
  result : Nat
  JfRows : Nat
  JfCols : Nat
deriving DecidableEq

/-- Members of `ImplicitFunction` (explicit/implicit-function.hh:130-144) -/
structure ImplObj (φ : Type) where
  base : Base
  robot : Option Nat
  f : φ
  inConf : Idx
  outConf : Idx
  inVel : Idx
  outVel : Idx
  outJac : List MBlk
  inJac : List MBlk
  buf : Buffers

/-- Sizes given to the buffers (explicit/implicit-function.cc:181-184, 287-292) -/
def buffersOf (out f : Base) : Buffers :=
  ⟨f.inputSize, nqOf f.space, nqOf f.space, nqOf out.space, (f.space.map LieKind.nv).sum, f.inputDer⟩

/-- Constructor (explicit/implicit-function.cc:164-207): `robot_` is not set.  The Jacobian blocks are those of
`computeJacobianBlocks`. -/
def ImplObj.of {φ : Type} (baseOf : φ → Base) (base : Base) (f : φ) (inConf outConf inVel outVel : Segs) : ImplObj φ where
  base := base
  robot := none
  f := f
  inConf := .rows inConf
  outConf := .rows outConf
  inVel := .rows inVel
  outVel := .rows outVel
  outJac := (jacobianBlocks inVel (baseOf f).space 0 outVel).map fun b => .new b.rows b.outCols
  inJac := (jacobianBlocks inVel (baseOf f).space 0 outVel).map fun b => .new b.rows b.inCols
  buf := buffersOf base (baseOf f)

/-- `ImplicitFunction::serialize` (explicit/implicit-function.cc:272-295).  `inner`: `serialize` of the class of the function given,
`fblank`: its default constructor. -/
def ImplObj.serialize {φ : Type} (inner : Ser φ) (fblank : φ) (baseOf : φ → Base) : Ser (ImplObj φ) := seqs [
  field Base.serialize ImplObj.base (fun x v => { x with base := v }),
  field (object inner fblank) ImplObj.f (fun x v => { x with f := v }),
  field Idx.serialize ImplObj.inConf (fun x v => { x with inConf := v }),
  field Idx.serialize ImplObj.outConf (fun x v => { x with outConf := v }),
  field Idx.serialize ImplObj.inVel (fun x v => { x with inVel := v }),
  field Idx.serialize ImplObj.outVel (fun x v => { x with outVel := v }),
  field (sVector MBlk.serialize .blank) ImplObj.outJac (fun x v => { x with outJac := v }),
  field (sVector MBlk.serialize .blank) ImplObj.inJac (fun x v => { x with inJac := v }),
  onLoad (fun x => { x with buf := buffersOf x.base (baseOf x.f) })]

/-! ### Specification -/

/-- The object `x` is written wherever the archive stands, without being changed, and what is read back, from an archive that may go
on with other objects, into an object built by the default constructor, is `x'`; exactly what was written is read. -/
def Restores (s : Ser σ) (blank x x' : σ) : Prop :=
  ∃ w : List Tok, (∀ pre, s ⟨true, pre⟩ x = some (⟨true, pre ++ w⟩, x)) ∧
    ∀ rest, s ⟨false, w ++ rest⟩ blank = some (⟨false, rest⟩, x')

end Hpp.FArch
