import Verif.Segments.Model
import Mathlib.Algebra.Group.Defs
import Mathlib.Algebra.Ring.Defs

/-!
# Model of the comparison of functions

Sources: `/repo/src/differentiable-function.cc`, lines 214-224 (`operator==`); `isEqual` of the class
`DifferentiableFunction` (differentiable-function.hh:223-230) and of the classes derived from it, see each case of
`isEqual`.

A function object is made of the members of the base class and of those of its class that determine its values, or that
are compared.  Pointers are addresses (`Nat`); what is found at an address is given by a `World`, as well as what
depends on a robot.  Values are on vector spaces.  All the classes of functions of the library that define `isEqual`
are modelled, and `ExtractedFunction`, which does not.
-/

namespace Hpp.FnEq

/-- The contact function that a complement points to (`sibling_`): members of the base class, robot, shapes. -/
structure Sib (α : Type) where
  name : String
  inputSize : Nat
  inputDer : Nat
  space : Nat
  robot : Nat
  floors : List (Nat × List (List α))
  objects : List (Nat × List (List α))

/-- Members of each class. -/
inductive Cls (α : Type) where
  | identity
  | affine (J : List (List α)) (b : List α)
  | constant (c : List α)
  | subset (g : Nat) (sa sd : Seg)
  | difference (g : Nat) (lsa lsd rsa rsd : Seg)
  | activeSet (g : Nat) (intervals : Segs)
  | extracted (g : Nat) (reversed : Bool) (t1 : α)
  | set (fs : List Nat) (results : List (List α))
  | implicit (g : Nat) (inQ outQ inV outV : Segs)
  | symbolic (kind robot expr : Nat) (mask : List Bool)
  | generic (kind robot joint1 joint2 : Nat) (frame1 frame2 : List α) (mask : List Bool)
  | relativeCom (robot comc joint : Nat) (reference : List α) (mask : List Bool) (nominal : Bool)
  | configuration (robot : Nat) (goal weights : List α)
  | points (robot joint1 joint2 : Nat) (point1 point2 : List α)
  | contact (robot : Nat) (floors objects : List (Nat × List (List α)))
  | feet (robot comc left right ref : Nat) (pointL pointR pointRef : List α) (mask : List Bool)
  | bodies (robot joint1 joint2 : Nat) (active : List Bool) (results : List α)
  | qp (robot comc contacts zeros : Nat)
  | stability (robot comc : Nat) (contacts : List (Nat × List α × List α))
  | manip (g robot : Nat) (cols : Segs) (J JJT : List (List α))
  | relative (robot parent joint1 joint2 : Nat) (frame1 frame2 : List α) (inQ inV outQ outV : Segs) (f12 : List α)
  | complement (sibling : Nat) (at_ : Sib α)
  | hold (constraint complement : Nat)

/-- A function object: members of the base class, members of the class. -/
structure Obj (α : Type) where
  name : String
  inputSize : Nat
  inputDer : Nat
  space : Nat
  cls : Cls α

/-- Outcome of `isEqual`. -/
inductive Res where
  | ok (b : Bool)
  | badCast
  | ub
deriving DecidableEq, Repr

variable {α : Type} [DecidableEq α]

/-- `DifferentiableFunction::isEqual` (differentiable-function.hh:223-230) -/
def baseEq (a b : Obj α) : Bool :=
  decide (a.name = b.name) && decide (a.inputSize = b.inputSize) && decide (a.inputDer = b.inputDer) &&
    decide (a.space = b.space)

/-- Loop of `ConvexShapeContact::isEqual` (convex-shape-contact.cc:77-78): `n` is the number of objects, the shapes
compared are floors; reading out of the vectors is undefined. -/
def floorsEq (fa fb : List (Nat × List (List α))) (n : Nat) : Res :=
  (List.range n).foldl (fun r i => match r with
    | .ok true => match fa[i]?, fb[i]? with
      | some x, some y => .ok (decide (x = y))
      | _, _ => .ub
    | r => r) (.ok true)

/-- `ConvexShapeContact::isEqual` (convex-shape-contact.cc:70-80) after the comparison of the base classes. -/
def contactEq (r : Nat) (f o : List (Nat × List (List α))) (r' : Nat) (f' o' : List (Nat × List (List α))) : Res :=
  if r ≠ r' then .ok false else if o.length ≠ o'.length then .ok false else floorsEq f f' o.length

/-- `*sibling_ == *(castother.sibling_)` (convex-shape-contact.cc:358): the comparison of contacts is symmetric
(`floorsEq_comm`), so that doing it both ways (differentiable-function.cc:214-221) amounts to doing it once. -/
def sibEq (a b : Sib α) : Res :=
  if a.name = b.name ∧ a.inputSize = b.inputSize ∧ a.inputDer = b.inputDer ∧ a.space = b.space then
    contactEq a.robot a.floors a.objects b.robot b.floors b.objects
  else .ok false

/-- Dimensions of a matrix given by its rows. -/
def sameSize (a b : List (List α)) : Bool := decide (a.map List.length = b.map List.length)

/-- `isEqual` of the classes after the cast and the comparison of the base classes. -/
def memberEq : Cls α → Cls α → Res
  -- affine-function.hh:65-70
  | .identity, .identity => .ok true
  -- affine-function.hh:111-120
  | .affine J b, .affine J' b' => .ok (decide (J = J') && decide (b = b'))
  -- affine-function.hh:181-189
  | .constant c, .constant c' => .ok (!decide (c = c'))
  -- of-parameter-subset.hh:90-100
  | .subset g sa sd, .subset g' sa' sd' => .ok (decide (g = g') && decide (sa = sa') && decide (sd = sd'))
  -- difference.hh:77-88
  | .difference g a b c d, .difference g' a' b' c' d' =>
    .ok (decide (g = g') && decide (a = a') && decide (b = b') && decide (c = c') && decide (d = d'))
  -- active-set-differentiable-function.hh:85-94
  | .activeSet g i, .activeSet g' i' => .ok (decide (g = g') && decide (i = i'))
  -- differentiable-function-set.hh:128-139
  | .set f r, .set f' r' => .ok (decide (f = f') && decide (r.length = r'.length) && decide (r = r'))
  -- explicit/implicit-function.hh:92-109: `rows()` is the vector of intervals
  | .implicit g a b c d, .implicit g' a' b' c' d' =>
    .ok (decide (g = g') && decide (a = a') && decide (b = b') && decide (c = c') && decide (d = d'))
  -- symbolic-function.hh:155-165; `kind`: instance of the template
  | .symbolic k r e m, .symbolic k' r' e' m' =>
    if k ≠ k' then .badCast else .ok (decide (r = r') && decide (e = e') && decide (m = m'))
  -- generic-transformation.hh:349-357
  | .generic k r _ _ _ _ m, .generic k' r' _ _ _ _ m' =>
    if k ≠ k' then .badCast else .ok (decide (r = r') && decide (m = m'))
  -- relative-com.hh:107-118
  | .relativeCom r c j _ m n, .relativeCom r' c' j' _ m' n' =>
    .ok (decide (r = r') && decide (c = c') && decide (j = j') && decide (m = m') && decide (n = n'))
  -- configuration-constraint.hh:84-94
  | .configuration r g w, .configuration r' g' w' => .ok (decide (r = r') && decide (g = g') && decide (w = w'))
  -- distance-between-points-in-bodies.hh:111-123
  | .points r a b c d, .points r' a' b' c' d' =>
    .ok (decide (r = r') && decide (a = a') && decide (b = b') && decide (c = c') && decide (d = d'))
  -- convex-shape-contact.cc:70-80
  | .contact r f o, .contact r' f' o' =>
    contactEq r f o r' f' o'
  -- com-between-feet.hh:107-125
  | .feet r c j1 j2 j3 p1 p2 p3 m, .feet r' c' j1' j2' j3' p1' p2' p3' m' =>
    .ok (decide (r = r') && decide (c = c') && decide (j1 = j1') && decide (j2 = j2') && decide (p1 = p1') &&
      decide (p2 = p2') && decide (j3 = j3') && decide (p3 = p3') && decide (m = m'))
  -- distance-between-bodies.hh:102-113: `data_` holds the active pairs and the results of the last computation
  | .bodies r a b act res, .bodies r' a' b' act' res' =>
    .ok (decide (r = r') && decide (a = a') && decide (b = b') && decide (act = act') && decide (res = res'))
  -- qp-static-stability.hh:95-108: `Zeros` is the address of an array allocated by the constructor
  | .qp r c n z, .qp r' c' n' z' => .ok (decide (r = r') && decide (n = n') && decide (c = c') && decide (z = z'))
  -- static-stability.hh:81-91 and 52-58
  | .stability r c l, .stability r' c' l' => .ok (decide (r = r') && decide (l = l') && decide (c = c'))
  -- manipulability.hh:67-79: the comparison of matrices of different dimensions is undefined
  | .manip g r c J K, .manip g' r' c' J' K' =>
    if !(decide (g = g') && decide (r = r') && decide (c = c')) then .ok false
    else if !sameSize J J' then .ub
    else if !decide (J = J') then .ok false
    else if !sameSize K K' then .ub
    else .ok (decide (K = K'))
  -- explicit/relative-transformation.hh:140-158
  | .relative r p a b f1 f2 iq iv oq ov t, .relative r' p' a' b' f1' f2' iq' iv' oq' ov' t' =>
    .ok (decide (r = r') && decide (p = p') && decide (a = a') && decide (b = b') && decide (f1 = f1') &&
      decide (f2 = f2') && decide (iq = iq') && decide (iv = iv') && decide (oq = oq') && decide (ov = ov') &&
      decide (t = t'))
  -- convex-shape-contact.cc:352-359
  | .complement p s, .complement p' s' => if p = p' then .ok true else sibEq s s'
  -- convex-shape-contact.cc:504-512
  | .hold c d, .hold c' d' => .ok (decide (c = c') && decide (d = d'))
  | _, _ => .badCast

/-- The cast comes first, then the comparison of the base classes, then that of the members. -/
def withBase (base : Bool) : Res → Res
  | .badCast => .badCast
  | r => if base then r else .ok false

/-- `a.isEqual(b)`: the class of `a` determines the method.  `ExtractedFunction` has that of the base class. -/
def isEqual (a b : Obj α) : Res :=
  match a.cls with
  | .extracted .. => .ok (baseEq a b)
  | _ => withBase (baseEq a b) (memberEq a.cls b.cls)

/-- `operator==` (differentiable-function.cc:214-221).  `none`: undefined behaviour. -/
def opEq (a b : Obj α) : Option Bool :=
  match isEqual a b with
  | .badCast => some false
  | .ub => none
  | .ok false => some false
  | .ok true =>
    match isEqual b a with
    | .badCast => some false
    | .ub => none
    | .ok r => some r

/-! ## Values -/

/-- What the objects depend on: functions at each address, symbolic expressions, positions of joints and centers of
mass, and for the last classes the value as a function of all their members. -/
structure World (α : Type) where
  fn : Nat → List α → List α
  expr : Nat → Nat → Nat → List α → List α
  pos : Nat → Nat → List α → List α
  com : Nat → Nat → List α → List α
  config : Nat → List α → List α → List α → List α
  dist : Nat → Nat → Nat → List α → List α → List α → List α
  contact : Nat → List (Nat × List (List α)) → List (Nat × List (List α)) → List α → List α
  feet : Nat → Nat → Nat → Nat → Nat → List α → List α → List α → List α → List α
  bodies : Nat → Nat → Nat → List Bool → List α → List α
  stability : Nat → Nat → List (Nat × List α × List α) → List α → List α
  jac : Nat → List α → List (List α)
  manip : List (List α) → List α
  relative : Nat → Nat → Nat → Nat → List α → List α → Segs → Segs → Segs → List α → List α → List α
  complement : Nat → List (Nat × List (List α)) → List (Nat × List (List α)) → List α → List α

variable [Ring α]

def seg (s : Seg) (x : List α) : List α := (x.drop s.first).take s.len
def pick (s : Segs) (x : List α) : List α := s.flatMap fun i => seg i x
def vadd (a b : List α) : List α := List.zipWith (· + ·) a b
def vsub (a b : List α) : List α := List.zipWith (· - ·) a b
def masked (m : List Bool) (x : List α) : List α := (m.zip x).filterMap fun p => if p.1 then some p.2 else none

/-- `impl_compute` of each class, on vector spaces, and on robots whose joints only translate for `generic`
(generic-transformation/helper.hh) and `relativeCom` (relative-com.cc:112-134).  `ComBetweenFeet` selects among four
values (com-between-feet.cc:103-127); `Manipulability` applies a function to the active columns of a Jacobian
(manipulability.cc:46-60); `ConvexShapeContactHold` concatenates the values (convex-shape-contact.cc:490-496).  The value
of `QPStaticStability` depends on expressions that are not members compared or listed here, and is not given. -/
def Cls.value (w : World α) (x : List α) : Cls α → List α
  | .identity => x
  | .affine J b => vadd (J.map fun r => (List.zipWith (· * ·) r x).foldl (· + ·) 0) b
  | .constant c => c
  | .subset g sa _ => w.fn g (seg sa x)
  | .difference g lsa _ rsa _ => vsub (w.fn g (seg lsa x)) (w.fn g (seg rsa x))
  | .activeSet g _ => w.fn g x
  | .extracted g rev t1 => w.fn g [if rev then t1 - x.getD 0 0 else t1 + x.getD 0 0]
  | .set fs _ => fs.flatMap fun g => w.fn g x
  | .implicit g inQ outQ _ _ => vsub (pick outQ x) (w.fn g (pick inQ x))
  | .symbolic k r e m => masked m (w.expr k r e x)
  | .generic _ r j1 j2 f1 f2 m => masked m (vsub (vadd (w.pos r j2 x) f2) (vadd (w.pos r j1 x) f1))
  | .relativeCom r c j ref m _ => masked m (vsub (vsub (w.com r c x) (w.pos r j x)) ref)
  | .configuration r g wt => w.config r g wt x
  | .points r j1 j2 p1 p2 => w.dist r j1 j2 p1 p2 x
  | .contact r f o => w.contact r f o x
  | .feet r c j1 j2 j3 p1 p2 p3 m => masked m (w.feet r c j1 j2 j3 p1 p2 p3 x)
  | .bodies r a b act _ => w.bodies r a b act x
  | .qp .. => []
  | .stability r c l => w.stability r c l x
  | .manip g _ cols _ _ => w.manip ((w.jac g x).map (pick cols))
  | .relative r p a b f1 f2 iq _ oq ov t => w.relative r p a b f1 f2 iq oq ov t x
  | .complement _ s => w.complement s.robot s.floors s.objects x
  | .hold c d => w.fn c x ++ w.fn d x

/-- Side effect of the evaluation: a set of functions keeps the values of its functions
(differentiable-function-set.hh:104-118), `Manipulability` the Jacobian and its active columns (manipulability.cc:50,54),
`DistanceBetweenBodies` the distances (distance-between-bodies.cc:112-127), here those that make up its value. -/
def Obj.evaluated (w : World α) (x : List α) (a : Obj α) : Obj α :=
  match a.cls with
  | .set fs _ => { a with cls := .set fs (fs.map fun g => w.fn g x) }
  | .manip g r c _ _ => { a with cls := .manip g r c (w.jac g x) ((w.jac g x).map (pick c)) }
  | .bodies r j1 j2 act _ => { a with cls := .bodies r j1 j2 act (w.bodies r j1 j2 act x) }
  | _ => a

end Hpp.FnEq
