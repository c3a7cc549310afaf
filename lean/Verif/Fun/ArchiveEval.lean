import Verif.Fun.ArchiveProps

/-!
# Evaluation of the functions restored from an archive (C106)

The members of the objects of `Verif.Fun.Archive` determine the value and the Jacobian: the functions below evaluate an object from
what is stored in it only.  The theorems compare this evaluation, for an object that was read from an archive, with the models of the
functions that were built (`Verif.Explicit.ImplicitFn`, `Verif.Pose.RelTransf`).
-/

namespace Hpp.FArch

open Hpp Hpp.Sym Hpp.Pose Hpp.Explicit

def nvOf (l : List LieKind) : Nat := (l.map LieKind.nv).sum

/-! ### Implicit function of an explicit constraint -/

section Impl

variable {φ : Type} (baseOf : φ → Base) (ev : φ → List ℝ → List ℝ) (Jev : φ → List ℝ → Nat → Nat → ℝ) (ops : LieOps ℝ)

/-- `ImplicitFunction::impl_compute` (implicit-function.cc:209-224) with the members that are stored.  `none`: the sizes of the
vectors do not match (assertions of `DifferentiableFunction::value`, differentiable-function.hh:81-82, and of Eigen) -/
noncomputable def ImplObj.value (o : ImplObj φ) (q : Nat → ℝ) : Option (List ℝ) :=
  if o.inConf.nbRows = (baseOf o.f).inputSize ∧ o.buf.fqIn = nqOf (baseOf o.f).space ∧ o.outConf.nbRows = o.buf.qOut ∧
      o.buf.qOut = o.buf.fqIn ∧ nqOf o.base.space = nvOf (baseOf o.f).space then
    some (ops.subAll (baseOf o.f).space (rview q o.outConf.segs) (ev o.f (rview q o.inConf.segs)))
  else none

/-- `outJacobian_[rank]` and `inJacobian_[rank]`, when they have the same rows -/
def jblock (a b : MBlk) : Option JBlocks := if a.rows = b.rows then some ⟨a.rows, a.cols, b.cols⟩ else none

/-- `ImplicitFunction::impl_jacobian` (implicit-function.cc:226-250) with the members that are stored.  `none`: as above, or access
outside of the vectors of blocks (or blocks whose rows are different, what the model of the loop does not express). -/
noncomputable def ImplObj.jacobian (o : ImplObj φ) (q : Nat → ℝ) : Option (Mat ℝ) :=
  (o.value baseOf ev ops q).bind fun _ =>
    if o.buf.result = nqOf o.base.space ∧ o.buf.JfRows = nvOf (baseOf o.f).space ∧ o.buf.JfCols = (baseOf o.f).inputDer ∧
        o.outJac.length = (baseOf o.f).space.length ∧ o.inJac.length = (baseOf o.f).space.length then
      ((o.outJac.zip o.inJac).mapM fun p => jblock p.1 p.2).bind fun bs =>
        jacobianLoop ops (rview q o.outConf.segs) (ev o.f (rview q o.inConf.segs)) (Jev o.f (rview q o.inConf.segs))
          ((baseOf o.f).space.zip bs) 0 0 ⟨nvOf (baseOf o.f).space, o.base.inputDer, fun _ _ => 0⟩
    else none

/-- Assertions and initializations of the constructor (implicit-function.cc:170-173, 185-196) -/
structure ImplOk (base : Base) (f : φ) (inConf outConf : Segs) : Prop where
  sized : base.Sized
  space : nqOf base.space = nvOf (baseOf f).space
  input : cardinal inConf = (baseOf f).inputSize
  output : cardinal outConf = nqOf (baseOf f).space

theorem jacobianBlocks_length (inVel : Segs) (ks : List LieKind) : ∀ iv rem, (jacobianBlocks inVel ks iv rem).length = ks.length := by
  induction ks with
  | nil => intros; rfl
  | cons k ks ih => intro iv rem; simp [jacobianBlocks, ih]

theorem mapM_jblock (l : List JBlocks) :
    (((l.map fun b => MBlk.new b.rows b.outCols).zip (l.map fun b => MBlk.new b.rows b.inCols)).mapM fun p => jblock p.1 p.2) =
      some l := by
  induction l with
  | nil => rfl
  | cons b l ih =>
    rw [List.map_cons, List.map_cons, List.zip_cons_cons, List.mapM_cons, ih]
    simp [jblock, MBlk.new]

/-- The implicit function of an explicit constraint that is read from an archive has the value and the Jacobian of the function that
was built from the arguments, for all configurations. -/
theorem C106_implicit_evaluates {inner : Ser φ} {fblank f : φ} (hf : Restores inner fblank f f) {base : Base}
    (inConf outConf inVel outVel : Segs) (ok : ImplOk baseOf base f inConf outConf) (n k : Nat) (b : Buffers) : ∃ y : ImplObj φ,
    Restores (ImplObj.serialize inner fblank baseOf)
      ⟨.blank n k, none, fblank, .blank, .blank, .blank, .blank, [], [], b⟩
      (.of baseOf base f inConf outConf inVel outVel) y ∧
    ∀ q : Nat → ℝ,
      let F : ImplicitFn ℝ := ⟨base.inputDer, inConf, outConf, inVel, outVel, (baseOf f).space, ev f, Jev f⟩
      y.value baseOf ev ops q = some (F.value ops q) ∧ y.jacobian baseOf ev Jev ops q = F.jacobian ops q := by
  refine ⟨_, C106_implicit hf baseOf ok.sized inConf outConf inVel outVel n k b, fun q => ?_⟩
  have hv : (ImplObj.of baseOf base f inConf outConf inVel outVel).value baseOf ev ops q =
      some (ops.subAll (baseOf f).space (rview q outConf) (ev f (rview q inConf))) := by
    rw [ImplObj.value, if_pos]
    · rfl
    · exact ⟨ok.input, rfl, ok.output, rfl, ok.space⟩
  refine ⟨hv, ?_⟩
  rw [ImplObj.jacobian, hv, Option.bind_some, if_pos]
  · have := mapM_jblock (jacobianBlocks inVel (baseOf f).space 0 outVel)
    simp only [ImplObj.of]
    rw [this]
    rfl
  · refine ⟨rfl, rfl, rfl, ?_, ?_⟩ <;> simp [ImplObj.of, jacobianBlocks_length]

end Impl

/-! ### Explicit relative transformation -/

/-- `impl_compute` (explicit/relative-transformation.cc:134-159) with the members that are stored; `none`: null pointer to the second
joint, or sizes that do not match -/
noncomputable def RelTrObj.value (o : RelTrObj) (r : Robot ℝ) (cur : Nat → ℝ) (arg : List ℝ) : Option (List ℝ) :=
  open Classical in
  o.joint2.bind fun j2 =>
    if arg.length = o.inConf.nbRows ∧ o.inConf.nbRows = o.base.inputSize ∧ nqOf o.base.space = 7 then
      let q := if rview cur o.inConf.segs ≠ arg then lview cur o.inConf.segs arg else cur
      let pose := match o.joint1 with
        | none => o.F12
        | some j => (r.fk q j).mul o.F12
      let pose := match o.parent with
        | none => pose
        | some p => if 0 < p then (r.fk q p).actInv pose else pose
      let pose := (r.placement j2).actInv pose
      some (list3 pose.p ++ rotToQuat pose.R)
    else none

/-- Columns read by `inVel_.rview(tmpJac_)` (explicit/relative-transformation.cc:207-242) and their number: the view of `ColBlockIndices`
has the size `m_nbCols` (matrix-view.hh:640-646), that of the block of the Jacobian it is assigned to. -/
def RelTrObj.columns (o : RelTrObj) : Option (List Nat) :=
  if o.inVel.nbCols = o.base.inputDer then some (indices o.inVel.segs) else none

/-- The explicit relative transformation that is read from an archive has the value of the function that was built, whatever the
current configuration of the robot, and its Jacobian selects the same columns. -/
theorem C106_explicit_evaluates (f : RelTr) (robot : Nat) (name : String) (n k : Nat) (c : RelTrObj) : ∃ y : RelTrObj,
    Restores RelTrObj.serialize { c with base := .blank n k } (.of f robot name) y ∧
      (∀ (cur : Nat → ℝ) (arg : List ℝ), arg.length = cardinal f.inConf →
        y.value f.robot cur arg = some (config7 (f.compute cur arg))) ∧
      y.columns = some (indices f.inVel) := by
  refine ⟨_, C106_explicit f robot name n k c, fun cur arg ha => ?_, ?_⟩
  · have h0 : (RelTrObj.of f robot name).joint2 = some f.joint2 := rfl
    rw [RelTrObj.value, h0, Option.bind_some, if_pos ⟨ha, rfl, rfl⟩]
    simp only [RelTrObj.of, Idx.rows, config7, RelTr.compute, RelTr.fkConfig, RelTr.hasParent, decide_eq_true_eq]
    rcases f.joint1 with _ | j <;> rfl
  · rw [RelTrObj.columns, if_pos]
    · rfl
    · rfl

/-! ### Output space of a generic transformation -/

/-- A vector space or `SO(3)` -/
inductive Simple
  | vec (n : Nat)
  | so3
deriving DecidableEq

/-- What a factor represents: coefficients of a translation, a quaternion, or both, in this order -/
def parts : LieKind → List Simple
  | .other 4 3 => [.so3]
  | .other n _ => [.vec n]
  | .r3so3 => [.vec 3, .so3]
  | .se3 => [.vec 3, .so3]

/-- The output space of a transformation with output in `R^3 x SO(3)` is made of the space of the coordinates of the translation that
are selected, if any, and of `SO(3)`, in the order of the coefficients of the value: those of the translation, then the quaternion. -/
theorem C106_output_space {pos ori : Bool} {mask : List Bool} (h : MaskOk pos ori true mask) :
    ∃ space, liegroupSpace true mask = some space ∧
      space.flatMap parts = (if mask.count true = 3 then [] else [.vec (mask.count true - 3)]) ++ [.so3] ∧
      nqOf space = (mask.count true - 3) + 4 ∧ nvOf space = mask.count true ∧
      ∀ (g : GT) (quat : M3 ℝ → List ℝ) (M : Nat → SE3 ℝ), g.pos = pos → g.ori = true → g.ose3 = true → g.mask = mask →
        (∀ R, (quat R).length = 4) →
        (g.value quat M).drop (mask.count true - 3) = quat (g.transform M).R := by
  obtain ⟨ho, hf⟩ := h.full rfl
  have hl := h.size
  subst ho
  cases pos with
  | false =>
    match mask, hl with
    | [a, b, c], _ =>
      have ha := hf 0 (by simp) (by simp)
      have hb := hf 1 (by simp) (by simp)
      have hc := hf 2 (by simp) (by simp)
      simp only [List.getElem?_cons_zero, List.getElem?_cons_succ, Option.some.injEq] at ha hb hc
      subst ha hb hc
      refine ⟨_, rfl, rfl, rfl, rfl, fun g quat M hp ho ho3 hm hq => ?_⟩
      have hq' := hq (g.transform M).R
      generalize hQ : quat (g.transform M).R = Q at hq'
      match Q, hq' with
      | [w, x, y, z], _ =>
        rw [GT.value, lread_fromLogical _ _ (by simp [GT.rawValue, GT.valueMask, hp, ho, ho3, hm, hQ])]
        simp [GT.rawValue, GT.valueMask, hp, ho, ho3, hm, hQ, Hpp.Pose.select]
  | true =>
    match mask, hl with
    | [x', y', z', a, b, c], _ =>
      have ha := hf 3 (by simp) (by simp)
      have hb := hf 4 (by simp) (by simp)
      have hc := hf 5 (by simp) (by simp)
      simp only [List.getElem?_cons_zero, List.getElem?_cons_succ, Option.some.injEq] at ha hb hc
      subst ha hb hc
      have key : ∀ (g : GT) (quat : M3 ℝ → List ℝ) (M : Nat → SE3 ℝ), g.pos = true → g.ori = true → g.ose3 = true →
          g.mask = [x', y', z', true, true, true] → (∀ R, (quat R).length = 4) →
          (g.value quat M).drop ([x', y', z', true, true, true].count true - 3) = quat (g.transform M).R := by
        intro g quat M hp ho ho3 hm hq
        have hq' := hq (g.transform M).R
        generalize hQ : quat (g.transform M).R = Q at hq'
        match Q, hq' with
        | [w, x, y, z], _ =>
          rw [GT.value, lread_fromLogical _ _ (by simp [GT.rawValue, GT.valueMask, hp, ho, ho3, hm, hQ, list3])]
          cases x' <;> cases y' <;> cases z' <;>
            simp [GT.rawValue, GT.valueMask, hp, ho, ho3, hm, hQ, list3, Hpp.Pose.select]
      cases x' <;> cases y' <;> cases z' <;> exact ⟨_, rfl, rfl, rfl, rfl, key⟩

/-! ### Examples -/

/-- The conditions of the theorem on implicit functions hold for an affine function of one variable. -/
example : ImplOk AffineObj.base (.new 2 2 [.other 1 1] "implicit a") ⟨.new 1 1 [.other 1 1] "a", [[2]], [3]⟩ [⟨0, 1⟩] [⟨1, 1⟩] :=
  ⟨⟨rfl, rfl⟩, rfl, rfl, rfl⟩

/-- and with `SE(3)` as output space -/
example : ImplOk AffineObj.base (.new 8 7 [.other 6 6] "implicit a") ⟨.new 1 1 [.se3] "a", [], []⟩ [⟨7, 1⟩] [⟨0, 7⟩] :=
  ⟨⟨rfl, rfl⟩, rfl, rfl, rfl⟩

/-- Output space of a transformation on the planes `y z` -/
example : ∃ space, liegroupSpace true [false, true, true, true, true, true] = some space ∧
    space.flatMap parts = [.vec 2, .so3] := ⟨_, rfl, rfl⟩

end Hpp.FArch
