import Verif.Fun.Archive

/-!
# Functions restored from an archive (C106)
-/

namespace Hpp.FArch

open Hpp Hpp.Sym Hpp.Pose Hpp.Explicit

/-! ### Lemmas -/

def Base.toks (b : Base) : List Tok :=
  [.nat b.inputSize, .nat b.inputDer, .space b.space] ++ (if 0 < b.inputSize then [.bits b.activeQ] else []) ++
    (if 0 < b.inputDer then [.bits b.activeV] else []) ++ [.str b.name, .str b.context]

theorem Base.save (b : Base) (pre : List Tok) : Base.serialize ⟨true, pre⟩ b = some (⟨true, pre ++ b.toks⟩, b) := by
  obtain ⟨n, k, s, q, v, nm, c⟩ := b
  by_cases h1 : 0 < n <;> by_cases h2 : 0 < k <;>
    simp [Base.serialize, seqs, field, when, prim, sNat, sSpace, sBits, sStr, Base.toks, h1, h2]

theorem Base.load {b : Base} (h : b.Sized) (n k : Nat) (rest : List Tok) :
    Base.serialize ⟨false, b.toks ++ rest⟩ (Base.blank n k) = some (⟨false, rest⟩, b) := by
  obtain ⟨n', k', s, q, v, nm, c⟩ := b
  obtain ⟨hq, hv⟩ := h
  dsimp only at hq hv
  have hq0 : ¬ 0 < n' → q = [] := fun h => List.length_eq_zero_iff.1 (by omega)
  have hv0 : ¬ 0 < k' → v = [] := fun h => List.length_eq_zero_iff.1 (by omega)
  by_cases h1 : 0 < n' <;> by_cases h2 : 0 < k' <;>
    simp [Base.serialize, Base.blank, seqs, field, when, prim, sNat, sSpace, sBits, sStr, Base.toks, h1, h2]
  · exact hv0 h2
  · exact hq0 h1
  · exact ⟨hq0 h1, hv0 h2⟩

def Idx.toks (b : Idx) : List Tok := [.nat b.nbRows, .nat b.nbCols, .segs b.segs]

theorem Idx.save (b : Idx) (pre : List Tok) : Idx.serialize ⟨true, pre⟩ b = some (⟨true, pre ++ b.toks⟩, b) := by
  simp [Idx.serialize, seqs, field, prim, sNat, sSegs, Idx.toks]

theorem Idx.load (b c : Idx) (rest : List Tok) : Idx.serialize ⟨false, b.toks ++ rest⟩ c = some (⟨false, rest⟩, b) := by
  simp [Idx.serialize, seqs, field, prim, sNat, sSegs, Idx.toks]

def MBlk.toks (b : MBlk) : List Tok := [.nat b.nbRows, .nat b.nbCols, .segs b.rows, .segs b.cols]

theorem MBlk.save (b : MBlk) (pre : List Tok) : MBlk.serialize ⟨true, pre⟩ b = some (⟨true, pre ++ b.toks⟩, b) := by
  simp [MBlk.serialize, seqs, field, prim, sNat, sSegs, MBlk.toks]

theorem MBlk.load (b c : MBlk) (rest : List Tok) : MBlk.serialize ⟨false, b.toks ++ rest⟩ c = some (⟨false, rest⟩, b) := by
  simp [MBlk.serialize, seqs, field, prim, sNat, sSegs, MBlk.toks]

def blksToks (l : List MBlk) : List Tok := .nat l.length :: l.flatMap MBlk.toks

theorem writeAll_blks (l : List MBlk) : ∀ pre,
    writeAll MBlk.serialize l ⟨true, pre⟩ = some ⟨true, pre ++ l.flatMap MBlk.toks⟩ := by
  induction l with
  | nil => intro pre; simp [writeAll]
  | cons b l ih =>
    intro pre
    rw [writeAll, MBlk.save]
    simp [ih]

theorem readN_blks (l : List MBlk) : ∀ rest,
    readN MBlk.serialize .blank l.length ⟨false, l.flatMap MBlk.toks ++ rest⟩ = some (⟨false, rest⟩, l) := by
  induction l with
  | nil => intro rest; simp [readN]
  | cons b l ih =>
    intro rest
    rw [List.length_cons, readN, List.flatMap_cons, List.append_assoc, MBlk.load]
    simp [ih]

theorem blks_save (l : List MBlk) (pre : List Tok) :
    sVector MBlk.serialize .blank ⟨true, pre⟩ l = some (⟨true, pre ++ blksToks l⟩, l) := by
  simp [sVector, sNat, prim, writeAll_blks, blksToks]

theorem blks_load (l c : List MBlk) (rest : List Tok) :
    sVector MBlk.serialize .blank ⟨false, blksToks l ++ rest⟩ c = some (⟨false, rest⟩, l) := by
  simp [sVector, sNat, prim, readN_blks, blksToks]

theorem joint_save (j : Option Nat) (pre : List Tok) :
    serializeJoint ⟨true, pre⟩ j = some (⟨true, pre ++ [.joint j]⟩, j) := by
  simp [serializeJoint, sJointPtr, prim]

theorem joint_load (j c : Option Nat) (rest : List Tok) :
    serializeJoint ⟨false, .joint j :: rest⟩ c = some (⟨false, rest⟩, j) := by
  simp [serializeJoint, sJointPtr, prim]

/-! ### C106 -/

/-- Affine functions, constant functions and identities are restored. -/
theorem C106_affine {x : AffineObj} (h : x.base.Sized) (n k : Nat) :
    Restores AffineObj.serialize ⟨.blank n k, [], []⟩ x x := by
  refine ⟨x.base.toks ++ [.mat x.J, .vec x.b], fun pre => ?_, fun rest => ?_⟩
  · simp [AffineObj.serialize, seqs, field, Base.save, prim, sMat, sVec]
  · simp [AffineObj.serialize, seqs, field, Base.load h, prim, sMat, sVec]

theorem C106_constant {x : ConstantObj} (h : x.base.Sized) (n k : Nat) :
    Restores ConstantObj.serialize ⟨.blank n k, [], []⟩ x x := by
  refine ⟨x.base.toks ++ [.vec x.c, .space x.cSpace], fun pre => ?_, fun rest => ?_⟩
  · simp [ConstantObj.serialize, seqs, field, Base.save, prim, sVec, sSpace]
  · simp [ConstantObj.serialize, seqs, field, Base.load h, prim, sVec, sSpace]

theorem C106_identity {x : IdentityObj} (h : x.base.Sized) (n k : Nat) :
    Restores IdentityObj.serialize ⟨.blank n k⟩ x x := by
  refine ⟨x.base.toks, fun pre => ?_, fun rest => ?_⟩
  · simp [IdentityObj.serialize, seqs, field, Base.save]
  · simp [IdentityObj.serialize, seqs, field, Base.load h]

/-- A relative center of mass is restored, together with `nominalCase_` which is not in the archive; `c` holds the members that are
not initialized by the default constructor. -/
theorem C106_com {base : Base} (h : base.Sized) (robot : Nat) (f : Com.RelCom) (n k : Nat) (c : RelComObj) :
    Restores RelComObj.serialize { c with base := .blank n k } (.of base robot f) (.of base robot f) := by
  refine ⟨base.toks ++ [.robot robot, .comc f.comc, .joint (some f.joint), .vec3 f.reference, .bits f.mask],
    fun pre => ?_, fun rest => ?_⟩
  · simp [RelComObj.serialize, RelComObj.of, seqs, field, onLoad, Base.save, prim, sRobot, sComc, sJointPtr, sVec3, sBits]
  · simp [RelComObj.serialize, RelComObj.of, seqs, field, onLoad, Base.load h, prim, sRobot, sComc, sJointPtr, sVec3, sBits]

/-- An explicit relative transformation is restored. -/
theorem C106_explicit (f : RelTr) (robot : Nat) (name : String) (n k : Nat) (c : RelTrObj) :
    Restores RelTrObj.serialize { c with base := .blank n k } (.of f robot name) (.of f robot name) := by
  generalize hx : RelTrObj.of f robot name = x
  have h : x.base.Sized := by subst hx; exact ⟨by simp [RelTrObj.of, Base.new], by simp [RelTrObj.of, Base.new]⟩
  refine ⟨x.base.toks ++ [.robot x.robot, .joint x.parent, .joint x.joint1, .joint x.joint2, .pose x.F1, .pose x.F2] ++
    x.inConf.toks ++ x.inVel.toks ++ x.outConf.toks ++ x.outVel.toks ++ [.pose x.F12], fun pre => ?_, fun rest => ?_⟩
  · simp [RelTrObj.serialize, seqs, field, Base.save, prim, sRobot, joint_save, sPose, Idx.save]
  · simp [RelTrObj.serialize, seqs, field, Base.load h, prim, sRobot, joint_load, sPose, Idx.load]

/-- The implicit function of an explicit constraint is restored, together with the sizes of its buffers, as soon as the explicit
function is. -/
theorem C106_implicit {φ : Type} {inner : Ser φ} {fblank f : φ} (hf : Restores inner fblank f f) (baseOf : φ → Base) {base : Base}
    (h : base.Sized) (inConf outConf inVel outVel : Segs) (n k : Nat) (b : Buffers) :
    Restores (ImplObj.serialize inner fblank baseOf)
      ⟨.blank n k, none, fblank, .blank, .blank, .blank, .blank, [], [], b⟩
      (.of baseOf base f inConf outConf inVel outVel) (.of baseOf base f inConf outConf inVel outVel) := by
  generalize hx : ImplObj.of baseOf base f inConf outConf inVel outVel = x
  have hb : x.base = base := by subst hx; rfl
  have hff : x.f = f := by subst hx; rfl
  have hr : x.robot = none := by subst hx; rfl
  have hbuf : x.buf = buffersOf x.base (baseOf x.f) := by subst hx; rfl
  obtain ⟨w, hs, hl⟩ := hf
  obtain ⟨xb, xr, xf, i1, i2, i3, i4, j1, j2, bf⟩ := x
  dsimp only at hb hff hr hbuf
  subst hb hff hr hbuf
  refine ⟨xb.toks ++ w ++ i1.toks ++ i2.toks ++ i3.toks ++ i4.toks ++ blksToks j1 ++ blksToks j2, fun pre => ?_, fun rest => ?_⟩
  · simp [ImplObj.serialize, seqs, field, object, onLoad, Base.save, Idx.save, blks_save, hs]
  · simp [ImplObj.serialize, seqs, field, object, onLoad, Base.load h, Idx.load, blks_load, hl]

/-- What is read of a generic transformation -/
theorem GTObj.restored (s : GTS) (space : List LieKind) (robot nv : Nat) (name context : String) (n k r' row' : Nat)
    (p' o' : Bool) (hj : s.g.rel = false → s.g.joint1 = none) :
    Restores GTObj.serialize (.blank s.g.rel s.g.pos s.g.ori s.g.ose3 n k r' row' p' o') (.of s space robot nv name context)
      { GTObj.of s space robot nv name context with vind := .blank } := by
  generalize hx : GTObj.of s space robot nv name context = x
  have h : x.base.Sized := by subst hx; exact ⟨rfl, rfl⟩
  have hj' : x.rel = false → x.joint1 = none := by subst hx; exact hj
  have e : s.g.rel = x.rel ∧ s.g.pos = x.pos ∧ s.g.ori = x.ori ∧ s.g.ose3 = x.ose3 := by subst hx; exact ⟨rfl, rfl, rfl, rfl⟩
  rw [e.1, e.2.1, e.2.2.1, e.2.2.2]
  refine ⟨x.base.toks ++ [.robot x.robot, .joint x.joint2, .bool x.R1isID, .bool x.R2isID, .bool x.t1isZero, .bool x.t2isZero,
    .pose x.F1, .pose x.F2, .bool x.fullPos, .bool x.fullOri, .nat x.rowOri, .nat x.cols] ++
    (if x.rel then [.joint x.joint1] else []) ++ [.bits x.mask], fun pre => ?_, fun rest => ?_⟩
  · cases hr : x.rel <;>
      simp [GTObj.serialize, GTObj.serializeModel, seqs, field, when, Base.save, prim, sRobot, joint_save, sPose, sBool, sNat, sBits,
        hr] <;> rw [← hr]
  · cases hr : x.rel
    · have := hj' hr
      simp [GTObj.serialize, GTObj.serializeModel, GTObj.blank, seqs, field, when, Base.load h, prim, sRobot, joint_load, sPose,
        sBool, sNat, sBits, this, hr]
    · simp [GTObj.serialize, GTObj.serializeModel, GTObj.blank, seqs, field, when, Base.load h, prim, sRobot, joint_load, sPose,
        sBool, sNat, sBits, hr]

/-- The first joint of an absolute function is never set. -/
theorem GTS.run_joint1 (r : Robot ℝ) (pos ori ose3 : Bool) (mask : List Bool) (l : List GTOp) :
    ((GTS.new r false pos ori ose3 mask).run r l).g.joint1 = none ∧ ((GTS.new r false pos ori ose3 mask).run r l).g.rel = false := by
  induction l using List.reverseRecOn with
  | nil => exact ⟨rfl, rfl⟩
  | append_singleton l o ih =>
    rw [GTS.run, List.foldl_append]
    obtain ⟨h1, h2⟩ := ih
    rw [GTS.run] at h1 h2
    cases o <;> simp [GTS.step, GTS.setJoint1, GTS.computeActiveParams, GTS.checkIsIdentity1, GTS.checkIsIdentity2, h1, h2]

theorem GTS.run_const (r : Robot ℝ) (rel pos ori ose3 : Bool) (mask : List Bool) (l : List GTOp) :
    ((GTS.new r rel pos ori ose3 mask).run r l).g.rel = rel ∧ ((GTS.new r rel pos ori ose3 mask).run r l).g.pos = pos ∧
    ((GTS.new r rel pos ori ose3 mask).run r l).g.ori = ori ∧ ((GTS.new r rel pos ori ose3 mask).run r l).g.ose3 = ose3 ∧
    ((GTS.new r rel pos ori ose3 mask).run r l).g.mask = mask := by
  induction l using List.reverseRecOn with
  | nil => exact ⟨rfl, rfl, rfl, rfl, rfl⟩
  | append_singleton l o ih =>
    rw [GTS.run, List.foldl_append]
    obtain ⟨h1, h2, h3, h4, h5⟩ := ih
    rw [GTS.run] at h1 h2 h3 h4 h5
    cases o <;> simp only [List.foldl_cons, List.foldl_nil, GTS.step, GTS.setJoint1, GTS.computeActiveParams,
      GTS.checkIsIdentity1, GTS.checkIsIdentity2] <;> (try split) <;> exact ⟨h1, h2, h3, h4, h5⟩

/-- A generic transformation, after any sequence of calls of its setters, is restored but for the indices `Vindices_`: the joints, the
frames, the flags, the active parameters and the mask are the same, hence so are the Jacobian and the comparison with other functions.
Missing: the value (see the theorem below). -/
theorem C106_transformation_partial (r : Robot ℝ) (rel pos ori ose3 : Bool) (mask : List Bool) (l : List GTOp) (s : GTS)
    (hs : s = (GTS.new r rel pos ori ose3 mask).run r l) (space : List LieKind) (robot nv : Nat) (name context : String)
    (n k r' row' : Nat) (p' o' : Bool) : ∃ y : GTObj,
    Restores GTObj.serialize (.blank rel pos ori ose3 n k r' row' p' o') (.of s space robot nv name context) y ∧
      y.state = s ∧ y.fullPos = s.g.fullPos ∧ y.fullOri = s.g.fullOri ∧ y.rowOri = s.g.rowOri ∧ y.cols = nv ∧
      y.robot = robot ∧ y.base = (GTObj.of s space robot nv name context).base := by
  obtain ⟨h1, h2, h3, h4, h5⟩ := GTS.run_const r rel pos ori ose3 mask l
  have hj : s.g.rel = false → s.g.joint1 = none := by
    subst hs
    intro h
    rw [h1] at h
    subst h
    exact (GTS.run_joint1 r pos ori ose3 mask l).1
  rw [← hs] at h1 h2 h3 h4 h5
  have := GTObj.restored s space robot nv name context n k r' row' p' o' hj
  rw [h1, h2, h3, h4] at this
  exact ⟨_, this, rfl, rfl, rfl, rfl, rfl, rfl, rfl⟩

/-- Outputs that `OutputR3xSO3` allows: the orientation is complete (assertions, generic-transformation.cc:47-49) -/
structure MaskOk (pos ori ose3 : Bool) (mask : List Bool) : Prop where
  size : mask.length = (if pos then 3 else 0) + (if ori then 3 else 0)
  full : ose3 = true → ori = true ∧ ∀ i, (if pos then 3 else 0) ≤ i → i < mask.length → mask[i]? = some true

theorem MaskOk.nq {pos ori ose3 : Bool} {mask : List Bool} (h : MaskOk pos ori ose3 mask) :
    ∃ space, liegroupSpace ose3 mask = some space ∧
      nqOf space = (mask ++ (if ose3 then [true] else [])).count true := by
  cases ose3 with
  | false => exact ⟨_, rfl, by simp [nqOf, LieKind.nq]⟩
  | true =>
    obtain ⟨ho, hf⟩ := h.full rfl
    have hl := h.size
    subst ho
    cases pos with
    | false =>
      match mask, hl with
      | [a, b, c], _ =>
        have ha := hf 0 (by simp) (by simp)
        have hb := hf 1 (by simp) (by simp)
        have hc := hf 2 (by simp) (by simp)
        simp only [List.getElem?_cons_zero, List.getElem?_cons_succ, Option.some.injEq] at ha hb hc
        subst ha hb hc
        exact ⟨_, rfl, rfl⟩
    | true =>
      match mask, hl with
      | [x, y, z, a, b, c], _ =>
        have ha := hf 3 (by simp) (by simp)
        have hb := hf 4 (by simp) (by simp)
        have hc := hf 5 (by simp) (by simp)
        simp only [List.getElem?_cons_zero, List.getElem?_cons_succ, Option.some.injEq] at ha hb hc
        subst ha hb hc
        cases x <;> cases y <;> cases z <;> exact ⟨_, rfl, rfl⟩

/-- "A function that is saved and loaded has the same values" is false: a generic transformation that selects at least a coordinate can
be evaluated before it is saved, and it can not be evaluated any more after it has been loaded, for any configuration. -/
theorem C106_transformation_refuted (r : Robot ℝ) (rel pos ori ose3 : Bool) (mask : List Bool) (hm : MaskOk pos ori ose3 mask)
    (hne : true ∈ mask) (l : List GTOp) (s : GTS) (hs : s = (GTS.new r rel pos ori ose3 mask).run r l)
    (robot nv : Nat) (name context : String) (n k r' row' : Nat) (p' o' : Bool) : ∃ (space : List LieKind) (y : GTObj),
    liegroupSpace ose3 mask = some space ∧
    Restores GTObj.serialize (.blank rel pos ori ose3 n k r' row' p' o') (.of s space robot nv name context) y ∧
    ∀ (quat : M3 ℝ → List ℝ) (M : Nat → SE3 ℝ),
      (GTObj.of s space robot nv name context).value quat M = some (s.value quat M) ∧ y.value quat M = none := by
  obtain ⟨space, h, hq⟩ := hm.nq
  obtain ⟨h1, h2, h3, h4, h5⟩ := GTS.run_const r rel pos ori ose3 mask l
  have hj : s.g.rel = false → s.g.joint1 = none := by
    subst hs
    intro h
    rw [h1] at h
    subst h
    exact (GTS.run_joint1 r pos ori ose3 mask l).1
  rw [← hs] at h1 h2 h3 h4 h5
  have hr := GTObj.restored s space robot nv name context n k r' row' p' o' hj
  rw [h1, h2, h3, h4] at hr
  refine ⟨space, _, h, hr, fun quat M => ⟨?_, ?_⟩⟩
  · have hc : (GTObj.of s space robot nv name context).vind.nbRows = nqOf (GTObj.of s space robot nv name context).base.space := by
      show cardinal (fromLogical s.g.valueMask) = nqOf space
      rw [C08_mask_cardinal, hq, GT.valueMask, h4, h5]
    rw [GTObj.value, if_pos hc]
    rfl
  · rw [GTObj.value, if_neg]
    show ¬ 0 = nqOf space
    rw [hq, List.count_append]
    have := List.count_pos_iff.2 hne
    omega

/-! ### Examples -/

/-- Two objects in the same archive -/
example : ∃ w : List Tok,
    (AffineObj.serialize ⟨true, []⟩ ⟨.new 2 2 [.other 1 1] "a", [[1, 2]], [3]⟩).bind
      (fun p => IdentityObj.serialize p.1 ⟨.new 0 0 [.other 0 0] "i"⟩) = some (⟨true, w⟩, ⟨.new 0 0 [.other 0 0] "i"⟩) ∧
    (AffineObj.serialize ⟨false, w⟩ ⟨.blank 5 5, [], []⟩).bind (fun p => IdentityObj.serialize p.1 ⟨.blank 7 7⟩) =
      some (⟨false, []⟩, ⟨.new 0 0 [.other 0 0] "i"⟩) := by
  obtain ⟨w1, a1, a2⟩ := C106_affine (x := ⟨.new 2 2 [.other 1 1] "a", [[1, 2]], [3]⟩) ⟨rfl, rfl⟩ 5 5
  obtain ⟨w2, b1, b2⟩ := C106_identity (x := ⟨.new 0 0 [.other 0 0] "i"⟩) ⟨rfl, rfl⟩ 7 7
  refine ⟨w1 ++ w2, ?_, ?_⟩
  · rw [a1]; simp [b1]
  · rw [a2]
    have := b2 []
    rw [List.append_nil] at this
    simp [this]

/-- The implicit function of an affine explicit function -/
example : Restores (ImplObj.serialize AffineObj.serialize ⟨.blank 0 0, [], []⟩ AffineObj.base)
    ⟨.blank 0 0, none, ⟨.blank 0 0, [], []⟩, .blank, .blank, .blank, .blank, [], [], ⟨0, 0, 0, 0, 0, 0⟩⟩
    (.of AffineObj.base (.new 2 2 [.other 1 1] "implicit a") ⟨.new 1 1 [.other 1 1] "a", [[2]], [3]⟩ [⟨0, 1⟩] [⟨1, 1⟩] [⟨0, 1⟩] [⟨1, 1⟩])
    (.of AffineObj.base (.new 2 2 [.other 1 1] "implicit a") ⟨.new 1 1 [.other 1 1] "a", [[2]], [3]⟩ [⟨0, 1⟩] [⟨1, 1⟩] [⟨0, 1⟩] [⟨1, 1⟩]) :=
  C106_implicit (C106_affine ⟨rfl, rfl⟩ 0 0) AffineObj.base ⟨rfl, rfl⟩ _ _ _ _ 0 0 _

/-- Masks of the instances of the template -/
example : MaskOk true true true [true, false, true, true, true, true] ∧ MaskOk true false false [false, true, false] :=
  ⟨⟨rfl, fun _ => ⟨rfl, fun i h1 h2 => by
    simp only [if_true, List.length_cons, List.length_nil] at h1 h2
    match i, h1, h2 with
    | 3, _, _ => rfl
    | 4, _, _ => rfl
    | 5, _, _ => rfl⟩⟩, ⟨rfl, fun h => by simp at h⟩⟩

end Hpp.FArch
