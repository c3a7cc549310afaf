import Verif.RelPose.Lemmas

/-!
# Active parameters of the contact functions

`ConvexShapeContact` marks the variables its value depends on while the surfaces are registered; `ConvexShapeContactComplement` and
`ConvexShapeContactHold` leave the default.

Source: `/repo/src/convex-shape-contact.cc`, `/repo/src/differentiable-function.cc`, `/repo/src/generic-transformation/helper.hh`.

Simplifications: as in `Verif/Contact/Func.lean`; the surfaces are stored before the flags are updated (no exception in between).
-/

namespace Hpp.Contact

open Matrix Hpp.Sym Hpp.Pose

/-- The two vectors `activeParameters_`, `activeDerivativeParameters_` -/
abbrev Bits := List Bool × List Bool

/-- `DifferentiableFunction::DifferentiableFunction` (differentiable-function.cc:233-256): the vectors are
constant, `true`. -/
def defaultBits (r : Robot ℝ) : Bits := (List.replicate r.nq true, List.replicate r.nv true)

/-- `setActiveParameters` (helper.hh:502-530) with possibly null joints -/
def setActive (r : Robot ℝ) (j1 j2 : Option Nat) (b : Bits) : Bits :=
  r.setActiveLoop (j1.getD 0 + j2.getD 0) (j1.getD 0) (j2.getD 0) b

/-- Members of `ConvexShapeContact` that are written while surfaces are registered -/
structure Reg where
  floors : List CShape
  objects : List CShape
  bits : Bits

/-- `addFloor` (convex-shape-contact.cc:100-110); `none`: exception -/
noncomputable def Reg.addFloor (r : Robot ℝ) (st : Reg) (s : JShape) : Option Reg :=
  (newFloor s).map fun t =>
    ⟨st.floors ++ [t], st.objects, st.objects.foldl (fun b o => setActive r t.joint o.joint b) st.bits⟩

/-- `addObject` (convex-shape-contact.cc:90-98); `none`: exception -/
noncomputable def Reg.addObject (r : Robot ℝ) (st : Reg) (s : JShape) : Option Reg :=
  (newObject s).map fun t =>
    ⟨st.floors, st.objects ++ [t], st.floors.foldl (fun b f => setActive r f.joint t.joint b) st.bits⟩

/-- Register surfaces one after the other. -/
def registerAll (add : Reg → JShape → Option Reg) : List JShape → Reg → Option Reg
  | [], st => some st
  | s :: l, st => (add st s).bind (registerAll add l)

/-- Constructor of `ConvexShapeContact` (convex-shape-contact.cc:41-68) -/
noncomputable def Reg.new (r : Robot ℝ) (floorSurfaces objectSurfaces : List JShape) : Option Reg :=
  (registerAll (Reg.addFloor r) floorSurfaces ⟨[], [], (List.replicate r.nq false, List.replicate r.nv false)⟩).bind
    (registerAll (Reg.addObject r) objectSurfaces)

/-- The three functions on the same surfaces: `ConvexShapeContact`, `ConvexShapeContactComplement`, `ConvexShapeContactHold` -/
inductive Kind where
  | contact
  | complement
  | hold

/-- Active parameters of a function after its construction (convex-shape-contact.cc:41-68, 342-350, 477-488) -/
noncomputable def activeOf (r : Robot ℝ) (k : Kind) (floorSurfaces objectSurfaces : List JShape) : Option Bits :=
  match k with
  | .contact => (Reg.new r floorSurfaces objectSurfaces).map (·.bits)
  | .complement => (Reg.new r floorSurfaces objectSurfaces).map fun _ => defaultBits r
  | .hold => (Reg.new r floorSurfaces objectSurfaces).map fun _ => defaultBits r

/-- Value of a function as a list (convex-shape-contact.cc:192-223, 405-423, 490-496) -/
noncomputable def Fn.valueOf (f : Fn) (k : Kind) (M : Nat → SE3 ℝ) : Except Fail (List ℝ) :=
  match k with
  | .contact => (f.value M).map List.ofFn
  | .complement => (f.complement M).map List.ofFn
  | .hold => (f.hold M).map List.ofFn

/-! ### Lemmas -/

section

open Classical

variable {r : Robot ℝ}

/-- Flags added by one call -/
def onPathBit (r : Robot ℝ) (p : Option Nat × Option Nat) (k : Nat) : Prop :=
  ∃ a, r.OnPath (p.1.getD 0) (p.2.getD 0) a ∧ r.QVar a k

def onPathVBit (r : Robot ℝ) (p : Option Nat × Option Nat) (k : Nat) : Prop :=
  ∃ a, r.OnPath (p.1.getD 0) (p.2.getD 0) a ∧ r.VVar a k

theorem setActive_get (ok : r.Ok) (j1 j2 : Option Nat) (b : Bits) (k : Nat) :
    (setActive r j1 j2 b).1[k]? = b.1[k]?.map (fun x => x || decide (onPathBit r (j1, j2) k)) ∧
    (setActive r j1 j2 b).2[k]? = b.2[k]?.map (fun x => x || decide (onPathVBit r (j1, j2) k)) :=
  Robot.setActiveLoop_get ok.parent_lt (le_refl _) b k

theorem fold_get (ok : r.Ok) (l : List (Option Nat × Option Nat)) (b : Bits) (k : Nat) :
    (l.foldl (fun b p => setActive r p.1 p.2 b) b).1[k]? =
      b.1[k]?.map (fun x => x || decide (∃ p ∈ l, onPathBit r p k)) ∧
    (l.foldl (fun b p => setActive r p.1 p.2 b) b).2[k]? =
      b.2[k]?.map (fun x => x || decide (∃ p ∈ l, onPathVBit r p k)) := by
  induction l generalizing b with
  | nil => simp
  | cons p l ih =>
    obtain ⟨e1, e2⟩ := ih (setActive r p.1 p.2 b)
    obtain ⟨s1, s2⟩ := setActive_get ok p.1 p.2 b k
    rw [List.foldl_cons, e1, e2, s1, s2]
    simp only [Option.map_map, Function.comp_def, List.mem_cons, exists_eq_or_imp, Bool.or_assoc, ← Bool.decide_or]
    exact ⟨trivial, trivial⟩

/-- The state after registrations: flags by pairs of joints `l` -/
structure Reg.Is (r : Robot ℝ) (st : Reg) (l : List (Option Nat × Option Nat)) : Prop where
  bits : st.bits = l.foldl (fun b p => setActive r p.1 p.2 b) (List.replicate r.nq false, List.replicate r.nv false)
  pairs : ∀ p, p ∈ l ↔ ∃ f ∈ st.floors, ∃ o ∈ st.objects, p = (f.joint, o.joint)

theorem Reg.addFloor_is {st st' : Reg} {l : List (Option Nat × Option Nat)} {s : JShape} (h : st.Is r l)
    (e : Reg.addFloor r st s = some st') : ∃ t l', newFloor s = some t ∧ st'.floors = st.floors ++ [t] ∧ st'.objects = st.objects ∧
      st'.Is r l' := by
  unfold Reg.addFloor at e
  obtain ⟨t, ht, e⟩ := Option.map_eq_some_iff.1 e
  subst e
  refine ⟨t, l ++ st.objects.map fun o => (t.joint, o.joint), ht, rfl, rfl, ?_, fun p => ?_⟩
  · dsimp only
    rw [List.foldl_append, ← h.bits, List.foldl_map]
  · dsimp only
    rw [List.mem_append, h.pairs, List.mem_map]
    constructor
    · rintro (⟨f, hf, o, ho, rfl⟩ | ⟨o, ho, rfl⟩)
      · exact ⟨f, by simp [hf], o, ho, rfl⟩
      · exact ⟨t, by simp, o, ho, rfl⟩
    · rintro ⟨f, hf, o, ho, rfl⟩
      rcases List.mem_append.1 hf with hf | hf
      · exact .inl ⟨f, hf, o, ho, rfl⟩
      · rw [List.mem_singleton] at hf
        exact .inr ⟨o, ho, by rw [hf]⟩

theorem Reg.addObject_is {st st' : Reg} {l : List (Option Nat × Option Nat)} {s : JShape} (h : st.Is r l)
    (e : Reg.addObject r st s = some st') : ∃ t l', newObject s = some t ∧ st'.floors = st.floors ∧
      st'.objects = st.objects ++ [t] ∧ st'.Is r l' := by
  unfold Reg.addObject at e
  obtain ⟨t, ht, e⟩ := Option.map_eq_some_iff.1 e
  subst e
  refine ⟨t, l ++ st.floors.map fun f => (f.joint, t.joint), ht, rfl, rfl, ?_, fun p => ?_⟩
  · dsimp only
    rw [List.foldl_append, ← h.bits, List.foldl_map]
  · dsimp only
    rw [List.mem_append, h.pairs, List.mem_map]
    constructor
    · rintro (⟨f, hf, o, ho, rfl⟩ | ⟨f, hf, rfl⟩)
      · exact ⟨f, hf, o, by simp [ho], rfl⟩
      · exact ⟨f, hf, t, by simp, rfl⟩
    · rintro ⟨f, hf, o, ho, rfl⟩
      rcases List.mem_append.1 ho with ho | ho
      · exact .inl ⟨f, hf, o, ho, rfl⟩
      · rw [List.mem_singleton] at ho
        exact .inr ⟨f, hf, by rw [ho]⟩

theorem registerFloors_is {fs : List JShape} {st st' : Reg} {l : List (Option Nat × Option Nat)} (h : st.Is r l)
    (e : registerAll (Reg.addFloor r) fs st = some st') : ∃ ts l', mapAll newFloor fs = some ts ∧ st'.floors = st.floors ++ ts ∧
      st'.objects = st.objects ∧ st'.Is r l' := by
  induction fs generalizing st l with
  | nil =>
    injection e with e
    subst e
    exact ⟨[], l, rfl, by simp, rfl, h⟩
  | cons s fs ih =>
    obtain ⟨st1, h1, h2⟩ := Option.bind_eq_some_iff.1 e
    obtain ⟨t, l1, ht, hf, ho, his⟩ := Reg.addFloor_is h h1
    obtain ⟨ts, l2, hts, hf2, ho2, his2⟩ := ih his h2
    refine ⟨t :: ts, l2, ?_, ?_, ho2.trans ho, his2⟩
    · simp only [mapAll, ht, hts, Option.bind_some, Option.map_some]
    · rw [hf2, hf]; simp

theorem registerObjects_is {os : List JShape} {st st' : Reg} {l : List (Option Nat × Option Nat)} (h : st.Is r l)
    (e : registerAll (Reg.addObject r) os st = some st') : ∃ ts l', mapAll newObject os = some ts ∧ st'.floors = st.floors ∧
      st'.objects = st.objects ++ ts ∧ st'.Is r l' := by
  induction os generalizing st l with
  | nil =>
    injection e with e
    subst e
    exact ⟨[], l, rfl, rfl, by simp, h⟩
  | cons s os ih =>
    obtain ⟨st1, h1, h2⟩ := Option.bind_eq_some_iff.1 e
    obtain ⟨t, l1, ht, hf, ho, his⟩ := Reg.addObject_is h h1
    obtain ⟨ts, l2, hts, hf2, ho2, his2⟩ := ih his h2
    refine ⟨t :: ts, l2, ?_, hf2.trans hf, ?_, his2⟩
    · simp only [mapAll, ht, hts, Option.bind_some, Option.map_some]
    · rw [ho2, ho]; simp

theorem Reg.new_is {fs os : List JShape} {st : Reg} (e : Reg.new r fs os = some st) :
    mapAll newFloor fs = some st.floors ∧ mapAll newObject os = some st.objects ∧ ∃ l, st.Is r l := by
  obtain ⟨st1, h1, h2⟩ := Option.bind_eq_some_iff.1 e
  obtain ⟨ts, l, hts, hf, ho, his⟩ := registerFloors_is (st := ⟨[], [], _⟩) (l := []) ⟨rfl, by simp⟩ h1
  obtain ⟨us, l', hus, hf', ho', his'⟩ := registerObjects_is his h2
  refine ⟨?_, ?_, l', his'⟩
  · rw [hf', hf, hts]; rfl
  · rw [ho', ho, hus]; rfl

theorem newFloor_joint {s : JShape} {t : CShape} (h : newFloor s = some t) : t.joint = s.1 := by
  unfold newFloor at h
  simp only [Option.bind_eq_some_iff, Option.map_eq_some_iff] at h
  obtain ⟨_, -, _, -, _, -, _, -, rfl⟩ := h
  rfl

theorem newObject_joint {s : JShape} {t : CShape} (h : newObject s = some t) : t.joint = s.1 := by
  unfold newObject at h
  simp only [Option.bind_eq_some_iff, Option.map_eq_some_iff] at h
  obtain ⟨_, -, _, -, rfl⟩ := h
  rfl

theorem mapAll_joints {f : JShape → Option CShape} (hf : ∀ s t, f s = some t → t.joint = s.1) {l : List JShape} {ts : List CShape}
    (h : mapAll f l = some ts) : ts.map (·.joint) = l.map (·.1) := by
  induction l generalizing ts with
  | nil => injection h with h; subst h; rfl
  | cons s l ih =>
    obtain ⟨t, ht, h⟩ := Option.bind_eq_some_iff.1 h
    obtain ⟨us, hus, h⟩ := Option.map_eq_some_iff.1 h
    subst h
    rw [List.map_cons, List.map_cons, ih hus, hf s t ht]

end

/-! ### Invariance of the selection, pair by pair -/

theorem select_pairs {M M' : Nat → SE3 ℝ} (hM : ∀ j, IsRot (M j).R) (hM' : ∀ j, IsRot (M' j).R) {floors objects : List CShape}
    (h : ∀ f ∈ floors, ∀ o ∈ objects, ∃ T : SE3 ℝ, IsRot T.R ∧ MovedBy M M' T f.joint ∧ MovedBy M M' T o.joint) :
    Contact.select (floors.map (·.at M')) (objects.map (·.at M')) = Contact.select (floors.map (·.at M)) (objects.map (·.at M)) := by
  unfold Contact.select
  simp only [List.zipIdx_map, List.foldl_map]
  refine List.foldl_ext _ _ _ fun st f hfm => ?_
  refine List.foldl_ext _ _ _ fun st o hom => ?_
  have h1 := List.mem_zipIdx_iff_getElem?.1 hfm
  have h2 := List.mem_zipIdx_iff_getElem?.1 hom
  obtain ⟨T, hT, m1, m2⟩ := h _ (List.mem_of_getElem? h1) _ (List.mem_of_getElem? h2)
  exact RelPose.step_moved hM hM' hT m1 m2 st _ _

theorem pick_pairs {r : Robot ℝ} (ok : r.Ok) {f : Fn} {q q' : Nat → ℝ}
    (he : ∀ s ∈ f.floors, ∀ o ∈ f.objects,
      (poseOf (r.fk q) s.joint).inv.mul (poseOf (r.fk q) o.joint) = (poseOf (r.fk q') s.joint).inv.mul (poseOf (r.fk q') o.joint)) :
    f.pick (r.fk q) = f.pick (r.fk q') ∧ ∀ p, f.pick (r.fk q) = .ok p → poseError p (r.fk q) = poseError p (r.fk q') := by
  have hM := Robot.fk_rot ok q
  have hM' := Robot.fk_rot ok q'
  constructor
  · unfold Fn.pick
    rw [select_pairs hM' hM fun s hs o ho => moved_exists hM' hM (he s hs o ho)]
  · intro p hpk
    obtain ⟨⟨s, hs, hj⟩, hob⟩ := RelPose.pick_joints hpk
    unfold poseError
    rw [RelPose.value_congr ok (relModel p.floor p.object) (fun _ => []) (q := q) (q' := q')]
    rw [RelPose.relative_relPose ok, RelPose.relative_relPose ok]
    have e1 : (relModel p.floor p.object).j1.getD 0 = s.joint.getD 0 := by
      rw [← hj]
      change (p.floor.joint.filter fun j => decide (0 < j)).getD 0 = _
      cases hfj : p.floor.joint with
      | none => rfl
      | some j =>
        rw [Option.filter_some]
        split
        · rfl
        · rename_i hj0
          simp only [decide_eq_true_eq] at hj0
          simp; omega
    have : ∀ q, RelPose.relPose (r.fk q) ((relModel p.floor p.object).j1, (relModel p.floor p.object).joint2) =
        (poseOf (r.fk q) s.joint).inv.mul (poseOf (r.fk q) p.object.joint) := by
      intro q
      unfold RelPose.relPose
      dsimp only
      rw [RelPose.poseOf_fk, RelPose.poseOf_fk, RelPose.poseOf_fk, RelPose.poseOf_fk, e1]
      rfl
    rw [this, this, he s hs _ hob]

theorem valueOf_pairs {r : Robot ℝ} (ok : r.Ok) {f : Fn} {q q' : Nat → ℝ} (k : Kind)
    (he : ∀ s ∈ f.floors, ∀ o ∈ f.objects,
      (poseOf (r.fk q) s.joint).inv.mul (poseOf (r.fk q) o.joint) = (poseOf (r.fk q') s.joint).inv.mul (poseOf (r.fk q') o.joint)) :
    f.valueOf k (r.fk q) = f.valueOf k (r.fk q') := by
  obtain ⟨h1, h2⟩ := pick_pairs ok he
  have v : f.value (r.fk q) = f.value (r.fk q') := by
    unfold Fn.value
    rw [← h1]
    cases hp : f.pick (r.fk q) with
    | error e => rfl
    | ok p => dsimp only; rw [h2 p hp]
  have c : f.complement (r.fk q) = f.complement (r.fk q') := by
    unfold Fn.complement
    rw [← h1]
    cases hp : f.pick (r.fk q) with
    | error e => rfl
    | ok p => dsimp only; rw [h2 p hp]
  unfold Fn.valueOf
  cases k with
  | contact => dsimp only; rw [v]
  | complement => dsimp only; rw [c]
  | hold => dsimp only; unfold Fn.hold; rw [v, c]

end Hpp.Contact
