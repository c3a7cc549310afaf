import Verif.Contact.Active
import Verif.Explicit.ImplicitFnProps
import Verif.Pose.Props

/-!
# C105: active parameters of contact functions and of implicit functions

The specification is stated on the kinematic tree: a variable is relevant to a pair of surfaces when it belongs to a joint between the
joints of the two surfaces.
-/

namespace Hpp.Contact

open Matrix Hpp.Sym Hpp.Pose

variable {r : Robot ℝ}

theorem registerFloors_defined {fs : List JShape} {ts : List CShape} (h : mapAll newFloor fs = some ts) :
    ∀ st, ∃ st', registerAll (Reg.addFloor r) fs st = some st' := by
  induction fs generalizing ts with
  | nil => exact fun st => ⟨st, rfl⟩
  | cons s fs ih =>
    intro st
    obtain ⟨t, ht, h⟩ := Option.bind_eq_some_iff.1 h
    obtain ⟨us, hus, -⟩ := Option.map_eq_some_iff.1 h
    obtain ⟨st', hs⟩ := ih hus ⟨st.floors ++ [t], st.objects, st.objects.foldl (fun b o => setActive r t.joint o.joint b) st.bits⟩
    exact ⟨st', by simp only [registerAll, Reg.addFloor, ht, Option.map_some, Option.bind_some]; exact hs⟩

theorem registerObjects_defined {os : List JShape} {ts : List CShape} (h : mapAll newObject os = some ts) :
    ∀ st, ∃ st', registerAll (Reg.addObject r) os st = some st' := by
  induction os generalizing ts with
  | nil => exact fun st => ⟨st, rfl⟩
  | cons s os ih =>
    intro st
    obtain ⟨t, ht, h⟩ := Option.bind_eq_some_iff.1 h
    obtain ⟨us, hus, -⟩ := Option.map_eq_some_iff.1 h
    obtain ⟨st', hs⟩ := ih hus ⟨st.floors, st.objects ++ [t], st.floors.foldl (fun b f => setActive r f.joint t.joint b) st.bits⟩
    exact ⟨st', by simp only [registerAll, Reg.addObject, ht, Option.map_some, Option.bind_some]; exact hs⟩

/-- The surfaces stored while flags are computed are those the value is computed with (`Fn.build`), and the construction throws
an exception in the same cases. -/
theorem C105_surfaces (r : Robot ℝ) (fs os : List JShape) (margin : ℝ) :
    Fn.build fs os margin = (Reg.new r fs os).map fun st => ⟨st.floors, st.objects, margin⟩ := by
  cases hs : Reg.new r fs os with
  | some st =>
    obtain ⟨h1, h2, -⟩ := Reg.new_is hs
    simp only [Fn.build, h1, h2, Option.bind_some, Option.map_some]
  | none =>
    cases hf : Fn.build fs os margin with
    | none => rfl
    | some f =>
      exfalso
      obtain ⟨ts, h1, h2⟩ := Option.bind_eq_some_iff.1 hf
      obtain ⟨us, h2, -⟩ := Option.map_eq_some_iff.1 h2
      obtain ⟨st, e⟩ := registerFloors_defined (r := r) h1 ⟨[], [], (List.replicate r.nq false, List.replicate r.nv false)⟩
      obtain ⟨st', e'⟩ := registerObjects_defined (r := r) h2 st
      rw [Reg.new, e, Option.bind_some, e'] at hs
      exact absurd hs (by simp)

/-- Active parameters of a contact function: exactly the variables of the joints between the joint of a floor surface and the joint of
an object surface.  Flags have the size of the configuration and of the velocity. -/
theorem C105_active (ok : r.Ok) {fs os : List JShape} {b : Bits} (h : activeOf r .contact fs os = some b)
    (bf : ∀ s ∈ fs, s.1.getD 0 < r.njoints) (bo : ∀ s ∈ os, s.1.getD 0 < r.njoints) (k : Nat) :
    (b.1[k]? = some true ↔ ∃ f ∈ fs, ∃ o ∈ os, ∃ a, r.OnPath (f.1.getD 0) (o.1.getD 0) a ∧ r.QVar a k) ∧
    (b.2[k]? = some true ↔ ∃ f ∈ fs, ∃ o ∈ os, ∃ a, r.OnPath (f.1.getD 0) (o.1.getD 0) a ∧ r.VVar a k) ∧
    (b.1[k]? = none ↔ r.nq ≤ k) ∧ (b.2[k]? = none ↔ r.nv ≤ k) := by
  classical
  obtain ⟨st, hs, rfl⟩ := Option.map_eq_some_iff.1 h
  obtain ⟨h1, h2, l, hl⟩ := Reg.new_is hs
  have j1 := mapAll_joints (fun _ _ => newFloor_joint) h1
  have j2 := mapAll_joints (fun _ _ => newObject_joint) h2
  obtain ⟨e1, e2⟩ := fold_get ok l (List.replicate r.nq false, List.replicate r.nv false) k
  rw [← hl.bits] at e1 e2
  have hpairs : ∀ p : Option Nat × Option Nat, p ∈ l ↔ ∃ f ∈ fs, ∃ o ∈ os, p = (f.1, o.1) := by
    intro p
    rw [hl.pairs]
    constructor
    · rintro ⟨f, hf, o, ho, rfl⟩
      have m1 : f.joint ∈ fs.map (·.1) := by rw [← j1]; exact List.mem_map_of_mem hf
      have m2 : o.joint ∈ os.map (·.1) := by rw [← j2]; exact List.mem_map_of_mem ho
      obtain ⟨f', hf', e⟩ := List.mem_map.1 m1
      obtain ⟨o', ho', e'⟩ := List.mem_map.1 m2
      exact ⟨f', hf', o', ho', by rw [← e, ← e']⟩
    · rintro ⟨f, hf, o, ho, rfl⟩
      have m1 : f.1 ∈ st.floors.map (·.joint) := by rw [j1]; exact List.mem_map_of_mem hf
      have m2 : o.1 ∈ st.objects.map (·.joint) := by rw [j2]; exact List.mem_map_of_mem ho
      obtain ⟨f', hf', e⟩ := List.mem_map.1 m1
      obtain ⟨o', ho', e'⟩ := List.mem_map.1 m2
      exact ⟨f', hf', o', ho', by rw [← e, ← e']⟩
  have hb : ∀ f ∈ fs, ∀ o ∈ os, ∀ a, r.OnPath (f.1.getD 0) (o.1.getD 0) a → 0 < a ∧ a < r.njoints := fun f hf o ho a ha => by
    have := Robot.OnPath.bounds ok.parent_lt ha
    have := bf f hf
    have := bo o ho
    omega
  dsimp only at e1 e2
  rw [List.getElem?_replicate] at e1 e2
  refine ⟨?_, ?_, ?_, ?_⟩
  · rw [e1]
    constructor
    · intro hk
      split_ifs at hk
      · simp only [Option.map_some, Bool.false_or, Option.some.injEq, decide_eq_true_eq] at hk
        obtain ⟨p, hp, hk⟩ := hk
        obtain ⟨f, hf, o, ho, rfl⟩ := (hpairs p).1 hp
        exact ⟨f, hf, o, ho, hk⟩
      · simp at hk
    · rintro ⟨f, hf, o, ho, a, ha, hk⟩
      have := ok.qin a (hb f hf o ho a ha).1 (hb f hf o ho a ha).2
      have hk' := hk
      unfold Robot.QVar at hk'
      rw [if_pos (show k < r.nq by omega), Option.map_some,
        decide_eq_true (p := ∃ p ∈ l, onPathBit r p k) ⟨(f.1, o.1), (hpairs _).2 ⟨f, hf, o, ho, rfl⟩, a, ha, hk⟩]
      rfl
  · rw [e2]
    constructor
    · intro hk
      split_ifs at hk
      · simp only [Option.map_some, Bool.false_or, Option.some.injEq, decide_eq_true_eq] at hk
        obtain ⟨p, hp, hk⟩ := hk
        obtain ⟨f, hf, o, ho, rfl⟩ := (hpairs p).1 hp
        exact ⟨f, hf, o, ho, hk⟩
      · simp at hk
    · rintro ⟨f, hf, o, ho, a, ha, hk⟩
      have := ok.vin a (hb f hf o ho a ha).1 (hb f hf o ho a ha).2
      have hk' := hk
      unfold Robot.VVar at hk'
      rw [if_pos (show k < r.nv by omega), Option.map_some,
        decide_eq_true (p := ∃ p ∈ l, onPathVBit r p k) ⟨(f.1, o.1), (hpairs _).2 ⟨f, hf, o, ho, rfl⟩, a, ha, hk⟩]
      rfl
  · rw [e1]
    split_ifs with hk
    · simp; omega
    · simp; omega
  · rw [e2]
    split_ifs with hk
    · simp; omega
    · simp; omega

/-- The value of each of the three contact functions is the same (including exceptions and undefined behaviours) at two configurations
that agree on the parameters the function declares active, whatever the surfaces and their joints. -/
theorem C105_value (ok : r.Ok) (kd : Kind) {fs os : List JShape} {margin : ℝ} {f : Fn} {b : Bits}
    (hf : Fn.build fs os margin = some f) (h : activeOf r kd fs os = some b)
    (bf : ∀ s ∈ fs, s.1.getD 0 < r.njoints) (bo : ∀ s ∈ os, s.1.getD 0 < r.njoints) {q q' : Nat → ℝ}
    (he : ∀ k, b.1[k]? = some true → q k = q' k) : f.valueOf kd (r.fk q) = f.valueOf kd (r.fk q') := by
  obtain ⟨st, hs⟩ : ∃ st, Reg.new r fs os = some st := by
    cases kd <;> exact (Option.map_eq_some_iff.1 h).imp fun _ => And.left
  have hc : activeOf r .contact fs os = some st.bits := by simp only [activeOf, hs, Option.map_some]
  obtain ⟨h1, h2, -⟩ := Reg.new_is hs
  have hfe : f.floors = st.floors ∧ f.objects = st.objects := by
    simp only [Fn.build, h1, h2, Option.bind_some, Option.map_some, Option.some.injEq] at hf
    subst hf
    exact ⟨rfl, rfl⟩
  have j1 := mapAll_joints (fun _ _ => newFloor_joint) h1
  have j2 := mapAll_joints (fun _ _ => newObject_joint) h2
  have he' : ∀ k, st.bits.1[k]? = some true → q k = q' k := by
    intro k hk
    have hlt : k < r.nq := by
      by_contra hlt
      rw [((C105_active ok hc bf bo k).2.2.1).2 (by omega)] at hk
      exact absurd hk (by simp)
    cases kd with
    | contact =>
      refine he k ?_
      rw [hc] at h
      injection h with h
      rw [← h]
      exact hk
    | complement =>
      refine he k ?_
      simp only [activeOf, hs, Option.map_some, Option.some.injEq] at h
      subst h
      simp [defaultBits, hlt]
    | hold =>
      refine he k ?_
      simp only [activeOf, hs, Option.map_some, Option.some.injEq] at h
      subst h
      simp [defaultBits, hlt]
  refine valueOf_pairs ok kd fun s hsf o ho => ?_
  rw [hfe.1] at hsf
  rw [hfe.2] at ho
  have m1 : s.joint ∈ fs.map (·.1) := by rw [← j1]; exact List.mem_map_of_mem hsf
  have m2 : o.joint ∈ os.map (·.1) := by rw [← j2]; exact List.mem_map_of_mem ho
  obtain ⟨s', hs', e⟩ := List.mem_map.1 m1
  obtain ⟨o', ho', e'⟩ := List.mem_map.1 m2
  have := Robot.rel_congr ok (q := q) (q' := q') (i := s'.1.getD 0) (j := o'.1.getD 0) fun a ha k hk =>
    he' k (((C105_active ok hc bf bo k).1).2 ⟨s', hs', o', ho', a, ha, hk⟩)
  rw [e, e'] at this
  rw [RelPose.poseOf_fk, RelPose.poseOf_fk, RelPose.poseOf_fk, RelPose.poseOf_fk]
  simpa only [SE3.actInv_eq] using this

/-- The complement and the hold function declare every parameter active, also those that no contact can depend on. -/
theorem C105_default {fs os : List JShape} {b : Bits} (kd : Kind) (hk : kd ≠ .contact) (h : activeOf r kd fs os = some b) (k : Nat) :
    (b.1[k]? = some true ↔ k < r.nq) ∧ (b.2[k]? = some true ↔ k < r.nv) := by
  cases kd with
  | contact => exact absurd rfl hk
  | complement =>
    obtain ⟨st, -, rfl⟩ := Option.map_eq_some_iff.1 h
    simp [defaultBits, List.getElem?_replicate]
  | hold =>
    obtain ⟨st, -, rfl⟩ := Option.map_eq_some_iff.1 h
    simp [defaultBits, List.getElem?_replicate]

/-! ### A robot with two hands -/

/-- `C105_active`, `C105_value` on `demoRobot` (joints 2 and 3 are hands of joint 1): a floor surface on joint 2, an object surface on
joint 3: the variable of joint 1 is not active and has no influence. -/
example : ∃ f b, Fn.build [(some 2, [0])] [(some 3, [0])] 0 = some f ∧ activeOf demoRobot .contact [(some 2, [0])] [(some 3, [0])] = some b ∧
    b.1[0]? ≠ some true ∧ b.1[1]? = some true ∧ b.1[2]? = some true ∧
    f.valueOf .contact (demoRobot.fk fun _ => 0) = f.valueOf .contact (demoRobot.fk fun k => if k = 0 then 5 else 0) := by
  obtain ⟨f, hf⟩ := build_defined (fs := [(some 2, [0])]) (os := [(some 3, [0])]) (by simp) (by simp) 0
  have hs := C105_surfaces demoRobot [(some 2, [0])] [(some 3, [0])] 0
  rw [hf] at hs
  obtain ⟨st, hst, -⟩ := Option.map_eq_some_iff.1 hs.symm
  obtain ⟨h1, h2, l, hl⟩ := Reg.new_is hst
  have hc : activeOf demoRobot .contact [(some 2, [0])] [(some 3, [0])] = some st.bits := by
    simp only [activeOf, hst, Option.map_some]
  have hbits := C105_active demoRobot_ok hc (by simp [demoRobot]) (by simp [demoRobot])
  have hb : ∀ k : Nat, st.bits.1[k]? = some true ↔ (demoRobot.activeBits 2 3).1[k]? = some true := by
    intro k
    rw [(hbits k).1, (C51_active demoRobot_ok (by decide) (by decide) k).1]
    simp
  have ha : demoRobot.activeBits 2 3 = ([false, true, true], [false, true, true]) := by decide
  refine ⟨f, st.bits, hf, hc, ?_, ?_, ?_, ?_⟩
  · rw [ne_eq, hb, ha]; simp
  · rw [hb, ha]; rfl
  · rw [hb, ha]; rfl
  · refine C105_value demoRobot_ok .contact hf hc (by simp [demoRobot]) (by simp [demoRobot]) fun k hk => ?_
    rw [hb, ha] at hk
    by_cases h0 : k = 0
    · subst h0; simp at hk
    · simp [h0]

end Hpp.Contact

namespace Hpp.Explicit

open Hpp.Pose

/-- `lview (active.matrix ()).setConstant (true)` (implicit-function.cc:201-206); indices outside of the vector are ignored -/
def setSegs (b : List Bool) (l : Segs) : List Bool := l.foldl (fun b s => setRange b s.first s.len) b

/-- Flags set by the constructor of `ImplicitFunction` (implicit-function.cc:199-206).  `nq`: size of configurations -/
def ImplicitFn.active {α : Type} (F : ImplicitFn α) (nq : Nat) : List Bool × List Bool :=
  (setSegs (setSegs (List.replicate nq false) F.inConf) F.outConf,
   setSegs (setSegs (List.replicate F.nv false) F.inVel) F.outVel)

open Classical in
theorem setSegs_get (l : Segs) : ∀ (b : List Bool) (k : Nat), (setSegs b l)[k]? = b[k]?.map (fun x => x || decide (k ∈ indices l)) := by
  induction l with
  | nil => intro b k; simp [setSegs]
  | cons s l ih =>
    intro b k
    have := ih (setRange b s.first s.len) k
    rw [setRange_get, Option.map_map] at this
    unfold setSegs at this ⊢
    rw [List.foldl_cons, this]
    have hm : k ∈ indices (s :: l) ↔ (s.first ≤ k ∧ k < s.first + s.len) ∨ k ∈ indices l := by
      rw [indices_cons, List.mem_append, List.mem_range'_1]
    simp only [Function.comp_def, hm, Bool.decide_or, Bool.or_assoc]

/-- The active parameters of the implicit function of an explicit constraint are the input and the output variables. -/
theorem C105_implicit_active {α : Type} (F : ImplicitFn α) (nq k : Nat) :
    ((F.active nq).1[k]? = some true ↔ k < nq ∧ (k ∈ indices F.inConf ∨ k ∈ indices F.outConf)) ∧
    ((F.active nq).2[k]? = some true ↔ k < F.nv ∧ (k ∈ indices F.inVel ∨ k ∈ indices F.outVel)) := by
  classical
  unfold ImplicitFn.active
  dsimp only
  rw [setSegs_get, setSegs_get, setSegs_get, setSegs_get, List.getElem?_replicate, List.getElem?_replicate]
  constructor
  · split_ifs with h <;> simp [h]
  · split_ifs with h <;> simp [h]

/-- The value of the implicit function depends on its active parameters only. -/
theorem C105_implicit_value {α : Type} [CommRing α] (ops : LieOps α) (F : ImplicitFn α) {nq : Nat} (hi : Within F.inConf nq)
    (ho : Within F.outConf nq) {q q' : Nat → α} (he : ∀ k, (F.active nq).1[k]? = some true → q k = q' k) :
    F.value ops q = F.value ops q' := by
  have key : ∀ l, Within l nq → (∀ k ∈ indices l, k ∈ indices F.inConf ∨ k ∈ indices F.outConf) → rview q l = rview q' l := by
    intro l hw hl
    refine List.map_congr_left fun k hk => he k (((C105_implicit_active F nq k).1).2 ⟨?_, hl k hk⟩)
    obtain ⟨s, hs, hk⟩ := (mem_indices l k).1 hk
    have := hw s hs
    unfold Seg.Has at hk
    omega
  unfold ImplicitFn.value
  rw [key _ hi fun k hk => .inl hk, key _ ho fun k hk => .inr hk]

/-- One factor: the columns of the Jacobian that are not declared active are zero. -/
theorem C105_implicit_jacobian_partial {α : Type} [CommRing α] (ops : LieOps α) (F : ImplicitFn α) (nq : Nat) (kd : LieKind)
    (hF : F.OneFactor kd) (hin : kd = .r3so3 → 0 < cardinal F.inVel) (q : Nat → α) (hout : (rview q F.outConf).length = kd.nq)
    (hf : (F.f (rview q F.inConf)).length = kd.nq) :
    ∃ J, F.jacobian ops q = some J ∧ J.rows = kd.nv ∧ J.cols = F.nv ∧
      ∀ k j, k < kd.nv → j < F.nv → (F.active nq).2[j]? ≠ some true → J.coeff k j = 0 := by
  have key : ∃ J outB inB, F.jacobian ops q = some J ∧ F.Filled kd.nv J outB inB := by
    cases kd with
    | other n m =>
      obtain ⟨J, e, h⟩ := jacobian_one ops hF q _ _ hout hf fun b hb _ => visitOther_fill hb (F.Jf (rview q F.inConf))
      exact ⟨J, _, _, e, h⟩
    | se3 =>
      obtain ⟨J, e, h⟩ := jacobian_one ops hF q
        (fun i j => ops.Jlog6 ((ops.pose (F.f (rview q F.inConf))).inv.mul (ops.pose (rview q F.outConf))) (six i) (six j))
        (fun i j => if h : j < cardinal F.inVel then
          (ops.Jlog6 ((ops.pose (F.f (rview q F.inConf))).inv.mul (ops.pose (rview q F.outConf))) *
            inJSE3 ops (rview q F.outConf) (F.f (rview q F.inConf)) (F.Jf (rview q F.inConf)) (cardinal F.inVel)) (six i) ⟨j, h⟩ else 0)
        hout hf fun b hb hc => by
        have := visitSE3_fill ops (rview q F.outConf) (F.f (rview q F.inConf)) hb (F.Jf (rview q F.inConf))
        rw [← hc]
        exact this
      exact ⟨J, _, _, e, h⟩
    | r3so3 =>
      obtain ⟨J, e, h⟩ := jacobian_one ops hF q (outR3SO3 ops (rview q F.outConf) (F.f (rview q F.inConf)))
        (inR3SO3 ops (rview q F.outConf) (F.f (rview q F.inConf)) (F.Jf (rview q F.inConf)) (cardinal F.inVel))
        hout hf fun b hb hc => by
        have := visitR3SO3_fill ops (rview q F.outConf) (F.f (rview q F.inConf)) hb (by rw [hc]; exact hin rfl) (F.Jf (rview q F.inConf))
        rw [← hc]
        exact this
      exact ⟨J, _, _, e, h⟩
  obtain ⟨J, _, _, e, h⟩ := key
  refine ⟨J, e, h.rows, h.cols, fun k j hk hj hne => ?_⟩
  rw [ne_eq, (C105_implicit_active F nq j).2] at hne
  push Not at hne
  exact h.zero k j hk (hne hj).2 (hne hj).1

/-- `q3 - q1` among 4 variables: variables 1 and 3 are active. -/
example : (⟨4, [⟨1, 1⟩], [⟨3, 1⟩], [⟨1, 1⟩], [⟨3, 1⟩], [.other 1 1], id, fun _ _ _ => 1⟩ : ImplicitFn ℚ).active 4 =
    ([false, true, false, true], [false, true, false, true]) := by decide

example (ops : LieOps ℚ) (q : Nat → ℚ) :
    ∃ J, (⟨4, [⟨1, 1⟩], [⟨3, 1⟩], [⟨1, 1⟩], [⟨3, 1⟩], [.other 1 1], id, fun _ _ _ => 1⟩ : ImplicitFn ℚ).jacobian ops q = some J ∧
      J.coeff 0 0 = 0 ∧ J.coeff 0 2 = 0 := by
  obtain ⟨J, e, -, -, h⟩ := C105_implicit_jacobian_partial ops
    (⟨4, [⟨1, 1⟩], [⟨3, 1⟩], [⟨1, 1⟩], [⟨3, 1⟩], [.other 1 1], id, fun _ _ _ => 1⟩ : ImplicitFn ℚ) 4 (.other 1 1)
    ⟨rfl, by decide, by simp [Within], by simp [Within], by decide⟩ (by simp) q (by simp [rview, indices, LieKind.nq]) (by simp [rview, indices, LieKind.nq])
  exact ⟨J, e, h 0 0 (by decide) (by decide) (by decide), h 0 2 (by decide) (by decide) (by decide)⟩

end Hpp.Explicit
