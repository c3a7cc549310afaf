import Verif.Pose.Inputs
import Verif.Pose.GenericLemmas

/-!
# Properties of the generic transformations (C51, C52)
-/

namespace Hpp.Pose

open Matrix Hpp.Sym Hpp.Log

variable {n e : Nat}

/-! ### Lemmas on the selected components -/

theorem GT.filter_mask {g : GT} (ok : g.Ok) :
    (List.range g.valueMask.length).filter (fun i => g.valueMask[i]? == some true) =
      g.rows ++ (if g.ose3 then [g.mask.length] else []) := by
  have h0 : (List.range g.mask.length).filter (fun i => g.mask[i]? == some true) = g.rows := by
    unfold rows
    rw [ok.mask]
    refine List.filter_congr fun i _ => ?_
    simp only [m, List.getD_eq_getElem?_getD]
    cases g.mask[i]? with
    | none => rfl
    | some b => cases b <;> rfl
  unfold valueMask
  cases g.ose3
  · simpa using h0
  · simp only [if_true, List.length_append, List.length_singleton]
    rw [List.range_succ, List.filter_append, ← h0]
    congr 1
    · refine List.filter_congr fun i hi => ?_
      rw [List.getElem?_append_left (List.mem_range.1 hi)]
    · simp

theorem GT.value_rows {g : GT} (ok : g.Ok) {quat : M3 ℝ → List ℝ} (hq : ∀ R, (quat R).length = 4) {M : Nat → SE3 ℝ}
    (hM : ∀ j, IsRot (M j).R) {k i : Nat} (hk : g.rows[k]? = some i) :
    (g.value quat M).getD k 0 = (g.full quat M).getD i 0 := by
  have hl := g.full_length ok hq M
  unfold value
  rw [rawValue_eq ok quat hM, lread_fromLogical _ _ hl, ← select_range _ _ hl, filter_mask ok,
    List.getD_eq_getElem?_getD, List.getElem?_map,
    List.getElem?_append_left (List.getElem?_eq_some_iff.1 hk).1, hk]
  rfl

theorem select_length {β : Type} (m : List Bool) (l : List β) (h : l.length = m.length) :
    (select m l).length = m.count true := by
  induction m generalizing l with
  | nil => rfl
  | cons b m ih =>
    cases l with
    | nil => simp at h
    | cons x l =>
      have := ih l (by simpa using h)
      cases b <;> simp [select, this]

theorem GT.rows_length {g : GT} (ok : g.Ok) : g.rows.length = g.mask.count true := by
  have h := select_range g.mask (List.replicate g.mask.length (0 : ℝ)) (by simp)
  have h2 := congrArg List.length h
  rw [select_length _ _ (by simp), List.length_map] at h2
  rw [← h2]
  unfold rows
  rw [ok.mask]
  congr 1
  refine List.filter_congr fun i _ => ?_
  simp only [m, List.getD_eq_getElem?_getD]
  cases g.mask[i]? with
  | none => rfl
  | some b => cases b <;> rfl

theorem blockRow_sum (B : Matrix (Fin 3) (Fin n) ℝ) (qd : Fin n → ℝ) (i : Fin 3) :
    ∑ c, blockRow B i c * qd c = (B *ᵥ qd) i := by
  fin_cases i <;> simp [blockRow, mulVec, dotProduct]

theorem getD_append_l {l l' : List ℝ} {i : Nat} (h : i < l.length) : (l ++ l').getD i 0 = l.getD i 0 := by
  simp only [List.getD_eq_getElem?_getD, List.getElem?_append_left h]

theorem getD_append_r {l l' : List ℝ} {i : Nat} (h : l.length ≤ i) : (l ++ l').getD i 0 = l'.getD (i - l.length) 0 := by
  simp only [List.getD_eq_getElem?_getD, List.getElem?_append_right h]

theorem list3_getD (v : V3 ℝ) (i : Fin 3) : (list3 v).getD i 0 = v i := by
  fin_cases i <;> rfl

/-- Position rows -/
theorem GT.deriv_pos {g : GT} (ok : g.Ok) {K : ℝ → Kin n} {qd : Fin n → ℝ} {t : ℝ} (h : KMoves K qd t)
    {Bp : Matrix (Fin 3) (Fin n) ℝ} (hB : g.jtranslation (K t) = some Bp) :
    VDeriv (fun t => (g.relative (K t).M).p) (Bp *ᵥ qd) t :=
  (g.relative_moves ok h).1.congr (g.jtranslation_eq (K t) qd (h.rot t) hB).symm

/-- Orientation rows -/
theorem GT.deriv_log {g : GT} (ok : g.Ok) (h3 : g.ose3 = false) {K : ℝ → Kin n} {qd : Fin n → ℝ} {t : ℝ} (h : KMoves K qd t)
    (hlog : (g.relative (K t).M).R = 1 ∨ 1e-6 < angle (g.relative (K t).M).R ∧ angle (g.relative (K t).M).R < Real.pi)
    {Bo : Matrix (Fin 3) (Fin n) ℝ} (hB : g.jorientation (K t) = some Bo) :
    VDeriv (fun t => logSO3 (g.relative (K t).M).R) (Bo *ᵥ qd) t := by
  have hrot : ∀ t, IsRot (g.relative (K t).M).R := fun t => by
    rw [g.relative_eq (h.rot t)]
    exact IsRot.mul ok.rot1.transpose (IsRot.mul (optM_rot (h.rot t) _).transpose (IsRot.mul (optM_rot (h.rot t) _) ok.rot2))
  refine (log_left hrot (g.relative_moves ok h).2 hlog).congr ?_
  rw [g.jorientation_eq (K t) qd hB, g.jlogFrom1_log h3 (h.rot t), ← mulVec_mulVec]

/-! ### C52 -/

/-- The value is made of the components selected by the mask, among all the components of the relative position of the two
frames. -/
theorem C52_value {g : GT} (ok : g.Ok) {quat : M3 ℝ → List ℝ} (hq : ∀ R, (quat R).length = 4) {M : Nat → SE3 ℝ}
    (hM : ∀ j, IsRot (M j).R) : g.value quat M = select g.valueMask (g.full quat M) := by
  unfold GT.value
  rw [GT.rawValue_eq ok quat hM, lread_fromLogical _ _ (g.full_length ok hq M)]

/-- Row `k` of the Jacobian is the derivative of component `k` of the value, whatever the mask and whatever the content of
the temporary matrix and of the matrix given by the caller; the columns of the extra configuration space are zero.  For the
orientation, the logarithm should be differentiable: the angle is not `π`, and either the relative rotation is the
identity or the angle is more than `1e-6`. -/
theorem C52_jacobian {g : GT} (ok : g.Ok) (h3 : g.ose3 = false) {quat : M3 ℝ → List ℝ} (hq : ∀ R, (quat R).length = 4)
    {K : ℝ → Kin n} {qd : Fin n → ℝ} {t : ℝ} (h : KMoves K qd t) {C : Rows n} {J J' : Rows2 n e}
    (hJ : g.jacobian (K t) C J = some J')
    (hlog : g.ori = true → (g.relative (K t).M).R = 1 ∨
      1e-6 < angle (g.relative (K t).M).R ∧ angle (g.relative (K t).M).R < Real.pi)
    {k : Nat} (hk : k < g.mask.count true) :
    HasDerivAt (fun t => (g.value quat (K t).M).getD k 0) (∑ c, J' k (.inl c) * qd c) t ∧ ∀ c, J' k (.inr c) = 0 := by
  obtain ⟨Bp, Bo, hp, ho, hrows⟩ := g.jacobian_rows ok hJ
  rw [← g.rows_length ok] at hk
  have hi := List.getElem?_eq_getElem hk
  generalize g.rows[k] = i at hi
  obtain ⟨h1, h2⟩ := hrows k i hi
  refine ⟨?_, h2⟩
  have hmem : i < g.lPos + g.lOri := by
    have := List.mem_of_getElem? hi
    exact List.mem_range.1 (List.mem_filter.1 this).1
  simp only [g.value_rows ok hq (h.rot _) hi, h1]
  by_cases hl : i < g.lPos
  · have hpos : g.pos = true := by
      by_contra hc
      simp [GT.lPos, hc] at hl
    have h3' : i < 3 := by simpa [GT.lPos, hpos] using hl
    have hd := g.deriv_pos ok h (hp hpos) ⟨i, h3'⟩
    simp only [if_pos hl]
    have e1 : ∑ c, blockRow Bp i c * qd c = (Bp *ᵥ qd) ⟨i, h3'⟩ := blockRow_sum Bp qd ⟨i, h3'⟩
    rw [e1]
    refine hd.congr_of_eventuallyEq (Filter.Eventually.of_forall fun t => ?_)
    change (g.full quat (K t).M).getD i 0 = _
    unfold GT.full
    rw [if_pos hpos, getD_append_l (by simpa [list3] using h3')]
    exact list3_getD _ ⟨i, h3'⟩
  · have hori : g.ori = true := by
      by_contra hc
      simp [GT.lOri, hc] at hmem
      omega
    have h3' : i - g.lPos < 3 := by
      have : g.lOri = 3 := by simp [GT.lOri, hori]
      omega
    have hd := g.deriv_log ok h3 h (hlog hori) (ho hori) ⟨i - g.lPos, h3'⟩
    simp only [if_neg hl]
    have e1 : ∑ c, blockRow Bo (i - g.lPos) c * qd c = (Bo *ᵥ qd) ⟨i - g.lPos, h3'⟩ :=
      blockRow_sum Bo qd ⟨i - g.lPos, h3'⟩
    rw [e1]
    refine hd.congr_of_eventuallyEq (Filter.Eventually.of_forall fun t => ?_)
    change (g.full quat (K t).M).getD i 0 = _
    have hlen : (if g.pos = true then list3 (g.relative (K t).M).p else []).length = g.lPos := by
      unfold GT.lPos
      split <;> rfl
    unfold GT.full
    rw [getD_append_r (by omega), hlen, if_pos hori, h3]
    exact list3_getD _ ⟨i - g.lPos, h3'⟩

/-- With values in `SO(3)` or `R^3 x SO(3)`: the position rows are the derivatives of the selected components of the position, and
the three rows of the orientation give the angular velocity of the relative rotation, in the moving frame. -/
theorem C52_jacobian_so3 {g : GT} (ok : g.Ok) (h3 : g.ose3 = true) {quat : M3 ℝ → List ℝ} (hq : ∀ R, (quat R).length = 4)
    {K : ℝ → Kin n} {qd : Fin n → ℝ} {t : ℝ} (h : KMoves K qd t) {C : Rows n} {J J' : Rows2 n e}
    (hJ : g.jacobian (K t) C J = some J') :
    (∀ k, k < (g.mask.take g.lPos).count true →
      HasDerivAt (fun t => (g.value quat (K t).M).getD k 0) (∑ c, J' k (.inl c) * qd c) t) ∧
    (∀ a b, HasDerivAt (fun t => (g.relative (K t).M).R a b)
      (((g.relative (K t).M).R * hat fun i : Fin 3 =>
        ∑ c, J' ((g.mask.take g.lPos).count true + i) (.inl c) * qd c) a b) t) ∧
    ∀ k, k < g.mask.count true → ∀ c, J' k (.inr c) = 0 := by
  obtain ⟨Bp, Bo, hp, ho, hrows⟩ := g.jacobian_rows ok hJ
  obtain ⟨hori, hO⟩ := GT.fullOri_spec (ok.full h3)
  have hP : ((List.range' 0 g.lPos).filter g.m).length = (g.mask.take g.lPos).count true := by
    have hl : (g.mask.take g.lPos).length = g.lPos := by rw [List.length_take, ok.mask]; omega
    have h := select_range (g.mask.take g.lPos) (List.replicate g.lPos (0 : ℝ)) (by simp [hl])
    have h2 := congrArg List.length h
    rw [select_length _ _ (by simp [hl]), List.length_map, hl] at h2
    rw [← h2, ← List.range_eq_range']
    congr 1
    refine List.filter_congr fun i hi => ?_
    rw [List.getElem?_take_of_lt (List.mem_range.1 hi)]
    simp only [GT.m, List.getD_eq_getElem?_getD]
    cases g.mask[i]? with
    | none => rfl
    | some b => cases b <;> rfl
  refine ⟨fun k hk => ?_, fun a b => ?_, fun k hk => ?_⟩
  · rw [← hP] at hk
    have hi := List.getElem?_eq_getElem hk
    generalize ((List.range' 0 g.lPos).filter g.m)[k] = i at hi
    have hl : i < g.lPos := by
      have := List.mem_range'_1.1 (List.mem_filter.1 (List.mem_of_getElem? hi)).1
      omega
    have hi' : g.rows[k]? = some i := by rw [g.rows_split, List.getElem?_append_left hk, hi]
    obtain ⟨h1, -⟩ := hrows k i hi'
    simp only [g.value_rows ok hq (h.rot _) hi', h1, if_pos hl]
    have hpos : g.pos = true := by
      by_contra hc
      simp [GT.lPos, hc] at hl
    have h3' : i < 3 := by simpa [GT.lPos, hpos] using hl
    have hd := g.deriv_pos ok h (hp hpos) ⟨i, h3'⟩
    have e1 : ∑ c, blockRow Bp i c * qd c = (Bp *ᵥ qd) ⟨i, h3'⟩ := blockRow_sum Bp qd ⟨i, h3'⟩
    rw [e1]
    refine hd.congr_of_eventuallyEq (Filter.Eventually.of_forall fun t => ?_)
    change (g.full quat (K t).M).getD i 0 = _
    unfold GT.full
    rw [if_pos hpos, getD_append_l (by simpa [list3] using h3')]
    exact list3_getD _ ⟨i, h3'⟩
  · have e1 : (fun i : Fin 3 => ∑ c, J' ((g.mask.take g.lPos).count true + i) (.inl c) * qd c) = Bo *ᵥ qd := by
      funext i
      have hr : g.rows[(g.mask.take g.lPos).count true + i]? = some (g.lPos + i) := by
        rw [g.rows_split, List.getElem?_append_right (by omega), hP, hO, Nat.add_sub_cancel_left]
        fin_cases i <;> rfl
      obtain ⟨h1, -⟩ := hrows _ _ hr
      simp only [h1, if_neg (show ¬ g.lPos + (i : ℕ) < g.lPos by omega), Nat.add_sub_cancel_left]
      exact blockRow_sum Bo qd i
    rw [e1, g.jorientation_eq (K t) qd (ho hori), g.jlogFrom1_ose3 ok h3 (h.rot t), ← mulVec_mulVec]
    exact (g.relative_moves ok h).2 a b
  · rw [← g.rows_length ok] at hk
    exact (hrows k _ (List.getElem?_eq_getElem hk)).2

/-- The computation of the Jacobian is defined exactly when at least one of the joints is not null. -/
theorem C52_defined {g : GT} (ok : g.Ok) (K : Kin n) (C : Rows n) (J : Rows2 n e) :
    (∃ J', g.jacobian K C J = some J') ↔ g.j1 ≠ none ∨ g.joint2 ≠ none := by
  have ht : (∃ B, g.jtranslation K = some B) ↔ g.j1 ≠ none ∨ g.joint2 ≠ none := by
    unfold GT.jtranslation
    cases g.j1 <;> cases g.joint2 <;> simp only [] <;> (try split_ifs) <;> simp
  have ho : (∃ B, g.jorientation K = some B) ↔ g.j1 ≠ none ∨ g.joint2 ≠ none := by
    unfold GT.jorientation
    cases g.j1 <;> cases g.joint2 <;> simp
  unfold GT.jacobian GT.writeTranslation GT.writeOrientation
  constructor
  · rintro ⟨J', h⟩
    obtain ⟨s, s1, h⟩ := Option.bind_eq_some_iff.1 h
    obtain ⟨s', s2, -⟩ := Option.map_eq_some_iff.1 h
    rcases ok.some with hp | hp
    · rw [if_pos hp] at s1
      obtain ⟨B, hB, -⟩ := Option.map_eq_some_iff.1 s1
      exact ht.1 ⟨B, hB⟩
    · rw [if_pos hp] at s2
      obtain ⟨B, hB, -⟩ := Option.map_eq_some_iff.1 s2
      exact ho.1 ⟨B, hB⟩
  · intro h
    obtain ⟨Bp, hBp⟩ := ht.2 h
    obtain ⟨Bo, hBo⟩ := ho.2 h
    rw [hBp, hBo]
    cases g.pos <;> cases g.ori <;> simp

/-! ### C51 -/

/-- The active variables are those of the joints between the two joints (joint 0 stands for a null joint). -/
theorem C51_active {r : Robot ℝ} (ok : r.Ok) {j1 j2 : Nat} (h1 : j1 < r.njoints) (h2 : j2 < r.njoints) (k : Nat) :
    ((r.activeBits j1 j2).1[k]? = some true ↔ ∃ a, r.OnPath j1 j2 a ∧ r.QVar a k) ∧
    ((r.activeBits j1 j2).2[k]? = some true ↔ ∃ a, r.OnPath j1 j2 a ∧ r.VVar a k) := by
  classical
  obtain ⟨e1, e2⟩ := Robot.setActiveLoop_get (r := r) ok.parent_lt (le_refl (j1 + j2))
    (List.replicate r.nq false, List.replicate r.nv false) k
  have hb : ∀ a, r.OnPath j1 j2 a → 0 < a ∧ a < r.njoints := fun a ha => by
    have := Robot.OnPath.bounds ok.parent_lt ha; omega
  unfold Robot.activeBits
  rw [e1, e2]
  constructor
  · rw [List.getElem?_replicate]
    constructor
    · intro h
      split_ifs at h
      · simpa using h
      · simp at h
    · rintro ⟨a, ha, hk⟩
      have := ok.qin a (hb a ha).1 (hb a ha).2
      unfold Robot.QVar at hk
      have hx : ∃ a, r.OnPath j1 j2 a ∧ r.QVar a k := ⟨a, ha, hk⟩
      rw [if_pos (show k < r.nq by omega), Option.map_some, decide_eq_true hx]
      rfl
  · rw [List.getElem?_replicate]
    constructor
    · intro h
      split_ifs at h
      · simpa using h
      · simp at h
    · rintro ⟨a, ha, hk⟩
      have := ok.vin a (hb a ha).1 (hb a ha).2
      unfold Robot.VVar at hk
      have hx : ∃ a, r.OnPath j1 j2 a ∧ r.VVar a k := ⟨a, ha, hk⟩
      rw [if_pos (show k < r.nv by omega), Option.map_some, decide_eq_true hx]
      rfl

/-- The value does not change when other variables change: two configurations with the same active variables give the
same value. -/
theorem C51_value {r : Robot ℝ} (ok : r.Ok) (g : GT) (quat : M3 ℝ → List ℝ) (h1 : g.j1.getD 0 < r.njoints)
    (h2 : g.joint2.getD 0 < r.njoints) {q q' : Nat → ℝ}
    (he : ∀ k, (r.activeBits (g.j1.getD 0) (g.joint2.getD 0)).1[k]? = some true → q k = q' k) :
    g.value quat (r.fk q) = g.value quat (r.fk q') := by
  have ho : ∀ (q : Nat → ℝ) (j : Option Nat), optM (r.fk q) j = r.fk q (j.getD 0) := fun q j => by
    cases j <;> rfl
  have hr : ∀ q, g.relative (r.fk q) =
      g.F1.actInv (((r.fk q (g.j1.getD 0)).actInv (r.fk q (g.joint2.getD 0))).mul g.F2) := fun q => by
    rw [g.relative_eq (Robot.fk_rot ok q), ho, ho]
    simp only [SE3.actInv_eq, SE3.mul_assoc]
  have hc := Robot.rel_congr ok (q := q) (q' := q') (i := g.j1.getD 0) (j := g.joint2.getD 0) fun a ha k hk =>
    he k (((C51_active ok h1 h2 k).1).2 ⟨a, ha, hk⟩)
  have : g.rawValue quat (r.fk q) = g.rawValue quat (r.fk q') := by
    unfold GT.rawValue
    simp only [g.transform_eq (Robot.fk_rot ok q), g.transform_eq (Robot.fk_rot ok q'),
      g.translation_eq (Robot.fk_rot ok q), g.translation_eq (Robot.fk_rot ok q'), hr, hc]
  unfold GT.value
  rw [this]

/-! ### Concrete cases -/

/-- A robot: joint 1 translates along x; joints 2 and 3 are attached to joint 1 and translate along x. -/
def demoRobot : Robot ℝ where
  njoints := 4
  nq := 3
  nv := 3
  parent := fun j => if j ≤ 1 then 0 else 1
  idxq := fun j => j - 1
  jnq := fun _ => 1
  idxv := fun j => j - 1
  jnv := fun _ => 1
  placement := fun _ => ⟨1, ![0, 1, 0]⟩
  jt := fun _ v => ⟨1, ![v.getD 0 0, 0, 0]⟩

theorem demoRobot_ok : demoRobot.Ok where
  pos := by decide
  parent_lt := fun j hj => by simp only [demoRobot]; split <;> omega
  qin := fun j h h' => by simp only [demoRobot] at *; omega
  vin := fun j h h' => by simp only [demoRobot] at *; omega
  qdisj := fun i j k _ _ _ _ _ _ _ _ => by simp only [demoRobot] at *; omega
  vdisj := fun i j k _ _ _ _ _ _ _ _ => by simp only [demoRobot] at *; omega
  rotp := fun _ => one_isRot
  rotj := fun _ _ => one_isRot

/-- The variable of joint 1, common ancestor of joints 2 and 3, is not active. -/
example : demoRobot.activeBits 2 3 = ([false, true, true], [false, true, true]) := by decide

example : demoRobot.activeBits 0 3 = ([true, false, true], [true, false, true]) := by decide

/-- A relative transformation with a mask that selects some components only -/
def demoGT : GT where
  rel := true
  pos := true
  ori := true
  ose3 := false
  joint1 := none
  joint2 := some 1
  F1 := ⟨1, ![1, 0, 0]⟩
  F2 := ⟨1, ![0, 1, 0]⟩
  mask := [true, false, true, false, true, true]

theorem demoGT_ok : demoGT.Ok := ⟨rfl, .inl rfl, by simp [demoGT], one_isRot, one_isRot⟩

/-- All joints translate along x. -/
def demoKin (t : ℝ) : Kin 1 := ⟨fun _ => ⟨1, ![t, 0, 0]⟩, fun _ => !![1; 0; 0], fun _ => 0⟩

theorem demoKin_moves (t : ℝ) : KMoves demoKin ![1] t := by
  refine ⟨fun _ _ => one_isRot, fun j => ⟨one_isRot, fun a b => ?_, fun i => ?_⟩⟩
  · simp only [demoKin, zero_mulVec, hat_zero, Matrix.mul_zero]
    exact hasDerivAt_const _ _
  · fin_cases i
    · simpa [demoKin, mulVec, dotProduct, Fin.sum_univ_three] using hasDerivAt_id' t
    · simpa [demoKin, mulVec, dotProduct, Fin.sum_univ_three] using hasDerivAt_const t (0 : ℝ)
    · simpa [demoKin, mulVec, dotProduct, Fin.sum_univ_three] using hasDerivAt_const t (0 : ℝ)

example (t : ℝ) (C : Rows 1) (J : Rows2 1 1) : ∃ J' : Rows2 1 1, demoGT.jacobian (demoKin t) C J = some J' ∧
    (demoGT.relative (demoKin t).M).R = 1 ∧ 3 < demoGT.mask.count true := by
  obtain ⟨J', h⟩ := (C52_defined demoGT_ok (demoKin t) C J).2 (.inr (by simp [demoGT]))
  refine ⟨J', h, ?_, by decide⟩
  simp [GT.relative, GT.frame1, GT.frame2, GT.j1, demoGT, demoKin, SE3.mul, SE3.inv]

/-- With values in `R^3 x SO(3)`: the mask of the orientation is full. -/
example : ({ demoGT with ose3 := true, mask := [true, false, true, true, true, true] } : GT).Ok :=
  ⟨rfl, .inl rfl, fun _ => rfl, one_isRot, one_isRot⟩

end Hpp.Pose
