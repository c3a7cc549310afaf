import Verif.BySub.LoopLink
import Verif.Log.Lipschitz
import Verif.RelPose.Examples

/-!
# C125: what the error threshold means for a constraint on a relative pose
-/

namespace Hpp.RelPose

open Matrix Hpp.Sym Hpp.Pose Hpp.Log

variable {r : Robot ℝ} {κ : Type}

/-- The value of a function on relative poses at pose `T`: translation, then logarithm of the rotation -/
noncomputable def poseRhs (T : SE3 ℝ) : List ℝ := list3 T.p ++ list3 (logSO3 T.R)

theorem sqSum_append (u v : List ℝ) : sqSum (u ++ v) = sqSum u + sqSum v := by
  unfold sqSum
  rw [List.foldl_append, sqSum_foldl, sqSum_foldl v 0, zero_add]

theorem sqSum_nonneg (v : List ℝ) : 0 ≤ sqSum v := by
  induction v with
  | nil => exact le_refl _
  | cons x v ih =>
    have : sqSum (x :: v) = x * x + sqSum v := by
      rw [show x :: v = [x] ++ v from rfl, sqSum_append]
      simp [sqSum]
    rw [this]
    exact add_nonneg (mul_self_nonneg x) ih

theorem sqSum_mem {v : List ℝ} {x : ℝ} (h : x ∈ v) : x * x ≤ sqSum v := by
  obtain ⟨a, b, rfl⟩ := List.append_of_mem h
  rw [sqSum_append, show x :: b = [x] ++ b from rfl, sqSum_append]
  have h1 := sqSum_nonneg a
  have h2 := sqSum_nonneg b
  have h3 : sqSum [x] = x * x := by simp [sqSum]
  linarith

/-! ### Components -/

/-- C125. Any constraint, output space and right hand side: if the squared norm of the error is less than the square of the
threshold, each active component of the difference between the value and the right hand side is less than the threshold in absolute
value if it is compared with an equality, more than the limit minus the threshold, or less than the opposite, if it is
compared with an inequality. -/
theorem C125_components {fn : Hpp.Fn ℝ κ} {mask : List Bool} {comp : List Comp} {c : Impl ℝ κ} (hb : Impl.Built fn mask comp c)
    {thr t : ℝ} (ht : 0 < t) {q : Nat → ℝ} {v : List ℝ} (h : sqSum (conError thr q c v) < t * t)
    {i : Nat} {ty : Comp} {x : ℝ} (hm : mask = [] ∨ mask[i]? = some true) (hc : comp[i]? = some ty)
    (hx : (fn.space.sub (fn.value q) v)[i]? = some x) :
    match ty with
    | .equality => |x| < t
    | .equalToZero => |x| < t
    | .superior => thr - t < x
    | .inferior => x < -thr + t := by
  obtain ⟨hok, hfn, hcomp, hmask⟩ := hb.ok
  have hci : i < fn.space.nv := by
    rw [← hfn, ← hok.comp_len, hcomp]
    exact (List.getElem?_eq_some_iff.1 hc).1
  have hmi : c.mask[i]? = some true := by
    rw [hmask]
    unfold fullMask
    split
    · rw [List.getElem?_replicate, if_pos hci]
    · exact hm.resolve_left ‹_›
  have hmem : comparedError ty thr x ∈ conError thr q c v := by
    refine List.mem_of_getElem? (i := i) ?_
    unfold conError maskBy
    rw [List.getElem?_zipWith, List.getElem?_zipWith, hcomp, hfn, hc, hmi, hx]
    rfl
  have hlt : |comparedError ty thr x| < t := by
    have := lt_of_le_of_lt (sqSum_mem hmem) h
    rw [← abs_of_pos ht]
    exact sq_lt_sq.1 (by rw [sq, sq]; exact this)
  cases ty with
  | equality => exact hlt
  | equalToZero => exact hlt
  | superior =>
    simp only [comparedError] at hlt
    show thr - t < x
    split at hlt
    · linarith
    · linarith [(abs_lt.1 hlt).1]
  | inferior =>
    simp only [comparedError] at hlt
    show x < -thr + t
    split at hlt
    · linarith
    · linarith [(abs_lt.1 hlt).2]

/-! ### Poses -/

theorem log_le_angle {R : M3 ℝ} (h : IsRot R) (hp : angle R < Real.pi) : norm3 (logSO3 R) ≤ angle R := by
  have h0 := angle_nonneg h
  apply norm3_le h0
  rw [logSO3_norm h hp]
  split
  · exact le_refl _
  · have h1 := Real.sin_le h0
    have h2 := Real.sin_nonneg_of_nonneg_of_le_pi h0 hp.le
    gcongr

/-- The error of a constraint all the rows of which are active and compared with equalities -/
theorem conError_six {g : GT} (gok : g.Ok) (h3 : g.ose3 = false) {quat : M3 ℝ → List ℝ}
    (hq : ∀ R, (quat R).length = 4) {key : κ} {jac : (Nat → ℝ) → Jac ℝ} {mask : List Bool} {comp : List Comp} {c : Impl ℝ κ}
    (hb : Impl.Built (gtFn key r g quat (vspace (g.mask.count true)) jac) mask comp c)
    (hn : constrains c (ofGT g) ≠ nullPair) (hc : ∀ t ∈ comp, t = .equality ∨ t = .equalToZero) (thr : ℝ) (ok : r.Ok)
    (q : Nat → ℝ) (T : SE3 ℝ) :
    sqSum (conError thr q c (poseRhs T)) =
      ((g.relative (r.fk q)).p - T.p) ⬝ᵥ ((g.relative (r.fk q)).p - T.p) +
      (logSO3 (g.relative (r.fk q)).R - logSO3 T.R) ⬝ᵥ (logSO3 (g.relative (r.fk q)).R - logSO3 T.R) := by
  obtain ⟨-, hnv, hcl, hma⟩ := all_active hb hn
  obtain ⟨hok, hfn, hcomp, hmask⟩ := hb.ok
  have hcount : g.mask.count true = 6 := hnv
  have hv : (gtFn key r g quat (vspace (g.mask.count true)) jac).value q = poseRhs (g.relative (r.fk q)) := by
    change g.value quat (r.fk q) = _
    rw [value_six gok hq hcount (Robot.fk_rot ok q), h3]
    rfl
  have hmk : c.mask = List.replicate 6 true := by
    rw [List.eq_replicate_iff]
    have hl : c.mask.length = 6 := by rw [hok.mask_len, hfn, hnv]
    refine ⟨hl, fun b hbm => ?_⟩
    obtain ⟨i, hi⟩ := List.getElem?_of_mem hbm
    have h6 : i < 6 := by rw [← hl]; exact (List.getElem?_eq_some_iff.1 hi).1
    rw [hmask] at hi
    unfold fullMask at hi
    split at hi
    · rw [List.getElem?_replicate] at hi
      split at hi <;> simp at hi
      exact hi
    · rename_i hne
      have := (hma i h6).resolve_left hne
      rw [this] at hi
      exact (Option.some.inj hi).symm
  have hid : ∀ ty ∈ comp, ∀ x, comparedError ty thr x = x := by
    intro ty hty x
    rcases hc ty hty with rfl | rfl <;> rfl
  unfold conError
  rw [hfn, hcomp, hmk, hv]
  obtain ⟨c0, c1, c2, c3, c4, c5, rfl⟩ : ∃ c0 c1 c2 c3 c4 c5, comp = [c0, c1, c2, c3, c4, c5] := by
    match comp, hcl with
    | [c0, c1, c2, c3, c4, c5], _ => exact ⟨c0, c1, c2, c3, c4, c5, rfl⟩
  simp only [List.mem_cons, List.not_mem_nil, or_false, forall_eq_or_imp, forall_eq] at hid
  obtain ⟨i0, i1, i2, i3, i4, i5⟩ := hid
  simp only [gtFn, vspace, poseRhs, list3, maskBy, List.cons_append, List.nil_append, List.zipWith_cons_cons, List.zipWith_nil_left,
    List.replicate, if_true, i0, i1, i2, i3, i4, i5, sqSum, List.foldl_cons, List.foldl_nil, dot_three, Pi.sub_apply]
  ring

/-- C125 (partial: the angle of the pose required plus the threshold is less than π, see `C125_half_turn_refuted`). Constraint on
a relative pose with vector values, all the rows of which are active and compared with equalities, right hand side computed from pose
`T`: if the squared norm of the error is less than the square of the threshold `t`, the relative pose of the frames moves each
point `x` at a distance of at most `t + (t + 1e-18) ‖x‖` of the point where `T` moves it. -/
theorem C125_error_partial (ok : r.Ok) {g : GT} (gok : g.Ok) (h3 : g.ose3 = false) {quat : M3 ℝ → List ℝ}
    (hq : ∀ R, (quat R).length = 4) {key : κ} {jac : (Nat → ℝ) → Jac ℝ} {mask : List Bool} {comp : List Comp} {c : Impl ℝ κ}
    (hb : Impl.Built (gtFn key r g quat (vspace (g.mask.count true)) jac) mask comp c)
    (hn : constrains c (ofGT g) ≠ nullPair) (hc : ∀ t ∈ comp, t = .equality ∨ t = .equalToZero) {thr t : ℝ} (ht : 0 < t)
    {q : Nat → ℝ} {T : SE3 ℝ} (hT : IsRot T.R) (ha : angle T.R + t < Real.pi)
    (h : sqSum (conError thr q c (poseRhs T)) < t * t) (x : V3 ℝ) :
    norm3 ((g.relative (r.fk q)).act x - T.act x) ≤ t + (t + 1e-18) * norm3 x := by
  rw [conError_six gok h3 hq hb hn hc thr ok] at h
  have hR := relative_rot ok gok q
  generalize g.relative (r.fk q) = A at h hR ⊢
  have d1 := dot_self_nonneg (A.p - T.p)
  have d2 := dot_self_nonneg (logSO3 A.R - logSO3 T.R)
  have e1 : norm3 (A.p - T.p) ≤ t := norm3_le ht.le (by rw [sq]; linarith)
  have e2 : norm3 (logSO3 A.R - logSO3 T.R) ≤ t := norm3_le ht.le (by rw [sq]; linarith)
  have aT : angle T.R < Real.pi := by linarith
  have aA : angle A.R < Real.pi := by
    refine lt_of_le_of_ne (angle_le_pi hR) fun he => ?_
    have hl := log_half_turn hR he
    have hn : norm3 (logSO3 A.R) = Real.pi := by rw [norm3, hl, Real.sqrt_sq Real.pi_pos.le]
    have htri := norm3_add_le (logSO3 A.R - logSO3 T.R) (logSO3 T.R)
    rw [sub_add_cancel, hn] at htri
    have := log_le_angle hT aT
    linarith
  have e3 := log_displace hR hT aA aT x
  have e : A.act x - T.act x = (A.R *ᵥ x - T.R *ᵥ x) + (A.p - T.p) := by
    unfold SE3.act
    abel
  rw [e]
  refine (norm3_add_le _ _).trans ?_
  have hx := norm3_nonneg x
  have : (norm3 (logSO3 A.R - logSO3 T.R) + 1e-18) * norm3 x ≤ (t + 1e-18) * norm3 x := by gcongr
  linarith

section
variable [DecidableEq κ] {S : Type} {El : Space ℝ → List ℝ → Prop} {nq nv : Nat} {hist : BHist ℝ κ} {s : BS ℝ κ}
  {D : Space ℝ → List ℝ → List ℝ → Nat → Nat → ℝ}

/-- C125 (partial: the angle of the pose required plus the threshold is less than π, see `C125_half_turn_refuted`). Solver by
substitution built by insertion of constraints: whatever the line search and the decomposition are, if `solve` returns `SUCCESS`,
then at the configuration returned each mandatory implicit constraint that reports joints whose relative pose is fully constrained,
with equalities and with a right hand side computed from a pose `T`, is such that the relative pose of the frames moves
each point `x` at a distance of at most `t + (t + 1e-18) ‖x‖` of the point where `T` moves it, with `t` the error threshold. -/
theorem C125_solve_partial (hb : BS.Built El nq nv hist s) (hl : BHist.Lawful El hist)
    (hne : s.hi.lastIsOptional = true → s.hi.levels ≠ [])
    {t : ℝ} (ht : 0 < t) (hsq : s.hi.sqThr = t * t)
    (o : SvdOps ℝ) (J0 : (Nat → ℝ) → Jac ℝ)
    (ls : S → (Nat → ℝ) → (Fin (indices s.hi.free.segs).length → ℝ) →
      (S × LsOut (Nat → ℝ) (Fin (indices s.hi.free.segs).length → ℝ)) × Bool)
    (dqMin : ℝ) (w : Bool) (q : Nat → ℝ) (m)
    (hs : (bsSolve (s.ops D o J0 ls) s.hi.sqThr dqMin s.hi.maxIter s.reducedDim w s.hi.lastIsOptional q m).status = .success)
    (ok : r.Ok) {g : GT} (gok : g.Ok) (h3 : g.ose3 = false) {quat : M3 ℝ → List ℝ}
    (hq : ∀ R, (quat R).length = 4) {key : κ} {jac : (Nat → ℝ) → Jac ℝ} {mask : List Bool} {comp : List Comp} {e : Impl ℝ κ × Nat}
    (he : e ∈ implOf hist) (hm : IsMandatory s.hi e)
    (hbe : Impl.Built (gtFn key r g quat (vspace (g.mask.count true)) jac) mask comp e.1)
    (hn : constrains e.1 (ofGT g) ≠ nullPair) (hc : ∀ t ∈ comp, t = .equality ∨ t = .equalToZero)
    {T : SE3 ℝ} (hT : IsRot T.R) (ha : angle T.R + t < Real.pi) (hr : s.hi.getRhs e.1 = some (some (poseRhs T))) (x : V3 ℝ) :
    norm3 ((g.relative (r.fk (bsSolve (s.ops D o J0 ls) s.hi.sqThr dqMin s.hi.maxIter s.reducedDim w s.hi.lastIsOptional q
      m).arg)).act x - T.act x) ≤ t + (t + 1e-18) * norm3 x := by
  obtain ⟨p1, -, -, -⟩ := hb.parts
  obtain ⟨l1, l2⟩ := hl.impl
  obtain ⟨-, hnorm⟩ := C37_success _ _ _ _ _ _ _ _ _ hs
  generalize (bsSolve (s.ops D o J0 ls) s.hi.sqThr dqMin s.hi.maxIter s.reducedDim w s.hi.lastIsOptional q m).arg = q' at hnorm ⊢
  have hpos : 0 < s.hi.sqThr := by rw [hsq]; exact mul_pos ht ht
  obtain ⟨n, g1, -, g3, -⟩ := C33_worst p1 l1 l2 hne q'
  have hlt : n < s.hi.sqThr := by
    have e : (s.ops D o J0 ls).norm q' = n := by
      show (s.hi.sqNorm q').getD 0 = n
      rw [g1, Option.getD_some]
    rw [e] at hnorm
    rcases hnorm with hn | hn
    · exact hn
    · linarith
  obtain ⟨v, hv, hle⟩ := g3 e he hm
  rw [hr] at hv
  obtain rfl := Option.some.inj (Option.some.inj hv)
  exact C125_error_partial ok gok h3 hq hbe hn hc ht hT ha (by rw [← hsq]; exact lt_of_le_of_lt hle hlt) x

end

/-! ### Concrete cases -/

/-- C125 (refutation). Joint 1 of `exRobot` turns about z and its frame is turned by half a turn about x: the error is zero
for the right hand side computed from a pose, whatever the threshold is, at a configuration where a point at distance 1 of the
origin is at distance 2 of the place required. -/
theorem C125_half_turn_refuted (jac : (Nat → ℝ) → Jac ℝ) :
    ∃ (c : Impl ℝ Unit) (T : SE3 ℝ) (q : Nat → ℝ) (x : V3 ℝ),
      Impl.Built (gtFn () exRobot (exAbs 1 ⟨halfX, 0⟩) noQuat (vspace 6) jac) [] (List.replicate 6 .equality) c ∧
      constrains c (ofGT (exAbs 1 ⟨halfX, 0⟩)) ≠ nullPair ∧ IsRot T.R ∧ sqSum (conError 0 q c (poseRhs T)) = 0 ∧ norm3 x = 1 ∧
      norm3 (((exAbs 1 ⟨halfX, 0⟩).relative (exRobot.fk q)).act x - T.act x) = 2 := by
  obtain ⟨c, hb, hc⟩ := exists_con (gtFn () exRobot (exAbs 1 ⟨halfX, 0⟩) noQuat (vspace 6) jac) rfl .equality
  have hR : ∀ t : ℝ, rotZ t * halfX = !![Real.cos t, Real.sin t, 0; Real.sin t, -Real.cos t, 0; 0, 0, -1] := by
    intro t
    ext i j
    fin_cases i <;> fin_cases j <;> simp [rotZ, halfX, Matrix.mul_apply, Fin.sum_univ_three]
  have hlog : logSO3 (rotZ (-(Real.pi / 2)) * halfX) = logSO3 (rotZ (Real.pi / 2) * halfX) := by
    have ha : angle (rotZ (-(Real.pi / 2)) * halfX) = angle (rotZ (Real.pi / 2) * halfX) := by
      rw [hR, hR]; simp [angle]
    unfold logSO3
    rw [ha, hR, hR]
    simp
  have hrel : ∀ t : ℝ, (exAbs 1 ⟨halfX, 0⟩).relative (exRobot.fk (exConf t)) = ⟨rotZ t * halfX, 0⟩ := by
    intro t
    rw [exAbs_relative exRobot_ok, exFk, if_pos (.inl rfl)]
    simp [SE3.mul]
  have hn : constrains c (ofGT (exAbs 1 ⟨halfX, 0⟩)) ≠ nullPair := by rw [hc, exAbs_pair]; simp [nullPair]
  refine ⟨c, ⟨rotZ (Real.pi / 2) * halfX, 0⟩, exConf (-(Real.pi / 2)), ![1, 0, 0], hb, hn,
    (Pose.rotZ_isRot _).mul halfX_isRot, ?_, ?_, ?_⟩
  · rw [conError_six (g := exAbs 1 ⟨halfX, 0⟩) (quat := noQuat) (exAbs_ok 1 halfX_isRot) rfl (fun _ => by simp [noQuat]) hb hn
      (fun t ht => .inl (List.eq_of_mem_replicate ht)) 0 exRobot_ok, hrel]
    dsimp only
    rw [hlog]
    simp
  · simp [norm3, dot_three]
  · rw [hrel]
    unfold SE3.act
    dsimp only
    rw [hR, hR]
    simp only [norm3, dot_three, mulVec]
    simp
    norm_num
    rw [show (4 : ℝ) = 2 ^ 2 by norm_num]
    exact Real.sqrt_sq (by norm_num)

theorem vspace_lawful (n : Nat) : (vspace n : Space ℝ).Lawful fun v => v.length = n where
  neutral_mem := by simp [vspace]
  log_len := fun g h => h
  len := fun g h => h
  exp_mem := fun v h => h
  exp_log := fun g _ => rfl
  exp_zero := rfl
  log_exp_mask := fun _ _ _ _ => rfl
  sub_len := fun g h hg hh => by simp [vspace, hg, hh]
  sub_eq_zero := fun g h hg hh => by
    change List.zipWith (· - ·) g h = List.replicate n 0 ↔ _
    constructor
    · intro e
      refine zipWith_sub_zero (hg.trans hh.symm) fun d hd => ?_
      rw [e] at hd
      exact List.eq_of_mem_replicate hd
    · rintro rfl
      rw [List.zipWith_self, List.eq_replicate_iff]
      exact ⟨by simp [hg], by simp⟩

/-- `C125_solve_partial` and `C125_error_partial` for joint 1 of `demoRobot`, threshold 1/10, right hand side computed from configuration
`(2, 0, 0)`: the solver exists, `solve` returns `SUCCESS` from this configuration, and the other hypotheses hold; at
configuration `(2.05, 0, 0)` the error is not zero and is less than the threshold. -/
example (D : Space ℝ → List ℝ → List ℝ → Nat → Nat → ℝ) (o : SvdOps ℝ) (J0 jac : (Nat → ℝ) → Jac ℝ) :
    ∃ (c : Impl ℝ Unit) (h : BHist ℝ Unit) (s : BS ℝ Unit) (T : SE3 ℝ), BS.Built (fun sp v => v.length = sp.nq) 3 3 h s ∧
      BHist.Lawful (fun sp v => v.length = sp.nq) h ∧ s.hi.lastIsOptional = false ∧ s.hi.sqThr = 1 / 10 * (1 / 10) ∧
      (c, 0) ∈ implOf h ∧ IsMandatory s.hi (c, 0) ∧
      Impl.Built (gtFn () demoRobot (exAbs 1 SE3.one) noQuat (vspace ((exAbs 1 SE3.one).mask.count true)) jac) []
        (List.replicate 6 .equality) c ∧ constrains c (ofGT (exAbs 1 SE3.one)) ≠ nullPair ∧ (exAbs 1 SE3.one).Ok ∧
      IsRot T.R ∧ angle T.R + 1 / 10 < Real.pi ∧ s.hi.getRhs c = some (some (poseRhs T)) ∧
      (∀ (S : Type) (ls : S → (Nat → ℝ) → (Fin (indices s.hi.free.segs).length → ℝ) →
        (S × LsOut (Nat → ℝ) (Fin (indices s.hi.free.segs).length → ℝ)) × Bool) m,
        (bsSolve (s.ops D o J0 ls) s.hi.sqThr (1 / 10 ^ 12) s.hi.maxIter s.reducedDim false s.hi.lastIsOptional
          (fun i => if i = 0 then 2 else 0) m).status = .success) ∧
      sqSum (conError 0 (fun i => if i = 0 then 2.05 else 0) c (poseRhs T)) = 1 / 400 := by
  obtain ⟨c, hb, hc⟩ := exists_con (gtFn () demoRobot (exAbs 1 SE3.one) noQuat (vspace ((exAbs 1 SE3.one).mask.count true)) jac)
    (by simp [gtFn, vspace, exAbs]) .equality
  have hn : constrains c (ofGT (exAbs 1 SE3.one)) ≠ nullPair := by rw [hc, exAbs_pair]; simp [nullPair]
  obtain ⟨hok, hfn, hcomp, -⟩ := hb.ok
  have hval : ∀ q, c.fn.value q = poseRhs ⟨1, ![q 0, 1, 0]⟩ := by
    intro q
    rw [hfn]
    change (exAbs 1 SE3.one).value noQuat (demoRobot.fk q) = _
    rw [exAbs_value demoRobot_ok 1 one_isRot, demo_fk1, SE3.mul_one]
    rfl
  have hsp : c.fn.space = vspace 6 := by
    rw [hfn]
    simp [gtFn, exAbs]
  have hin : SameInput 3 3 c := by
    rw [SameInput, hfn]
    refine ⟨rfl, rfl, ?_, ?_⟩ <;> rfl
  obtain ⟨s', hs'⟩ := HI.add_succeeds (HI.Inv.init (α := ℝ) (κ := Unit) 3) (nq := 3) (nv := 3) (by simp) hin (by simp) 0
  have hadd : (BS.init ℝ Unit 3 3 0).add 0 ⟨c, none⟩ 0 [] = (⟨s', [⟨c, none⟩], ECS.init 3 3 0⟩, .ok true) := by
    unfold BS.add
    rw [if_neg (by simp [BS.init, BS.contains])]
    show (BS.init ℝ Unit 3 3 0).addImplicit ⟨c, none⟩ 0 = _
    unfold BS.addImplicit
    rw [show (BS.init ℝ Unit 3 3 0).hi.add (BCon.mk c none).impl 0 = (s', none) from hs']
    rfl
  have b1 := BS.Built.add (E := fun sp v => v.length = sp.nq) (.init (nq := 3) (nv := 3) (κ := Unit) (0 : ℝ)) ⟨_, _, _, hb⟩ hadd
  have b2 := b1.params (1 / 10 * (1 / 10)) 0 (1 / 10) 40 false true
  have b3 := b2.fromConfig (q := fun i => if i = 0 then (2 : ℝ) else 0)
  have hlaw : BHist.Lawful (fun sp v => v.length = sp.nq)
      ([] ++ [((⟨c, none⟩ : BCon ℝ Unit), 0, decide ((BS.init ℝ Unit 3 3 0).ex.data.length <
        (BS.mk s' [⟨c, none⟩] (ECS.init 3 3 0)).ex.data.length))]) := by
    constructor
    · intro e he
      simp only [List.nil_append, List.mem_singleton] at he
      subst he
      show c.fn.space.Lawful _
      rw [hsp]
      exact vspace_lawful 6
    · intro e he q
      simp only [List.nil_append, List.mem_singleton] at he
      subst he
      show (c.fn.value q).length = c.fn.space.nq
      rw [hval, hsp]
      simp [poseRhs, list3, vspace]
  have hmem : (c, 0) ∈ implOf ([] ++ [((⟨c, none⟩ : BCon ℝ Unit), 0, decide ((BS.init ℝ Unit 3 3 0).ex.data.length <
        (BS.mk s' [⟨c, none⟩] (ECS.init 3 3 0)).ex.data.length))]) := by
    simp [implOf, BS.init]
  obtain ⟨l1, l2⟩ := hlaw.impl
  have hsat := (C25_equality_satisfied b2.parts.1 l1 l2 (fun i => if i = 0 then (2 : ℝ) else 0) _ hmem
    (by rw [hcomp]; intro t ht; exact List.eq_of_mem_replicate ht)).1
  rw [hval, if_pos rfl] at hsat
  have hone : angle (1 : M3 ℝ) = 0 := (log_one rfl).1
  have hrel : ∀ q, (exAbs 1 SE3.one).relative (demoRobot.fk q) = ⟨1, ![q 0, 1, 0]⟩ := by
    intro q
    rw [exAbs_relative demoRobot_ok, demo_fk1, SE3.mul_one]
  have herr := fun q => conError_six (exAbs_ok 1 one_isRot) rfl (fun _ => by simp [noQuat]) hb hn
    (fun t ht => .inl (List.eq_of_mem_replicate ht)) 0 demoRobot_ok q ⟨1, ![2, 1, 0]⟩
  refine ⟨c, _, _, ⟨1, ![2, 1, 0]⟩, b3, hlaw, rfl, rfl, hmem, (fun h => by cases h), hb, hn, exAbs_ok 1 one_isRot, one_isRot, ?_, hsat, ?_, ?_⟩
  · have := Real.pi_gt_three
    simp only [hone]
    linarith
  · intro S ls m
    obtain ⟨n, g1, g2, -, g4⟩ := C33_worst b3.parts.1 l1 l2 (fun h => by cases h) (fun i => if i = 0 then (2 : ℝ) else 0)
    have hn0 : n = 0 := by
      rcases g4 with h | ⟨e, he, -, v, hv, h⟩
      · exact h
      · have he' : e = (c, 0) := by simpa [implOf, BS.init] using he
        subst he'
        have := hv.symm.trans hsat
        rw [Option.some.inj (Option.some.inj this)] at h
        rw [h]
        refine (herr _).trans ?_
        rw [hrel]
        simp
    rw [hn0] at g1
    generalize hS : BS.rhsFromConfig (α := ℝ) (κ := Unit) _ _ = s at g1 ls m ⊢
    have hex : ∀ q, s.ex.solve q = q := by
      intro q
      rw [← hS]
      rfl
    have hthr : s.hi.sqThr = 1 / 10 * (1 / 10) := by rw [← hS]; rfl
    have hopt : s.hi.lastIsOptional = false := by rw [← hS]; rfl
    have h0 : (s.ops D o J0 ls).norm (fun i => if i = 0 then (2 : ℝ) else 0) = 0 := by
      show (s.hi.sqNorm _).getD 0 = 0
      rw [g1]
      rfl
    have h1 : (s.ops D o J0 ls).expl (fun i => if i = 0 then (2 : ℝ) else 0) = (fun i => if i = 0 then (2 : ℝ) else 0, true) := by
      show (s.ex.solve _, true) = _
      rw [hex]
    unfold bsSolve
    rw [h1]
    simp only [h0, hthr, hopt]
    rw [if_neg (by norm_num)]
    have hab : (bsInit (s.ops D o J0 ls) (1 / 10 * (1 / 10)) (false && false) (fun i => if i = 0 then (2 : ℝ) else 0) m).above = false := by
      simp only [bsInit, h0]
      norm_num
    generalize bsBudget _ _ _ = k
    cases k <;> simp only [bsLoop, hab] <;> simp [bsEnd]
  · rw [herr, hrel]
    simp [dot_three]
    norm_num

end Hpp.RelPose
