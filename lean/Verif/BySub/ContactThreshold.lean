import Verif.Contact.Threshold
import Verif.Contact.ExplicitMore
import Verif.BySub.PoseThreshold

/-!
# C126: what the error threshold means for a contact constraint
-/

namespace Hpp.Contact

open Matrix Hpp.Sym Hpp.Pose Hpp.Log

/-- The function of a contact constraint as seen by solvers (convex-shape-contact.cc:41-47: output space of dimension 5; 192-223:
value).  Bits of active parameters and Jacobian are arbitrary.  Undefined behaviour of `Fn.value` does not happen when there are floors
and objects (`C84_defined`). -/
noncomputable def contactFn {κ : Type} (key : κ) (r : Robot ℝ) (f : Fn) (jac : (Nat → ℝ) → Jac ℝ) (activeQ active : List Bool) :
    Hpp.Fn ℝ κ where
  key := key
  inputSize := r.nq
  inputDer := r.nv
  spaceId := 0
  space := vspace 5
  value := fun q => match f.value (r.fk q) with
    | .ok v => [v 0, v 1, v 2, v 3, v 4]
    | .error _ => [0, 0, 0, 0, 0]
  jac := jac
  activeQ := activeQ
  active := active

variable {κ : Type} {r : Robot ℝ} {f : Fn} {fs os : List JShape} {margin : ℝ} {j i : Nat} {F O : JShape}

/-- Error of a contact constraint, built as `createConstraintAndComplement` does: all components are compared with zero. -/
theorem conError_contact {key : κ} {jac : (Nat → ℝ) → Jac ℝ} {aq av : List Bool} {c : Impl ℝ κ}
    (hb : Impl.Built (contactFn key r f jac aq av) [] (List.replicate 5 .equalToZero) c) (thr : ℝ) {q : Nat → ℝ} {v : Fin 5 → ℝ}
    (hv : f.value (r.fk q) = .ok v) : sqSum (conError thr q c (List.replicate 5 0)) = v ⬝ᵥ v := by
  obtain ⟨-, hfn, hcomp, hmask⟩ := hb.ok
  have hm : c.mask = List.replicate 5 true := by
    rw [hmask]
    rfl
  unfold conError
  rw [hfn, hcomp, hm]
  simp only [contactFn, hv, vspace, List.replicate, List.zipWith_cons_cons, List.zipWith_nil_left, maskBy, if_true, comparedError, sqSum,
    List.foldl_cons, List.foldl_nil, five_sq]
  ring

section
variable [DecidableEq κ] {S : Type} {El : Space ℝ → List ℝ → Prop} {nq nv : Nat} {hist : BHist ℝ κ} {s : BS ℝ κ}
  {D : Space ℝ → List ℝ → List ℝ → Nat → Nat → ℝ}

/-- C126. Solver by substitution built by insertion of constraints: whatever the line search and the decomposition are, if `solve`
returns `SUCCESS`, then at the configuration returned, for each mandatory implicit contact constraint, the pair of surfaces selected
is in contact up to the error threshold `t`: height, normals, and projection of the center of the object inside the floor polygon if
the outline of this polygon is farther than `t` from its center. -/
theorem C126_solve (hb : BS.Built El nq nv hist s) (hl : BHist.Lawful El hist)
    (hne : s.hi.lastIsOptional = true → s.hi.levels ≠ [])
    {t : ℝ} (ht : 0 < t) (hsq : s.hi.sqThr = t * t)
    (o : SvdOps ℝ) (J0 : (Nat → ℝ) → Jac ℝ)
    (ls : S → (Nat → ℝ) → (Fin (indices s.hi.free.segs).length → ℝ) →
      (S × LsOut (Nat → ℝ) (Fin (indices s.hi.free.segs).length → ℝ)) × Bool)
    (dqMin : ℝ) (wt : Bool) (q : Nat → ℝ) (m) {q' : Nat → ℝ}
    (hs : (bsSolve (s.ops D o J0 ls) s.hi.sqThr dqMin s.hi.maxIter s.reducedDim wt s.hi.lastIsOptional q m).status = .success)
    (hq' : (bsSolve (s.ops D o J0 ls) s.hi.sqThr dqMin s.hi.maxIter s.reducedDim wt s.hi.lastIsOptional q m).arg = q')
    (ok : r.Ok) (hf : Fn.build fs os margin = some f) (hS : Surfaces fs os)
    {key : κ} {jac : (Nat → ℝ) → Jac ℝ} {aq av : List Bool} {e : Impl ℝ κ × Nat}
    (he : e ∈ implOf hist) (hm : IsMandatory s.hi e)
    (hbe : Impl.Built (contactFn key r f jac aq av) [] (List.replicate 5 .equalToZero) e.1)
    (hr : s.hi.getRhs e.1 = some (some (List.replicate 5 0)))
    (hn : Nearest fs os (r.fk q') j i F O) {u w : V3 ℝ} (hu : F.IsNormal (r.fk q') u) (hw : O.IsNormal (r.fk q') w) :
    |u ⬝ᵥ (O.center (r.fk q') - F.center (r.fk q')) - margin| ≤ t ∧
    (Above (r.fk q') F O ∨ ∃ y, F.IsProj (r.fk q') (O.center (r.fk q')) y ∧ edist y (F.center (r.fk q')) ≤ t) ∧
    ((∀ z ∈ F.outline (r.fk q'), t < edist z (F.center (r.fk q'))) → Above (r.fk q') F O) ∧
    edist w (-u) ≤ (1 + 1e-12) * t := by
  obtain ⟨p1, -, -, -⟩ := hb.parts
  obtain ⟨l1, l2⟩ := hl.impl
  obtain ⟨-, hnorm⟩ := C37_success _ _ _ _ _ _ _ _ _ hs
  rw [hq'] at hnorm
  have hpos : 0 < s.hi.sqThr := by rw [hsq]; exact mul_pos ht ht
  obtain ⟨n, g1, -, g3, -⟩ := C33_worst p1 l1 l2 hne q'
  have hlt : n < s.hi.sqThr := by
    have e : (s.ops D o J0 ls).norm q' = n := by
      show (s.hi.sqNorm q').getD 0 = n
      rw [g1, Option.getD_some]
    rw [e] at hnorm
    rcases hnorm with hn | hn
    · exact hn
    · linarith
  obtain ⟨v, hv, hle⟩ := g3 e he hm
  rw [hr] at hv
  obtain rfl := Option.some.inj (Option.some.inj hv)
  have hM := Robot.fk_rot ok q'
  have hfs : fs ≠ [] ∧ os ≠ [] := by
    constructor <;> rintro rfl
    · have := hn.floor
      simp at this
    · have := hn.object
      simp at this
  obtain ⟨x, hx⟩ := (C84_defined hf hS hM).1 hfs
  rw [conError_contact hbe _ hx] at hle
  refine C126_plane hf hS hM hn hu hw ht.le hx ?_
  rw [sq, ← hsq]
  linarith

end

/-! ### Concrete cases -/

theorem square_far {M : Nat → SE3 ℝ} : ∀ z ∈ demoFloor.outline M, (1 : ℝ) / 4 < edist z (demoFloor.center M) := by
  rintro z ⟨y, hy, rfl⟩
  rw [demoFloor_center]
  change 1 / 4 < edist y _
  unfold edist
  apply Real.lt_sqrt_of_sq_lt
  simp only [dotProduct, Fin.sum_univ_three, Pi.sub_apply]
  have h0 := mul_self_nonneg (y 0 - 1 / 2)
  have h1 := mul_self_nonneg (y 1 - 1 / 2)
  have h2 := mul_self_nonneg (y 2)
  simp
  rcases square_outline hy with h | h | h | h <;> rw [h] at * <;> norm_num at * <;> nlinarith

/-- The hypotheses of `C126_plane` and `C126_point` hold, with values different from zero. -/
example : ∃ f, Fn.build [demoFloor] [demoObj] (1 / 5) = some f ∧ ∃ v, f.value (demoKin 0).M = .ok v ∧ v 0 = 1 / 5 ∧
    v ⬝ᵥ v ≤ (1 / 4) ^ 2 := by
  obtain ⟨f, hf⟩ := build_defined (fs := [demoFloor]) (os := [demoObj]) (by simp [demoFloor, square])
    (by simp [demoObj, square]) (1 / 5)
  have hS := demo_surfaces demoObj_object (by simp [demoObj])
  have hM := (demoKin_moves 0).rot 0
  obtain ⟨v, hv, hle⟩ := C126_converse hf hS hM (demo_nearest _) (square_normal _) demoObj_normal (demo_above demoObj_center)
  refine ⟨f, hf, v, hv, ?_, ?_⟩
  · obtain ⟨s, -, h0, -⟩ := value_parts hf hS hM (demo_nearest _) (square_normal _) hv
    rw [h0, demoObj_center, demoFloor_center]
    simp
  · rw [demoObj_center, demoFloor_center, sub_self, dotProduct_zero] at hle
    have e : edist ![0, 0, -1] (-![0, 0, 1] : V3 ℝ) = 0 := by simp [edist]
    rw [e] at hle
    norm_num at hle ⊢
    linarith

example (h : ℝ) (hh : |h| ≤ 1 / 4) : ∃ f, Fn.build [demoFloor] [demoPt h] 0 = some f ∧ ∃ v, f.value (demoKin 0).M = .ok v ∧
    v ⬝ᵥ v ≤ (1 / 4) ^ 2 := by
  obtain ⟨f, hf⟩ := build_defined (fs := [demoFloor]) (os := [demoPt h]) (by simp [demoFloor, square])
    (by simp [demoPt]) 0
  have hS : Surfaces [demoFloor] [demoPt h] := demo_surfaces (.point _) (by simp [demoPt])
  have hM := (demoKin_moves 0).rot 0
  obtain ⟨v, hv⟩ := (C84_defined hf hS hM).1 ⟨by simp, by simp⟩
  refine ⟨f, hf, v, hv, (C126_point hf hS hM (demo_nearest _) (square_normal _) rfl (by norm_num) square_far hv).2
    ⟨demo_above (demoPt_center h), ?_⟩⟩
  rw [demoPt_center, demoFloor_center]
  simpa [dotProduct, Fin.sum_univ_three] using hh

theorem liftObj_normal {q : Nat → ℝ} {b : ℝ} (h : liftRobot.fk q 2 = ⟨1, ![0, 0, b]⟩) : liftObj.IsNormal (liftRobot.fk q) ![0, 0, -1] := by
  obtain ⟨m, hm, h1, hu⟩ := square_normal (liftRobot.fk q)
  refine ⟨-m, hm.reverse, by rw [neg_dotProduct, dotProduct_neg, neg_neg, h1], ?_⟩
  have : m = ![0, 0, 1] := by rw [hu]; rfl
  rw [this]
  change _ = (liftRobot.fk q 2).R *ᵥ _
  rw [h, one_mulVec]
  simp

/-- `C126_solve` for the freeflyer of `liftRobot` above a fixed floor, margin 1, threshold 1/10: the solver exists, `solve` returns
`SUCCESS` from the configuration where the object is at height 1, and the other hypotheses hold. -/
example (D : Space ℝ → List ℝ → List ℝ → Nat → Nat → ℝ) (o : SvdOps ℝ) (J0 jac : (Nat → ℝ) → Jac ℝ) :
    ∃ (f : Fn) (c : Impl ℝ Unit) (h : BHist ℝ Unit) (s : BS ℝ Unit),
      Fn.build [demoFloor] [liftObj] 1 = some f ∧ Surfaces [demoFloor] [liftObj] ∧ BS.Built (fun sp v => v.length = sp.nq) 9 8 h s ∧
      BHist.Lawful (fun sp v => v.length = sp.nq) h ∧ s.hi.lastIsOptional = false ∧ s.hi.sqThr = 1 / 10 * (1 / 10) ∧
      (c, 0) ∈ implOf h ∧ IsMandatory s.hi (c, 0) ∧
      Impl.Built (contactFn () liftRobot f jac (List.replicate 9 true) (List.replicate 8 true)) [] (List.replicate 5 .equalToZero) c ∧
      s.hi.getRhs c = some (some (List.replicate 5 0)) ∧
      (∀ (S : Type) (ls : S → (Nat → ℝ) → (Fin (indices s.hi.free.segs).length → ℝ) →
        (S × LsOut (Nat → ℝ) (Fin (indices s.hi.free.segs).length → ℝ)) × Bool) m,
        (bsSolve (s.ops D o J0 ls) s.hi.sqThr (1 / 10 ^ 12) s.hi.maxIter s.reducedDim false s.hi.lastIsOptional
          (liftConf 0) m).status = .success) := by
  have hS : Surfaces [demoFloor] [liftObj] := demo_surfaces liftObj_object (by simp [liftObj])
  obtain ⟨f, hf⟩ := build_defined (fs := [demoFloor]) (os := [liftObj]) (by simp [demoFloor, square])
    (by simp [liftObj, square]) 1
  have c2 : liftRobot.fk (liftConf 0) 2 = ⟨1, ![0, 0, 1]⟩ := by
    rw [lift_fk2 _ (by simp [liftConf])]
    simp [liftConf]
  have hM := Robot.fk_rot liftRobot_ok (liftConf 0)
  have hzero : f.value (liftRobot.fk (liftConf 0)) = .ok 0 := by
    refine (C84_plane hf hS hM (demo_nearest _) (square_normal _) (liftObj_normal c2)).2 ⟨demo_above (lift_center c2), ?_, by simp⟩
    rw [lift_center c2, demoFloor_center]
    simp [dotProduct, Fin.sum_univ_three]
  obtain ⟨c, hc⟩ : ∃ c, Impl.create (contactFn () liftRobot f jac (List.replicate 9 true) (List.replicate 8 true))
      (List.replicate 5 .equalToZero) [] = some c := by
    simp [Impl.create, Impl.mk', contactFn, vspace]
  have hb : Impl.Built (contactFn () liftRobot f jac (List.replicate 9 true) (List.replicate 8 true)) [] (List.replicate 5 .equalToZero) c :=
    .create _ _ hc
  obtain ⟨hok, hfn, hcomp, -⟩ := hb.ok
  have hsp : c.fn.space = vspace 5 := by rw [hfn]; rfl
  have hlen : ∀ q, (c.fn.value q).length = 5 := by
    intro q
    rw [hfn]
    simp only [contactFn]
    split <;> rfl
  have hin : SameInput 9 8 c := by
    rw [SameInput, hfn]
    refine ⟨rfl, rfl, ?_, ?_⟩ <;> simp [contactFn]
  obtain ⟨s', hs'⟩ := HI.add_succeeds (HI.Inv.init (α := ℝ) (κ := Unit) 8) (nq := 9) (nv := 8) (by simp) hin (by simp) 0
  have hadd : (BS.init ℝ Unit 9 8 0).add 0 ⟨c, none⟩ 0 [] = (⟨s', [⟨c, none⟩], ECS.init 9 8 0⟩, .ok true) := by
    unfold BS.add
    rw [if_neg (by simp [BS.init, BS.contains])]
    show (BS.init ℝ Unit 9 8 0).addImplicit ⟨c, none⟩ 0 = _
    unfold BS.addImplicit
    rw [show (BS.init ℝ Unit 9 8 0).hi.add (BCon.mk c none).impl 0 = (s', none) from hs']
    rfl
  have b1 := BS.Built.add (E := fun sp v => v.length = sp.nq) (.init (nq := 9) (nv := 8) (κ := Unit) (0 : ℝ)) ⟨_, _, _, hb⟩ hadd
  have b2 := b1.params (1 / 10 * (1 / 10)) 0 (1 / 10) 40 false true
  have b3 := b2.fromConfig (q := liftConf 0)
  have hlaw : BHist.Lawful (fun sp v => v.length = sp.nq)
      ([] ++ [((⟨c, none⟩ : BCon ℝ Unit), 0, decide ((BS.init ℝ Unit 9 8 0).ex.data.length <
        (BS.mk s' [⟨c, none⟩] (ECS.init 9 8 0)).ex.data.length))]) := by
    constructor
    · intro e he
      simp only [List.nil_append, List.mem_singleton] at he
      subst he
      show c.fn.space.Lawful _
      rw [hsp]
      exact RelPose.vspace_lawful 5
    · intro e he q
      simp only [List.nil_append, List.mem_singleton] at he
      subst he
      show (c.fn.value q).length = c.fn.space.nq
      rw [hlen, hsp]
      rfl
  have hmem : (c, 0) ∈ implOf ([] ++ [((⟨c, none⟩ : BCon ℝ Unit), 0, decide ((BS.init ℝ Unit 9 8 0).ex.data.length <
        (BS.mk s' [⟨c, none⟩] (ECS.init 9 8 0)).ex.data.length))]) := by
    simp [implOf, BS.init]
  obtain ⟨l1, l2⟩ := hlaw.impl
  obtain ⟨rh, hrh, hel, hcz⟩ := C25_from_config b2.parts.1 l1 l2 (liftConf 0) _ hmem
  have hr0 : rh = List.replicate 5 0 := by
    have hl5 : rh.length = 5 := by
      have : rh.length = c.fn.space.nq := hel
      rw [this, hsp]
      rfl
    apply List.ext_getElem?
    intro k
    by_cases hk : k < 5
    · have := hcz k .equalToZero (by
        show c.comp[k]? = _
        rw [hcomp, List.getElem?_replicate, if_pos hk])
      rw [if_neg (by simp)] at this
      change ((c.fn.space).log rh)[k]? = _ at this
      rw [hsp] at this
      rw [List.getElem?_replicate, if_pos hk]
      exact this
    · rw [List.getElem?_eq_none (by omega), List.getElem?_eq_none (by simp; omega)]
  rw [hr0] at hrh
  refine ⟨f, c, _, _, hf, hS, b3, hlaw, rfl, rfl, hmem, (fun h => by cases h), hb, hrh, ?_⟩
  intro S ls m
  obtain ⟨n, g1, g2, -, g4⟩ := C33_worst b3.parts.1 l1 l2 (fun h => by cases h) (liftConf 0)
  have hn0 : n = 0 := by
    rcases g4 with h | ⟨e, he, -, v, hv, h⟩
    · exact h
    · have he' : e = (c, 0) := by simpa [implOf, BS.init] using he
      subst he'
      have := hv.symm.trans hrh
      rw [Option.some.inj (Option.some.inj this)] at h
      rw [h, conError_contact hb _ hzero]
      simp
  rw [hn0] at g1
  generalize hS : BS.rhsFromConfig (α := ℝ) (κ := Unit) _ _ = s at g1 ls m ⊢
  have hex : ∀ q, s.ex.solve q = q := by
    intro q
    rw [← hS]
    rfl
  have hthr : s.hi.sqThr = 1 / 10 * (1 / 10) := by rw [← hS]; rfl
  have hopt : s.hi.lastIsOptional = false := by rw [← hS]; rfl
  have h0 : (s.ops D o J0 ls).norm (liftConf 0) = 0 := by
    show (s.hi.sqNorm _).getD 0 = 0
    rw [g1]
    rfl
  have h1 : (s.ops D o J0 ls).expl (liftConf 0) = (liftConf 0, true) := by
    show (s.ex.solve _, true) = _
    rw [hex]
  unfold bsSolve
  rw [h1]
  simp only [h0, hthr, hopt]
  rw [if_neg (by norm_num)]
  have hab : (bsInit (s.ops D o J0 ls) (1 / 10 * (1 / 10)) (false && false) (liftConf 0) m).above = false := by
    simp only [bsInit, h0]
    norm_num
  generalize bsBudget _ _ _ = k
  cases k <;> simp only [bsLoop, hab] <;> simp [bsEnd]

end Hpp.Contact
