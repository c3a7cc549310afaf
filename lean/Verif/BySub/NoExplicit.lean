import Verif.BySub.OrderProps
import Verif.BySub.LoopProps
import Verif.BySub.NewtonLinkEx
import Verif.ECS.JacLemmas

/-!
# A solver by substitution without explicit constraints

`solver::BySubstitution` derives from `solver::HierarchicalIterative` and overrides the computation of the active rows, of the
reduced Jacobians, the integration and `solve`.  When no constraint was found to be explicit all these computations are those
of the base class; `solve` differs by the thresholds and by the count of the iterations that do not decrease the error.
-/

namespace Hpp

open Matrix

variable {κ S : Type}

/-- The explicit part without constraint. -/
structure NoExpl (s : BS ℝ κ) : Prop where
  solve : ∀ q, s.ex.solve q = q
  ins : s.ex.inDers.nb = 0
  outs : s.ex.outDers.nb = 0

theorem nb_zero {b : Blocks} (hn : b.nb = cardinal b.segs) (h : ∀ i, ¬ Covers b.segs i) : b.nb = 0 := by
  rw [hn, cardinal_eq_length, List.length_eq_zero_iff, List.eq_nil_iff_forall_not_mem]
  exact fun i hi => h i ((mem_indices _ _).1 hi)

theorem noExpl_of [DecidableEq κ] {El : Space ℝ → List ℝ → Prop} {nq nv : Nat} {h : BHist ℝ κ} {s : BS ℝ κ}
    (hb : BS.Built El nq nv h s) (hx : explOf h = []) : NoExpl s := by
  obtain ⟨-, he, hc, -⟩ := hb.parts
  have hc' : s.ex.cons = [] := hc.trans hx
  have hI := (Inv.built he).1
  have hO := InOk.built he
  refine ⟨fun q => funext fun i => Inv.solve_other q i (by simp [hc']), nb_zero hI.inDersN fun i => ?_,
    nb_zero hI.outDersN fun i => ?_⟩
  · rw [hO.inDers (by simp [hc'])]
    simp [hc']
  · rw [hI.outDers]
    simp [hc']

theorem NoExpl.rowActive {s : BS ℝ κ} (hs : NoExpl s) (c : Impl ℝ κ) :
    s.rowActive c = (indices s.hi.free.segs).any fun i => c.fn.active.getD i false := by
  unfold BS.rowActive
  simp [hs.ins]

theorem NoExpl.rows {s : BS ℝ κ} (hs : NoExpl s) (l : Level ℝ κ) : s.rows l = l.computeRows s.hi.free.segs := by
  have : ∀ (cs : List (Impl ℝ κ)) (k : Nat), s.rowsLoop cs k = activeRowsLoop s.hi.free.segs cs k := by
    intro cs
    induction cs with
    | nil => intro k; rfl
    | cons c cs ih =>
      intro k
      unfold BS.rowsLoop activeRowsLoop
      rw [ih, hs.rowActive]
  unfold BS.rows Level.computeRows
  rw [this]

/-- C146. The rows of the constraints that are solved for and their number are those of the base class. -/
theorem C146_rows [DecidableEq κ] {El : Space ℝ → List ℝ → Prop} {nq nv : Nat} {h : BHist ℝ κ} {s : BS ℝ κ}
    (hb : BS.Built El nq nv h s) (hl : BHist.Lawful El h) (hx : explOf h = []) :
    (∀ l ∈ s.hi.levels, s.rows l = l.rows) ∧ s.reducedDim = s.hi.reducedDim := by
  have hs := noExpl_of hb hx
  have hI := (hb.parts.1.inv hl.impl.1 hl.impl.2).1
  have hr : ∀ l ∈ s.hi.levels, s.rows l = l.rows := by
    intro l hm
    obtain ⟨i, hi, hil⟩ := List.mem_iff_getElem.1 hm
    rw [hs.rows, (hI.level i l (by rw [List.getElem?_eq_getElem hi, hil])).rows]
  refine ⟨hr, ?_⟩
  rw [hI.rdim]
  unfold BS.reducedDim
  congr 1
  exact List.map_congr_left fun l hm => by rw [hr l hm]

theorem bs_dLevel_noExpl {s : BS ℝ κ} (hs : NoExpl s) (D : Space ℝ → List ℝ → List ℝ → Nat → Nat → ℝ) (J0 : Jac ℝ)
    (q : Nat → ℝ) (l : Level ℝ κ) (hr : s.rows l = l.rows) : s.dLevel D J0 q l = s.hi.dLevel D J0 q l := by
  have hJ : ∀ (b : Blocks) (r c : Nat), b = l.rows →
      (s.updateJ q b.segs (s.lJac D J0 q l) (s.reducedJ0 b.segs (s.lJac D J0 q l))).getD (fun _ _ => 0) r c =
      ((l.evalJac D s.hi.ineqThr s.hi.free.segs q J0).map fun E => E.redJ r c).getD 0 := by
    rintro b r c rfl
    unfold BS.updateJ
    rw [if_pos hs.ins]
    show s.lJac D J0 q l _ _ = _
    unfold BS.lJac Level.evalJac
    dsimp only
    rw [Option.map_map, Option.map_map]
    rfl
  have key : ∀ b : Blocks, b = l.rows →
      (⟨(indices b.segs).length, fun r c =>
        (s.updateJ q b.segs (s.lJac D J0 q l) (s.reducedJ0 b.segs (s.lJac D J0 q l))).getD (fun _ _ => 0) r c,
        fun r => s.lErr D J0 q l ((indices b.segs).getD r 0)⟩ : DLevel ℝ (indices s.hi.free.segs).length) =
      s.hi.dLevel D J0 q l := by
    rintro b rfl
    unfold HI.dLevel
    congr 1
    funext r c
    exact hJ _ _ _ rfl
  exact key _ hr

/-- C146. The levels seen by the descent direction are those of the base class. -/
theorem C146_levels [DecidableEq κ] {El : Space ℝ → List ℝ → Prop} {nq nv : Nat} {h : BHist ℝ κ} {s : BS ℝ κ}
    (hb : BS.Built El nq nv h s) (hl : BHist.Lawful El h) (hx : explOf h = [])
    (D : Space ℝ → List ℝ → List ℝ → Nat → Nat → ℝ) (J0 : (Nat → ℝ) → Jac ℝ) (sat : (Nat → ℝ) → Nat → ℝ) (q : Nat → ℝ) :
    s.dLevels D J0 sat q = s.hi.dLevels D J0 id sat q := by
  unfold BS.dLevels HI.dLevels
  exact List.map_congr_left fun l hm =>
    congrArg _ (bs_dLevel_noExpl (noExpl_of hb hx) D (J0 q) q l ((C146_rows hb hl hx).1 l hm))

/-- A line search of the base class, used by the solver by substitution. -/
def LineSearch.total (ls : LineSearch (Nat → ℝ) S) : BsLineSearch S := fun V env slope st q u =>
  (ls V env slope st q u, true)

theorem stalled_le_bsStalled (e : Nat → ℝ) : ∀ k, stalled e k ≤ bsStalled e k
  | 0 => le_rfl
  | 1 => Nat.zero_le _
  | k + 2 => by
    unfold stalled bsStalled
    split
    · exact le_rfl
    · exact Nat.succ_le_succ (stalled_le_bsStalled e (k + 1))

section
variable [DecidableEq κ] {El : Space ℝ → List ℝ → Prop} {nq nv : Nat} {h : BHist ℝ κ} {s : BS ℝ κ}
  (hb : BS.Built El nq nv h s) (hl : BHist.Lawful El h) (hx : explOf h = [])
  (D : Space ℝ → List ℝ → List ℝ → Nat → Nat → ℝ) (o : SvdOps ℝ) (J0 : (Nat → ℝ) → Jac ℝ)
  (sat : (Nat → ℝ) → Nat → ℝ) (move : (Nat → ℝ) → (Nat → ℝ) → Nat → ℝ) (ls : LineSearch (Nat → ℝ) S)
  (q : Nat → ℝ) (d v : Fin (indices s.hi.free.segs).length → ℝ) (st : S)
include hb hl hx

/-- C146. Same successive configurations, directions and states of the line search, for every line search. -/
theorem C146_iterations (k : Nat) :
    ∃ w, bsTraj (s.fullOps D o J0 (fun _ => true) sat move ls.total) q (d, v, st) k =
      some ((traj (s.hi.fullOps D o J0 id sat move ls) q (d, st) k).1,
        (traj (s.hi.fullOps D o J0 id sat move ls) q (d, st) k).2.1, w,
        (traj (s.hi.fullOps D o J0 id sat move ls) q (d, st) k).2.2) := by
  have hs := noExpl_of hb hx
  have hlv := C146_levels hb hl hx D J0 sat
  have henv : s.lsEnv move = s.hi.lsEnv id move := by
    unfold BS.lsEnv HI.lsEnv
    simp only [hs.solve, id]
  induction k with
  | zero =>
    refine ⟨v, ?_⟩
    show some (s.ex.solve q, _) = _
    rw [hs.solve]
    rfl
  | succ k ih =>
    obtain ⟨w, ih⟩ := ih
    unfold bsTraj traj
    rw [ih]
    generalize traj (s.hi.fullOps D o J0 id sat move ls) q (d, st) k = p
    unfold BS.fullOps HI.fullOps LineSearch.total
    simp only [hlv, henv, hs.solve, Option.bind_some]
    exact ⟨_, rfl⟩

/-- C146. Same errors and same norms of the steps. -/
theorem C146_errors (k : Nat) :
    bsErr (s.fullOps D o J0 (fun _ => true) sat move ls.total) q (d, v, st) k =
      trajErr (s.hi.fullOps D o J0 id sat move ls) q (d, st) k ∧
    bsStepNorm (s.fullOps D o J0 (fun _ => true) sat move ls.total) q (d, v, st) k =
      trajStep (s.hi.fullOps D o J0 id sat move ls) q (d, st) k := by
  obtain ⟨w, hw⟩ := C146_iterations hb hl hx D o J0 sat move ls q d v st k
  have hlv := C146_levels hb hl hx D J0 sat
  unfold bsErr bsStepNorm trajErr trajStep
  rw [hw]
  refine ⟨rfl, ?_⟩
  generalize traj (s.hi.fullOps D o J0 id sat move ls) q (d, st) k = p
  unfold BS.fullOps HI.fullOps
  dsimp only
  rw [hlv]

/-- C146. If the solver by substitution succeeds, so does the base class with the same parameters, in no more iterations; the
error of the configuration that it returns is not smaller. -/
theorem C146_success (thr dqMin : ℝ) (h0 : 0 ≤ thr) (maxIter : Nat) (w l : Bool) (hw : (w && l) = false) :
    let r := bsSolve (s.fullOps D o J0 (fun _ => true) sat move ls.total) thr dqMin maxIter s.reducedDim w l q (d, v, st)
    let r' := solve (s.hi.fullOps D o J0 id sat move ls) thr dqMin maxIter s.hi.reducedDim q (d, st)
    r.status = .success → r'.status = some .success ∧ r'.iter ≤ r.iter ∧
      (s.hi.sqNorm r.arg).getD 0 ≤ (s.hi.sqNorm r'.arg).getD 0 := by
  intro r r' hr
  have hs := noExpl_of hb hx
  have hrd := (C146_rows hb hl hx).2
  have hit := C146_iterations hb hl hx D o J0 sat move ls q d v st
  have her := C146_errors hb hl hx D o J0 sat move ls q d v st
  set O := s.fullOps D o J0 (fun _ => true) sat move ls.total with hO
  set O' := s.hi.fullOps D o J0 id sat move ls with hO'
  have hee : bsErr O q (d, v, st) = trajErr O' q (d, st) := funext fun k => (her k).1
  have hex : (O.expl q).1 = q := hs.solve q
  have hdef : (O.expl q).2 = true := rfl
  have hn : ∀ x, O.norm x = O'.norm x := fun _ => rfl
  by_cases hc : 1 / 4 * thr < O.norm (O.expl q).1 ∧ s.reducedDim = 0
  · exfalso
    have : r = ⟨(O.expl q).1, (d, v, st), 0, .infeasible, false⟩ := by
      show bsSolve O thr dqMin maxIter s.reducedDim w l q (d, v, st) = _
      unfold bsSolve
      rw [show O.expl q = ((O.expl q).1, true) from rfl]
      simp only [if_pos hc]
    rw [this] at hr
    cases hr
  have hB := bsSolve_spec O thr dqMin maxIter s.reducedDim w l hw q (d, v, st) hdef hc
  have hund : r.undef = false := by
    by_contra hne
    obtain ⟨_, h2⟩ := hB.undef (by simpa using hne)
    obtain ⟨_, h3⟩ := hit r.iter
    change bsTraj O q (d, v, st) r.iter = none at h2
    rw [h2] at h3
    cases h3
  obtain ⟨b, m', hb1, -, harg, -, hst⟩ := hB.last hund
  change bsTraj O q (d, v, st) r.iter = some (b, m') at hb1
  obtain ⟨_, h3⟩ := hit r.iter
  have hbx : b = (traj O' q (d, st) r.iter).1 := by
    have := hb1.symm.trans h3
    exact (Prod.mk.inj (Option.some.inj this)).1
  have hberr : O'.norm b = trajErr O' q (d, st) r.iter := by rw [hbx]; rfl
  have hargE : (s.hi.sqNorm r.arg).getD 0 ≤ trajErr O' q (d, st) r.iter := by
    change O'.norm r.arg ≤ _
    rw [← hberr]
    change r.arg = _ at harg
    rw [harg]
    split_ifs with hlt
    · dsimp only
      split_ifs with h2
      · rw [← hn]; exact h2.le
      · exact le_rfl
    · exact le_rfl
  by_cases hlt : O.norm (O.expl q).1 < thr
  · -- already below the threshold
    have hlt' : O'.norm q ≤ thr := by rw [← hn, ← hex]; exact hlt.le
    have hL := solve_spec O' thr dqMin maxIter s.hi.reducedDim q (d, st) fun h => absurd h.1 (not_lt.2 hlt')
    have hz : r'.iter = 0 := by
      by_contra hne
      exact absurd (hL.before 0 (Nat.pos_of_ne_zero hne)).1 (not_lt.2 hlt')
    have hq : r'.arg = q := by
      have := hL.arg
      change r'.arg = (traj O' q (d, st) r'.iter).1 at this
      rw [hz] at this
      exact this
    refine ⟨hL.success.2 (by change trajErr O' q (d, st) r'.iter ≤ thr; rw [hz]; exact hlt'), by omega, ?_⟩
    rw [hq]
    change O'.norm r.arg ≤ O'.norm q
    change r.arg = _ at harg
    rw [harg, if_pos hlt]
    dsimp only
    split_ifs with h2
    · rw [hex]
    · rw [hn, hn, hex] at h2
      exact not_lt.1 h2
  · have hsmall : trajErr O' q (d, st) r.iter ≤ 1 / 4 * thr := by
      change BsStatus _ _ _ r.status at hst
      rw [if_neg hlt, hr] at hst
      rw [← hee]
      rcases hst with ⟨h1, -⟩ | ⟨-, -, h⟩ | ⟨-, -, -, h⟩ | ⟨-, -, -, h⟩
      · exact h1.resolve_left (by simp)
      all_goals cases h
    have hle : trajErr O' q (d, st) r.iter ≤ thr := by linarith
    have hL := solve_spec O' thr dqMin maxIter s.hi.reducedDim q (d, st) fun h => hc ⟨by
      rw [hn, hex]; linarith [h.1], hrd.trans h.2⟩
    have hbud : r.iter ≤ maxIter := by
      have := hB.iter
      change r.iter ≤ _ at this
      unfold bsBudget at this
      rwa [if_neg (by simp [hlt])] at this
    have hni : r'.iter ≤ r.iter := by
      by_contra hne
      exact absurd (hL.before r.iter (not_le.1 hne)).1 (not_lt.2 hle)
    have hsucc : r'.status = some .success := by
      rcases hni.lt_or_eq with hlt2 | heq
      · obtain ⟨b1, b2, b3, -⟩ := hB.before r'.iter hlt2
        rw [hee] at b2
        rcases hrs : r'.status with _ | (_ | _ | _ | _)
        · exact absurd hrs hL.defined
        · have h4 := (hL.increased.1 hrs).2.2
          change stalled (trajErr O' q (d, st)) r'.iter = 3 at h4
          have := stalled_le_bsStalled (trajErr O' q (d, st)) r'.iter
          omega
        · have h4 := (hL.maxIt.1 hrs).2
          change r'.iter = maxIter at h4
          omega
        · have h4 := (hL.infeasible.1 hrs).2.2.2
          rw [(her r'.iter).2] at b3
          exact absurd h4 b3
        · rfl
      · refine hL.success.2 ?_
        change trajErr O' q (d, st) r'.iter ≤ thr
        rw [heq]; exact hle
    refine ⟨hsucc, hni, hargE.trans ?_⟩
    have ha : (s.hi.sqNorm r'.arg).getD 0 = trajErr O' q (d, st) r'.iter := by
      change O'.norm r'.arg = _
      have := hL.arg
      change r'.arg = (traj O' q (d, st) r'.iter).1 at this
      rw [this]; rfl
    rw [ha]
    rcases hni.lt_or_eq with hlt2 | heq
    · have b1 := (hB.before r'.iter hlt2).1
      rw [hee] at b1
      exact hsmall.trans b1.le
    · rw [heq]

end

namespace NoExplEx
open BsR (E)
open BsLinkEx (cI iI iI_built fI)

/-- The constraint `q₁ = 2`, which is not explicit. -/
noncomputable def s1 : BS ℝ Nat := ((BS.init ℝ Nat 2 2 0).add 20 cI 0).1

/-- Threshold 1 -/
noncomputable def s : BS ℝ Nat := { s1 with
  hi := { s1.hi with sqThr := 1, ineqThr := 0, maxIter := 3, lastIsOptional := false, byLevel := false }
  ex := { s1.ex with threshold := 1 } }

noncomputable def hist : BHist ℝ Nat := [(cI, 0, false)]

theorem s_built : BS.Built E 2 2 hist s :=
  .params _ _ _ _ _ _ (.add (h := []) (s := BS.init ℝ Nat 2 2 0) (c := cI) (p := 0) (fuel := 20) (junk := [])
    (.init 0) ⟨_, _, _, iI_built⟩ (Prod.ext rfl rfl))

theorem expl_eq : explOf hist = [] := rfl

theorem lawful : BHist.Lawful E hist where
  law := by
    intro e he
    simp only [hist, List.mem_cons, List.not_mem_nil, or_false] at he
    subst he; exact vectorSpace_lawful 1
  val := by
    intro e he q
    simp only [hist, List.mem_cons, List.not_mem_nil, or_false] at he
    subst he; rfl

/-- No free variable -/
noncomputable def sF : BS ℝ Nat := { s with hi := s.hi.setFreeIndices Blocks.empty }

theorem sF_built : BS.Built E 2 2 hist sF := .free Blocks.empty s_built

theorem sqNormF (q : Nat → ℝ) : sF.hi.sqNorm q = some ((q 1 - 2) ^ 2) := by
  obtain ⟨l1, l2⟩ := lawful.impl
  obtain ⟨hs, hf, R, hR⟩ := sF_built.parts.1.inv l1 l2
  have hR2 : R iI.fn.key = [0] := by
    have h1 := hR.eq 0 ((sF.hi.levels[0]?).get rfl) (Option.some_get _).symm
    have h2 : ((sF.hi.levels[0]?).get rfl).rhs = [0] := rfl
    have h3 : atLevel (implOf hist) 0 = [iI] := rfl
    rw [h2, h3] at h1
    simp only [List.flatMap_cons, List.flatMap_nil, List.append_nil] at h1
    exact h1.symm
  rw [solver_sqNorm_eq hs hf hR (fun h => by cases h)]
  have h1 : (List.range sF.hi.nMandatory).flatMap (atLevel (implOf hist)) = [iI] := rfl
  rw [h1, List.foldl_cons, List.foldl_nil, hR2]
  have hce : conError sF.hi.ineqThr q iI [0] = [q 1 - 2] := by
    show [q 1 - 2 - 0] = _
    rw [sub_zero]
  rw [hce]
  congr 1
  show max 0 (0 + (q 1 - 2) * (q 1 - 2)) = _
  rw [zero_add, max_eq_right (mul_self_nonneg _)]
  ring

end NoExplEx

open NoExplEx in
/-- C146. The converse is false: a configuration that satisfies the constraints is accepted by the base class, but the solver by
substitution answers `INFEASIBLE` if no variable is free and the squared error is above a quarter of the squared threshold
(impl/by-substitution.hh:81-82). -/
theorem C146_converse_refuted :
    ¬ ∀ (h : BHist ℝ Nat) (s : BS ℝ Nat), BS.Built BsR.E 2 2 h s → BHist.Lawful BsR.E h → explOf h = [] →
      ∀ (D : Space ℝ → List ℝ → List ℝ → Nat → Nat → ℝ) (o : SvdOps ℝ), o.Exact →
      ∀ (move : (Nat → ℝ) → (Nat → ℝ) → Nat → ℝ) (q : Nat → ℝ),
      (solve (s.hi.fullOps D o (fun _ _ _ => 0) id (fun _ _ => 0) move lineConstant) s.hi.sqThr (1 / 10 ^ 12) s.hi.maxIter
        s.hi.reducedDim q (fun _ => 0, ())).status = some .success →
      (bsSolve (s.fullOps D o (fun _ _ _ => 0) (fun _ => true) (fun _ _ => 0) move (LineSearch.total lineConstant)) s.hi.sqThr
        (1 / 10 ^ 12) s.hi.maxIter s.reducedDim false s.hi.lastIsOptional q (fun _ => 0, fun _ => 0, ())).status = .success := by
  intro H
  obtain ⟨o, ho⟩ := exists_exact (α := ℝ)
  have h1 := H hist sF sF_built lawful rfl BsLinkEx.D o ho (fun q _ => q) (fun _ => 11 / 4)
  have hs := noExpl_of sF_built rfl
  generalize hO' : sF.hi.fullOps BsLinkEx.D o (fun _ _ _ => 0) id (fun _ _ => 0) (fun q _ => q) lineConstant = O' at h1
  generalize hO : sF.fullOps BsLinkEx.D o (fun _ _ _ => 0) (fun _ => true) (fun _ _ => 0) (fun q _ => q)
    (LineSearch.total lineConstant) = O at h1
  have hq : O'.norm (fun _ => 11 / 4) = 9 / 16 := by
    rw [← hO']
    show (sF.hi.sqNorm (fun _ => 11 / 4)).getD 0 = _
    rw [sqNormF]
    norm_num
  have hthr : sF.hi.sqThr = 1 := rfl
  have hlt : O'.norm (fun _ => 11 / 4) ≤ sF.hi.sqThr := by rw [hq, hthr]; norm_num
  have hL := solve_spec O' sF.hi.sqThr (1 / 10 ^ 12) sF.hi.maxIter sF.hi.reducedDim (fun _ => 11 / 4) (fun _ => 0, ()) fun h =>
    absurd h.1 (not_lt.2 hlt)
  have h2 := h1 (hL.success.2 (by
    have hz : (solve O' sF.hi.sqThr (1 / 10 ^ 12) sF.hi.maxIter sF.hi.reducedDim (fun _ => 11 / 4) (fun _ => 0, ())).iter = 0 := by
      by_contra hne
      exact absurd (hL.before 0 (Nat.pos_of_ne_zero hne)).1 (not_lt.2 hlt)
    rw [hz]
    exact hlt))
  have hx : O.expl (fun _ => 11 / 4) = (fun _ => 11 / 4, true) := by
    rw [← hO]
    exact Prod.ext (hs.solve _) rfl
  have hn : O.norm (fun _ => 11 / 4) = 9 / 16 := by
    rw [← hq, ← hO, ← hO']
    rfl
  have hd : sF.reducedDim = 0 := by rw [(C146_rows sF_built lawful rfl).2]; rfl
  unfold bsSolve at h2
  rw [hx] at h2
  simp only at h2
  rw [if_pos ⟨by rw [hn, hthr]; norm_num, hd⟩] at h2
  cases h2

/-- The hypotheses hold and the solver by substitution succeeds. -/
example (o : SvdOps ℝ) (move) (q : Nat → ℝ) :
    let r := bsSolve (NoExplEx.s.fullOps BsLinkEx.D o (fun _ _ _ => 0) (fun _ => true) (fun _ _ => 0) move
      (LineSearch.total lineConstant)) 1 (1 / 10 ^ 12) 3 NoExplEx.s.reducedDim false false q (fun _ => 0, fun _ => 0, ())
    let r' := solve (NoExplEx.s.hi.fullOps BsLinkEx.D o (fun _ _ _ => 0) id (fun _ _ => 0) move lineConstant) 1 (1 / 10 ^ 12) 3
      NoExplEx.s.hi.reducedDim q (fun _ => 0, ())
    r.status = .success → r'.status = some .success ∧ r'.iter ≤ r.iter ∧
      (NoExplEx.s.hi.sqNorm r.arg).getD 0 ≤ (NoExplEx.s.hi.sqNorm r'.arg).getD 0 :=
  C146_success NoExplEx.s_built NoExplEx.lawful rfl BsLinkEx.D o _ _ move lineConstant q _ _ () 1 _ one_pos.le 3 false false rfl

end Hpp
