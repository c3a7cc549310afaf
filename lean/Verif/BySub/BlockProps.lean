import Verif.HI.BlockProps
import Verif.BySub.InsideNewton

/-!
# C145 for the solver by substitution

Sources: `/repo/include/hpp/constraints/solver/impl/by-substitution.hh`, lines 38-167, `/repo/src/solver/by-substitution.cc`, lines 166-204,
`/repo/src/solver/hierarchical-iterative.cc`, lines 653-672, 712-719 and 744-774.
-/

namespace Hpp

open Matrix

/-- Specification: a line search integrates a multiple of the direction. -/
def BsLineSearch.Along {S : Type} (ls : BsLineSearch S) : Prop :=
  ∀ (V : Type) (env : LsEnv (Nat → ℝ) V ℝ) (slope : (Nat → ℝ) → V → ℝ) (st : S) (q : Nat → ℝ) (u : V), env.smul 1 u = u →
    ∃ c, (ls V env slope st q u).1.2.arg = env.integrate q (env.smul c u)

section
variable {κ S : Type} {s : BS ℝ κ} {D : Space ℝ → List ℝ → List ℝ → Nat → Nat → ℝ} {o : SvdOps ℝ} {entries : List (SatEntry ℝ)}

open Classical in
/-- C145. What the solver by substitution reads to compute the direction: in each level the columns of the free variables that have reached a
bound and that the error of the level, explicit constraints substituted, pushes out are zero, nothing else is modified. -/
theorem C145_columns_substitution (h : ProperBounds entries) {sat0 : Nat → Int} (h0 : ∀ v, (∀ e ∈ entries, e.iv ≠ v) → sat0 v = 0)
    (J0 : (Nat → ℝ) → Jac ℝ) (q : Nat → ℝ) :
    s.dLevels D J0 (satFlags entries sat0) q = s.hi.levels.map fun l =>
      let d := s.dLevel D (J0 q) q l
      ⟨d.m, fun i j => if AtBoundOut entries q ((indices s.hi.free.segs).getD j 0) (∑ r, d.J r j * d.e r) then 0 else d.J i j, d.e⟩ := by
  unfold BS.dLevels
  refine List.map_congr_left fun l _ => ?_
  unfold satLevel
  dsimp only
  congr 1
  funext i j
  exact if_congr (satFlags_out h h0 q (hiFree s.hi j) _) rfl rfl

/-- C145. One level: the direction does not move a variable that has reached a bound and that the error pushes out. -/
theorem C145_direction_substitution (ho : o.Exact) (h : ProperBounds entries) {sat0 : Nat → Int}
    (h0 : ∀ v, (∀ e ∈ entries, e.iv ≠ v) → sat0 v = 0) (J0 : (Nat → ℝ) → Jac ℝ) (dom : (Nat → ℝ) → Bool)
    (move : (Nat → ℝ) → (Nat → ℝ) → Nat → ℝ) (ls : BsLineSearch S) {l : Level ℝ κ} (hl : s.hi.levels = [l]) (q : Nat → ℝ)
    (m : (Fin (indices s.hi.free.segs).length → ℝ) × (Fin (indices s.hi.free.segs).length → ℝ) × S)
    (j : Fin (indices s.hi.free.segs).length)
    (hj : AtBoundOut entries q ((indices s.hi.free.segs).getD j 0)
      (∑ r, (s.dLevel D (J0 q) q l).J r j * (s.dLevel D (J0 q) q l).e r)) :
    ((s.fullOps D o J0 dom (satFlags entries sat0) move ls).dir q m).2.1 j = 0 := by
  have e := C145_columns_substitution (s := s) (D := D) h h0 J0 q
  rw [hl] at e
  show ((descend o s.hi.byLevel s.hi.sqThr (s.dLevels D J0 (satFlags entries sat0) q) m.1).getD 0) j = 0
  rw [e]
  exact solve_zero_col ho _ _ j fun i => if_pos hj

/-- C145. An iteration of the solver by substitution, in a vector space, leaves at its bound the coordinate of a free variable that the
error pushes out, whatever the coefficient by which the direction is multiplied when the solver optimizes (1 otherwise). -/
theorem C145_stays_substitution [DecidableEq κ] {El : Space ℝ → List ℝ → Prop} {hist : BHist ℝ κ} {nq : Nat}
    (hb : BS.Built El nq nq hist s) (hsy : s.Synced) (hw : ∀ c ∈ explOf hist, WellFormed nq nq c)
    (hvec : ∀ c ∈ explOf hist, c.inV = c.inQ ∧ c.outV = c.outQ) (hol : ∀ d ∈ s.ex.data, d.OutLen)
    (ho : o.Exact) (h : ProperBounds entries) (hiv : ∀ e ∈ entries, e.iv = e.iq) {sat0 : Nat → Int}
    (h0 : ∀ v, (∀ e ∈ entries, e.iv ≠ v) → sat0 v = 0) (J0 : (Nat → ℝ) → Jac ℝ) (dom : (Nat → ℝ) → Bool) {ls : BsLineSearch S}
    (hls : ls.Along) {l : Level ℝ κ} (hl : s.hi.levels = [l]) (hnd : (indices s.hi.free.segs).Nodup) (x : Nat → ℝ)
    (m : (Fin (indices s.hi.free.segs).length → ℝ) × (Fin (indices s.hi.free.segs).length → ℝ) × S) (a : ℝ)
    {e : SatEntry ℝ} (he : e ∈ entries) (j : Fin (indices s.hi.free.segs).length) (hj : (indices s.hi.free.segs).getD j 0 = e.iq) :
    let O := s.fullOps D o J0 dom (satFlags entries sat0) (satMove (fun q v i => q i + v i) entries) ls
    let d := s.dLevel D (J0 x) x l
    (x e.iq = e.ub ∧ ∑ r, d.J r j * d.e r < 0 ∨ x e.iq = e.lb ∧ 0 < ∑ r, d.J r j * d.e r) →
    (O.search x (O.scale a (O.dir x m))).1 e.iq = x e.iq ∧ (O.search x (O.dir x m)).1 e.iq = x e.iq := by
  intro O d hx
  have hz : (O.dir x m).2.1 j = 0 := by
    refine C145_direction_substitution ho h h0 J0 dom (satMove (fun q v i => q i + v i) entries) ls hl x _ j ⟨e, he, ?_, ?_⟩
    · rw [hj]; exact hiv e he
    · rcases hx with ⟨h1, h2⟩ | ⟨h1, h2⟩
      · exact .inr ⟨h1.ge, h2⟩
      · exact .inl ⟨h1.le, h2⟩
  have hq : e.lb ≤ x e.iq ∧ x e.iq ≤ e.ub := by
    have := h.lt e he
    rcases hx with ⟨h1, -⟩ | ⟨h1, -⟩ <;> rw [h1]
    · exact ⟨this.le, le_rfl⟩
    · exact ⟨le_rfl, this.le⟩
  obtain ⟨-, b2, b3, -⟩ := hb.parts
  obtain ⟨hI, -, -⟩ := Inv.built b2
  have hw' := hw
  rw [← b3] at hw'
  have hcoh := coherent_of_vec hvec
  rw [← b3] at hcoh
  have hj' : hiFree s.hi j = e.iq := hj
  have hmem : e.iq ∈ indices s.ex.notOutDers.segs := by
    rw [← hj', ← hsy]
    unfold hiFree
    rw [List.getD_eq_getElem?_getD, List.getElem?_eq_getElem j.2, Option.getD_some]
    exact List.getElem_mem _
  have hcov := ((hI.notOutDers _).1 ((mem_indices _ _).1 hmem)).2
  have hnw : ∀ c ∈ s.ex.cons, ¬ Writes c e.iq := by
    intro c hc hwr
    refine hcov ⟨c, hc, ?_⟩
    rw [b3] at hc
    unfold WritesV
    rw [(hvec c hc).2]
    exact hwr
  have key : ∀ u : (Fin (indices s.hi.free.segs).length → ℝ) × (Fin (indices s.hi.free.segs).length → ℝ) × S, u.2.1 j = 0 →
      (O.search x u).1 e.iq = x e.iq := by
    intro u hu
    obtain ⟨c, hc⟩ := hls _ (s.lsEnv (satMove (fun q v i => q i + v i) entries))
      (fun q u => localSlope (s.dLevels D J0 (satFlags entries sat0) q) u) u.2.2 x u.2.1 (one_smul ℝ _)
    show (ls _ _ _ _ _ _).1.2.arg e.iq = _
    rw [hc]
    show s.ex.solve (satMove (fun q v i => q i + v i) entries x (expand (hiFree s.hi) (c • u.2.1) fun _ => 0)) e.iq = _
    rw [((C13_solve b2 hw' hcoh hol _ _).1 rfl).2 _ hnw]
    refine satMove_same (plus := fun q v i => q i + v i) (v := expand (hiFree s.hi) (c • u.2.1) fun _ => 0) h.ok he hq ?_
    show x e.iq + expand (hiFree s.hi) (c • u.2.1) (fun _ => 0) e.iq = x e.iq
    rw [← hj', expand_mem _ (hiFree_inj hnd), Pi.smul_apply, hu, smul_zero, add_zero]
  refine ⟨key _ ?_, key _ hz⟩
  show a • (O.dir x m).2.1 j = 0
  rw [hz, smul_zero]

end

namespace BsBlockEx
open BsLinkEx

/-- `q₀` between 0 and 1, `q₁` between 0 and 3 -/
noncomputable def box : List (SatEntry ℝ) := [⟨0, 0, 0, 1⟩, ⟨1, 1, 0, 3⟩]

theorem proper : ProperBounds box :=
  ⟨by simp [box], by simp [box], fun e he => by
    simp only [box, List.mem_cons, List.not_mem_nil, or_false] at he
    rcases he with rfl | rfl <;> norm_num⟩

/-- Explicit constraint `q₁ = q₀²`, implicit constraint `q₁ = 2` at (1, 1): the error pushes `q₀` over its upper bound. -/
theorem pushed : ∑ r, (s.dLevel D (fun _ _ => 0) (fun _ => 1) lev).J r ⟨0, Nat.one_pos⟩ *
    (s.dLevel D (fun _ _ => 0) (fun _ => 1) lev).e r < 0 := by
  have e : ∀ r, (s.dLevel D (fun _ _ => 0) (fun _ => 1) lev).J r ⟨0, Nat.one_pos⟩ *
      (s.dLevel D (fun _ _ => 0) (fun _ => 1) lev).e r = -2 := by
    intro r
    have h1 : (s.dLevel D (fun _ _ => 0) (fun _ => 1) lev).J r ⟨0, Nat.one_pos⟩ = 2 * 1 := dJ_eq (fun _ => 1) r ⟨0, Nat.one_pos⟩
    have h2 : (s.dLevel D (fun _ _ => 0) (fun _ => 1) lev).e r = 1 - 2 := dErr_eq (fun _ => 1) r
    rw [h1, h2]
    norm_num
  rw [Finset.sum_congr rfl fun r _ => e r]
  have h : ∑ _r : Fin (s.dLevel D (fun _ _ => 0) (fun _ => 1) lev).m, (-2 : ℝ) = -2 := sum_rows (-2)
  rw [h]
  norm_num

/-- The hypotheses of `C145_stays_substitution` hold. -/
example {o : SvdOps ℝ} (ho : o.Exact) (m) :
    let O := s.fullOps D o (fun _ _ _ => 0) (fun _ => true) (satFlags box fun _ => 0) (satMove (fun q v i => q i + v i) box) BsInsideEx.lsC
    (O.search (fun _ => 1) (O.dir (fun _ => 1) m)).1 0 = 1 :=
  (C145_stays_substitution (e := ⟨0, 0, 0, 1⟩) s_built rfl BsR.s_wf BsR.s_vec BsR.s_len ho proper (fun e he => by
      simp only [box, List.mem_cons, List.not_mem_nil, or_false] at he
      rcases he with rfl | rfl <;> rfl) (fun _ _ => rfl) (fun _ _ _ => 0) (fun _ => true)
    (fun V env slope st q u hu => (C145_line_searches 0).1 V env slope st q u hu) levels_eq
    (by rw [free_eq]; simp) (fun _ => 1) m 1 (by simp [box]) ⟨0, Nat.one_pos⟩ rfl (.inl ⟨rfl, pushed⟩)).2

end BsBlockEx

end Hpp
