import Verif.HI.InsideEx

/-!
# C145: variables at a bound that the constraints push out

Sources: `/repo/src/solver/hierarchical-iterative.cc`, lines 653-672 (`computeSaturation`), 712-719 (`integrate`) and 744-774
(`computeDescentDirection`), `/repo/include/hpp/constraints/solver/impl/hierarchical-iterative.hh`, lines 39-181.
-/

namespace Hpp

open Matrix

/-- Specification: the coordinate of variable `v` has reached a bound, and following the opposite of `g` would make it go out. -/
def AtBoundOut (entries : List (SatEntry ℝ)) (q : Nat → ℝ) (v : Nat) (g : ℝ) : Prop :=
  ∃ e ∈ entries, e.iv = v ∧ ((q e.iq ≤ e.lb ∧ 0 < g) ∨ (e.ub ≤ q e.iq ∧ g < 0))

/-- Specification: bounds with an interior, a variable for each coordinate. -/
structure ProperBounds (entries : List (SatEntry ℝ)) : Prop where
  iv : (entries.map (·.iv)).Nodup
  iq : (entries.map (·.iq)).Nodup
  lt : ∀ e ∈ entries, e.lb < e.ub

theorem ProperBounds.ok {entries : List (SatEntry ℝ)} (h : ProperBounds entries) : SatEntriesOk entries :=
  ⟨h.iq, fun e he => (h.lt e he).le⟩

/-- The test of `computeSaturation`. -/
theorem satFlags_out {entries : List (SatEntry ℝ)} (h : ProperBounds entries) {sat0 : Nat → Int}
    (h0 : ∀ v, (∀ e ∈ entries, e.iv ≠ v) → sat0 v = 0) (q : Nat → ℝ) (v : Nat) (g : ℝ) :
    satFlags entries sat0 q v * g < 0 ↔ AtBoundOut entries q v g := by
  have hf := C31_flags_partial entries h.iv q q sat0
  obtain ⟨-, -, hret⟩ := C31_within_bounds entries h.ok q q sat0
  by_cases hv : ∃ e ∈ entries, e.iv = v
  · obtain ⟨e, he, rfl⟩ := hv
    have hlt := h.lt e he
    have huniq : AtBoundOut entries q e.iv g ↔ (q e.iq ≤ e.lb ∧ 0 < g) ∨ (e.ub ≤ q e.iq ∧ g < 0) := by
      constructor
      · rintro ⟨e', he', h1, h2⟩
        rw [List.inj_on_of_nodup_map h.iv he' he h1] at h2
        exact h2
      · exact fun h2 => ⟨e, he, rfl, h2⟩
    rw [huniq]
    unfold satFlags
    by_cases hr : (clampLoop q entries q sat0).ret = true
    · rw [if_pos hr]
      rcases hf e he with ⟨hs, h1⟩ | ⟨hs, h1, h2⟩ | ⟨hs, h1, h2⟩ <;> rw [hs]
      · have h3 : ¬ e.ub ≤ q e.iq := by intro h3; linarith
        simp [h1, h3]
      · simp [h1, h2]
      · simp [h1, h2]
    · rw [if_neg hr]
      have h1 : ¬ q e.iq ≤ e.lb := fun h1 => hr (hret.2 ⟨e, he, .inl h1⟩)
      have h2 : ¬ e.ub ≤ q e.iq := fun h2 => hr (hret.2 ⟨e, he, .inr h2⟩)
      simp [h1, h2]
  · have h1 : ¬ AtBoundOut entries q v g := fun ⟨e, he, h1, _⟩ => hv ⟨e, he, h1⟩
    have h2 : satFlags entries sat0 q v = 0 := by
      unfold satFlags
      split
      · have : (clampLoop q entries q sat0).sat v = sat0 v :=
          satFold_sat_notMem q entries _ v fun e he h' => hv ⟨e, he, h'⟩
        show ((clampLoop q entries q sat0).sat v : ℝ) = 0
        rw [this, h0 v fun e he h' => hv ⟨e, he, h'⟩]
        exact Int.cast_zero
      · rfl
    rw [h2, zero_mul]
    exact iff_of_false (lt_irrefl _) h1

/-- Specification: a line search integrates a multiple of the direction. -/
def LineSearch.Along {A S : Type} (ls : LineSearch A S) : Prop :=
  ∀ (V : Type) (env : LsEnv A V ℝ) (slope : A → V → ℝ) (st : S) (q : A) (u : V), env.smul 1 u = u →
    ∃ c, (ls V env slope st q u).2.arg = env.integrate q (env.smul c u)

/-- C145. The line searches of the library integrate a multiple of the direction. -/
theorem C145_line_searches {A : Type} (thr : ℝ) :
    LineSearch.Along (A := A) lineConstant ∧ LineSearch.Along (A := A) lineBacktracking ∧
    LineSearch.Along (A := A) lineFixedSequence ∧ LineSearch.Along (A := A) (lineErrorNormBased thr) := by
  refine ⟨fun V env slope st q u hu => ⟨1, by rw [hu]; rfl⟩, fun V env slope st q u hu => ?_,
    fun V env slope st q u _ => ⟨_, rfl⟩, fun V env slope st q u _ => ⟨_, rfl⟩⟩
  obtain ⟨out, g1, -, g2, g3⟩ := C32_backtracking env (slope q u) (env.err q) q u
  unfold lineBacktracking
  dsimp only
  rw [g1]
  simp only [Option.getD_some]
  rcases g3 with ⟨-, -, k, -, g4, -⟩ | ⟨-, g4, -⟩ <;> exact ⟨_, by rw [g2, g4]⟩

theorem satMove_in {plus : (Nat → ℝ) → (Nat → ℝ) → Nat → ℝ} {entries : List (SatEntry ℝ)} (h : SatEntriesOk entries) (q v : Nat → ℝ) :
    InBounds entries (satMove plus entries q v) := by
  intro e he
  have h1 := (C31_idempotent entries h (plus q v) (fun _ => 0) fun _ => 0).1
  obtain ⟨h2, -⟩ := C31_within_bounds entries h (plus q v) (plus q v) fun _ => 0
  unfold satMove
  rw [h1]
  exact ⟨(h2 e he).1, (h2 e he).2.1⟩

/-- A coordinate within its bounds that `plus` does not change is not changed by saturation. -/
theorem satMove_same {plus : (Nat → ℝ) → (Nat → ℝ) → Nat → ℝ} {entries : List (SatEntry ℝ)} (h : SatEntriesOk entries) {q v : Nat → ℝ}
    {e : SatEntry ℝ} (he : e ∈ entries) (hq : e.lb ≤ q e.iq ∧ q e.iq ≤ e.ub) (hp : plus q v e.iq = q e.iq) :
    satMove plus entries q v e.iq = q e.iq := by
  have h1 := (C31_idempotent entries h (plus q v) (fun _ => 0) fun _ => 0).1
  obtain ⟨h2, -⟩ := C31_within_bounds entries h (plus q v) (plus q v) fun _ => 0
  unfold satMove
  rw [h1, (h2 e he).2.2.1 (by rw [hp]; exact hq.1) (by rw [hp]; exact hq.2), hp]

section
variable {κ S A : Type} {s : HI ℝ κ} {D : Space ℝ → List ℝ → List ℝ → Nat → Nat → ℝ} {o : SvdOps ℝ} {entries : List (SatEntry ℝ)}

open Classical in
/-- C145. What the solver reads to compute the direction: in each level the columns of the free variables that have reached a bound and
that the error of the level pushes out are zero, nothing else is modified.  Any number of levels, any set of free variables. -/
theorem C145_columns (h : ProperBounds entries) {sat0 : Nat → Int} (h0 : ∀ v, (∀ e ∈ entries, e.iv ≠ v) → sat0 v = 0)
    (J0 : A → Jac ℝ) (conf : A → Nat → ℝ) (q : A) :
    s.dLevels D J0 conf (fun q => satFlags entries sat0 (conf q)) q = s.levels.map fun l =>
      let d := s.dLevel D (J0 q) (conf q) l
      ⟨d.m, fun i j => if AtBoundOut entries (conf q) ((indices s.free.segs).getD j 0) (∑ r, d.J r j * d.e r) then 0 else d.J i j, d.e⟩ := by
  unfold HI.dLevels
  refine List.map_congr_left fun l _ => ?_
  unfold satLevel
  dsimp only
  congr 1
  funext i j
  exact if_congr (satFlags_out h h0 (conf q) (hiFree s j) _) rfl rfl

/-- C145. One level: the direction does not move a variable that has reached a bound and that the error pushes out. -/
theorem C145_direction (ho : o.Exact) (h : ProperBounds entries) {sat0 : Nat → Int}
    (h0 : ∀ v, (∀ e ∈ entries, e.iv ≠ v) → sat0 v = 0) (J0 : A → Jac ℝ) (conf : A → Nat → ℝ) (move : A → (Nat → ℝ) → A)
    (ls : LineSearch A S) {l : Level ℝ κ} (hl : s.levels = [l]) (q : A) (m : (Fin (indices s.free.segs).length → ℝ) × S)
    (j : Fin (indices s.free.segs).length)
    (hj : AtBoundOut entries (conf q) ((indices s.free.segs).getD j 0)
      (∑ r, (s.dLevel D (J0 q) (conf q) l).J r j * (s.dLevel D (J0 q) (conf q) l).e r)) :
    ((s.fullOps D o J0 conf (fun q => satFlags entries sat0 (conf q)) move ls).dir q m).1.1 j = 0 := by
  have e := C145_columns (s := s) (D := D) h h0 J0 conf q
  rw [hl] at e
  show ((descend o s.byLevel s.sqThr (s.dLevels D J0 conf (fun q => satFlags entries sat0 (conf q)) q) m.1).getD 0) j = 0
  rw [e]
  exact solve_zero_col ho _ _ j fun i => if_pos hj

/-- C145. In a vector space, from any configuration and with the line searches of `C145_line_searches`: after each iteration the configuration
is within the bounds, -/
theorem C145_in_bounds (h : SatEntriesOk entries) (J0 : (Nat → ℝ) → Jac ℝ) (sat : (Nat → ℝ) → Nat → ℝ)
    (plus : (Nat → ℝ) → (Nat → ℝ) → Nat → ℝ) {ls : LineSearch (Nat → ℝ) S} (hls : ls.Along) (q : Nat → ℝ)
    (m : (Fin (indices s.free.segs).length → ℝ) × S) (k : Nat) :
    InBounds entries (traj (s.fullOps D o J0 id sat (satMove plus entries) ls) q m (k + 1)).1 := by
  obtain ⟨c, hc⟩ := hls _ (s.lsEnv id (satMove plus entries)) (fun q u => localSlope (s.dLevels D J0 id sat q) u)
    ((s.fullOps D o J0 id sat (satMove plus entries) ls).dir (traj (s.fullOps D o J0 id sat (satMove plus entries) ls) q m k).1
      (traj (s.fullOps D o J0 id sat (satMove plus entries) ls) q m k).2).1.2
    (traj (s.fullOps D o J0 id sat (satMove plus entries) ls) q m k).1
    ((s.fullOps D o J0 id sat (satMove plus entries) ls).dir (traj (s.fullOps D o J0 id sat (satMove plus entries) ls) q m k).1
      (traj (s.fullOps D o J0 id sat (satMove plus entries) ls) q m k).2).1.1 (one_smul ℝ _)
  show InBounds entries (ls _ _ _ _ _ _).2.arg
  rw [hc]
  exact satMove_in h _ _

/-- C145. and an iteration of a solver with one level leaves at its bound a coordinate that the error pushes out. -/
theorem C145_stays (ho : o.Exact) (h : ProperBounds entries) (hvec : ∀ e ∈ entries, e.iv = e.iq) {sat0 : Nat → Int}
    (h0 : ∀ v, (∀ e ∈ entries, e.iv ≠ v) → sat0 v = 0) (J0 : (Nat → ℝ) → Jac ℝ) {ls : LineSearch (Nat → ℝ) S} (hls : ls.Along)
    {l : Level ℝ κ} (hl : s.levels = [l]) (hnd : (indices s.free.segs).Nodup) (q : Nat → ℝ)
    (m : (Fin (indices s.free.segs).length → ℝ) × S) (k : Nat) {e : SatEntry ℝ} (he : e ∈ entries)
    (j : Fin (indices s.free.segs).length) (hj : (indices s.free.segs).getD j 0 = e.iq) :
    let O := s.fullOps D o J0 id (satFlags entries sat0) (satMove (fun q v i => q i + v i) entries) ls
    let x := (traj O q m k).1
    let d := s.dLevel D (J0 x) x l
    (x e.iq = e.ub ∧ ∑ r, d.J r j * d.e r < 0 ∨ x e.iq = e.lb ∧ 0 < ∑ r, d.J r j * d.e r) →
    (traj O q m (k + 1)).1 e.iq = x e.iq := by
  intro O x d hx
  have hz : (O.dir x (traj O q m k).2).1.1 j = 0 := by
    refine C145_direction ho h h0 J0 id (satMove (fun q v i => q i + v i) entries) ls hl x _ j ⟨e, he, ?_, ?_⟩
    · rw [hj]; exact hvec e he
    · rcases hx with ⟨h1, h2⟩ | ⟨h1, h2⟩
      · exact .inr ⟨h1.ge, h2⟩
      · exact .inl ⟨h1.le, h2⟩
  have hq : e.lb ≤ x e.iq ∧ x e.iq ≤ e.ub := by
    have := h.lt e he
    rcases hx with ⟨h1, -⟩ | ⟨h1, -⟩ <;> rw [h1]
    · exact ⟨this.le, le_rfl⟩
    · exact ⟨le_rfl, this.le⟩
  obtain ⟨c, hc⟩ := hls _ (s.lsEnv id (satMove (fun q v i => q i + v i) entries))
    (fun q u => localSlope (s.dLevels D J0 id (satFlags entries sat0) q) u) (O.dir x (traj O q m k).2).1.2 x
    (O.dir x (traj O q m k).2).1.1 (one_smul ℝ _)
  show (ls _ _ _ _ _ _).2.arg e.iq = _
  rw [hc]
  refine satMove_same (plus := fun q v i => q i + v i) (v := expand (hiFree s) (c • (O.dir x (traj O q m k).2).1.1) fun _ => 0)
    h.ok he hq ?_
  show x e.iq + expand (hiFree s) (c • (O.dir x (traj O q m k).2).1.1) (fun _ => 0) e.iq = x e.iq
  have hj' : hiFree s j = e.iq := hj
  rw [← hj', expand_mem _ (hiFree_inj hnd), Pi.smul_apply, hz, smul_zero, add_zero]

end

namespace BlockEx
open HINewtonEx

/-- `q₀` between 0 and 5, `q₁` between 0 and 1 -/
noncomputable def box : List (SatEntry ℝ) := [⟨0, 0, 0, 5⟩, ⟨1, 1, 0, 1⟩]

theorem proper : ProperBounds box :=
  ⟨by simp [box], by simp [box], fun e he => by
    simp only [box, List.mem_cons, List.not_mem_nil, or_false] at he
    rcases he with rfl | rfl <;> norm_num⟩

/-- `q₁² = q₀` at (4, 1): the error is -3 and pushes `q₁`, the only free variable, over its upper bound. -/
theorem pushed : ∑ r, (sol.dLevel D (fun _ _ => 0) (fun i => if i = 0 then 4 else 1) lev).J r ⟨0, Nat.one_pos⟩ *
    (sol.dLevel D (fun _ _ => 0) (fun i => if i = 0 then 4 else 1) lev).e r < 0 := by
  show ∑ r, sol.dJ D (fun _ _ => 0) (fun i => if i = 0 then 4 else 1) lev r ⟨0, Nat.one_pos⟩ *
    sol.dErr D (fun _ _ => 0) (fun i => if i = 0 then 4 else 1) lev r < 0
  rw [sum_rows, dJ_eq, dErr_eq]
  norm_num

/-- The hypotheses of `C145_stays` hold: the free variable stays at its bound. -/
example {o : SvdOps ℝ} (ho : o.Exact) (dq) :
    (traj (sol.fullOps D o (fun _ _ _ => 0) id (satFlags box fun _ => 0) (satMove (fun q v i => q i + v i) box) lineBacktracking)
      (fun i => if i = 0 then 4 else 1) (dq, ()) 1).1 1 = 1 :=
  C145_stays (e := ⟨1, 1, 0, 1⟩) ho proper (fun e he => by
      simp only [box, List.mem_cons, List.not_mem_nil, or_false] at he
      rcases he with rfl | rfl <;> rfl) (fun _ _ => rfl) (fun _ _ _ => 0) (C145_line_searches 0).2.1 levels_eq
    (by rw [free_eq]; simp) (fun i => if i = 0 then 4 else 1) (dq, ()) 0 (by simp [box]) ⟨0, Nat.one_pos⟩ rfl
    (.inl ⟨rfl, pushed⟩)

end BlockEx

end Hpp
