import Verif.Solve.BoxLinear
import Verif.Solve.ShortestProps

/-!
# C150: bounds and priorities

Sources: `/repo/src/solver/hierarchical-iterative.cc`, lines 653-672 (`computeSaturation`) and 744-823 (`computeDescentDirection`).
The columns of the variables at a bound are set to zero separately in each level.
-/

namespace Hpp

open Matrix

variable {n : Nat}

/-- Specification: the variable is blocked in a level: it is at a bound (`s`) and the error of the level pushes it out. -/
def BlockedIn (s : Fin n → ℝ) (d : DLevel ℝ n) (j : Fin n) : Prop := s j * ∑ i, d.J i j * d.e i < 0

theorem satLevel_J (s : Fin n → ℝ) (d : DLevel ℝ n) (i : Fin d.m) (j : Fin n) :
    (BlockedIn s d j → (satLevel s d).J i j = 0) ∧ (¬ BlockedIn s d j → (satLevel s d).J i j = d.J i j) := by
  unfold BlockedIn satLevel
  have e : (d.Jᵀ *ᵥ d.e) j = ∑ i, d.J i j * d.e i := rfl
  dsimp only
  rw [e]
  exact ⟨fun h => if_pos h, fun h => if_neg h⟩

theorem mulVec_congr {m : Nat} (M : Matrix (Fin m) (Fin n) ℝ) {x y : Fin n → ℝ} (h : ∀ j, (∀ i, M i j = 0) ∨ x j = y j) :
    M *ᵥ x = M *ᵥ y := by
  funext i
  show ∑ j, M i j * x j = ∑ j, M i j * y j
  refine Finset.sum_congr rfl fun j _ => ?_
  rcases h j with h | h
  · rw [h i, zero_mul, zero_mul]
  · rw [h]

theorem cost_congr (d : DLevel ℝ n) {x y : Fin n → ℝ} (h : ∀ j, (∀ i, d.J i j = 0) ∨ x j = y j) : d.cost x = d.cost y := by
  unfold DLevel.cost
  rw [mulVec_congr d.J h]

/-- A coordinate that no level reads can be changed in a lexicographic minimiser. -/
theorem lexOpt_update (j : Fin n) (v : ℝ) (ds : List (DLevel ℝ n)) (h : ∀ d ∈ ds, ∀ i, d.J i j = 0) :
    ∀ S : Set (Fin n → ℝ), (∀ x ∈ S, Function.update x j v ∈ S) → ∀ x ∈ lexOpt S ds, Function.update x j v ∈ lexOpt S ds := by
  induction ds with
  | nil => exact fun S hS x hx => hS x hx
  | cons d ds ih =>
    intro S hS
    refine ih (fun d' hd' => h d' (List.mem_cons_of_mem _ hd')) _ ?_
    rintro x ⟨h1, h2⟩
    refine ⟨hS x h1, fun y hy => ?_⟩
    rw [cost_congr d (x := Function.update x j v) (y := x) fun k => ?_]
    · exact h2 y hy
    · by_cases hk : k = j
      · subst hk
        exact .inl (h d List.mem_cons_self)
      · exact .inr (Function.update_of_ne hk _ _)

theorem descend_unread {o : SvdOps ℝ} (ho : o.Exact) (hor : o.Ortho) (thr : ℝ) {levels : List (DLevel ℝ n)}
    (h : levels.length ≤ 1 ∨ ∃ d ds, levels = d :: ds ∧ d.m ≠ 0) (dq : Fin n → ℝ) {r : Fin n → ℝ}
    (hr : descend o false thr levels dq = some r) (j : Fin n) (hj : ∀ d ∈ levels, ∀ i, d.J i j = 0) : r j = 0 := by
  have hx := lexOpt_update j 0 levels hj Set.univ (fun _ _ => trivial) r (C36_lexicographic o ho thr levels dq hr)
  have h1 := (C93_shortest_partial o ho hor thr levels h dq hr _ hx).1
  have h2 : r ⬝ᵥ r = Function.update r j 0 ⬝ᵥ Function.update r j 0 + r j * r j := by
    unfold dotProduct
    rw [← Finset.sum_erase_add _ _ (Finset.mem_univ j), ← Finset.sum_erase_add (Finset.univ) (fun i => Function.update r j 0 i *
      Function.update r j 0 i) (Finset.mem_univ j)]
    rw [Function.update_self, mul_zero, add_zero]
    congr 1
    refine Finset.sum_congr rfl fun k hk => ?_
    rw [Function.update_of_ne (Finset.ne_of_mem_erase hk)]
  have h3 : r j * r j ≤ 0 := by linarith
  exact mul_self_eq_zero.1 (le_antisymm h3 (mul_self_nonneg _))

/-- C150. Any number of levels: a variable that, in each level, is blocked or does not appear, is not moved. -/
theorem C150_blocked {o : SvdOps ℝ} (ho : o.Exact) (hor : o.Ortho) (thr : ℝ) (s : Fin n → ℝ) {levels : List (DLevel ℝ n)}
    (h : levels.length ≤ 1 ∨ ∃ d ds, levels = d :: ds ∧ d.m ≠ 0) (dq : Fin n → ℝ) {r : Fin n → ℝ}
    (hr : descend o false thr (levels.map (satLevel s)) dq = some r) (j : Fin n)
    (hj : ∀ d ∈ levels, BlockedIn s d j ∨ ∀ i, d.J i j = 0) : r j = 0 := by
  refine descend_unread ho hor thr ?_ dq hr j fun d' hd' i => ?_
  · rcases h with h | ⟨d, ds, rfl, h⟩
    · exact .inl (by rw [List.length_map]; exact h)
    · exact .inr ⟨_, _, rfl, h⟩
  · obtain ⟨d, hd, rfl⟩ := List.mem_map.1 hd'
    by_cases hb : BlockedIn s d j
    · exact (satLevel_J s d i j).1 hb
    · rw [(satLevel_J s d i j).2 hb]
      exact (hj d hd).resolve_left hb i

/-- C150. If each variable that is blocked in the first level is, in each other level, blocked or absent, then the levels of lower
priority do not degrade the first one: the direction minimises the linearised error of the first level among the directions that do
not move the variables blocked in it. -/
theorem C150_first {o : SvdOps ℝ} (ho : o.Exact) (hor : o.Ortho) (thr : ℝ) (s : Fin n → ℝ) {d : DLevel ℝ n} {ds : List (DLevel ℝ n)}
    (h : d.m ≠ 0) (dq : Fin n → ℝ) {r : Fin n → ℝ} (hr : descend o false thr ((d :: ds).map (satLevel s)) dq = some r)
    (hb : ∀ j, BlockedIn s d j → ∀ d' ∈ ds, BlockedIn s d' j ∨ ∀ i, d'.J i j = 0) :
    (∀ j, BlockedIn s d j → r j = 0) ∧
    ∀ y : Fin n → ℝ, (∀ j, BlockedIn s d j → y j = 0) →
      (d.J *ᵥ r + d.e) ⬝ᵥ (d.J *ᵥ r + d.e) ≤ (d.J *ᵥ y + d.e) ⬝ᵥ (d.J *ᵥ y + d.e) := by
  have hz : ∀ j, BlockedIn s d j → r j = 0 := by
    intro j hj
    refine C150_blocked ho hor thr s (.inr ⟨d, ds, rfl, h⟩) dq hr j fun d' hd' => ?_
    rcases List.mem_cons.1 hd' with rfl | hd'
    · exact .inl hj
    · exact hb j hj d' hd'
  refine ⟨hz, fun y hy => ?_⟩
  have hsub : ∀ (S : Set (Fin n → ℝ)) (l : List (DLevel ℝ n)), lexOpt S l ⊆ S := by
    intro S l
    induction l generalizing S with
    | nil => exact subset_rfl
    | cons a l ih => exact (ih _).trans fun x hx => hx.1
  have h1 : r ∈ {x | x ∈ Set.univ ∧ ∀ y ∈ Set.univ, (satLevel s d).cost x ≤ (satLevel s d).cost y} :=
    hsub _ _ (C36_lexicographic o ho thr _ dq hr)
  have h2 := h1.2 y trivial
  have h3 : ∀ x : Fin n → ℝ, (∀ j, BlockedIn s d j → x j = 0) → (satLevel s d).J *ᵥ x = d.J *ᵥ x := by
    intro x hx
    funext i
    show ∑ j, (satLevel s d).J i j * x j = ∑ j, d.J i j * x j
    refine Finset.sum_congr rfl fun j _ => ?_
    by_cases hj : BlockedIn s d j
    · rw [hx j hj, mul_zero, mul_zero]
    · rw [(satLevel_J s d i j).2 hj]
  unfold DLevel.cost at h2
  rw [h3 r hz, h3 y hy] at h2
  exact h2

/-! ### An optional level that prevents the solver from converging -/

namespace OptionalEx

/-- Bounds `[0, 1]`. -/
def box : List (SatEntry ℝ) := [⟨0, 0, 0, 1⟩, ⟨1, 1, 0, 1⟩]

/-- `x + y = 2` -/
def goal : NLevel (Fin 2 → ℝ) ℝ 2 where
  m := 1
  J _ := !![1, 1]
  err q := ![q 0 + q 1 - 2]
  nc := 1
  blk := fun _ => 0

/-- `x = 0`, `y = 0` -/
def rest : NLevel (Fin 2 → ℝ) ℝ 2 where
  m := 2
  J _ := !![1, 0; 0, 1]
  err q := ![q 0, q 1]
  nc := 1
  blk := fun _ => 0

theorem box_ok : BoxEntries 2 box := by
  refine ⟨?_, ?_, ?_, ?_⟩
  · simp [box]
  · simp [box]
  · simp [box]
  · intro e he
    simp only [box, List.mem_cons, List.not_mem_nil, or_false] at he
    rcases he with rfl | rfl <;> norm_num

theorem flags {q s : Fin 2 → ℝ} (hs : BoxFlags box (coords q) s) (i : Fin 2) :
    (q i = 0 → s i = -1) ∧ (q i = 1 → s i = 1) := by
  have e0 : (⟨0, 0, 0, 1⟩ : SatEntry ℝ) ∈ box := by simp [box]
  have e1 : (⟨1, 1, 0, 1⟩ : SatEntry ℝ) ∈ box := by simp [box]
  have c0 : coords q 0 = q 0 := by simp [coords]
  have c1 : coords q 1 = q 1 := by simp [coords]
  fin_cases i
  · exact ⟨fun h => hs.lb _ e0 (by norm_num) (c0.trans h), fun h => hs.ub _ e0 (by norm_num) (c0.trans h)⟩
  · exact ⟨fun h => hs.lb _ e1 (by norm_num) (c1.trans h), fun h => hs.ub _ e1 (by norm_num) (c1.trans h)⟩

theorem box_in {a b : ℝ} (ha : 0 ≤ a ∧ a ≤ 1) (hb : 0 ≤ b ∧ b ≤ 1) : InBounds box (coords ![a, b]) := by
  intro e he
  simp only [box, List.mem_cons, List.not_mem_nil, or_false] at he
  rcases he with rfl | rfl <;> simp [coords, ha, hb]

theorem box_plus (q v : Fin 2 → ℝ) : plusSat box q v = ![max 0 (min (q 0 + v 0) 1), max 0 (min (q 1 + v 1) 1)] := by
  funext i
  rcases plusSat_coord box_ok q v i with ⟨e, he, hei, hv⟩ | ⟨hn, -⟩
  · rw [hv]
    simp only [box, List.mem_cons, List.not_mem_nil, or_false] at he
    fin_cases i <;> rcases he with rfl | rfl <;> simp at hei <;> rfl
  · exfalso
    fin_cases i
    · exact hn ⟨0, 0, 0, 1⟩ (by simp [box]) rfl
    · exact hn ⟨1, 1, 0, 1⟩ (by simp [box]) rfl

noncomputable abbrev satG := satNLevel box (fun _ => 0) goal
noncomputable abbrev satR := satNLevel box (fun _ => 0) rest

theorem goalA : satG.at ![1, 0] = ⟨1, !![0, 1], ![-1]⟩ := by
  obtain ⟨s, hs, he⟩ := computeSat_flags box_ok (fun _ => 0) (fun _ _ => rfl) _
    (box_in (a := 1) (b := 0) (by norm_num) (by norm_num)) (goal.at ![1, 0])
  rw [satNLevel_at, he]
  have s0 : s 0 = 1 := (flags hs 0).2 rfl
  have s1 : s 1 = -1 := (flags hs 1).1 rfl
  have hE : goal.at ![1, 0] = ⟨1, !![1, 1], ![-1]⟩ := by
    have : goal.err ![1, 0] = ![(1 : ℝ) + 0 - 2] := rfl
    unfold NLevel.at
    rw [this]
    unfold goal
    norm_num
  rw [hE]
  unfold satLevel
  congr 1
  ext i j
  fin_cases j <;> fin_cases i <;> simp [s0, s1, mulVec, dotProduct]

theorem goalB : satG.at ![0, 1] = ⟨1, !![1, 0], ![-1]⟩ := by
  obtain ⟨s, hs, he⟩ := computeSat_flags box_ok (fun _ => 0) (fun _ _ => rfl) _
    (box_in (a := 0) (b := 1) (by norm_num) (by norm_num)) (goal.at ![0, 1])
  rw [satNLevel_at, he]
  have s0 : s 0 = -1 := (flags hs 0).1 rfl
  have s1 : s 1 = 1 := (flags hs 1).2 rfl
  have hE : goal.at ![0, 1] = ⟨1, !![1, 1], ![-1]⟩ := by
    have : goal.err ![0, 1] = ![(0 : ℝ) + 1 - 2] := rfl
    unfold NLevel.at
    rw [this]
    unfold goal
    norm_num
  rw [hE]
  unfold satLevel
  congr 1
  ext i j
  fin_cases j <;> fin_cases i <;> simp [s0, s1, mulVec, dotProduct]

theorem restA : satR.at ![1, 0] = ⟨2, !![1, 0; 0, 1], ![1, 0]⟩ := by
  obtain ⟨s, hs, he⟩ := computeSat_flags box_ok (fun _ => 0) (fun _ _ => rfl) _
    (box_in (a := 1) (b := 0) (by norm_num) (by norm_num)) (rest.at ![1, 0])
  rw [satNLevel_at, he]
  have s0 : s 0 = 1 := (flags hs 0).2 rfl
  have s1 : s 1 = -1 := (flags hs 1).1 rfl
  have hE : rest.at ![1, 0] = ⟨2, !![1, 0; 0, 1], ![1, 0]⟩ := rfl
  rw [hE]
  unfold satLevel
  congr 1
  ext i j
  fin_cases j <;> fin_cases i <;> simp [s0, s1, mulVec, dotProduct]

theorem restB : satR.at ![0, 1] = ⟨2, !![1, 0; 0, 1], ![0, 1]⟩ := by
  obtain ⟨s, hs, he⟩ := computeSat_flags box_ok (fun _ => 0) (fun _ _ => rfl) _
    (box_in (a := 0) (b := 1) (by norm_num) (by norm_num)) (rest.at ![0, 1])
  rw [satNLevel_at, he]
  have s0 : s 0 = -1 := (flags hs 0).1 rfl
  have s1 : s 1 = 1 := (flags hs 1).2 rfl
  have hE : rest.at ![0, 1] = ⟨2, !![1, 0; 0, 1], ![0, 1]⟩ := rfl
  rw [hE]
  unfold satLevel
  congr 1
  ext i j
  fin_cases j <;> fin_cases i <;> simp [s0, s1, mulVec, dotProduct]

theorem lexA (r : Fin 2 → ℝ)
    (h : r ∈ lexOpt Set.univ [(⟨1, !![0, 1], ![-1]⟩ : DLevel ℝ 2), ⟨2, !![1, 0; 0, 1], ![1, 0]⟩]) : r = ![-1, 1] := by
  obtain ⟨⟨-, h1⟩, h2⟩ := h
  have c1 : ∀ x : Fin 2 → ℝ, (⟨1, !![0, 1], ![-1]⟩ : DLevel ℝ 2).cost x = (x 1 - 1) ^ 2 := by
    intro x
    simp [DLevel.cost, dotProduct, Fin.sum_univ_two]
    ring
  have c2 : ∀ x : Fin 2 → ℝ, (⟨2, !![1, 0; 0, 1], ![1, 0]⟩ : DLevel ℝ 2).cost x = (x 0 + 1) ^ 2 + x 1 ^ 2 := by
    intro x
    simp [DLevel.cost, dotProduct, Fin.sum_univ_two]
    ring
  have g1 := h1 ![0, 1] trivial
  rw [c1, c1] at g1
  simp at g1
  have g2 := h2 ![-1, 1] ⟨trivial, fun y _ => by rw [c1, c1]; simp; positivity⟩
  rw [c2, c2] at g2
  have r1 : r 1 = 1 := by nlinarith [sq_nonneg (r 1 - 1)]
  simp [r1] at g2
  have r0 : r 0 = -1 := by nlinarith [sq_nonneg (r 0 + 1)]
  ext i
  fin_cases i
  · exact r0
  · exact r1

theorem lexB (r : Fin 2 → ℝ)
    (h : r ∈ lexOpt Set.univ [(⟨1, !![1, 0], ![-1]⟩ : DLevel ℝ 2), ⟨2, !![1, 0; 0, 1], ![0, 1]⟩]) : r = ![1, -1] := by
  obtain ⟨⟨-, h1⟩, h2⟩ := h
  have c1 : ∀ x : Fin 2 → ℝ, (⟨1, !![1, 0], ![-1]⟩ : DLevel ℝ 2).cost x = (x 0 - 1) ^ 2 := by
    intro x
    simp [DLevel.cost, dotProduct, Fin.sum_univ_two]
    ring
  have c2 : ∀ x : Fin 2 → ℝ, (⟨2, !![1, 0; 0, 1], ![0, 1]⟩ : DLevel ℝ 2).cost x = x 0 ^ 2 + (x 1 + 1) ^ 2 := by
    intro x
    simp [DLevel.cost, dotProduct, Fin.sum_univ_two]
    ring
  have g1 := h1 ![1, 0] trivial
  rw [c1, c1] at g1
  simp at g1
  have g2 := h2 ![1, -1] ⟨trivial, fun y _ => by rw [c1, c1]; simp; positivity⟩
  rw [c2, c2] at g2
  have r0 : r 0 = 1 := by nlinarith [sq_nonneg (r 0 - 1)]
  simp [r0] at g2
  have r1 : r 1 = -1 := by nlinarith [sq_nonneg (r 1 + 1)]
  ext i
  fin_cases i
  · exact r0
  · exact r1

theorem norm_goal (q : Fin 2 → ℝ) : nSqNorm false [satG] q = (q 0 + q 1 - 2) ^ 2 := by
  have hn : satG.norms q = [(q 0 + q 1 - 2) ^ 2] := by
    unfold NLevel.norms
    show (List.finRange 1).map (fun k => ∑ i : Fin 1, if (0 : Fin 1) = k then ![q 0 + q 1 - 2] i * ![q 0 + q 1 - 2] i else 0) = _
    simp [List.finRange_succ, sq]
  unfold nSqNorm
  simp only [Bool.false_eq_true, if_false, List.flatMap_cons, List.flatMap_nil, List.append_nil, hn, List.foldl_cons,
    List.foldl_nil]
  exact max_eq_right (by positivity)

theorem norm_both (q : Fin 2 → ℝ) : nSqNorm true [satG, satR] q = (q 0 + q 1 - 2) ^ 2 :=
  (show nSqNorm true [satG, satR] q = nSqNorm false [satG] q from rfl).trans (norm_goal q)

end OptionalEx

open OptionalEx in
/-- C150. Bounds break the priorities: `x + y = 2` with bounds `[0, 1]`, from (1, 0), full steps.  The solver reaches the solution (1, 1)
in one iteration.  If the optional level `x = 0, y = 0` is added, it goes from (1, 0) to (0, 1) and back and never succeeds: the
optional level moves the variable that is blocked in the mandatory one. -/
theorem C150_optional_refuted (o : SvdOps ℝ) (ho : o.Exact) (thr dqMin : ℝ) (h0 : 0 ≤ thr) (h1 : thr < 1) (h2 : dqMin ≤ 1) (maxIter : Nat)
    (hm : 1 ≤ maxIter) (dq : Fin 2 → ℝ) :
    let alone := solve (newtonOps o false false thr [satG] (lsC false [satG] (plusSat box))) thr dqMin maxIter 2 ![1, 0] (dq, ())
    let both := solve (newtonOps o false true thr [satG, satR] (lsC true [satG, satR] (plusSat box))) thr dqMin maxIter 2 ![1, 0] (dq, ())
    (alone.status = some .success ∧ alone.iter = 1 ∧ alone.arg = ![1, 1]) ∧
    (both.status ≠ some .success ∧ (both.arg = ![1, 0] ∨ both.arg = ![0, 1])) := by
  intro alone both
  constructor
  · set O := newtonOps o false false thr [satG] (lsC false [satG] (plusSat box)) with hO
    have hdir : O.dir ![1, 0] (dq, ()) = ((![0, 1], ()), 1) := by
      have : o.solve (satG.at ![1, 0]).J (-(satG.at ![1, 0]).e) = ![0, 1] := by
        rw [goalA]
        refine exact_solve ho ⟨1, !![0, 1], ![-1]⟩ _ ![1] ?_ ?_
        · ext j; fin_cases j <;> simp [mulVec, dotProduct, Fin.sum_univ_two]
        · ext j; fin_cases j <;> simp [mulVec, dotProduct]
      show ((o.solve (satG.at ![1, 0]).J (-(satG.at ![1, 0]).e), ()), o.solve (satG.at ![1, 0]).J (-(satG.at ![1, 0]).e) ⬝ᵥ
        o.solve (satG.at ![1, 0]).J (-(satG.at ![1, 0]).e)) = _
      rw [this]
      simp [dotProduct, Fin.sum_univ_two]
    have ht : (traj O ![1, 0] (dq, ()) 1).1 = ![1, 1] := by
      show (O.search ![1, 0] (O.dir ![1, 0] (dq, ())).1).1 = _
      rw [hdir]
      show plusSat box ![1, 0] ![0, 1] = _
      rw [box_plus]
      ext j; fin_cases j <;> simp
    obtain ⟨g1, g2, g3, g4, g5, g6, g7⟩ := C29_statuses O thr dqMin maxIter 2 ![1, 0] (dq, ())
    have hr : alone = solve O thr dqMin maxIter 2 ![1, 0] (dq, ()) := rfl
    rw [← hr] at g1 g2 g3 g4 g5 g6 g7
    have e1 : O.norm (traj O ![1, 0] (dq, ()) 1).1 = 0 := by
      rw [ht]
      refine (norm_goal _).trans ?_
      show ((1 : ℝ) + 1 - 2) ^ 2 = 0
      norm_num
    have hit : alone.iter = 1 := by
      rcases Nat.lt_trichotomy alone.iter 1 with hi | hi | hi
      · have hi0 : alone.iter = 0 := by omega
        exfalso
        rw [hi0] at g2 g3 g4 g5
        have e0 : O.norm (traj O ![1, 0] (dq, ()) 0).1 = 1 := by
          refine (norm_goal _).trans ?_
          show ((1 : ℝ) + 0 - 2) ^ 2 = 1
          norm_num
        cases hs : alone.status with
        | none => exact g6 hs
        | some st =>
          cases st with
          | success =>
            have := g2.1 hs
            dsimp only at this
            rw [e0] at this
            linarith
          | maxIterationReached =>
            have := (g3.1 hs).2.1
            omega
          | errorIncreased =>
            have := (g4.1 hs).2.2.2.1
            omega
          | infeasible =>
            obtain ⟨-, k | ⟨-, k, -⟩⟩ := g5.1 hs
            · exact absurd k.1 (by norm_num)
            · have k' : (O.dir ![1, 0] (dq, ())).2 < dqMin := k
              rw [hdir] at k'
              dsimp only at k'
              linarith
      · exact hi
      · exfalso
        have := (g7 1 hi).1
        dsimp only at this
        rw [e1] at this
        linarith
    rw [hit] at g1 g2
    exact ⟨g2.2 (by dsimp only; rw [e1]; exact h0), hit, g1.trans ht⟩
  · set O := newtonOps o false true thr [satG, satR] (lsC true [satG, satR] (plusSat box)) with hO
    have hsearch : ∀ q m, (O.search q m).1 = plusSat box q m.1 := fun q m => rfl
    have hdir : ∀ q m, ∃ r, descend o false thr [satG.at q, satR.at q] m = some r ∧ (O.dir q (m, ())).1.1 = r :=
      fun q m => ⟨_, rfl, rfl⟩
    have htraj : ∀ k, (traj O ![1, 0] (dq, ()) k).1 = ![1, 0] ∨ (traj O ![1, 0] (dq, ()) k).1 = ![0, 1] := by
      intro k
      induction k with
      | zero => exact .inl rfl
      | succ k ih =>
        have hs : (traj O ![1, 0] (dq, ()) (k + 1)).1 =
            plusSat box (traj O ![1, 0] (dq, ()) k).1 (O.dir (traj O ![1, 0] (dq, ()) k).1 (traj O ![1, 0] (dq, ()) k).2).1.1 := rfl
        rw [hs]
        rcases ih with ih | ih
        · obtain ⟨r, k1, k2⟩ := hdir ![1, 0] (traj O ![1, 0] (dq, ()) k).2.1
          rw [goalA, restA] at k1
          rw [ih, k2, lexA r (C36_lexicographic o ho thr _ _ k1), box_plus]
          right
          ext j; fin_cases j <;> simp
        · obtain ⟨r, k1, k2⟩ := hdir ![0, 1] (traj O ![1, 0] (dq, ()) k).2.1
          rw [goalB, restB] at k1
          rw [ih, k2, lexB r (C36_lexicographic o ho thr _ _ k1), box_plus]
          left
          ext j; fin_cases j <;> simp
    obtain ⟨g1, g2, -⟩ := C29_statuses O thr dqMin maxIter 2 ![1, 0] (dq, ())
    have hr : both = solve O thr dqMin maxIter 2 ![1, 0] (dq, ()) := rfl
    rw [← hr] at g1 g2
    refine ⟨fun hs => ?_, by rw [g1]; exact htraj _⟩
    have g := g2.1 hs
    dsimp only at g
    have e1 : O.norm (traj O ![1, 0] (dq, ()) both.iter).1 = 1 := by
      refine (norm_both _).trans ?_
      rcases htraj both.iter with h | h <;> rw [h]
      · show ((1 : ℝ) + 0 - 2) ^ 2 = 1
        norm_num
      · show ((0 : ℝ) + 1 - 2) ^ 2 = 1
        norm_num
    rw [e1] at g
    linarith

/-- The hypotheses of `C150_first` hold: the first variable is at its upper bound and pushed out by both levels. -/
example : ∃ o : SvdOps ℝ, o.Exact ∧ o.Ortho ∧
    ∃ r, descend o false 0 ([(⟨1, !![1, 1], ![-1]⟩ : DLevel ℝ 2), ⟨1, !![1, 0], ![-1]⟩].map (satLevel ![1, 0])) 0 = some r ∧
      r 0 = 0 ∧ r 1 = 1 := by
  obtain ⟨o, ho, hor⟩ := exists_exact_ortho
  obtain ⟨r, hr⟩ : ∃ r, descend o false 0
      ([(⟨1, !![1, 1], ![-1]⟩ : DLevel ℝ 2), ⟨1, !![1, 0], ![-1]⟩].map (satLevel ![1, 0])) 0 = some r := ⟨_, rfl⟩
  refine ⟨o, ho, hor, r, hr, ?_⟩
  have b0 : BlockedIn ![1, 0] (⟨1, !![1, 1], ![-1]⟩ : DLevel ℝ 2) 0 := by simp [BlockedIn]
  have b1 : ¬ BlockedIn ![1, 0] (⟨1, !![1, 1], ![-1]⟩ : DLevel ℝ 2) 1 := by simp [BlockedIn]
  have b2 : BlockedIn ![1, 0] (⟨1, !![1, 0], ![-1]⟩ : DLevel ℝ 2) 0 := by simp [BlockedIn]
  have hb : ∀ j, BlockedIn ![1, 0] (⟨1, !![1, 1], ![-1]⟩ : DLevel ℝ 2) j → j = 0 := by
    intro j hj
    fin_cases j
    · rfl
    · exact absurd hj b1
  obtain ⟨h1, h2⟩ := C150_first ho hor 0 ![1, 0] (d := ⟨1, !![1, 1], ![-1]⟩) (ds := [⟨1, !![1, 0], ![-1]⟩]) (by norm_num) 0 hr
    fun j hj d hd => by
      rw [hb j hj]
      rw [List.mem_singleton.1 hd]
      exact .inl b2
  have r0 := h1 0 b0
  refine ⟨r0, ?_⟩
  have h3 := h2 ![0, 1] fun j hj => by rw [hb j hj]; rfl
  simp [mulVec, dotProduct, Fin.sum_univ_two, r0] at h3
  nlinarith [h3]

end Hpp
