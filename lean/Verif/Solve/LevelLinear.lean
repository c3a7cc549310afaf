import Verif.Solve.LevelByLevel

/-!
# C153: linear constraints solved one level after the other

Sources: `/repo/src/solver/hierarchical-iterative.cc`, lines 744-823 (`computeDescentDirection`) and
`/repo/include/hpp/constraints/solver/impl/hierarchical-iterative.hh`, lines 123-181 (`solve`).
-/

namespace Hpp

open Matrix

variable {A : Type} {n : Nat}

namespace LevelLinear

open LevelLoop

theorem solve_zero {o : SvdOps ℝ} (ho : o.Exact) {m k : Nat} (M : Matrix (Fin m) (Fin k) ℝ) : o.solve M 0 = 0 := by
  have h := exact_solve ho ⟨m, M, 0⟩ 0 0 (by simp) (by simp)
  simpa using h

theorem next_zero {o : SvdOps ℝ} (ho : o.Exact) (first : Bool) (proj : Proj ℝ n) {d : DLevel ℝ n} (h : d.e = 0) :
    next o first proj 0 d = 0 := by
  have e : err first 0 d = 0 := by unfold err; rw [h]; simp
  unfold next
  rw [e]
  cases first with
  | true => simp [solve_zero ho]
  | false =>
    cases proj with
    | none => simp [solve_zero ho]
    | some P => simp [solve_zero ho]

theorem loop_zero {o : SvdOps ℝ} (ho : o.Exact) (thr : ℝ) : ∀ (ds : List (DLevel ℝ n)) (first : Bool) (proj : Proj ℝ n),
    (∀ d ∈ ds, d.e = 0) → descendLoop o false thr first ds proj 0 = 0 := by
  intro ds
  induction ds with
  | nil => intros; rfl
  | cons d ds ih =>
    intro first proj h
    have hn := next_zero ho first proj (h d (by simp))
    have ht : ∀ d' ∈ ds, d'.e = 0 := fun d' hd' => h d' (by simp [hd'])
    rw [loop_cons, hn]
    split
    · exact ih _ _ ht
    · rw [if_neg fun h => Bool.noConfusion h.1]
      split
      · rfl
      · cases nextProj o proj d with
        | none => rfl
        | some P => exact ih _ _ ht

/-- The first level, if it has rows, does not read the previous direction. -/
theorem loop_start (o : SvdOps ℝ) (thr : ℝ) {d : DLevel ℝ n} (hm : d.m ≠ 0) (ds : List (DLevel ℝ n)) (proj : Proj ℝ n) (dq dq' : Fin n → ℝ) :
    descendLoop o false thr true (d :: ds) proj dq = descendLoop o false thr true (d :: ds) proj dq' := by
  rw [loop_cons, loop_cons, if_neg hm, if_neg hm]
  rfl

theorem lin_sat {o : SvdOps ℝ} (ho : o.Exact) (thr : ℝ) (pre : List (DLevel ℝ n)) (d : DLevel ℝ n)
    (hh : ∀ d', pre.head? = some d' → d'.m ≠ 0) (h : ∀ d' ∈ pre, d'.e = 0) (dq : Fin n → ℝ) :
    linError o thr true none dq pre d = d.e ⬝ᵥ d.e := by
  unfold linError
  cases pre with
  | nil => simp
  | cons a pre =>
    rw [if_neg (by simp)]
    dsimp only
    rw [loop_start o thr (hh a rfl) pre none dq 0, loop_zero ho thr _ _ _ h, mulVec_zero, zero_add]

theorem lin_zero {o : SvdOps ℝ} (ho : o.Exact) (thr : ℝ) (pre : List (DLevel ℝ n)) (d : DLevel ℝ n)
    (hh : ∀ d', pre.head? = some d' → d'.m ≠ 0) (h : ∀ d' ∈ pre, d'.e = 0) (hd : d.e = 0) (dq : Fin n → ℝ) :
    linError o thr true none dq pre d = 0 := by
  rw [lin_sat ho thr pre d hh h dq, hd, dotProduct_zero]

theorem dir_stops (o : SvdOps ℝ) (thr : ℝ) {d : DLevel ℝ n} (hm : d.m ≠ 0) (p q : List (DLevel ℝ n)) (dq : Fin n → ℝ)
    (hs : AllSmall o thr true none dq p) (hb : thr < linError o thr true none dq p d) :
    descend o true thr (p ++ d :: q) dq = descend o false thr (p ++ [d]) dq := by
  by_cases hp : p = []
  · subst hp
    have hb' : thr < d.e ⬝ᵥ d.e := by
      rw [linError_nil] at hb
      simpa [err] using hb
    exact C151_direction o thr d q hm hb' dq
  · exact C152_stops o thr hm p q hp dq hs hb

/-- Either no level stops the loop, or there is a first one that does. -/
theorem stop_or (o : SvdOps ℝ) (thr : ℝ) (dq : Fin n → ℝ) (ds : List (DLevel ℝ n)) :
    AllSmall o thr true none dq ds ∨ ∃ p d q, ds = p ++ d :: q ∧ d.m ≠ 0 ∧ AllSmall o thr true none dq p ∧
      thr < linError o thr true none dq p d := by
  induction ds using List.reverseRecOn with
  | nil => exact Or.inl fun p d q h => by simp at h
  | append_singleton ds d ih =>
    rcases ih with ih | ⟨p, d', q, h1, h2⟩
    · by_cases hd : d.m ≠ 0 ∧ thr < linError o thr true none dq ds d
      · exact Or.inr ⟨ds, d, [], rfl, hd.1, ih, hd.2⟩
      · refine Or.inl fun p d' q h hm => ?_
        rcases List.eq_nil_or_concat q with rfl | ⟨q', x, rfl⟩
        · obtain ⟨rfl, h'⟩ := List.append_inj' h rfl
          obtain rfl : d = d' := by simpa using h'
          exact not_lt.1 fun h' => hd ⟨hm, h'⟩
        · have e : ds = p ++ d' :: q' := by
            have h' : ds ++ [d] = (p ++ d' :: q') ++ [x] := by rw [h]; simp
            exact (List.append_inj' h' rfl).1
          exact ih p d' q' e hm
    · exact Or.inr ⟨p, d', q ++ [d], by rw [h1]; simp, h2⟩

/-- The levels that are read are solved, if they have a common solution. -/
theorem dir_solves {o : SvdOps ℝ} (ho : o.Exact) (thr : ℝ) {ds : List (DLevel ℝ n)} {v : Fin n → ℝ}
    (hv : ∀ d ∈ ds, d.J *ᵥ v + d.e = 0) (dq : Fin n → ℝ) :
    ∀ d ∈ ds, d.J *ᵥ ((descend o false thr ds dq).getD 0) + d.e = 0 := by
  intro d hd
  cases h : descend o false thr ds dq with
  | none =>
    have : ds = [] := by
      cases ds with
      | nil => rfl
      | cons l lv => cases lv <;> simp [descend] at h
    subst this
    simp at hd
  | some r => exact lexOpt_zero _ Set.univ v r trivial hv (C36_lexicographic o ho thr _ dq h) d hd

theorem step_solves {o : SvdOps ℝ} (ho : o.Exact) {thr : ℝ} (ht : 0 ≤ thr) {ds : List (DLevel ℝ n)}
    (hh : ∀ d, ds.head? = some d → d.m ≠ 0) {v : Fin n → ℝ} (hv : ∀ d ∈ ds, d.J *ᵥ v + d.e = 0) {k : Nat}
    (hk : ∀ d ∈ ds.take k, d.e = 0) (dq : Fin n → ℝ) :
    ∀ d ∈ ds.take (k + 1), d.J *ᵥ ((descend o true thr ds dq).getD 0) + d.e = 0 := by
  rcases stop_or o thr dq ds with h | ⟨p, d, q, h1, hm, hs, hb⟩
  · rw [C152_all o thr ds dq h]
    exact fun d hd => dir_solves ho thr hv dq d (List.mem_of_mem_take hd)
  · have e : descend o true thr ds dq = descend o false thr (p ++ [d]) dq := by
      rw [h1]
      exact dir_stops o thr hm p q dq hs hb
    have hlen : k ≤ p.length := by
      by_contra hc
      obtain ⟨j, hj⟩ : ∃ j, k = p.length + (j + 1) := ⟨k - p.length - 1, by omega⟩
      have htk : ds.take k = p ++ d :: q.take j := by
        rw [h1, hj, List.take_length_add_append]
        rfl
      rw [htk] at hk
      have := lin_zero ho thr p d (fun d' hd' => hh d' (by
        rw [h1]
        cases p with
        | nil => simp at hd'
        | cons a p => exact hd')) (fun d' hd' => hk d' (by simp [hd'])) (hk d (by simp)) dq
      linarith
    rw [e]
    intro d' hd'
    have hsub : ∀ x ∈ p ++ [d], x ∈ ds := fun x hx => by rw [h1]; simp at hx ⊢; tauto
    refine dir_solves ho thr (fun x hx => hv x (hsub x hx)) dq d' ?_
    have e2 : ds = (p ++ [d]) ++ q := by rw [h1]; simp
    rw [e2, List.take_append_of_le_length (by simp; omega)] at hd'
    exact List.mem_of_mem_take hd'

end LevelLinear

open LevelLinear

/-- C153. After `k` iterations with full steps the `k` first levels are satisfied exactly, and the others still have a common
solution with them. -/
theorem C153_each (o : SvdOps ℝ) (ho : o.Exact) (opt : Bool) (thr : ℝ) (ht : 0 ≤ thr) (lv : List (NLevel A ℝ n))
    (hh : ∀ l, lv.head? = some l → l.m ≠ 0) (integrate : A → (Fin n → ℝ) → A) (hlin : LinearLevels integrate lv) (q : A)
    (hq : ∃ v, Solves integrate lv q v) (dq : Fin n → ℝ) (k : Nat) :
    let t := traj (newtonOps o true opt thr lv (lsC opt lv integrate)) q (dq, ())
    (∀ l ∈ lv.take k, l.err (t k).1 = 0) ∧ (∃ v, Solves integrate lv (t k).1 v) ∧
    ∃ v, v ⬝ᵥ v = ((newtonOps o true opt thr lv (lsC opt lv integrate)).dir (t k).1 (t k).2).2 ∧ (t (k + 1)).1 = integrate (t k).1 v ∧
      ∀ l ∈ lv.take (k + 1), l.err (integrate (t k).1 v) = 0 := by
  intro t
  set O := newtonOps o true opt thr lv (lsC opt lv integrate) with hO
  have step : ∀ (q' : A) (m : (Fin n → ℝ) × Unit) (k : Nat), (∀ l ∈ lv.take k, l.err q' = 0) → (∃ v, Solves integrate lv q' v) →
      ∃ v, v ⬝ᵥ v = (O.dir q' m).2 ∧ (O.search q' (O.dir q' m).1).1 = integrate q' v ∧
        (∀ l ∈ lv.take (k + 1), l.err (integrate q' v) = 0) ∧ ∃ w, Solves integrate lv (integrate q' v) w := by
    rintro q' m k hk ⟨v, hv⟩
    set d := (descend o true thr (lv.map fun l => l.at q') m.1).getD 0 with hd
    refine ⟨d, rfl, rfl, ?_, v - d, ?_⟩
    · have hv' : ∀ d ∈ lv.map (fun l => l.at q'), d.J *ᵥ v + d.e = 0 := by
        intro d hd
        obtain ⟨l, hl, rfl⟩ := List.mem_map.1 hd
        have := (hlin l hl q' v).1
        rw [hv l hl] at this
        rw [add_comm]
        exact this.symm
      have h := step_solves ho ht (ds := lv.map fun l => l.at q') (fun d hd => by
          rw [List.head?_map] at hd
          obtain ⟨l, hl, rfl⟩ := Option.map_eq_some_iff.1 hd
          exact hh l hl) hv' (k := k) (fun d hd => by
          rw [← List.map_take] at hd
          obtain ⟨l, hl, rfl⟩ := List.mem_map.1 hd
          exact hk l hl) m.1
      intro l hl
      have h' := h (l.at q') (by rw [← List.map_take]; exact List.mem_map.2 ⟨l, hl, rfl⟩)
      rw [(hlin l (List.mem_of_mem_take hl) q' d).1, add_comm]
      exact h'
    · intro l hl
      have h1 := (hlin l hl q' v).1
      rw [hv l hl] at h1
      rw [(hlin l hl _ _).1, (hlin l hl q' d).2, (hlin l hl q' d).1, mulVec_sub, h1]
      abel
  have main : ∀ k, (∀ l ∈ lv.take k, l.err (t k).1 = 0) ∧ ∃ v, Solves integrate lv (t k).1 v := by
    intro k
    induction k with
    | zero => exact ⟨by simp, hq⟩
    | succ k ih =>
      obtain ⟨v, -, h2, h3, h4⟩ := step (t k).1 (t k).2 k ih.1 ih.2
      have e : (t (k + 1)).1 = integrate (t k).1 v := h2
      rw [e]
      exact ⟨h3, h4⟩
  obtain ⟨v, h1, h2, h3, -⟩ := step (t k).1 (t k).2 k (main k).1 (main k).2
  exact ⟨(main k).1, (main k).2, v, h1, h2, h3⟩

/-- C153. Linear constraints that have a common solution, `solveLevelByLevel` and the line search Constant: at most one iteration is done per
level, and after each iteration one more level is satisfied exactly.  `SUCCESS` is returned, unless less iterations are allowed than there are
levels, or a step to the next levels is smaller than the smallest step accepted, or there are at least five levels. -/
theorem C153_solve (o : SvdOps ℝ) (ho : o.Exact) (opt : Bool) (thr dqMin : ℝ) (ht : 0 ≤ thr) (lv : List (NLevel A ℝ n))
    (hh : ∀ l, lv.head? = some l → l.m ≠ 0) (integrate : A → (Fin n → ℝ) → A) (hlin : LinearLevels integrate lv) (maxIter : Nat) (q : A)
    (hq : ∃ v, Solves integrate lv q v) (dq : Fin n → ℝ) :
    let r := solve (newtonOps o true opt thr lv (lsC opt lv integrate)) thr dqMin maxIter n q (dq, ())
    r.iter ≤ lv.length ∧ (∀ l ∈ lv.take r.iter, l.err r.arg = 0) ∧
    (r.status = some .success ∨
      (r.status = some .maxIterationReached ∧ maxIter < lv.length) ∨
      (r.status = some .infeasible ∧ ∃ v, v ⬝ᵥ v < dqMin ∧ ∀ l ∈ lv.take (r.iter + 1), l.err (integrate r.arg v) = 0) ∨
      (r.status = some .errorIncreased ∧ 5 ≤ lv.length)) := by
  intro r
  set O := newtonOps o true opt thr lv (lsC opt lv integrate) with hO
  obtain ⟨h1, h2, h3, h4, h5, h6, h7⟩ := C29_statuses O thr dqMin maxIter n q (dq, ())
  have hr : r = solve O thr dqMin maxIter n q (dq, ()) := rfl
  rw [← hr] at h1 h2 h3 h4 h5 h6 h7
  have each := C153_each o ho opt thr ht lv hh integrate hlin q hq dq
  rw [← hO] at each
  have small : ∀ k, lv.length ≤ k → ¬ thr < O.norm (traj O q (dq, ()) k).1 := by
    intro k hk h
    have hz := (each k).1
    rw [List.take_of_length_le hk] at hz
    have e : O.norm (traj O q (dq, ()) k).1 = 0 := nSqNorm_zero opt lv _ hz
    linarith
  refine ⟨?_, by rw [h1]; exact (each r.iter).1, ?_⟩
  · by_contra hc
    exact small lv.length le_rfl (h7 lv.length (by omega)).1
  · cases hst : r.status with
    | none => exact absurd hst h6
    | some st =>
      cases st with
      | success => exact Or.inl rfl
      | maxIterationReached =>
        obtain ⟨g1, g2, -⟩ := h3.1 hst
        refine Or.inr (Or.inl ⟨rfl, ?_⟩)
        by_contra hc
        exact small r.iter (by omega) g1
      | errorIncreased =>
        obtain ⟨g1, -, -, g2, -⟩ := h4.1 hst
        refine Or.inr (Or.inr (Or.inr ⟨rfl, ?_⟩))
        by_contra hc
        exact small r.iter (by omega) g1
      | infeasible =>
        refine Or.inr (Or.inr (Or.inl ⟨rfl, ?_⟩))
        obtain ⟨g1, g2⟩ := h5.1 hst
        obtain ⟨-, ⟨w, hw⟩, v, e1, -, e3⟩ := each r.iter
        rcases g2 with ⟨g2, g3⟩ | ⟨-, g3, -⟩
        · exfalso
          have hz : ∀ l ∈ lv, l.err (traj O q (dq, ()) r.iter).1 = 0 := by
            intro l hl
            have e2 := (hlin l hl (traj O q (dq, ()) r.iter).1 w).1
            have e3 : l.J (traj O q (dq, ()) r.iter).1 *ᵥ w = 0 := by
              funext i
              subst g2
              simp [mulVec, dotProduct]
            rw [hw l hl, e3, add_zero] at e2
            exact e2.symm
          have e : O.norm (traj O q (dq, ()) r.iter).1 = 0 := nSqNorm_zero opt lv _ hz
          have g1' : thr < O.norm (traj O q (dq, ()) r.iter).1 := g1
          linarith
        · refine ⟨v, ?_, ?_⟩
          · rw [e1]; exact g3
          · rw [h1]; exact e3

/-! ## Five levels -/

namespace ChainEx

def row (i : Fin 5) : Matrix (Fin 1) (Fin 5) ℝ := fun _ j => if j = i then 1 else if i ≠ 0 ∧ j = i - 1 then -1 else 0

def val (i : Fin 5) (q : Fin 5 → ℝ) : Fin 1 → ℝ := fun _ => q i - if i = 0 then 1 else q (i - 1)

/-- Level `i`: `x_0 = 1` if `i = 0`, `x_i = x_{i-1}` otherwise. -/
def lev (i : Fin 5) : NLevel (Fin 5 → ℝ) ℝ 5 where
  m := 1
  J := fun _ => row i
  err := val i
  nc := 1
  blk := fun _ => 0

def lv : List (NLevel (Fin 5 → ℝ) ℝ 5) := (List.finRange 5).map lev

/-- Configuration after `k` iterations. -/
def pt (k : Nat) : Fin 5 → ℝ := fun j => if j.val < k then 1 else 0

theorem lev_J (i : Fin 5) (v : Fin 5 → ℝ) (a : Fin 1) :
    (row i *ᵥ v) a = v i - if i = 0 then 0 else v (i - 1) := by
  show (∑ j, (if j = i then 1 else if i ≠ 0 ∧ j = i - 1 then -1 else 0 : ℝ) * v j) = _
  rw [Fin.sum_univ_five]
  fin_cases i <;> simp <;> ring

theorem linear : LinearLevels (· + ·) lv := by
  intro l hl q v
  obtain ⟨i, -, rfl⟩ := List.mem_map.1 hl
  refine ⟨?_, rfl⟩
  refine funext fun (a : Fin 1) => ?_
  show (q + v) i - (if i = 0 then 1 else (q + v) (i - 1)) = (q i - if i = 0 then 1 else q (i - 1)) + (row i *ᵥ v) a
  rw [lev_J]
  split
  · simp; ring
  · simp; ring

theorem solvable : Solves (· + ·) lv 0 (fun _ => 1) := by
  intro l hl
  obtain ⟨i, -, rfl⟩ := List.mem_map.1 hl
  funext a
  show ((0 : ℝ) + 1) - (if i = 0 then 1 else ((0 : ℝ) + 1)) = 0
  split <;> simp

theorem err_pt (i k : Fin 5) (a : Fin 1) : val i (pt k) a = if i = k then -1 else 0 := by
  show pt k i - (if i = 0 then 1 else pt k (i - 1)) = _
  unfold pt
  fin_cases i <;> fin_cases k <;> simp

theorem norm_pt (k : Fin 5) : nSqNorm false lv (pt k) = 1 := by
  have hn : ∀ i, (lev i).norms (pt k) = [if i = k then 1 else 0] := by
    intro i
    have : (lev i).norms (pt k) = [val i (pt k) 0 * val i (pt k) 0] := by
      show [∑ a : Fin 1, if (0 : Fin 1) = 0 then val i (pt k) a * val i (pt k) a else 0] = _
      simp
    rw [this]
    have e := err_pt i k 0
    rw [e]
    split <;> simp
  unfold nSqNorm lv
  rw [if_neg (by simp), List.flatMap_map]
  simp only [hn]
  fin_cases k <;> simp [List.finRange_succ]

theorem cut (k : Fin 5) : List.finRange 5 = (List.finRange 5).take k ++ k :: (List.finRange 5).drop (k + 1) := by
  revert k; decide

theorem mem_cut (k i : Fin 5) : i ∈ (List.finRange 5).take k ↔ i < k := by
  revert k i; decide

theorem pred_succ (i : Fin 4) : i.succ - 1 = i.castSucc := by revert i; decide

theorem pt_succ (k : Fin 5) : pt k + Pi.single k 1 = pt (k + 1) := by
  funext j
  unfold pt
  fin_cases k <;> fin_cases j <;> simp

theorem single_solves (i k : Fin 5) (h : i ≤ k) : ((lev i).at (pt k)).J *ᵥ (Pi.single k 1) + ((lev i).at (pt k)).e = 0 := by
  refine funext fun (a : Fin 1) => ?_
  show (row i *ᵥ (Pi.single k 1)) a + val i (pt k) a = 0
  rw [lev_J, err_pt]
  revert h
  fin_cases i <;> fin_cases k <;> simp

theorem direction {o : SvdOps ℝ} (ho : o.Exact) (hor : o.Ortho) {thr : ℝ} (h0 : 0 ≤ thr) (h1 : thr < 1) (k : Fin 5) (dq : Fin 5 → ℝ) :
    descend o true thr (lv.map fun l => l.at (pt k)) dq = some (Pi.single k 1) := by
  set D : Fin 5 → DLevel ℝ 5 := fun i => (lev i).at (pt k) with hD
  have hl : (lv.map fun l => l.at (pt k)) = ((List.finRange 5).take k).map D ++ D k :: ((List.finRange 5).drop (k + 1)).map D := by
    unfold lv
    rw [List.map_map, ← List.map_cons, ← List.map_append, ← cut k]
    rfl
  set p := ((List.finRange 5).take k).map D with hp
  have hm : ∀ i, (D i).m ≠ 0 := fun i => one_ne_zero
  have hpm : ∀ d ∈ p, d.m ≠ 0 ∧ d.e = 0 := by
    intro d hd
    obtain ⟨i, hi, rfl⟩ := List.mem_map.1 hd
    refine ⟨hm i, funext fun (a : Fin 1) => ?_⟩
    rw [mem_cut] at hi
    show val i (pt k) a = 0
    rw [err_pt, if_neg hi.ne]
  have hs : LevelLoop.AllSmall o thr true none dq p := by
    intro p' d' q' he _
    rw [lin_zero ho thr p' d' (fun d hd => (hpm d (by rw [he]; simp [List.mem_of_mem_head? hd])).1)
      (fun d hd => (hpm d (by rw [he]; simp [hd])).2) (hpm d' (by rw [he]; simp)).2]
    exact h0
  have hb : thr < linError o thr true none dq p (D k) := by
    rw [lin_sat ho thr p (D k) (fun d hd => (hpm d (List.mem_of_mem_head? hd)).1) fun d hd => (hpm d hd).2]
    have : (D k).e ⬝ᵥ (D k).e = 1 := by
      show ∑ a : Fin 1, val k (pt k) a * val k (pt k) a = 1
      have e := err_pt k k 0
      simp [e]
    rw [this]
    exact h1
  rw [hl, dir_stops o thr (hm k) p _ dq hs hb]
  obtain ⟨r, hr⟩ : ∃ r, descend o false thr (p ++ [D k]) dq = some r := by
    cases h : descend o false thr (p ++ [D k]) dq with
    | some r => exact ⟨r, rfl⟩
    | none =>
      exfalso
      cases hp' : p with
      | nil => rw [hp'] at h; simp [descend] at h
      | cons x y => rw [hp'] at h; cases y <;> simp [descend] at h
  rw [hr]
  have hv : ∀ d ∈ p ++ [D k], d.J *ᵥ (Pi.single k 1) + d.e = 0 := by
    intro d hd
    rcases List.mem_append.1 hd with hd | hd
    · obtain ⟨i, hi, rfl⟩ := List.mem_map.1 hd
      exact single_solves i k ((mem_cut k i).1 hi).le
    · obtain rfl := List.mem_singleton.1 hd
      exact single_solves k k le_rfl
  have hsol := dir_solves ho thr hv dq
  rw [hr, Option.getD_some] at hsol
  have hsol' : ∀ i ≤ k, r i - (if i = 0 then 0 else r (i - 1)) + (if i = k then -1 else 0) = 0 := by
    intro i hi
    have h := congrFun (hsol (D i) (by
      rcases hi.lt_or_eq with h | h
      · exact List.mem_append.2 (Or.inl (List.mem_map.2 ⟨i, (mem_cut k i).2 h, rfl⟩))
      · rw [h]; simp)) (0 : Fin 1)
    have h' : (row i *ᵥ r) 0 + val i (pt k) 0 = 0 := h
    rwa [lev_J, err_pt] at h'
  have hsh := (C93_shortest_partial o ho hor thr (p ++ [D k]) (Or.inr (by
    cases hp' : p with
    | nil => exact ⟨D k, [], rfl, hm k⟩
    | cons x y => exact ⟨x, y ++ [D k], rfl, (hpm x (by rw [hp']; simp)).1⟩)) dq hr (Pi.single k 1)
      (lexOpt_mem_zero _ _ _ trivial hv)).1
  have hone : (Pi.single k 1 : Fin 5 → ℝ) ⬝ᵥ Pi.single k 1 = 1 := by simp
  rw [hone] at hsh
  have hrr : r ⬝ᵥ r = r 0 ^ 2 + r 1 ^ 2 + r 2 ^ 2 + r 3 ^ 2 + r 4 ^ 2 := by
    show ∑ j, r j * r j = _
    rw [Fin.sum_univ_five]
    ring
  rw [hrr] at hsh
  have low : ∀ i ≤ k, r i = if i = k then 1 else 0 := by
    intro i
    induction i using Fin.induction with
    | zero =>
      intro hi
      have h := hsol' 0 hi
      rw [if_pos rfl] at h
      split_ifs at h ⊢ <;> linarith
    | succ i ih =>
      intro hi
      have h := hsol' i.succ hi
      have hlt : i.castSucc < k := lt_of_lt_of_le (Fin.castSucc_lt_succ) hi
      have hpred : i.succ - 1 = i.castSucc := pred_succ i
      rw [if_neg (Fin.succ_ne_zero i), hpred, ih hlt.le, if_neg hlt.ne] at h
      split_ifs at h ⊢ <;> linarith
  congr 1
  have hk1 : r k = 1 := by rw [low k le_rfl, if_pos rfl]
  have hz : ∀ j, j ≠ k → r j = 0 := by
    intro j hj
    have h2 : r k ^ 2 + r j ^ 2 ≤ r 0 ^ 2 + r 1 ^ 2 + r 2 ^ 2 + r 3 ^ 2 + r 4 ^ 2 := by
      have := Finset.sum_le_univ_sum_of_nonneg (s := {k, j}) (f := fun i => r i ^ 2) fun i => sq_nonneg _
      rwa [Finset.sum_pair hj.symm, Fin.sum_univ_five] at this
    rw [hk1] at h2
    exact pow_eq_zero_iff two_ne_zero |>.1 (le_antisymm (by linarith) (sq_nonneg _))
  funext j
  by_cases hj : j = k
  · rw [hj, hk1, Pi.single_eq_same]
  · rw [hz j hj, Pi.single_eq_of_ne hj]

end ChainEx

open ChainEx in
/-- C153. The last case happens: with the five levels `x_0 = 1`, `x_1 = x_0`, ..., `x_4 = x_3`, from 0, `ERROR_INCREASED` is returned after four
iterations, although the constraints are linear and have a common solution, each iteration satisfies one more level, and the next iteration would satisfy all of
them: the largest error of the constraints stays equal to 1. -/
theorem C153_five_refuted (o : SvdOps ℝ) (ho : o.Exact) (hor : o.Ortho) (thr dqMin : ℝ) (h0 : 0 ≤ thr) (h1 : thr < 1) (h2 : dqMin ≤ 1)
    (maxIter : Nat) (hm : 5 ≤ maxIter) (dq : Fin 5 → ℝ) :
    let r := solve (newtonOps o true false thr lv (lsC false lv (· + ·))) thr dqMin maxIter 5 0 (dq, ())
    LinearLevels (· + ·) lv ∧ (∃ v, Solves (· + ·) lv 0 v) ∧ r.status = some .errorIncreased ∧ r.iter = 4 ∧ r.arg = ![1, 1, 1, 1, 0] ∧
    Solves (· + ·) lv r.arg (![0, 0, 0, 0, 1] : Fin 5 → ℝ) := by
  intro r
  set O := newtonOps o true false thr lv (lsC false lv (· + ·)) with hO
  have hd : ∀ (k : Fin 5) (m : (Fin 5 → ℝ) × Unit), O.dir (pt k) m = ((Pi.single k 1, ()), 1) := by
    intro k m
    show (((descend o true thr (lv.map fun l => l.at (pt k)) m.1).getD 0, m.2), _ ⬝ᵥ _) = _
    rw [direction ho hor h0 h1 k m.1, Option.getD_some]
    simp
  have ht : ∀ k, k ≤ 4 → (traj O 0 (dq, ()) k).1 = pt k := by
    intro k
    induction k with
    | zero => intro _; funext j; simp [traj, pt]
    | succ k ih =>
      intro hk
      have e := ih (by omega)
      show (O.search (traj O 0 (dq, ()) k).1 (O.dir (traj O 0 (dq, ()) k).1 (traj O 0 (dq, ()) k).2).1).1 = _
      rw [e, hd ⟨k, by omega⟩]
      exact pt_succ ⟨k, by omega⟩
  have he : ∀ k, k ≤ 4 → trajErr O 0 (dq, ()) k = 1 := by
    intro k hk
    unfold trajErr
    rw [ht k hk]
    exact norm_pt ⟨k, by omega⟩
  have hs : ∀ k, k ≤ 4 → trajStep O 0 (dq, ()) k = 1 := by
    intro k hk
    unfold trajStep
    rw [ht k hk, hd ⟨k, by omega⟩]
  have sp := solve_spec O thr dqMin maxIter 5 0 (dq, ()) (by norm_num)
  have hr : r = solve O thr dqMin maxIter 5 0 (dq, ()) := rfl
  rw [← hr] at sp
  have st : ∀ k, 1 ≤ k → k ≤ 4 → stalled (trajErr O 0 (dq, ())) k = k - 1 := by
    intro k hk
    induction k, hk using Nat.le_induction with
    | base => intro _; rfl
    | succ k hk ih =>
      intro hk'
      obtain ⟨j, rfl⟩ : ∃ j, k = j + 1 := ⟨k - 1, by omega⟩
      show (if _ then 0 else stalled _ (j + 1) + 1) = _
      rw [he _ hk', he (j + 1) (by omega), if_neg (lt_irrefl _), ih (by omega)]
      omega
  have hle : r.iter ≤ 4 := by
    by_contra hc
    have := (sp.before 4 (by omega)).2.2
    rw [st 4 (by omega) le_rfl] at this
    omega
  have hthr : thr < trajErr O 0 (dq, ()) r.iter := by rw [he _ hle]; exact h1
  have hst : r.status = some .errorIncreased := by
    cases h : r.status with
    | none => exact absurd h sp.defined
    | some x =>
      cases x with
      | errorIncreased => rfl
      | success => exact absurd (sp.success.1 h) (not_le.2 hthr)
      | maxIterationReached => have := (sp.maxIt.1 h).2; omega
      | infeasible =>
        have := (sp.infeasible.1 h).2.2.2
        rw [hs _ hle] at this
        exact absurd h2 (not_le.2 this)
  have hit : r.iter = 4 := by
    have g := (sp.increased.1 hst).2.2
    rcases Nat.eq_zero_or_pos r.iter with h | h
    · rw [h] at g
      exact absurd g (by show ¬ (0 = 3); decide)
    · rw [st _ h hle] at g
      omega
  have harg : r.arg = ![1, 1, 1, 1, 0] := by
    rw [sp.arg, hit, ht 4 le_rfl]
    funext j
    fin_cases j <;> simp [pt]
  refine ⟨linear, ⟨_, solvable⟩, hst, hit, harg, ?_⟩
  rw [harg]
  intro l hl
  obtain ⟨i, -, rfl⟩ := List.mem_map.1 hl
  refine funext fun (a : Fin 1) => ?_
  show (![1, 1, 1, 1, 0] + ![0, 0, 0, 0, 1] : Fin 5 → ℝ) i -
    (if i = 0 then 1 else (![1, 1, 1, 1, 0] + ![0, 0, 0, 0, 1] : Fin 5 → ℝ) (i - 1)) = 0
  fin_cases i <;> simp

open ChainEx in
/-- The hypotheses of `C153_solve` are met by the four first levels: no `ERROR_INCREASED`. -/
example (o : SvdOps ℝ) (ho : o.Exact) (thr dqMin : ℝ) (ht : 0 ≤ thr) (dq : Fin 5 → ℝ) :
    (solve (newtonOps o true false thr (lv.take 4) (lsC false (lv.take 4) (· + ·))) thr dqMin 40 5 0 (dq, ())).status ≠ some .errorIncreased := by
  obtain ⟨-, -, h⟩ := C153_solve o ho false thr dqMin ht (lv.take 4) (fun l hl => by
    obtain rfl : lev 0 = l := by simpa [lv, List.finRange_succ] using hl
    exact one_ne_zero) (· + ·) (fun l hl => linear l (List.mem_of_mem_take hl)) 40 0
    ⟨_, fun l hl => solvable l (List.mem_of_mem_take hl)⟩ dq
  intro he
  rw [he] at h
  simp [lv] at h

end Hpp
