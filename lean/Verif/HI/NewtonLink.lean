import Verif.HI.JacobianProps
import Verif.Solve.LocalProps
import Verif.Solve.LocalSat

/-!
# The iterations of a solver built by `add`

Sources: `/repo/include/hpp/constraints/solver/impl/hierarchical-iterative.hh`, lines 128-181 and
`/repo/src/solver/hierarchical-iterative.cc`, lines 623-646, 694-719 and 744-828.

`Solve/Newton.lean` describes the iterations for levels given by an error and a Jacobian, all the rows of which are
solved for.  Here the error, the Jacobian and the selection of the rows are those that the solver computes
for the constraints that have been inserted.
-/

namespace Hpp

open Matrix

variable {κ A S : Type}

/-- Index of the free variable number `j` (`freeVariables_`, hierarchical-iterative.cc:825-828). -/
def hiFree (s : HI ℝ κ) (j : Fin (indices s.free.segs).length) : Nat := (indices s.free.segs).getD j 0

/-- `integrate` on a vector space of dimension `nq`, for a velocity of the free variables (hierarchical-iterative.cc:721-733
without saturation, 825-828). -/
noncomputable def hiMove (s : HI ℝ κ) {nq : Nat} (q : Fin nq → ℝ) (v : Fin (indices s.free.segs).length → ℝ) :
    Fin nq → ℝ := fun i => q i + expand (hiFree s) v (fun _ => 0) i

/-- `d.reducedJ` after `computeValue<true>(q)` (hierarchical-iterative.cc:623-646).  `J0` is what `d.jacobian` held before. -/
noncomputable def HI.dJ (s : HI ℝ κ) (D : Space ℝ → List ℝ → List ℝ → Nat → Nat → ℝ) (J0 : Jac ℝ) (q : Nat → ℝ)
    (l : Level ℝ κ) : Matrix (Fin (indices l.rows.segs).length) (Fin (indices s.free.segs).length) ℝ := fun r c =>
  ((l.evalJac D s.ineqThr s.free.segs q J0).map fun E => E.redJ r c).getD 0

/-- `d.activeRowsOfJ.keepRows().rview(d.error)` after `computeValue<true>(q)` (hierarchical-iterative.cc:623-646 and
754-790). -/
noncomputable def HI.dErr (s : HI ℝ κ) (D : Space ℝ → List ℝ → List ℝ → Nat → Nat → ℝ) (J0 : Jac ℝ) (q : Nat → ℝ)
    (l : Level ℝ κ) : Fin (indices l.rows.segs).length → ℝ := fun r =>
  ((l.evalJac D s.ineqThr s.free.segs q J0).map fun E => E.error.getD ((indices l.rows.segs).getD r 0) 0).getD 0

/-- What `computeDescentDirection` reads of a level (hierarchical-iterative.cc:744-823). -/
noncomputable def HI.dLevel (s : HI ℝ κ) (D : Space ℝ → List ℝ → List ℝ → Nat → Nat → ℝ) (J0 : Jac ℝ) (q : Nat → ℝ)
    (l : Level ℝ κ) : DLevel ℝ (indices s.free.segs).length := ⟨_, s.dJ D J0 q l, s.dErr D J0 q l⟩

/-- The steps of `solve` (impl/hierarchical-iterative.hh:142-171) for the levels of the solver.  `conf` gives the
coordinates of a configuration; `computeSaturation` returns without saturation.  `J0` gives the contents of the matrices
`d.jacobian` before they are written to: they depend on the previous iterations, here on the configuration. -/
noncomputable def HI.ops (s : HI ℝ κ) (D : Space ℝ → List ℝ → List ℝ → Nat → Nat → ℝ) (o : SvdOps ℝ)
    (J0 : A → Jac ℝ) (conf : A → Nat → ℝ)
    (ls : S → A → (Fin (indices s.free.segs).length → ℝ) → S × LsOut A (Fin (indices s.free.segs).length → ℝ)) :
    Ops A ((Fin (indices s.free.segs).length → ℝ) × S) ℝ where
  norm q := (s.sqNorm (conf q)).getD 0
  dir q m :=
    let d := (descend o s.byLevel s.sqThr (s.levels.map (s.dLevel D (J0 q) (conf q))) m.1).getD 0
    ((d, m.2), d ⬝ᵥ d)
  search q m :=
    let r := ls m.2 q m.1
    (r.2.arg, (m.1, r.1))

/-- Number of the block that contains a row. -/
def blockOf : List Nat → Nat → Nat
  | [], _ => 0
  | n :: l, r => if r < n then 0 else blockOf l (r - n) + 1

theorem blockOf_le (l : List Nat) (r : Nat) : blockOf l r < l.length + 1 := by
  induction l generalizing r with
  | nil => simp [blockOf]
  | cons n l ih =>
    unfold blockOf
    split
    · simp
    · have := ih (r - n); simp only [List.length_cons]; omega

/-- A level of the solver as in `Solve/Newton.lean`.  The last block is empty. -/
noncomputable def HI.nLevel (s : HI ℝ κ) (D : Space ℝ → List ℝ → List ℝ → Nat → Nat → ℝ) (conf : A → Nat → ℝ)
    (l : Level ℝ κ) : NLevel A ℝ (indices s.free.segs).length where
  m := (indices l.rows.segs).length
  J q := s.dJ D (fun _ _ => 0) (conf q) l
  err q := s.dErr D (fun _ _ => 0) (conf q) l
  nc := (l.stack.cs.map (·.fn.space.nv)).length + 1
  blk r := ⟨blockOf (l.stack.cs.map (·.fn.space.nv)) ((indices l.rows.segs).getD r 0), blockOf_le _ _⟩

/-- Specification: each row of the mask of a constraint depends on a free variable, and rows out of the mask are not
inequalities with a positive threshold: the rows that are not solved for have no error. -/
def HI.Kept (s : HI ℝ κ) (h : List (Impl ℝ κ × Nat)) : Prop :=
  ∀ e ∈ h, (∀ r : Nat, e.1.mask[r]? = some true → dependsOnFree s.free.segs e.1 = true) ∧
    ∀ (r : Nat) (t : Comp), e.1.mask[r]? = some false → e.1.comp[r]? = some t →
      t = .superior ∨ t = .inferior → s.ineqThr ≤ 0

/-! ## The error -/

theorem block_sum (L : List (List ℝ)) (k : Nat) :
    ∑ ρ ∈ Finset.range L.flatten.length,
      (if blockOf (L.map List.length) ρ = k then L.flatten.getD ρ 0 * L.flatten.getD ρ 0 else 0) =
    sqSum ((L[k]?).getD []) := by
  induction L generalizing k with
  | nil => simp [sqSum]
  | cons a L ih =>
    rw [List.flatten_cons, List.length_append, Finset.sum_range_add]
    have h1 : ∀ ρ ∈ Finset.range a.length,
        (if blockOf ((a :: L).map List.length) ρ = k then (a ++ L.flatten).getD ρ 0 * (a ++ L.flatten).getD ρ 0 else 0) =
        if 0 = k then a.getD ρ 0 * a.getD ρ 0 else 0 := by
      intro ρ hρ
      have hρ' := Finset.mem_range.1 hρ
      rw [List.map_cons, blockOf, if_pos hρ', List.getD_eq_getElem?_getD, List.getElem?_append_left hρ',
        ← List.getD_eq_getElem?_getD]
    have h2 : ∀ ρ ∈ Finset.range L.flatten.length,
        (if blockOf ((a :: L).map List.length) (a.length + ρ) = k then
          (a ++ L.flatten).getD (a.length + ρ) 0 * (a ++ L.flatten).getD (a.length + ρ) 0 else 0) =
        if blockOf (L.map List.length) ρ + 1 = k then L.flatten.getD ρ 0 * L.flatten.getD ρ 0 else 0 := by
      intro ρ _
      have hb : blockOf ((a :: L).map List.length) (a.length + ρ) = blockOf (L.map List.length) ρ + 1 := by
        show (if a.length + ρ < a.length then 0 else blockOf (L.map List.length) (a.length + ρ - a.length) + 1) = _
        rw [if_neg (by omega), Nat.add_sub_cancel_left]
      rw [hb, List.getD_eq_getElem?_getD,
        List.getElem?_append_right (by omega), Nat.add_sub_cancel_left, ← List.getD_eq_getElem?_getD]
    rw [Finset.sum_congr rfl h1, Finset.sum_congr rfl h2]
    cases k with
    | zero => simp [sqSum_eq_range]
    | succ k =>
      simp only [Nat.add_right_cancel_iff, List.getElem?_cons_succ]
      rw [ih k]
      simp

theorem finRange_blocks (L : List (List ℝ)) (N : Nat) (hN : N = L.length + 1) :
    (List.finRange N).map (fun k => sqSum ((L[k.1]?).getD [])) = L.map sqSum ++ [0] := by
  subst hN
  apply List.ext_getElem
  · simp
  · intro k h1 h2
    rw [List.getElem_map, List.getElem_finRange]
    by_cases hk : k < L.length
    · rw [List.getElem_append_left (by simpa using hk), List.getElem_map]
      simp [hk]
    · rw [List.getElem_append_right (by simpa using hk)]
      simp [List.getElem?_eq_none (not_lt.1 hk), sqSum]

theorem foldl_max_blocks {β : Type} (f : β → ℝ) (LL : List (List β)) (m : ℝ) (hm : 0 ≤ m) :
    (LL.flatMap fun cs => cs.map f ++ [0]).foldl max m = LL.flatten.foldl (fun m c => max m (f c)) m := by
  induction LL generalizing m with
  | nil => rfl
  | cons cs LL ih =>
    rw [List.flatMap_cons, List.flatten_cons, List.foldl_append, List.foldl_append, List.foldl_append,
      List.foldl_map]
    have h0 : 0 ≤ cs.foldl (fun m c => max m (f c)) m := le_trans hm (foldl_max_spec f cs m).1
    rw [List.foldl_cons, List.foldl_nil, max_eq_left h0]
    exact ih _ h0

theorem map_by_index {β γ : Type} (l : List β) (F : β → γ) (G : Nat → γ)
    (h : ∀ (i : Nat) (x : β), l[i]? = some x → F x = G i) : l.map F = (List.range l.length).map G := by
  apply List.ext_getElem?
  intro i
  rw [List.getElem?_map, List.getElem?_map]
  by_cases hi : i < l.length
  · rw [List.getElem?_range hi, List.getElem?_eq_getElem hi]
    exact congrArg some (h i _ (List.getElem?_eq_getElem hi))
  · rw [List.getElem?_eq_none (by simpa using hi), List.getElem?_eq_none (by simpa using hi)]; rfl

section
variable [DecidableEq κ] {El : Fn ℝ κ → List ℝ → Prop}
  {D : Space ℝ → List ℝ → List ℝ → Nat → Nat → ℝ}
  {h : List (Impl ℝ κ × Nat)} {s : HI ℝ κ} {nv : Nat} {R : κ → List ℝ}

theorem rows_lt (hb : HI.Built El nv h s)
    (hl : ∀ e ∈ h, e.1.fn.space.Lawful (El e.1.fn)) (hv : ∀ e ∈ h, ∀ q, El e.1.fn (e.1.fn.value q))
    {i : Nat} {l : Level ℝ κ} (hi : s.levels[i]? = some l) :
    ∀ ρ ∈ indices l.rows.segs, ρ < ((atLevel h i).map (·.fn.space.nv)).sum := by
  intro ρ hρ
  obtain ⟨hs, hf, -⟩ := hb.inv hl hv
  have hcov := ((C23_active_rows hb hl hv i l hi).1 ρ).1 ((mem_indices _ _).1 hρ)
  have := lt_of_getElem?_some hcov
  unfold rowMask at this
  rwa [flatMap_length_sum _ _ (·.fn.space.nv)] at this
  intro c hc
  obtain ⟨_, _, _, hcb⟩ := hf.built _ (mem_atLevel.1 hc)
  have := hcb.ok.1.mask_len
  split <;> simp [this]

/-- Rows that are not solved for have no error. -/
theorem left_out_zero (hb : HI.Built El nv h s)
    (hl : ∀ e ∈ h, e.1.fn.space.Lawful (El e.1.fn)) (hv : ∀ e ∈ h, ∀ q, El e.1.fn (e.1.fn.value q))
    (hs : HI.Inv h s) (hf : FnsOk El h) (hR : HI.RhsIs El h s R) (hk : s.Kept h)
    {i : Nat} {l : Level ℝ κ} (hi : s.levels[i]? = some l) (q : Nat → ℝ) (ρ : Nat)
    (hρ : ρ < ((atLevel h i).map (·.fn.space.nv)).sum) (hn : ρ ∉ indices l.rows.segs) :
    ((atLevel h i).flatMap fun c => conError s.ineqThr q c (R c.fn.key)).getD ρ 0 = 0 := by
  obtain ⟨pre, c, post, r, hsplit, rfl, hr⟩ := row_split _ _ hρ
  have hmem : c ∈ atLevel h i := by rw [hsplit]; simp
  have hpre : ∀ y ∈ pre, y ∈ atLevel h i := fun y hy => by rw [hsplit]; simp [hy]
  have hlens : ∀ c ∈ atLevel h i, (c.fn.space.sub (c.fn.value q) (R c.fn.key)).length = c.fn.space.nv ∧
      c.mask.length = c.fn.space.nv ∧ c.comp.length = c.fn.space.nv ∧
      (maskBy c.mask (c.fn.space.sub (c.fn.value q) (R c.fn.key))).length = c.fn.space.nv ∧
      (conError s.ineqThr q c (R c.fn.key)).length = c.fn.space.nv := fun c hc =>
    conSub_length hf (mem_atLevel.1 hc) (hR.el _ (mem_atLevel.1 hc)) q s.ineqThr
  obtain ⟨h1, h2, h3, h4, h5⟩ := hlens c hmem
  have ht : c.comp[r]? = some (c.comp[r]'(by omega)) := List.getElem?_eq_getElem _
  have hbm : c.mask[r]? = some (c.mask[r]'(by omega)) := List.getElem?_eq_getElem _
  generalize c.comp[r]'(by omega) = t at ht
  generalize c.mask[r]'(by omega) = b at hbm
  have hm : (rowMask s.free.segs (atLevel h i))[(pre.map (·.fn.space.nv)).sum + r]? =
      some (if dependsOnFree s.free.segs c then b else false) := by
    unfold rowMask
    rw [hsplit, flatMap_getElem?_mid _ _ _ _ (fun c : Impl ℝ κ => c.fn.space.nv)]
    · by_cases hd : dependsOnFree s.free.segs c = true
      · rw [if_pos hd, if_pos hd, hbm]
      · rw [if_neg hd, if_neg hd, List.getElem?_replicate, if_pos (by omega)]
    · intro y hy
      have := (hlens y (hpre y hy)).2.1
      split <;> simp [this]
    · split
      · omega
      · rw [List.length_replicate]; omega
  have hcov : (rowMask s.free.segs (atLevel h i))[(pre.map (·.fn.space.nv)).sum + r]? ≠ some true := fun hcov =>
    hn ((mem_indices _ _).2 (((C23_active_rows hb hl hv i l hi).1 _).2 hcov))
  have hk' := hk _ (mem_atLevel.1 hmem)
  have hbf : b = false := by
    cases b with
    | false => rfl
    | true => rw [hm, if_pos (hk'.1 r hbm)] at hcov; exact absurd rfl hcov
  subst hbf
  rw [hsplit, List.getD_eq_getElem?_getD,
    flatMap_getElem?_mid _ _ _ _ (·.fn.space.nv) (fun y hy => (hlens y (hpre y hy)).2.2.2.2) _
      (by rw [h5]; exact hr)]
  unfold conError maskBy
  rw [List.getElem?_zipWith, ht, List.getElem?_zipWith, hbm, List.getElem?_eq_getElem (by omega)]
  show comparedError t s.ineqThr 0 = 0
  cases t with
  | equalToZero => rfl
  | equality => rfl
  | superior =>
    have := hk'.2 r _ hbm ht (.inl rfl)
    rw [comparedError_eq_min, min_eq_right (by linarith)]
  | inferior =>
    have := hk'.2 r _ hbm ht (.inr rfl)
    rw [comparedError_eq_max, max_eq_right (by linarith)]

theorem nLevel_norms (hb : HI.Built El nv h s)
    (hl : ∀ e ∈ h, e.1.fn.space.Lawful (El e.1.fn)) (hv : ∀ e ∈ h, ∀ q, El e.1.fn (e.1.fn.value q))
    (hs : HI.Inv h s) (hf : FnsOk El h) (hR : HI.RhsIs El h s R) (hk : s.Kept h) (conf : A → Nat → ℝ)
    {i : Nat} {l : Level ℝ κ} (hi : s.levels[i]? = some l) (q : A) :
    (s.nLevel D conf l).norms q =
      (atLevel h i).map (fun c => sqSum (conError s.ineqThr (conf q) c (R c.fn.key))) ++ [0] := by
  obtain ⟨E, hE, -, -, -, hEe, -, -⟩ := level_evalJac hs hf hR hi D s.ineqThr s.free.segs (conf q) fun _ _ => 0
  have hrows := C23_active_rows hb hl hv i l hi
  have hcs : l.stack.cs = atLevel h i := (hs.level i l hi).stack.cs_eq
  set L : List (List ℝ) := (atLevel h i).map fun c => conError s.ineqThr (conf q) c (R c.fn.key) with hL
  have hsz : l.stack.cs.map (·.fn.space.nv) = L.map List.length := by
    rw [hcs, hL, List.map_map]
    exact List.map_congr_left fun c hc =>
      (conSub_length hf (mem_atLevel.1 hc) (hR.el _ (mem_atLevel.1 hc)) (conf q) s.ineqThr).2.2.2.2.symm
  have hfl : E.error = L.flatten := by rw [hEe, hL, List.flatMap_def]
  have hlen : L.flatten.length = ((atLevel h i).map (·.fn.space.nv)).sum := by
    rw [List.length_flatten, ← hsz, hcs]
  have herr : ∀ r, (s.nLevel D conf l).err q r = L.flatten.getD ((indices l.rows.segs).getD r 0) 0 := by
    intro r
    show ((l.evalJac D s.ineqThr s.free.segs (conf q) fun _ _ => 0).map fun E =>
      E.error.getD ((indices l.rows.segs).getD r 0) 0).getD 0 = _
    rw [hE, Option.map_some, Option.getD_some, hfl]
  have hkey : ∀ k : Fin (s.nLevel D conf l).nc, (∑ r, if (s.nLevel D conf l).blk r = k then
      (s.nLevel D conf l).err q r * (s.nLevel D conf l).err q r else 0) = sqSum ((L[k.1]?).getD []) := by
    intro k
    rw [← block_sum L k.1, hlen, ← sum_over_indices (indices l.rows.segs) hrows.2.1.disjoint.indices_nodup _
      (rows_lt hb hl hv hi)
      (fun ρ => if blockOf (L.map List.length) ρ = k.1 then L.flatten.getD ρ 0 * L.flatten.getD ρ 0 else 0)]
    · rw [Finset.sum_range]
      refine Finset.sum_congr rfl fun r _ => ?_
      rw [herr]
      have : (s.nLevel D conf l).blk r = k ↔
          blockOf (L.map List.length) ((indices l.rows.segs).getD r 0) = k.1 := by
        rw [← hsz, Fin.ext_iff]; rfl
      by_cases hc : (s.nLevel D conf l).blk r = k
      · rw [if_pos hc, if_pos (this.1 hc)]
      · rw [if_neg hc, if_neg fun h => hc (this.2 h)]
    · intro ρ hρ hn
      have := left_out_zero hb hl hv hs hf hR hk hi (conf q) ρ hρ hn
      rw [List.flatMap_def] at this
      rw [hL, this]
      simp
  unfold NLevel.norms
  simp only [hkey]
  have hnc : (s.nLevel D conf l).nc = L.length + 1 := by
    show (l.stack.cs.map (·.fn.space.nv)).length + 1 = _
    rw [hsz, List.length_map]
  have hmm : (atLevel h i).map (fun c => sqSum (conError s.ineqThr (conf q) c (R c.fn.key))) = L.map sqSum := by
    rw [hL, List.map_map]; rfl
  rw [hmm]
  exact finRange_blocks L _ hnc

/-- The error of the solver is the one of `Solve/Newton.lean`. -/
theorem nSqNorm_levels (hb : HI.Built El nv h s)
    (hl : ∀ e ∈ h, e.1.fn.space.Lawful (El e.1.fn)) (hv : ∀ e ∈ h, ∀ q, El e.1.fn (e.1.fn.value q))
    (hk : s.Kept h) (hne : s.lastIsOptional = true → s.levels ≠ []) (conf : A → Nat → ℝ) (q : A) :
    s.sqNorm (conf q) = some (nSqNorm s.lastIsOptional (s.levels.map (s.nLevel D conf)) q) := by
  obtain ⟨hs, hf, R, hR⟩ := hb.inv hl hv
  rw [solver_sqNorm_eq hs hf hR hne]
  congr 1
  unfold nSqNorm
  have h1 : (s.levels.map (s.nLevel D conf)).map (fun l => l.norms q) = (List.range s.levels.length).map fun i =>
      (atLevel h i).map (fun c => sqSum (conError s.ineqThr (conf q) c (R c.fn.key))) ++ [0] := by
    rw [List.map_map]
    exact map_by_index _ _ _ fun i l hi => nLevel_norms hb hl hv hs hf hR hk conf hi q
  have h2 : (if s.lastIsOptional then (s.levels.map (s.nLevel D conf)).dropLast else s.levels.map (s.nLevel D conf)).flatMap
      (fun l => l.norms q) = ((List.range s.nMandatory).map (atLevel h)).flatMap fun cs =>
      cs.map (fun c => sqSum (conError s.ineqThr (conf q) c (R c.fn.key))) ++ [0] := by
    unfold HI.nMandatory
    cases hlo : s.lastIsOptional with
    | false =>
      simp only [Bool.false_eq_true, if_false]
      rw [List.flatMap_def, h1, List.flatMap_def, List.map_map]
      rfl
    | true =>
      simp only [if_true]
      rw [List.flatMap_def, List.map_dropLast, h1, List.flatMap_def, List.map_map, ← List.map_dropLast]
      congr 2
      rw [List.dropLast_eq_take, List.length_range, List.take_range]
      congr 1
      omega
  rw [h2, foldl_max_blocks _ _ _ (le_refl 0), List.flatMap_def]

theorem dLevel_any (hb : HI.Built El nv h s)
    (hl : ∀ e ∈ h, e.1.fn.space.Lawful (El e.1.fn)) (hv : ∀ e ∈ h, ∀ q, El e.1.fn (e.1.fn.value q))
    {i : Nat} {l : Level ℝ κ} (hi : s.levels[i]? = some l) (J0 : Jac ℝ) (q : Nat → ℝ) :
    s.dLevel D J0 q l = s.dLevel D (fun _ _ => 0) q l := by
  obtain ⟨hs, hf, R, hR⟩ := hb.inv hl hv
  obtain ⟨E, hE, -, -, -, he, hr, hJ⟩ := level_evalJac hs hf hR hi D s.ineqThr s.free.segs q J0
  obtain ⟨E', hE', -, -, -, he', hr', hJ'⟩ := level_evalJac hs hf hR hi D s.ineqThr s.free.segs q fun _ _ => 0
  unfold HI.dLevel HI.dJ HI.dErr
  simp only [hE, hE', Option.map_some, Option.getD_some, he, he', hr, hr']
  congr 1
  funext r c
  have hm : (indices l.rows.segs).getD r 0 ∈ indices l.rows.segs := by
    rw [List.getD_eq_getElem?_getD, List.getElem?_eq_getElem r.2, Option.getD_some]
    exact List.getElem_mem r.2
  obtain ⟨pre, c', post, r', hsplit, hρ, hr'⟩ := row_split _ _ (rows_lt hb hl hv hi _ hm)
  have hmem : c' ∈ atLevel h i := by rw [hsplit]; simp
  obtain ⟨h1, h2, h3, -⟩ : (c'.fn.space.sub (c'.fn.value q) (R c'.fn.key)).length = c'.fn.space.nv ∧
      c'.mask.length = c'.fn.space.nv ∧ c'.comp.length = c'.fn.space.nv ∧ _ :=
    conSub_length hf (mem_atLevel.1 hmem) (hR.el _ (mem_atLevel.1 hmem)) q s.ineqThr
  rw [hρ, hJ pre c' post hsplit r' hr' _ _ _ (List.getElem?_eq_getElem (by omega))
      (List.getElem?_eq_getElem (by omega)) (List.getElem?_eq_getElem (by omega)),
    hJ' pre c' post hsplit r' hr' _ _ _ (List.getElem?_eq_getElem (by omega))
      (List.getElem?_eq_getElem (by omega)) (List.getElem?_eq_getElem (by omega))]

/-- C114. The steps of the solver are those of `Solve/Newton.lean`, whatever the matrices of the levels held. -/
theorem C114_same_steps (hb : HI.Built El nv h s)
    (hl : ∀ e ∈ h, e.1.fn.space.Lawful (El e.1.fn)) (hv : ∀ e ∈ h, ∀ q, El e.1.fn (e.1.fn.value q))
    (hk : s.Kept h) (hne : s.lastIsOptional = true → s.levels ≠ []) (o : SvdOps ℝ) (J0 : A → Jac ℝ) (conf : A → Nat → ℝ)
    (ls : S → A → (Fin (indices s.free.segs).length → ℝ) → S × LsOut A (Fin (indices s.free.segs).length → ℝ)) :
    s.ops D o J0 conf ls =
      newtonOps o s.byLevel s.lastIsOptional s.sqThr (s.levels.map (s.nLevel D conf)) ls := by
  unfold HI.ops newtonOps
  congr 1
  · funext q
    rw [nSqNorm_levels (D := D) hb hl hv hk hne conf q]; rfl
  · funext q m
    have : s.levels.map (s.dLevel D (J0 q) (conf q)) = (s.levels.map (s.nLevel D conf)).map fun l => l.at q := by
      rw [List.map_map]
      apply List.map_congr_left
      intro l hl'
      obtain ⟨i, hi⟩ := List.getElem?_of_mem hl'
      exact dLevel_any hb hl hv hi (J0 q) (conf q)
    rw [this]

end

end Hpp
