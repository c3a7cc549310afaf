import Verif.BySub.NewtonEcs
import Verif.BySub.ErrorDeriv
import Verif.BySub.Props
import Verif.HI.NewtonLinkProps

/-!
# The iterations of a solver by substitution built by `add`

Sources: `/repo/include/hpp/constraints/solver/impl/by-substitution.hh`, lines 38-167,
`/repo/src/solver/by-substitution.cc`, lines 166-256, and
`/repo/src/solver/hierarchical-iterative.cc`, lines 623-646 and 744-828.

`BySub/NewtonEcs.lean` describes the iterations for levels given by an error and a Jacobian.  Here the error, the reduced
Jacobian and the rows are those that the solver computes for the constraints that have been inserted.
-/

namespace Hpp

open Matrix

variable {κ S : Type}

/-- `d.jacobian` after `computeValue<true>(q)` (hierarchical-iterative.cc:623-646).  `J0` is what it held before. -/
noncomputable def BS.lJac (s : BS ℝ κ) (D : Space ℝ → List ℝ → List ℝ → Nat → Nat → ℝ) (J0 : Jac ℝ) (q : Nat → ℝ)
    (l : Level ℝ κ) : Jac ℝ := fun r c =>
  ((l.evalJac D s.hi.ineqThr s.hi.free.segs q J0).map fun E => E.jac r c).getD 0

/-- `d.error` after `computeValue<true>(q)` (hierarchical-iterative.cc:623-646). -/
noncomputable def BS.lErr (s : BS ℝ κ) (D : Space ℝ → List ℝ → List ℝ → Nat → Nat → ℝ) (J0 : Jac ℝ) (q : Nat → ℝ)
    (l : Level ℝ κ) : Nat → ℝ := fun r =>
  ((l.evalJac D s.hi.ineqThr s.hi.free.segs q J0).map fun E => E.error.getD r 0).getD 0

/-- `d.reducedJ` after `updateJacobian(q)` (by-substitution.cc:166-204). -/
noncomputable def BS.dJ (s : BS ℝ κ) (D : Space ℝ → List ℝ → List ℝ → Nat → Nat → ℝ) (J0 : Jac ℝ) (q : Nat → ℝ)
    (l : Level ℝ κ) : Matrix (Fin (indices (s.rows l).segs).length) (Fin (indices s.hi.free.segs).length) ℝ := fun r c =>
  (s.updateJ q (s.rows l).segs (s.lJac D J0 q l)
    (s.reducedJ0 (s.rows l).segs (s.lJac D J0 q l))).getD (fun _ _ => 0) r c

/-- The rows `d.activeRowsOfJ` (by-substitution.cc:206-256) of `d.error`. -/
noncomputable def BS.dErr (s : BS ℝ κ) (D : Space ℝ → List ℝ → List ℝ → Nat → Nat → ℝ) (J0 : Jac ℝ) (q : Nat → ℝ)
    (l : Level ℝ κ) : Fin (indices (s.rows l).segs).length → ℝ := fun r =>
  s.lErr D J0 q l ((indices (s.rows l).segs).getD r 0)

/-- What `computeDescentDirection` reads of a level (hierarchical-iterative.cc:744-823). -/
noncomputable def BS.dLevel (s : BS ℝ κ) (D : Space ℝ → List ℝ → List ℝ → Nat → Nat → ℝ) (J0 : Jac ℝ) (q : Nat → ℝ)
    (l : Level ℝ κ) : DLevel ℝ (indices s.hi.free.segs).length :=
  ⟨(indices (s.rows l).segs).length, s.dJ D J0 q l, s.dErr D J0 q l⟩

/-- The steps of `solve` (impl/by-substitution.hh:38-167) for the levels of the solver, on a vector space.
`computeSaturation` returns without saturation and the explicit constraints are defined everywhere.  `J0` gives the contents of
the matrices `d.jacobian` before they are written to. -/
noncomputable def BS.ops (s : BS ℝ κ) (D : Space ℝ → List ℝ → List ℝ → Nat → Nat → ℝ) (o : SvdOps ℝ)
    (J0 : (Nat → ℝ) → Jac ℝ)
    (ls : S → (Nat → ℝ) → (Fin (indices s.hi.free.segs).length → ℝ) →
      (S × LsOut (Nat → ℝ) (Fin (indices s.hi.free.segs).length → ℝ)) × Bool) :
    BsOps (Nat → ℝ) ((Fin (indices s.hi.free.segs).length → ℝ) × (Fin (indices s.hi.free.segs).length → ℝ) × S) ℝ where
  expl q := (s.ex.solve q, true)
  norm q := (s.hi.sqNorm q).getD 0
  cost q := match s.hi.levels.getLast? with
    | some l => sqSum ((l.error s.hi.ineqThr q).getD [])
    | none => 0
  dir q m :=
    let d := (descend o s.hi.byLevel s.hi.sqThr (s.hi.levels.map (s.dLevel D (J0 q) q)) m.1).getD 0
    (d, d, m.2.2)
  scale c m := (m.1, c • m.2.1, m.2.2)
  unscale c m := (m.1, c⁻¹ • m.2.1, m.2.2)
  dqNorm m := m.2.1 ⬝ᵥ m.2.1
  search q m :=
    let r := ls m.2.2 q m.2.1
    (r.1.2.arg, (m.1, r.1.2.step, r.1.1), r.2)

/-- A level of the solver as in `BySub/NewtonEcs.lean`.  The last block is empty. -/
noncomputable def BS.nLevel (s : BS ℝ κ) (D : Space ℝ → List ℝ → List ℝ → Nat → Nat → ℝ) (l : Level ℝ κ) :
    NLevel (Nat → ℝ) ℝ (indices s.hi.free.segs).length :=
  bsLevel s (s.rows l).segs (fun q => s.lErr D (fun _ _ => 0) q l) (fun q => s.lJac D (fun _ _ => 0) q l)
    ((l.stack.cs.map (·.fn.space.nv)).length + 1) fun r =>
      ⟨blockOf (l.stack.cs.map (·.fn.space.nv)) ((indices (s.rows l).segs).getD r 0), blockOf_le _ _⟩

/-- Specification: each row of the mask of an implicit constraint is kept, and rows out of the mask are not
inequalities with a positive threshold: the rows that are not solved for have no error. -/
def BS.Kept (s : BS ℝ κ) (h : BHist ℝ κ) : Prop :=
  ∀ e ∈ implOf h, (∀ r : Nat, e.1.mask[r]? = some true → s.rowActive e.1 = true) ∧
    ∀ (r : Nat) (t : Comp), e.1.mask[r]? = some false → e.1.comp[r]? = some t →
      t = .superior ∨ t = .inferior → s.hi.ineqThr ≤ 0

section
variable [DecidableEq κ] {El : Space ℝ → List ℝ → Prop}
  {D : Space ℝ → List ℝ → List ℝ → Nat → Nat → ℝ}
  {h : BHist ℝ κ} {s : BS ℝ κ} {nq nv : Nat} {R : κ → List ℝ}

theorem bs_rows (hb : BS.Built El nq nv h s) (hl : BHist.Lawful El h)
    {i : Nat} {l : Level ℝ κ} (hi : s.hi.levels[i]? = some l) :
    (∀ ρ, ρ ∈ indices (s.rows l).segs ↔ (rowMaskBy s.rowActive (atLevel (implOf h) i))[ρ]? = some true) ∧
    (indices (s.rows l).segs).Nodup ∧
    (s.rows l).nb = (rowMaskBy s.rowActive (atLevel (implOf h) i)).count true ∧
    (rowMaskBy s.rowActive (atLevel (implOf h) i)).length = ((atLevel (implOf h) i).map (·.fn.space.nv)).sum := by
  obtain ⟨h1, -⟩ := hb.parts
  obtain ⟨l1, l2⟩ := hl.impl
  obtain ⟨hin, hf, -⟩ := h1.inv l1 l2
  have hcs : l.stack.cs = atLevel (implOf h) i := (hin.level i l hi).stack.cs_eq
  have hok : ∀ c ∈ atLevel (implOf h) i, c.Ok := fun c hc => by
    obtain ⟨_, _, _, hcb⟩ := hf.built _ (mem_atLevel.1 hc)
    exact hcb.ok.1
  obtain ⟨k1, k2, k3⟩ := BS.rows_spec s l (by rw [hcs]; exact hok)
  rw [hcs] at k1 k3
  refine ⟨fun ρ => by rw [mem_indices, k1], k2.disjoint.indices_nodup, k3, ?_⟩
  unfold rowMaskBy
  exact flatMap_length_sum _ _ _ fun c hc => by
    have := (hok c hc).mask_len
    split <;> simp [this]

theorem bs_rows_lt (hb : BS.Built El nq nv h s) (hl : BHist.Lawful El h)
    {i : Nat} {l : Level ℝ κ} (hi : s.hi.levels[i]? = some l) :
    ∀ ρ ∈ indices (s.rows l).segs, ρ < ((atLevel (implOf h) i).map (·.fn.space.nv)).sum := by
  intro ρ hρ
  obtain ⟨k1, -, -, k4⟩ := bs_rows hb hl hi
  have := lt_of_getElem?_some ((k1 ρ).1 hρ)
  rwa [k4] at this

/-- Rows that are not solved for have no error. -/
theorem bs_left_out_zero (hb : BS.Built El nq nv h s) (hl : BHist.Lawful El h)
    (hf : FnsOk (fun f => El f.space) (implOf h)) (hR : HI.RhsIs (fun f => El f.space) (implOf h) s.hi R) (hk : s.Kept h)
    {i : Nat} {l : Level ℝ κ} (hi : s.hi.levels[i]? = some l) (q : Nat → ℝ) (ρ : Nat)
    (hρ : ρ < ((atLevel (implOf h) i).map (·.fn.space.nv)).sum) (hn : ρ ∉ indices (s.rows l).segs) :
    ((atLevel (implOf h) i).flatMap fun c => conError s.hi.ineqThr q c (R c.fn.key)).getD ρ 0 = 0 := by
  obtain ⟨pre, c, post, r, hsplit, rfl, hr⟩ := row_split _ _ hρ
  have hmem : c ∈ atLevel (implOf h) i := by rw [hsplit]; simp
  have hpre : ∀ y ∈ pre, y ∈ atLevel (implOf h) i := fun y hy => by rw [hsplit]; simp [hy]
  have hlens : ∀ c ∈ atLevel (implOf h) i, (c.fn.space.sub (c.fn.value q) (R c.fn.key)).length = c.fn.space.nv ∧
      c.mask.length = c.fn.space.nv ∧ c.comp.length = c.fn.space.nv ∧
      (maskBy c.mask (c.fn.space.sub (c.fn.value q) (R c.fn.key))).length = c.fn.space.nv ∧
      (conError s.hi.ineqThr q c (R c.fn.key)).length = c.fn.space.nv := fun c hc =>
    conSub_length hf (mem_atLevel.1 hc) (hR.el _ (mem_atLevel.1 hc)) q s.hi.ineqThr
  have hok : ∀ c ∈ atLevel (implOf h) i, c.Ok := fun c hc => by
    obtain ⟨_, _, _, hcb⟩ := hf.built _ (mem_atLevel.1 hc)
    exact hcb.ok.1
  obtain ⟨h1, h2, h3, h4, h5⟩ := hlens c hmem
  have ht : c.comp[r]? = some (c.comp[r]'(by omega)) := List.getElem?_eq_getElem _
  have hbm : c.mask[r]? = some (c.mask[r]'(by omega)) := List.getElem?_eq_getElem _
  generalize c.comp[r]'(by omega) = t at ht
  generalize c.mask[r]'(by omega) = b at hbm
  have hm := rowMaskBy_row s.rowActive (pre := pre) (post := post) (by rw [← hsplit]; exact hok) hr hbm
  rw [← hsplit] at hm
  have hcov : (rowMaskBy s.rowActive (atLevel (implOf h) i))[(pre.map (·.fn.space.nv)).sum + r]? ≠ some true :=
    fun hcov => hn (((bs_rows hb hl hi).1 _).2 hcov)
  have hk' := hk _ (mem_atLevel.1 hmem)
  have hbf : b = false := by
    cases b with
    | false => rfl
    | true => rw [hm, if_pos (hk'.1 r hbm)] at hcov; exact absurd rfl hcov
  subst hbf
  rw [hsplit, List.getD_eq_getElem?_getD,
    flatMap_getElem?_mid _ _ _ _ (·.fn.space.nv) (fun y hy => (hlens y (hpre y hy)).2.2.2.2) _
      (by rw [h5]; exact hr)]
  unfold conError maskBy
  rw [List.getElem?_zipWith, ht, List.getElem?_zipWith, hbm, List.getElem?_eq_getElem (by omega)]
  show comparedError t s.hi.ineqThr 0 = 0
  cases t with
  | equalToZero => rfl
  | equality => rfl
  | superior =>
    have := hk'.2 r _ hbm ht (.inl rfl)
    rw [comparedError_eq_min, min_eq_right (by linarith)]
  | inferior =>
    have := hk'.2 r _ hbm ht (.inr rfl)
    rw [comparedError_eq_max, max_eq_right (by linarith)]

theorem bs_lErr (hin : HI.Inv (implOf h) s.hi)
    (hf : FnsOk (fun f => El f.space) (implOf h)) (hR : HI.RhsIs (fun f => El f.space) (implOf h) s.hi R)
    {i : Nat} {l : Level ℝ κ} (hi : s.hi.levels[i]? = some l) (J0 : Jac ℝ) (q : Nat → ℝ) (ρ : Nat) :
    s.lErr D J0 q l ρ =
      ((atLevel (implOf h) i).flatMap fun c => conError s.hi.ineqThr q c (R c.fn.key)).getD ρ 0 := by
  obtain ⟨E, hE, -, -, -, hEe, -, -⟩ := level_evalJac hin hf hR hi D s.hi.ineqThr s.hi.free.segs q J0
  unfold BS.lErr
  rw [hE, Option.map_some, Option.getD_some, hEe]

theorem bs_lJac (hin : HI.Inv (implOf h) s.hi)
    (hf : FnsOk (fun f => El f.space) (implOf h)) (hR : HI.RhsIs (fun f => El f.space) (implOf h) s.hi R)
    {i : Nat} {l : Level ℝ κ} (hi : s.hi.levels[i]? = some l) (J0 : Jac ℝ) (q : Nat → ℝ) (ρ k : Nat)
    (hρ : ρ < ((atLevel (implOf h) i).map (·.fn.space.nv)).sum) :
    s.lJac D J0 q l ρ k = s.lJac D (fun _ _ => 0) q l ρ k := by
  obtain ⟨E, hE, -, -, -, -, -, hJ⟩ := level_evalJac hin hf hR hi D s.hi.ineqThr s.hi.free.segs q J0
  obtain ⟨E', hE', -, -, -, -, -, hJ'⟩ := level_evalJac hin hf hR hi D s.hi.ineqThr s.hi.free.segs q fun _ _ => 0
  unfold BS.lJac
  rw [hE, hE', Option.map_some, Option.map_some, Option.getD_some, Option.getD_some]
  obtain ⟨pre, c', post, r', hsplit, hρ', hr'⟩ := row_split _ _ hρ
  have hmem : c' ∈ atLevel (implOf h) i := by rw [hsplit]; simp
  obtain ⟨h1, h2, h3, -⟩ : (c'.fn.space.sub (c'.fn.value q) (R c'.fn.key)).length = c'.fn.space.nv ∧
      c'.mask.length = c'.fn.space.nv ∧ c'.comp.length = c'.fn.space.nv ∧ _ :=
    conSub_length hf (mem_atLevel.1 hmem) (hR.el _ (mem_atLevel.1 hmem)) q s.hi.ineqThr
  rw [hρ', hJ pre c' post hsplit r' hr' _ _ _ (List.getElem?_eq_getElem (by omega))
      (List.getElem?_eq_getElem (by omega)) (List.getElem?_eq_getElem (by omega)),
    hJ' pre c' post hsplit r' hr' _ _ _ (List.getElem?_eq_getElem (by omega))
      (List.getElem?_eq_getElem (by omega)) (List.getElem?_eq_getElem (by omega))]

theorem bs_nLevel_norms (hb : BS.Built El nq nv h s) (hl : BHist.Lawful El h) (hin : HI.Inv (implOf h) s.hi)
    (hf : FnsOk (fun f => El f.space) (implOf h)) (hR : HI.RhsIs (fun f => El f.space) (implOf h) s.hi R) (hk : s.Kept h)
    {i : Nat} {l : Level ℝ κ} (hi : s.hi.levels[i]? = some l) (q : Nat → ℝ) :
    (s.nLevel D l).norms q =
      (atLevel (implOf h) i).map (fun c => sqSum (conError s.hi.ineqThr q c (R c.fn.key))) ++ [0] := by
  have hcs : l.stack.cs = atLevel (implOf h) i := (hin.level i l hi).stack.cs_eq
  set L : List (List ℝ) := (atLevel (implOf h) i).map fun c => conError s.hi.ineqThr q c (R c.fn.key) with hL
  have hsz : l.stack.cs.map (·.fn.space.nv) = L.map List.length := by
    rw [hcs, hL, List.map_map]
    exact List.map_congr_left fun c hc =>
      (conSub_length hf (mem_atLevel.1 hc) (hR.el _ (mem_atLevel.1 hc)) q s.hi.ineqThr).2.2.2.2.symm
  have hlen : L.flatten.length = ((atLevel (implOf h) i).map (·.fn.space.nv)).sum := by
    rw [List.length_flatten, ← hsz, hcs]
  have herr : ∀ r, (s.nLevel D l).err q r = L.flatten.getD ((indices (s.rows l).segs).getD r 0) 0 := by
    intro r
    refine (bs_lErr hin hf hR hi _ q _).trans ?_
    rw [List.flatMap_def]
  have hkey : ∀ k : Fin (s.nLevel D l).nc, (∑ r, if (s.nLevel D l).blk r = k then
      (s.nLevel D l).err q r * (s.nLevel D l).err q r else 0) = sqSum ((L[k.1]?).getD []) := by
    intro k
    rw [← block_sum L k.1, hlen, ← sum_over_indices (indices (s.rows l).segs) (bs_rows hb hl hi).2.1 _
      (bs_rows_lt hb hl hi)
      (fun ρ => if blockOf (L.map List.length) ρ = k.1 then L.flatten.getD ρ 0 * L.flatten.getD ρ 0 else 0)]
    · rw [Finset.sum_range]
      refine Finset.sum_congr rfl fun r _ => ?_
      rw [herr]
      have : (s.nLevel D l).blk r = k ↔
          blockOf (L.map List.length) ((indices (s.rows l).segs).getD r 0) = k.1 := by
        rw [← hsz, Fin.ext_iff]; rfl
      by_cases hc : (s.nLevel D l).blk r = k
      · rw [if_pos hc, if_pos (this.1 hc)]
      · rw [if_neg hc, if_neg fun h => hc (this.2 h)]
    · intro ρ hρ hn
      have := bs_left_out_zero hb hl hf hR hk hi q ρ hρ hn
      rw [List.flatMap_def] at this
      rw [hL, this]
      simp
  unfold NLevel.norms
  simp only [hkey]
  have hnc : (s.nLevel D l).nc = L.length + 1 := by
    show (l.stack.cs.map (·.fn.space.nv)).length + 1 = _
    rw [hsz, List.length_map]
  have hmm : (atLevel (implOf h) i).map (fun c => sqSum (conError s.hi.ineqThr q c (R c.fn.key))) = L.map sqSum := by
    rw [hL, List.map_map]; rfl
  rw [hmm]
  exact finRange_blocks L _ hnc

/-- The error of the solver is the one of `BySub/NewtonEcs.lean`. -/
theorem bs_nSqNorm_levels (hb : BS.Built El nq nv h s) (hl : BHist.Lawful El h)
    (hk : s.Kept h) (hne : s.hi.lastIsOptional = true → s.hi.levels ≠ []) (q : Nat → ℝ) :
    s.hi.sqNorm q = some (nSqNorm s.hi.lastIsOptional (s.hi.levels.map (s.nLevel D)) q) := by
  obtain ⟨l1, l2⟩ := hl.impl
  obtain ⟨hin, hf, R, hR⟩ := hb.parts.1.inv l1 l2
  rw [solver_sqNorm_eq hin hf hR hne]
  congr 1
  unfold nSqNorm
  have h1 : (s.hi.levels.map (s.nLevel D)).map (fun l => l.norms q) = (List.range s.hi.levels.length).map fun i =>
      (atLevel (implOf h) i).map (fun c => sqSum (conError s.hi.ineqThr q c (R c.fn.key))) ++ [0] := by
    rw [List.map_map]
    exact map_by_index _ _ _ fun i l hi => bs_nLevel_norms hb hl hin hf hR hk hi q
  have h2 : (if s.hi.lastIsOptional then (s.hi.levels.map (s.nLevel D)).dropLast else s.hi.levels.map (s.nLevel D)).flatMap
      (fun l => l.norms q) = ((List.range s.hi.nMandatory).map (atLevel (implOf h))).flatMap fun cs =>
      cs.map (fun c => sqSum (conError s.hi.ineqThr q c (R c.fn.key))) ++ [0] := by
    unfold HI.nMandatory
    cases hlo : s.hi.lastIsOptional with
    | false =>
      simp only [Bool.false_eq_true, if_false]
      rw [List.flatMap_def, h1, List.flatMap_def, List.map_map]
      rfl
    | true =>
      simp only [if_true]
      rw [List.flatMap_def, List.map_dropLast, h1, List.flatMap_def, List.map_map, ← List.map_dropLast]
      congr 2
      rw [List.dropLast_eq_take, List.length_range, List.take_range]
      congr 1
      omega
  rw [h2, foldl_max_blocks _ _ _ (le_refl 0), List.flatMap_def]

theorem bs_dLevel_any (hb : BS.Built El nq nv h s) (hl : BHist.Lawful El h)
    {i : Nat} {l : Level ℝ κ} (hi : s.hi.levels[i]? = some l) (J0 : Jac ℝ) (q : Nat → ℝ) :
    s.dLevel D J0 q l = (s.nLevel D l).at q := by
  obtain ⟨l1, l2⟩ := hl.impl
  obtain ⟨hin, hf, R, hR⟩ := hb.parts.1.inv l1 l2
  have herr : s.lErr D J0 q l = s.lErr D (fun _ _ => 0) q l := by
    funext ρ
    rw [bs_lErr hin hf hR hi, bs_lErr hin hf hR hi]
  have hrow : ∀ r : Fin (indices (s.rows l).segs).length, ∀ k,
      s.lJac D J0 q l ((indices (s.rows l).segs).getD r 0) k =
        s.lJac D (fun _ _ => 0) q l ((indices (s.rows l).segs).getD r 0) k := by
    intro r k
    refine bs_lJac hin hf hR hi J0 q _ k (bs_rows_lt hb hl hi _ ?_)
    rw [List.getD_eq_getElem?_getD, List.getElem?_eq_getElem r.2, Option.getD_some]
    exact List.getElem_mem r.2
  have h1 : s.dJ D J0 q l = s.dJ D (fun _ _ => 0) q l := by
    funext r c
    unfold BS.dJ BS.updateJ BS.reducedJ0
    split
    · exact hrow r _
    · split
      · simp only [Option.getD_some, hrow]
      · rfl
  have h2 : s.dErr D J0 q l = s.dErr D (fun _ _ => 0) q l := by
    unfold BS.dErr
    rw [herr]
  unfold BS.dLevel
  rw [h1, h2]
  rfl

theorem bs_cost (hb : BS.Built El nq nv h s) (hl : BHist.Lawful El h) (hk : s.Kept h)
    {i : Nat} {l : Level ℝ κ} (hi : s.hi.levels[i]? = some l) (q : Nat → ℝ) :
    sqSum ((l.error s.hi.ineqThr q).getD []) = (s.nLevel D l).err q ⬝ᵥ (s.nLevel D l).err q := by
  obtain ⟨l1, l2⟩ := hl.impl
  obtain ⟨hin, hf, R, hR⟩ := hb.parts.1.inv l1 l2
  obtain ⟨E, -, he, -, -, hEe, -, -⟩ := level_evalJac hin hf hR hi D s.hi.ineqThr s.hi.free.segs q fun _ _ => 0
  have hlen : E.error.length = ((atLevel (implOf h) i).map (·.fn.space.nv)).sum := by
    rw [hEe]
    exact flatMap_length_sum _ _ _ fun c hc =>
      (conSub_length hf (mem_atLevel.1 hc) (hR.el _ (mem_atLevel.1 hc)) q s.hi.ineqThr).2.2.2.2
  rw [he, Option.getD_some, sqSum_eq_range, hlen,
    ← sum_over_indices (indices (s.rows l).segs) (bs_rows hb hl hi).2.1 _ (bs_rows_lt hb hl hi)
      (fun ρ => E.error.getD ρ 0 * E.error.getD ρ 0), Finset.sum_range]
  · refine Finset.sum_congr rfl fun r _ => ?_
    have : (s.nLevel D l).err q r = E.error.getD ((indices (s.rows l).segs).getD r 0) 0 := by
      rw [hEe]
      exact bs_lErr hin hf hR hi _ q _
    rw [this]
  · intro ρ hρ hn
    rw [hEe, bs_left_out_zero hb hl hf hR hk hi q ρ hρ hn, mul_zero]

/-- C115. The steps of the solver are those of `BySub/NewtonEcs.lean`, whatever the matrices of the levels held. -/
theorem C115_same_steps (hb : BS.Built El nq nv h s) (hl : BHist.Lawful El h)
    (hk : s.Kept h) (hne : s.hi.lastIsOptional = true → s.hi.levels ≠ []) (o : SvdOps ℝ) (J0 : (Nat → ℝ) → Jac ℝ)
    (ls : S → (Nat → ℝ) → (Fin (indices s.hi.free.segs).length → ℝ) →
      (S × LsOut (Nat → ℝ) (Fin (indices s.hi.free.segs).length → ℝ)) × Bool) :
    s.ops D o J0 ls = bsNewtonOps o s.hi.byLevel s.hi.lastIsOptional s.hi.sqThr (s.hi.levels.map (s.nLevel D))
      (bsExpl s) ls := by
  unfold BS.ops bsNewtonOps
  congr 1
  · funext q
    rw [bs_nSqNorm_levels (D := D) hb hl hk hne q]; rfl
  · funext q
    rw [List.getLast?_map]
    cases hg : s.hi.levels.getLast? with
    | none => rfl
    | some l =>
      obtain ⟨i, hi⟩ := List.getElem?_of_mem (List.mem_of_getLast? hg)
      exact bs_cost hb hl hk hi q
  · funext q m
    have : s.hi.levels.map (s.dLevel D (J0 q) q) = (s.hi.levels.map (s.nLevel D)).map fun l => l.at q := by
      rw [List.map_map]
      apply List.map_congr_left
      intro l hl'
      obtain ⟨i, hi⟩ := List.getElem?_of_mem hl'
      exact bs_dLevel_any hb hl hi (J0 q) q
    rw [this]

end

end Hpp
