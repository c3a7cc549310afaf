import Verif.HI.PriorityProps
import Verif.Solve.LevelByLevel

/-!
# C154: only the order of the priorities matters

Sources: `/repo/src/solver/hierarchical-iterative.cc`, lines 263-303 (`add`), 623-672, 694-719, 744-828;
`/repo/include/hpp/constraints/solver/impl/hierarchical-iterative.hh`, lines 39-181.
-/

namespace Hpp

open Matrix

variable {κ A S : Type} {n : Nat}

namespace Gaps

open LevelLoop

/-- The levels that have rows. -/
def rowsOf (ds : List (DLevel ℝ n)) : List (DLevel ℝ n) := ds.filter fun d => decide (d.m ≠ 0)

theorem rowsOf_pos {d : DLevel ℝ n} (h : d.m ≠ 0) (ds : List (DLevel ℝ n)) : rowsOf (d :: ds) = d :: rowsOf ds := by
  unfold rowsOf; rw [List.filter_cons_of_pos (by simpa using h)]

theorem rowsOf_neg {d : DLevel ℝ n} (h : d.m = 0) (ds : List (DLevel ℝ n)) : rowsOf (d :: ds) = rowsOf ds := by
  unfold rowsOf; rw [List.filter_cons_of_neg (by simpa using h)]

theorem loop_rows (o : SvdOps ℝ) (byLevel : Bool) (thr : ℝ) : ∀ (ds : List (DLevel ℝ n)),
    (∀ (proj : Proj ℝ n) (dq : Fin n → ℝ), descendLoop o byLevel thr false ds proj dq = descendLoop o byLevel thr false (rowsOf ds) proj dq) ∧
    ∀ (first : Bool) (d : DLevel ℝ n), d.m ≠ 0 → ∀ (proj : Proj ℝ n) (dq : Fin n → ℝ),
      descendLoop o byLevel thr first (d :: ds) proj dq = descendLoop o byLevel thr first (d :: rowsOf ds) proj dq := by
  intro ds
  have head : ∀ ds : List (DLevel ℝ n),
      (∀ (proj : Proj ℝ n) (dq : Fin n → ℝ), descendLoop o byLevel thr false ds proj dq = descendLoop o byLevel thr false (rowsOf ds) proj dq) →
      ∀ (first : Bool) (d : DLevel ℝ n), d.m ≠ 0 → ∀ (proj : Proj ℝ n) (dq : Fin n → ℝ),
        descendLoop o byLevel thr first (d :: ds) proj dq = descendLoop o byLevel thr first (d :: rowsOf ds) proj dq := by
    intro ds ih first d hm proj dq
    rw [loop_cons, loop_cons, if_neg hm, if_neg hm]
    split
    · rfl
    · by_cases hr : rowsOf ds = []
      · rw [if_pos hr]
        split
        · rfl
        · cases nextProj o proj d with
          | none => rfl
          | some P =>
            dsimp only
            rw [ih, hr]
            rfl
      · have hd : ds ≠ [] := fun h => hr (by rw [h]; rfl)
        rw [if_neg hr, if_neg hd]
        cases nextProj o proj d with
        | none => rfl
        | some P => exact ih _ _
  have tail : ∀ (proj : Proj ℝ n) (dq : Fin n → ℝ),
      descendLoop o byLevel thr false ds proj dq = descendLoop o byLevel thr false (rowsOf ds) proj dq := by
    induction ds with
    | nil => intros; rfl
    | cons d ds ih =>
      intro proj dq
      by_cases hm : d.m = 0
      · rw [rowsOf_neg hm, loop_cons, if_pos hm]
        exact ih _ _
      · rw [rowsOf_pos hm]
        exact head ds ih false d hm proj dq
  exact ⟨tail, head ds tail⟩

theorem slope_rows (ds : List (DLevel ℝ n)) (u : Fin n → ℝ) : localSlope ds u = localSlope (rowsOf ds) u := by
  unfold localSlope
  generalize (0 : ℝ) = x
  induction ds generalizing x with
  | nil => rfl
  | cons d ds ih =>
    by_cases hm : d.m = 0
    · rw [rowsOf_neg hm, List.foldl_cons, ← ih]
      have : (d.J *ᵥ u) ⬝ᵥ d.e = 0 := Finset.sum_eq_zero fun i _ => absurd (lt_of_lt_of_eq i.2 hm) (Nat.not_lt_zero _)
      rw [this, add_zero]
    · rw [rowsOf_pos hm, List.foldl_cons, List.foldl_cons]
      exact ih _

end Gaps

open Gaps

/-- C154. If the first level has rows, the levels without rows can be removed: same direction, with or without `solveLevelByLevel`, and same
slope. -/
theorem C154_direction (o : SvdOps ℝ) (byLevel : Bool) (thr : ℝ) (d : DLevel ℝ n) (hm : d.m ≠ 0) (ds : List (DLevel ℝ n)) (dq u : Fin n → ℝ) :
    descend o byLevel thr (d :: ds) dq = descend o byLevel thr (d :: ds.filter fun d => decide (d.m ≠ 0)) dq ∧
    localSlope (d :: ds) u = localSlope (d :: ds.filter fun d => decide (d.m ≠ 0)) u := by
  have hone : descend o byLevel thr [d] dq = some (descendLoop o byLevel thr true [d] none dq) := by
    show some (o.solve d.J (-d.e)) = _
    rw [LevelLoop.loop_cons, if_neg hm]
    congr 1
    split
    · rfl
    · rfl
  have e : ∀ l, descend o byLevel thr (d :: l) dq = some (descendLoop o byLevel thr true (d :: l) none dq) := by
    intro l
    cases l with
    | nil => exact hone
    | cons => rfl
  refine ⟨?_, ?_⟩
  · rw [e, e, (loop_rows o byLevel thr ds).2 true d hm none dq]
    rfl
  · rw [slope_rows, rowsOf_pos hm]
    rfl

namespace Gaps

theorem rowsOf_nil {L : List (DLevel ℝ n)} (h : ∀ d ∈ L, d.m = 0) : rowsOf L = [] := by
  unfold rowsOf
  rw [List.filter_eq_nil_iff]
  intro d hd
  simpa using h d hd

theorem filter_same {L : List (DLevel ℝ n)} : ∀ {L' : List (DLevel ℝ n)} {f : Nat → Nat}, StrictMono f →
    (∀ i a, L[i]? = some a → ∃ b, L'[f i]? = some b ∧ a.Same b) →
    (∀ j b, L'[j]? = some b → (∀ i < L.length, f i ≠ j) → b.m = 0) → List.Forall₂ DLevel.Same (rowsOf L) (rowsOf L') := by
  induction L with
  | nil =>
    intro L' f _ _ h2
    rw [rowsOf_nil (L := L') fun d hd => by
      obtain ⟨j, hj⟩ := List.getElem?_of_mem hd
      exact h2 j d hj (by simp)]
    exact .nil
  | cons a L ih =>
    intro L' f hf h1 h2
    obtain ⟨b, hb, hab⟩ := h1 0 a rfl
    have hlt := lt_of_getElem?_some hb
    have hsplit : L' = L'.take (f 0) ++ b :: L'.drop (f 0 + 1) := by
      have hb' : b = L'[f 0] := by
        rw [List.getElem?_eq_getElem hlt] at hb
        exact (Option.some.inj hb).symm
      rw [hb', List.getElem_cons_drop, List.take_append_drop]
    have hmono : ∀ i, f 0 < f (i + 1) := fun i => hf (Nat.succ_pos i)
    have ht : rowsOf (L'.take (f 0)) = [] := by
      refine rowsOf_nil fun d hd => ?_
      obtain ⟨j, hj⟩ := List.getElem?_of_mem hd
      have hj0 : j < f 0 := by
        have := lt_of_getElem?_some hj
        rw [List.length_take] at this
        omega
      rw [List.getElem?_take_of_lt hj0] at hj
      refine h2 j d hj fun i _ => ?_
      have := hf.monotone (Nat.zero_le i)
      omega
    have rest : List.Forall₂ DLevel.Same (rowsOf L) (rowsOf (L'.drop (f 0 + 1))) := by
      refine ih (f := fun i => f (i + 1) - f 0 - 1) ?_ ?_ ?_
      · intro i j hij
        have := hf (Nat.succ_lt_succ hij)
        have h3 := hmono i
        show f (i + 1) - f 0 - 1 < f (j + 1) - f 0 - 1
        simp only [Nat.succ_eq_add_one] at this
        omega
      · intro i x hx
        obtain ⟨y, hy, hxy⟩ := h1 (i + 1) x (by simpa using hx)
        refine ⟨y, ?_, hxy⟩
        rw [List.getElem?_drop]
        have h3 := hmono i
        rw [show f 0 + 1 + (f (i + 1) - f 0 - 1) = f (i + 1) by omega]
        exact hy
      · intro j y hy hne
        rw [List.getElem?_drop] at hy
        refine h2 _ y hy fun i hi he => ?_
        cases i with
        | zero => omega
        | succ i =>
          have h3 := hmono i
          exact hne i (by simpa using hi) (by omega)
    rw [hsplit]
    have happ : rowsOf (L'.take (f 0) ++ b :: L'.drop (f 0 + 1)) = rowsOf (b :: L'.drop (f 0 + 1)) := by
      unfold rowsOf at ht ⊢
      rw [List.filter_append, ht, List.nil_append]
    rw [happ]
    by_cases hm : a.m = 0
    · rw [rowsOf_neg hm, rowsOf_neg (hab.empty.1 hm)]
      exact rest
    · rw [rowsOf_pos hm, rowsOf_pos fun h => hm (hab.empty.2 h)]
      exact .cons hab rest

theorem direction_same {o o' : SvdOps ℝ} (ho : o.Exact) (hor : o.Ortho) (ho' : o'.Exact) (hor' : o'.Ortho) (byLevel : Bool) (thr : ℝ)
    {L L' : List (DLevel ℝ n)} (hL : ∃ d ds, L = d :: ds ∧ d.m ≠ 0) (hL' : ∃ d ds, L' = d :: ds ∧ d.m ≠ 0)
    (h : List.Forall₂ DLevel.Same (rowsOf L) (rowsOf L')) (dq u : Fin n → ℝ) :
    descend o byLevel thr L dq = descend o' byLevel thr L' dq ∧ localSlope L u = localSlope L' u := by
  obtain ⟨d, ds, rfl, hm⟩ := hL
  obtain ⟨d', ds', rfl, hm'⟩ := hL'
  rw [rowsOf_pos hm, rowsOf_pos hm'] at h
  obtain ⟨h1, h2⟩ := C154_direction o byLevel thr d hm ds dq u
  obtain ⟨h3, h4⟩ := C154_direction o' byLevel thr d' hm' ds' dq u
  rw [h1, h2, h3, h4]
  exact ⟨C128_direction ho hor ho' hor' byLevel thr h dq, C128_slope h u⟩

theorem range_perm {h : List (Impl ℝ κ × Nat)} (k : Nat) :
    ((List.range k).flatMap (atLevel h)).Perm ((h.filter fun e => decide (e.2 < k)).map Prod.fst) := by
  refine List.Perm.trans (.of_eq ?_) (levels_perm (h := h.filter fun e => decide (e.2 < k)) (n := k) fun e he => by
    simpa using (List.mem_filter.1 he).2)
  refine List.flatMap_congr fun i hi => ?_
  have hi' : i < k := List.mem_range.1 hi
  unfold atLevel
  rw [List.filter_filter]
  congr 1
  refine List.filter_congr fun e _ => ?_
  by_cases he : e.2 = i
  · simp [he, hi']
  · simp [he]

theorem mem_iff {h h' : List (Impl ℝ κ × Nat)} {f : Nat → Nat} (hp : (h.map fun e => (e.1, f e.2)).Perm h') (e : Impl ℝ κ × Nat) :
    e ∈ h' ↔ ∃ e' ∈ h, (e'.1, f e'.2) = e := by
  rw [← hp.mem_iff, List.mem_map]

/-- Number of levels -/
theorem levels_num [DecidableEq κ] {h h' : List (Impl ℝ κ × Nat)} {s s' : HI ℝ κ} (hs : HI.Inv h s) (hs' : HI.Inv h' s') {f : Nat → Nat}
    (hf : StrictMono f) (hp : (h.map fun e => (e.1, f e.2)).Perm h') (h0 : 0 < s.levels.length) :
    ∃ N, s.levels.length = N + 1 ∧ s'.levels.length = f N + 1 := by
  obtain ⟨N, hN⟩ : ∃ N, s.levels.length = N + 1 := ⟨s.levels.length - 1, by omega⟩
  refine ⟨N, hN, Nat.le_antisymm ?_ ?_⟩
  · rcases hs'.nlev_min with h0 | ⟨e, he, hee⟩
    · omega
    · obtain ⟨e', he', rfl⟩ := (mem_iff hp e).1 he
      have hee' : f e'.2 + 1 = s'.levels.length := hee
      have := hs.nlev e' he'
      have := hf.monotone (show e'.2 ≤ N by omega)
      omega
  · rcases hs.nlev_min with h0 | ⟨e, he, hee⟩
    · omega
    · have : f e.2 < s'.levels.length := hs'.nlev _ ((mem_iff hp _).2 ⟨e, he, rfl⟩)
      have h6 : e.2 = N := by omega
      rw [h6] at this
      omega

theorem at_perm {h h' : List (Impl ℝ κ × Nat)} {f : Nat → Nat} (hf : StrictMono f) (hp : (h.map fun e => (e.1, f e.2)).Perm h') (i : Nat) :
    (atLevel h i).Perm (atLevel h' (f i)) := by
  refine List.Perm.trans (.of_eq ?_) (atLevel_perm hp (f i))
  unfold atLevel
  rw [List.filter_map, List.map_map]
  congr 1
  refine List.filter_congr fun e _ => ?_
  simp [hf.injective.eq_iff]

theorem at_nil [DecidableEq κ] {h h' : List (Impl ℝ κ × Nat)} {s : HI ℝ κ} (hs : HI.Inv h s) {f : Nat → Nat}
    (hp : (h.map fun e => (e.1, f e.2)).Perm h') {j : Nat} (hj : ∀ i < s.levels.length, f i ≠ j) : atLevel h' j = [] := by
  refine List.eq_nil_iff_forall_not_mem.2 fun c hc => ?_
  obtain ⟨e', he', heq⟩ := (mem_iff hp _).1 (mem_atLevel.1 hc)
  exact hj e'.2 (hs.nlev e' he') (congrArg Prod.snd heq)

/-- Same error -/
theorem norm_same [DecidableEq κ] {El : Fn ℝ κ → List ℝ → Prop} {h h' : List (Impl ℝ κ × Nat)} {s s' : HI ℝ κ} {R : κ → List ℝ} (hs : HI.Inv h s)
    (hfn : FnsOk El h) (hR : HI.RhsIs El h s R) (hs' : HI.Inv h' s') (hfn' : FnsOk El h') (hR' : HI.RhsIs El h' s' R) {f : Nat → Nat} (hf : StrictMono f)
    (hp : (h.map fun e => (e.1, f e.2)).Perm h') (h0 : 0 < s.levels.length) (h2 : s'.ineqThr = s.ineqThr) (h4 : s'.lastIsOptional = s.lastIsOptional)
    (q : Nat → ℝ) : s.sqNorm q = s'.sqNorm q := by
  obtain ⟨N, hN, hN'⟩ := levels_num hs hs' hf hp h0
  have hne : s.levels ≠ [] := fun h0 => by rw [h0] at hN; simp at hN
  have hne' : s'.levels ≠ [] := fun h0 => by rw [h0] at hN'; simp at hN'
  rw [solver_sqNorm_eq hs hfn hR fun _ => hne, solver_sqNorm_eq hs' hfn' hR' fun _ => hne', h2]
  congr 1
  have : RightCommutative fun (m : ℝ) (c : Impl ℝ κ) => max m (sqSum (conError s.ineqThr q c (R c.fn.key))) :=
    ⟨fun a b c => max_right_comm _ _ _⟩
  have n1 : s.nMandatory = if s.lastIsOptional then N else N + 1 := by
    unfold HI.nMandatory; rw [hN]; rfl
  have n2 : s'.nMandatory = if s.lastIsOptional then f N else f N + 1 := by
    unfold HI.nMandatory; rw [hN', h4]; rfl
  have hiff : ∀ e ∈ h, (f e.2 < s'.nMandatory ↔ e.2 < s.nMandatory) := by
    intro e he
    have hlt := hs.nlev e he
    have hle := hf.monotone (show e.2 ≤ N by omega)
    rw [n1, n2]
    split
    · exact hf.lt_iff_lt
    · constructor
      · intro _; omega
      · intro _; omega
  refine List.Perm.foldl_eq (((range_perm s.nMandatory).trans ?_).trans (range_perm _).symm) 0
  refine List.Perm.trans (.of_eq ?_) ((hp.filter fun e => decide (e.2 < s'.nMandatory)).map Prod.fst)
  rw [List.filter_map, List.map_map]
  have : (h.filter fun e => decide (e.2 < s.nMandatory)) =
      h.filter ((fun e : Impl ℝ κ × Nat => decide (e.2 < s'.nMandatory)) ∘ fun e => (e.1, f e.2)) := by
    refine List.filter_congr fun e he => ?_
    exact (decide_eq_decide.2 (hiff e he)).symm
  rw [this]
  rfl

end Gaps

/-- C154. Two solvers that have the same parameters, into which the same constraints have been inserted with priorities that differ but are in the same order
(a strictly increasing renumbering `f` with `f 0 = 0`: gaps between priorities), in any order of insertion.  They return the same configuration and the same
status after the same number of iterations: with any line search, with or without saturation, optional level, `solveLevelByLevel`.  A constraint of priority
0 has a row to be solved for (see `C93_empty_first_refuted`). -/
theorem C154_gaps [DecidableEq κ] {El : Fn ℝ κ → List ℝ → Prop} {nv nv' : Nat} {h h' : List (Impl ℝ κ × Nat)} {s s' : HI ℝ κ}
    (hb : HI.Built El nv h s) (hb' : HI.Built El nv' h' s') {f : Nat → Nat} (hf : StrictMono f) (hf0 : f 0 = 0)
    (hp : (h.map fun e => (e.1, f e.2)).Perm h')
    (hl : ∀ e ∈ h, e.1.fn.space.Lawful (El e.1.fn)) (hv : ∀ e ∈ h, ∀ q, El e.1.fn (e.1.fn.value q))
    (hopt : s.SameOptions s') {R : κ → List ℝ} (hR : HI.RhsIs El h s R) (hR' : HI.RhsIs El h' s' R)
    (ht : TopRows s.free.segs h) (D : Space ℝ → List ℝ → List ℝ → Nat → Nat → ℝ) {o o' : SvdOps ℝ}
    (ho : o.Exact) (hor : o.Ortho) (ho' : o'.Exact) (hor' : o'.Ortho) (J0 J0' : A → Jac ℝ) (conf : A → Nat → ℝ)
    (sat : A → Nat → ℝ) (move : A → (Nat → ℝ) → A) (ls : LineSearch A S) (dqMin : ℝ) (q : A) (dq : Nat → ℝ) (st : S) :
    let r := solve (s.fullOps D o J0 conf sat move ls) s.sqThr dqMin s.maxIter s.reducedDim q (fun j => dq (hiFree s j), st)
    let r' := solve (s'.fullOps D o' J0' conf sat move ls) s'.sqThr dqMin s'.maxIter s'.reducedDim q
      (fun j => dq (hiFree s' j), st)
    r'.arg = r.arg ∧ r'.status = r.status ∧ r'.iter = r.iter := by
  have hmem := mem_iff hp
  have hl' : ∀ e ∈ h', e.1.fn.space.Lawful (El e.1.fn) := fun e he => by
    obtain ⟨e', h1, rfl⟩ := (hmem e).1 he
    exact hl e' h1
  have hv' : ∀ e ∈ h', ∀ q, El e.1.fn (e.1.fn.value q) := fun e he => by
    obtain ⟨e', h1, rfl⟩ := (hmem e).1 he
    exact hv e' h1
  obtain ⟨hs, hfn, -⟩ := hb.inv hl hv
  obtain ⟨hs', hfn', -⟩ := hb'.inv hl' hv'
  obtain ⟨hfree, h1, h2, h3, h4, h5⟩ := hopt
  obtain ⟨s'', rfl⟩ : ∃ s'', s' = { s'' with free := s.free } := ⟨s', by rw [← hfree]⟩
  have h1' : s''.sqThr = s.sqThr := h1
  have h2' : s''.ineqThr = s.ineqThr := h2
  have h3' : s''.maxIter = s.maxIter := h3
  have h4' : s''.lastIsOptional = s.lastIsOptional := h4
  have h5' : s''.byLevel = s.byLevel := h5
  obtain ⟨e0, he0, hz0, hd0, hm0⟩ := ht
  have hpos := hs.nlev e0 he0
  obtain ⟨N, hN, hN''⟩ := levels_num hs hs' hf hp (Nat.zero_lt_of_lt hpos)
  have hN' : s''.levels.length = f N + 1 := hN''
  have hat := at_perm hf hp
  have hat0 : ∀ j, (∀ i < s.levels.length, f i ≠ j) → atLevel h' j = [] := fun j hj => at_nil hs hp hj
  have hnorm : ∀ q, s.sqNorm q = HI.sqNorm { s'' with free := s.free } q :=
    norm_same hs hfn hR hs' hfn' hR' hf hp (Nat.zero_lt_of_lt hpos) h2 h4
  have hdim : s.reducedDim = (HI.reducedDim { s'' with free := s.free }) := by
    rw [C23_reduced_dimension hb hl hv, C23_reduced_dimension hb' hl' hv']
    have := ((hp.map Prod.fst).map fun c : Impl ℝ κ => if dependsOnFree s.free.segs c then c.mask.count true else 0).sum_eq
    rw [List.map_map, List.map_map, List.map_map] at this
    exact this
  have hlev : ∀ q, List.Forall₂ DLevel.Same (rowsOf (s.dLevels D J0 conf sat q))
      (rowsOf (HI.dLevels { s'' with free := s.free } D J0' conf sat q)) := by
    intro q
    refine filter_same hf ?_ ?_
    · intro i a ha
      unfold HI.dLevels at ha ⊢
      rw [List.getElem?_map] at ha
      obtain ⟨l, hl1, rfl⟩ := Option.map_eq_some_iff.1 ha
      have hi := lt_of_getElem?_some hl1
      have hle := hf.monotone (show i ≤ N by omega)
      obtain ⟨l', hl2⟩ : ∃ l', s''.levels[f i]? = some l' := ⟨_, List.getElem?_eq_getElem (by omega)⟩
      have hl2' : (HI.levels { s'' with free := s.free })[f i]? = some l' := hl2
      refine ⟨_, by rw [List.getElem?_map, hl2']; rfl, ?_⟩
      refine C128_saturation ⟨?_, fun x => ?_⟩ _
      · refine (dLevel_empty hb hl hv hl1 _ _).trans (Iff.trans ?_ (dLevel_empty hb' hl' hv' hl2 (J0' q) (conf q)).symm)
        constructor
        · exact fun H c hc => H c ((hat i).mem_iff.2 hc)
        · exact fun H c hc => H c ((hat i).mem_iff.1 hc)
      · refine (dLevel_cost hb hl hv hR hl1 _ _ x).trans (Eq.trans ?_ (dLevel_cost hb' hl' hv' hR' hl2 (J0' q) (conf q) x).symm)
        simp only [h2']
        exact ((hat i).map _).sum_eq
    · intro j b hj hne
      unfold HI.dLevels at hj hne
      rw [List.getElem?_map] at hj
      obtain ⟨l', hl2, rfl⟩ := Option.map_eq_some_iff.1 hj
      refine (dLevel_empty (D := D) hb' hl' hv' hl2 (J0' q) (conf q)).2 ?_
      rw [hat0 j fun i hi => hne i (by rw [List.length_map]; exact hi)]
      intro c hc
      simp at hc
  have hfirst : ∀ q, ∃ d ds, s.dLevels D J0 conf sat q = d :: ds ∧ d.m ≠ 0 := by
    intro q
    obtain ⟨l, ls, hls⟩ := List.exists_cons_of_length_eq_add_one hN
    refine ⟨_, _, by unfold HI.dLevels; rw [hls, List.map_cons], fun h0 => ?_⟩
    have hi : s.levels[0]? = some l := by rw [hls]; rfl
    exact (dLevel_empty (D := D) hb hl hv hi (J0 q) (conf q)).1 h0 e0.1 (mem_atLevel.2 (by rw [← hz0]; exact he0)) hd0 hm0
  have hfirst' : ∀ q, ∃ d ds, HI.dLevels { s'' with free := s.free } D J0' conf sat q = d :: ds ∧ d.m ≠ 0 := by
    intro q
    obtain ⟨l, ls, hls⟩ := List.exists_cons_of_length_eq_add_one hN'
    have hls' : HI.levels { s'' with free := s.free } = l :: ls := hls
    refine ⟨_, _, by unfold HI.dLevels; rw [hls', List.map_cons], fun h0 => ?_⟩
    have hi : (HI.levels { s'' with free := s.free })[0]? = some l := by rw [hls']; rfl
    exact (dLevel_empty (D := D) hb' hl' hv' hi (J0' q) (conf q)).1 h0 e0.1
      (mem_atLevel.2 ((hmem _).2 ⟨e0, he0, by rw [hz0, hf0]⟩)) hd0 hm0
  have hops : s.fullOps D o J0 conf sat move ls = HI.fullOps { s'' with free := s.free } D o' J0' conf sat move ls := by
    have hd : ∀ q (v : Fin (indices s.free.segs).length → ℝ), descend o s.byLevel s.sqThr (s.dLevels D J0 conf sat q) v =
        descend o' s''.byLevel s''.sqThr (HI.dLevels { s'' with free := s.free } D J0' conf sat q) v := by
      intro q v
      rw [h1', h5']
      exact (direction_same ho hor ho' hor' s.byLevel s.sqThr (hfirst q) (hfirst' q) (hlev q) v v).1
    have hslope : (fun q u => localSlope (s.dLevels D J0 conf sat q) u) =
        fun q u => localSlope (HI.dLevels { s'' with free := s.free } D J0' conf sat q) u := by
      funext q u
      exact (direction_same ho hor ho' hor' s.byLevel s.sqThr (hfirst q) (hfirst' q) (hlev q) u u).2
    have henv : s.lsEnv conf move = HI.lsEnv { s'' with free := s.free } conf move := by
      unfold HI.lsEnv
      simp only [hnorm]
      rfl
    unfold HI.fullOps
    simp only [hnorm, hd, hslope, henv]
  intro r r'
  have : r' = r := by
    show solve (HI.fullOps { s'' with free := s.free } D o' J0' conf sat move ls) s''.sqThr dqMin s''.maxIter
      (HI.reducedDim { s'' with free := s.free }) q (fun j => dq (hiFree s j), st) = r
    rw [← hops, ← hdim, h1', h3']
  rw [this]
  exact ⟨rfl, rfl, rfl⟩

namespace GapEx
open HINewtonEx OrderEx

/-- `q₁² = q₀` with priority 0 and `q₀ + q₁ ≤ 0` with priority 1 -/
noncomputable def gap1 : HI ℝ Nat :=
  { (((HI.init ℝ Nat 2).add con 0).1.add con2 1).1.setFreeIndices (Blocks.empty.add 0 2) with
    sqThr := 1 / 10 ^ 8, ineqThr := 0, maxIter := 20, lastIsOptional := true, byLevel := false }

/-- the second one with priority 2, inserted first -/
noncomputable def gap2 : HI ℝ Nat :=
  { (((HI.init ℝ Nat 2).add con2 2).1.add con 0).1.setFreeIndices (Blocks.empty.add 0 2) with
    sqThr := 1 / 10 ^ 8, ineqThr := 0, maxIter := 20, lastIsOptional := true, byLevel := false }

theorem gbuilt1 : HI.Built El 2 [(con, 0), (con2, 1)] gap1 :=
  .params _ _ _ _ _ (.free (.add (h := [(con, 0)]) (.add (h := []) .init
    ⟨fn, [], [.equality], .create _ _ (Option.some_get _).symm⟩ (Prod.ext rfl rfl))
    ⟨fn2, [], [.inferior], .create _ _ (Option.some_get _).symm⟩ (Prod.ext rfl rfl)))

theorem gbuilt2 : HI.Built El 2 [(con2, 2), (con, 0)] gap2 :=
  .params _ _ _ _ _ (.free (.add (h := [(con2, 2)]) (.add (h := []) .init
    ⟨fn2, [], [.inferior], .create _ _ (Option.some_get _).symm⟩ (Prod.ext rfl rfl))
    ⟨fn, [], [.equality], .create _ _ (Option.some_get _).symm⟩ (Prod.ext rfl rfl)))

theorem grhs1 : HI.RhsIs El [(con, 0), (con2, 1)] gap1 fun _ => [0] where
  el := by
    intro e he
    simp only [List.mem_cons, List.not_mem_nil, or_false] at he
    rcases he with rfl | rfl <;> rfl
  eq := by
    intro i l hi
    have h0 : i < 2 := lt_of_getElem?_some (l := gap1.levels) hi
    obtain rfl | rfl : i = 0 ∨ i = 1 := by omega
    · obtain rfl : (gap1.levels[0]?).get rfl = l := Option.some.inj ((Option.some_get _).trans hi)
      rfl
    · obtain rfl : (gap1.levels[1]?).get rfl = l := Option.some.inj ((Option.some_get _).trans hi)
      rfl

theorem grhs2 : HI.RhsIs El [(con2, 2), (con, 0)] gap2 fun _ => [0] where
  el := by
    intro e he
    simp only [List.mem_cons, List.not_mem_nil, or_false] at he
    rcases he with rfl | rfl <;> rfl
  eq := by
    intro i l hi
    have h0 : i < 3 := lt_of_getElem?_some (l := gap2.levels) hi
    obtain rfl | rfl | rfl : i = 0 ∨ i = 1 ∨ i = 2 := by omega
    · obtain rfl : (gap2.levels[0]?).get rfl = l := Option.some.inj ((Option.some_get _).trans hi)
      rfl
    · obtain rfl : (gap2.levels[1]?).get rfl = l := Option.some.inj ((Option.some_get _).trans hi)
      rfl
    · obtain rfl : (gap2.levels[2]?).get rfl = l := Option.some.inj ((Option.some_get _).trans hi)
      rfl

/-- Two and three levels: same result, from any configuration of a vector space, with the line search Backtracking and an optional last level. -/
example (o o' : SvdOps ℝ) (ho : o.Exact) (hor : o.Ortho) (ho' : o'.Exact) (hor' : o'.Ortho) (J0 J0' : (Nat → ℝ) → Jac ℝ)
    (q : Nat → ℝ) :
    gap1.levels.length = 2 ∧ gap2.levels.length = 3 ∧
    (solve (gap2.fullOps D o' J0' id (fun _ _ => 0) (fun q v i => q i + v i) lineBacktracking) gap2.sqThr (1 / 10 ^ 12)
      gap2.maxIter gap2.reducedDim q (fun _ => 0, ())).arg =
    (solve (gap1.fullOps D o J0 id (fun _ _ => 0) (fun q v i => q i + v i) lineBacktracking) gap1.sqThr (1 / 10 ^ 12)
      gap1.maxIter gap1.reducedDim q (fun _ => 0, ())).arg :=
  ⟨rfl, rfl, (C154_gaps gbuilt1 gbuilt2 (f := fun i => 2 * i) (fun _ _ h => by show 2 * _ < 2 * _; omega) rfl (.swap _ _ _)
    (by intro e he
        simp only [List.mem_cons, List.not_mem_nil, or_false] at he
        rcases he with rfl | rfl <;> exact vectorSpace_lawful 1)
    (by intro e he q
        simp only [List.mem_cons, List.not_mem_nil, or_false] at he
        rcases he with rfl | rfl <;> rfl)
    ⟨rfl, rfl, rfl, rfl, rfl, rfl⟩ grhs1 grhs2 ⟨(con, 0), by simp, rfl, rfl, by decide⟩ D ho hor ho' hor' J0 J0' id (fun _ _ => 0)
    (fun q v i => q i + v i) lineBacktracking (1 / 10 ^ 12) q (fun _ => 0) ()).1⟩

end GapEx

end Hpp
