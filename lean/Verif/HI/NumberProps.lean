import Verif.Solve.NumberProps
import Verif.HI.UnitProps

/-!
# C137, C139. The numbering of the configuration variables does not matter; symmetries

Sources: `/repo/include/hpp/constraints/solver/impl/hierarchical-iterative.hh`, lines 39-181 and
`/repo/src/solver/hierarchical-iterative.cc`, lines 364-407, 623-672, 694-719 and 744-828.
-/

namespace Hpp

open Matrix

variable {κ A A' S : Type}

/-- Specification: the same function of two descriptions of the configurations: `Q` relates the descriptions of the same configuration,
variable `k` of the velocities of the first description is variable `ev k` of the second one. -/
structure Fn.Converted (Q : (Nat → ℝ) → (Nat → ℝ) → Prop) (ev : Nat ≃ Nat) (f f' : Fn ℝ κ) : Prop where
  key : f'.key = f.key
  space : f'.space = f.space
  value : ∀ q q' : Nat → ℝ, Q q q' → f'.value q' = f.value q
  jac : ∀ q q' : Nat → ℝ, Q q q' → ∀ i k, f'.jac q' i (ev k) = f.jac q i k
  active : ∀ k, f'.active[ev k]? = some true ↔ f.active[k]? = some true

/-- Specification: the same configuration with other numbers for the variables -/
def SameUpTo (eq : Nat ≃ Nat) (q q' : Nat → ℝ) : Prop := ∀ k, q' (eq k) = q k

/-- Specification: the same constraint on that function: same comparison types, same mask. -/
structure Impl.Converted (Q : (Nat → ℝ) → (Nat → ℝ) → Prop) (ev : Nat ≃ Nat) (c c' : Impl ℝ κ) : Prop where
  fn : c.fn.Converted Q ev c'.fn
  comp : c'.comp = c.comp
  mask : c'.mask = c.mask

/-- Specification: the second solver has the parameters of the first one; its free variables are those of the first one, in the other
numbering. -/
structure HI.OptionsRenumbered (ev : Nat ≃ Nat) (s s' : HI ℝ κ) : Prop where
  free : ∀ k, ev k ∈ indices s'.free.segs ↔ k ∈ indices s.free.segs
  nodup : (indices s.free.segs).Nodup
  nodup' : (indices s'.free.segs).Nodup
  sqThr : s'.sqThr = s.sqThr
  ineqThr : s'.ineqThr = s.ineqThr
  maxIter : s'.maxIter = s.maxIter
  lastIsOptional : s'.lastIsOptional = s.lastIsOptional
  byLevel : s'.byLevel = s.byLevel

/-- The constraints of two solvers correspond to each other and have the same priorities. -/
def SameCons (P : Impl ℝ κ → Impl ℝ κ → Prop) : List (Impl ℝ κ × Nat) → List (Impl ℝ κ × Nat) → Prop :=
  List.Forall₂ fun e e' => P e.1 e'.1 ∧ e'.2 = e.2

section
variable {Q : (Nat → ℝ) → (Nat → ℝ) → Prop} {ev : Nat ≃ Nat}

/-- Correspondence between the free variables -/
theorem free_equiv {l l' : List Nat} (h : ∀ k, ev k ∈ l' ↔ k ∈ l) (hl : l.Nodup) (hl' : l'.Nodup) :
    ∃ e : Fin l.length ≃ Fin l'.length, ∀ j, l'.getD (e j) 0 = ev (l.getD j 0) := by
  refine ⟨(hl.getEquiv l).trans ((ev.subtypeEquiv fun a => (h a).symm).trans (hl'.getEquiv l').symm), fun j => ?_⟩
  set x := (ev.subtypeEquiv fun a => (h a).symm) (hl.getEquiv l j) with hx
  have h1 : (hl'.getEquiv l') ((hl'.getEquiv l').symm x) = x := Equiv.apply_symm_apply _ _
  have h2 := congrArg Subtype.val h1
  have h3 : x.1 = ev (l.get j) := rfl
  have g : ∀ (l : List Nat) (j : Fin l.length), l.getD j 0 = l.get j := fun l j => by
    rw [List.getD_eq_getElem?_getD, List.getElem?_eq_getElem j.2]; rfl
  rw [g, g, ← h3, ← h2]
  rfl

theorem atLevel_converted {P : Impl ℝ κ → Impl ℝ κ → Prop} {h h' : List (Impl ℝ κ × Nat)} (hc : SameCons P h h') (i : Nat) :
    List.Forall₂ P (atLevel h i) (atLevel h' i) := by
  unfold atLevel
  induction hc with
  | nil => exact .nil
  | @cons a b l l' hab _ ih =>
    rw [List.filter_cons, List.filter_cons]
    by_cases hi : a.2 = i
    · rw [if_pos (by simpa using hi), if_pos (by simpa [hab.2] using hi)]
      exact .cons hab.1 ih
    · rw [if_neg (by simpa using hi), if_neg (by simpa [hab.2] using hi)]
      exact ih

theorem dependsOnFree_converted {l l' : Segs} (h : ∀ k, ev k ∈ indices l' ↔ k ∈ indices l) {c c' : Impl ℝ κ} (hc : c.Converted Q ev c') :
    dependsOnFree l' c' = dependsOnFree l c := by
  unfold dependsOnFree
  rw [Bool.eq_iff_iff, List.any_eq_true, List.any_eq_true]
  constructor
  · rintro ⟨k', hk, ha⟩
    obtain ⟨k, rfl⟩ := ev.surjective k'
    exact ⟨k, (h k).1 hk, by simpa using (hc.fn.active k).1 (by simpa using ha)⟩
  · rintro ⟨k, hk, ha⟩
    exact ⟨ev k, (h k).2 hk, by simpa using (hc.fn.active k).2 (by simpa using ha)⟩

theorem conError_converted (thr : ℝ) {c c' : Impl ℝ κ} (hc : c.Converted Q ev c') {q q' : Nat → ℝ} (hq : Q q q')
    (r : List ℝ) : conError thr q' c' r = conError thr q c r := by
  unfold conError
  rw [hc.comp, hc.mask, hc.fn.space, hc.fn.value q q' hq]

variable {D : Space ℝ → List ℝ → List ℝ → Nat → Nat → ℝ}

theorem conRow_converted (thr : ℝ) {c c' : Impl ℝ κ} (hc : c.Converted Q ev c') {q q' : Nat → ℝ} (hq : Q q q')
    (rhs : List ℝ) (r k : Nat) : conRow thr D q' c' rhs r (ev k) = conRow thr D q c rhs r k := by
  unfold conRow
  rw [hc.comp, hc.fn.space, hc.fn.value q q' hq]
  simp only [hc.fn.jac q q' hq]

theorem conCost_converted {l l' : Segs} (h : ∀ k, ev k ∈ indices l' ↔ k ∈ indices l)
    {e : Fin (indices l).length ≃ Fin (indices l').length} (he : ∀ j, (indices l').getD (e j) 0 = ev ((indices l).getD j 0)) (thr : ℝ)
    {c c' : Impl ℝ κ} (hc : c.Converted Q ev c') {q q' : Nat → ℝ} (hq : Q q q') (rhs : List ℝ) (r : Nat)
    (x : Fin (indices l).length → ℝ) : conCost l' thr D q' (x ∘ e.symm) rhs c' r = conCost l thr D q x rhs c r := by
  unfold conCost
  rw [dependsOnFree_converted h hc, hc.mask, conError_converted thr hc hq]
  have : ∑ j : Fin (indices l').length, conRow thr D q' c' rhs r ((indices l').getD j 0) * (x ∘ e.symm) j =
      ∑ j : Fin (indices l).length, conRow thr D q c rhs r ((indices l).getD j 0) * x j := by
    rw [← Equiv.sum_comp e]
    refine Finset.sum_congr rfl fun j _ => ?_
    rw [he, conRow_converted thr hc hq]
    simp
  rw [this]

theorem foldl_forall₂ {β γ δ : Type} {P : β → γ → Prop} {f : δ → β → δ} {g : δ → γ → δ} (h : ∀ d b c, P b c → g d c = f d b)
    {l : List β} {l' : List γ} (hl : List.Forall₂ P l l') : ∀ d, l'.foldl g d = l.foldl f d := by
  induction hl with
  | nil => intro d; rfl
  | cons hab _ ih => intro d; rw [List.foldl_cons, List.foldl_cons, h _ _ _ hab, ih]

theorem sum_forall₂ {β γ : Type} {P : β → γ → Prop} {f : β → ℝ} {g : γ → ℝ} (h : ∀ b c, P b c → g c = f b)
    {l : List β} {l' : List γ} (hl : List.Forall₂ P l l') : (l'.map g).sum = (l.map f).sum := by
  induction hl with
  | nil => rfl
  | cons hab _ ih => rw [List.map_cons, List.map_cons, List.sum_cons, List.sum_cons, h _ _ hab, ih]

theorem flatMap_forall₂ {β γ : Type} {P : β → γ → Prop} {f : Nat → List β} {g : Nat → List γ} (h : ∀ i, List.Forall₂ P (f i) (g i)) :
    ∀ l : List Nat, List.Forall₂ P (l.flatMap f) (l.flatMap g)
  | [] => .nil
  | i :: l => by
    rw [List.flatMap_cons, List.flatMap_cons]
    exact List.rel_append (h i) (flatMap_forall₂ h l)

theorem levels_length_converted [DecidableEq κ] {P : Impl ℝ κ → Impl ℝ κ → Prop} {h h' : List (Impl ℝ κ × Nat)} {s s' : HI ℝ κ} (hs : HI.Inv h s) (hs' : HI.Inv h' s')
    (hc : SameCons P h h') : s'.levels.length = s.levels.length := by
  refine Nat.le_antisymm ?_ ?_
  · rcases hs'.nlev_min with h0 | ⟨e, he, hee⟩
    · omega
    · obtain ⟨i, hi⟩ := List.getElem?_of_mem he
      have hlt := (List.getElem?_eq_some_iff.1 hi).1
      have hlt' : i < h.length := by rw [hc.length_eq]; exact hlt
      have h2 := (List.forall₂_iff_get.1 hc).2 i hlt' hlt
      have := hs.nlev _ (List.getElem_mem hlt')
      have e1 : h'.get ⟨i, hlt⟩ = e := (List.getElem?_eq_some_iff.1 hi).2
      rw [e1] at h2
      have h3 : e.2 = (h[i]).2 := h2.2
      omega
  · rcases hs.nlev_min with h0 | ⟨e, he, hee⟩
    · omega
    · obtain ⟨i, hi⟩ := List.getElem?_of_mem he
      have hlt := (List.getElem?_eq_some_iff.1 hi).1
      have hlt' : i < h'.length := by rw [← hc.length_eq]; exact hlt
      have h2 := (List.forall₂_iff_get.1 hc).2 i hlt hlt'
      have := hs'.nlev _ (List.getElem_mem hlt')
      have e1 : h.get ⟨i, hlt⟩ = e := (List.getElem?_eq_some_iff.1 hi).2
      rw [e1] at h2
      have h3 : (h'[i]).2 = e.2 := h2.2
      omega

theorem sqNorm_converted [DecidableEq κ] {P : Impl ℝ κ → Impl ℝ κ → Prop} {El : Fn ℝ κ → List ℝ → Prop} {h h' : List (Impl ℝ κ × Nat)} {s s' : HI ℝ κ} {R : κ → List ℝ}
    (hs : HI.Inv h s) (hf : FnsOk El h) (hR : HI.RhsIs El h s R) (hs' : HI.Inv h' s') (hf' : FnsOk El h') (hR' : HI.RhsIs El h' s' R)
    (hc : SameCons P h h') (hne : s.lastIsOptional = true → s.levels ≠ []) (hi : s'.ineqThr = s.ineqThr)
    (ho : s'.lastIsOptional = s.lastIsOptional) {q q' : Nat → ℝ}
    (hq : ∀ c c', P c c' → c'.fn.key = c.fn.key ∧ ∀ r, conError s.ineqThr q' c' r = conError s.ineqThr q c r) :
    s'.sqNorm q' = s.sqNorm q := by
  have hlen := levels_length_converted hs hs' hc
  have hne' : s'.lastIsOptional = true → s'.levels ≠ [] := by
    rw [ho]
    intro h1 h2
    apply hne h1
    rw [h2] at hlen
    exact List.length_eq_zero_iff.1 hlen.symm
  rw [solver_sqNorm_eq hs hf hR hne, solver_sqNorm_eq hs' hf' hR' hne', hi]
  have hn : s'.nMandatory = s.nMandatory := by
    unfold HI.nMandatory
    rw [ho, hlen]
  rw [hn]
  congr 1
  refine foldl_forall₂ (P := P) (fun d b c hbc => ?_) (flatMap_forall₂ (fun i => atLevel_converted hc i) _) 0
  rw [(hq b c hbc).1, (hq b c hbc).2]

end

/-- Two solvers for the same constraints, with two descriptions of the configurations -/
theorem solve_converted [DecidableEq κ] {El : Fn ℝ κ → List ℝ → Prop} {Q : (Nat → ℝ) → (Nat → ℝ) → Prop} {ev : Nat ≃ Nat} {nv nv' : Nat} {h h' : List (Impl ℝ κ × Nat)}
    {s s' : HI ℝ κ} (hb : HI.Built El nv h s) (hb' : HI.Built El nv' h' s') (hc : SameCons (Impl.Converted Q ev) h h')
    (hl : ∀ e ∈ h, e.1.fn.space.Lawful (El e.1.fn)) (hv : ∀ e ∈ h, ∀ q, El e.1.fn (e.1.fn.value q))
    (hl' : ∀ e ∈ h', e.1.fn.space.Lawful (El e.1.fn)) (hv' : ∀ e ∈ h', ∀ q, El e.1.fn (e.1.fn.value q))
    (hopt : s.OptionsRenumbered ev s') {R : κ → List ℝ} (hR : HI.RhsIs El h s R) (hR' : HI.RhsIs El h' s' R)
    (hne : s.lastIsOptional = true → s.levels ≠ []) (D : Space ℝ → List ℝ → List ℝ → Nat → Nat → ℝ) {o o' : SvdOps ℝ}
    (ho : o.Exact) (hor : o.Ortho) (ho' : o'.Exact) (hor' : o'.Ortho) {φ : A → A'} (J0 : A → Jac ℝ) (J0' : A' → Jac ℝ)
    {conf : A → Nat → ℝ} {conf' : A' → Nat → ℝ} (hconf : ∀ q, Q (conf q) (conf' (φ q)))
    {sat : A → Nat → ℝ} {sat' : A' → Nat → ℝ} (hsat : ∀ q k, sat' (φ q) (ev k) = sat q k)
    {move : A → (Nat → ℝ) → A} {move' : A' → (Nat → ℝ) → A'} (hmove : ∀ q v, move' (φ q) v = φ (move q fun k => v (ev k)))
    {ls : LineSearch A S} {ls' : LineSearch A' S} (hls : LineSearch.SameFor φ ls ls') (dqMin : ℝ) (q : A) (dq dq' : Nat → ℝ)
    (hdq : ∀ k, dq' (ev k) = dq k) (st : S) :
    let r := solve (s.fullOps D o J0 conf sat move ls) s.sqThr dqMin s.maxIter s.reducedDim q (fun j => dq (hiFree s j), st)
    let r' := solve (s'.fullOps D o' J0' conf' sat' move' ls') s'.sqThr dqMin s'.maxIter s'.reducedDim (φ q)
      (fun j => dq' (hiFree s' j), st)
    r'.arg = φ r.arg ∧ r'.status = r.status ∧ r'.iter = r.iter := by
  obtain ⟨hs, hf, -⟩ := hb.inv hl hv
  obtain ⟨hs', hf', -⟩ := hb'.inv hl' hv'
  have hlen := levels_length_converted hs hs' hc
  obtain ⟨hfree, hnd, hnd', h1, h2, h3, h4, h5⟩ := hopt
  obtain ⟨e, he⟩ := free_equiv hfree hnd hnd'
  have hfr : ∀ j, hiFree s' (e j) = ev (hiFree s j) := he
  have hnorm : ∀ q, s'.sqNorm (conf' (φ q)) = s.sqNorm (conf q) :=
    fun q => sqNorm_converted hs hf hR hs' hf' hR' hc hne h2 h4
      fun c c' hcc => ⟨hcc.fn.key, conError_converted _ hcc (hconf q)⟩
  have hdim : s'.reducedDim = s.reducedDim := by
    rw [C23_reduced_dimension hb hl hv, C23_reduced_dimension hb' hl' hv']
    clear hb hb' hR hR' hs hs' hf hf' hl hl' hv hv'
    induction hc with
    | nil => rfl
    | cons hab _ ih =>
      rw [List.map_cons, List.map_cons, List.sum_cons, List.sum_cons, ih, dependsOnFree_converted hfree hab.1, hab.1.mask]
  have hlev : ∀ q, List.Forall₂ (DLevel.Renumbered e) (s.dLevels D J0 conf sat q) (s'.dLevels D J0' conf' sat' (φ q)) := by
    intro q
    refine forall₂_of_index _ _ ?_ ?_
    · unfold HI.dLevels
      rw [List.length_map, List.length_map]
      exact hlen.symm
    · intro i a b ha hb1
      unfold HI.dLevels at ha hb1
      rw [List.getElem?_map] at ha hb1
      obtain ⟨l, hl1, rfl⟩ := Option.map_eq_some_iff.1 ha
      obtain ⟨l', hl2, rfl⟩ := Option.map_eq_some_iff.1 hb1
      have hat := atLevel_converted hc i
      refine C137_saturation ⟨?_, fun x => ?_⟩ _ _ fun j => ?_
      · refine (dLevel_empty hb hl hv hl1 _ _).trans (Iff.trans ?_ (dLevel_empty hb' hl' hv' hl2 _ _).symm)
        clear hl1 hl2 ha hb1
        generalize atLevel h i = k at hat
        generalize atLevel h' i = k' at hat
        induction hat with
        | nil => simp
        | cons hab _ ih =>
          rw [List.forall_mem_cons, List.forall_mem_cons, ih, dependsOnFree_converted hfree hab, hab.mask]
      · refine (dLevel_cost hb' hl' hv' hR' hl2 _ _ _).trans (Eq.trans ?_ (dLevel_cost hb hl hv hR hl1 _ _ x).symm)
        refine sum_forall₂ (P := Impl.Converted Q ev) (fun c c' hcc => ?_) hat
        rw [hcc.fn.space, hcc.fn.key, h2]
        exact Finset.sum_congr rfl fun r _ => conCost_converted hfree he _ hcc (hconf q) _ _ _
      · rw [hfr, hsat]
  have hinj : ∀ {s : HI ℝ κ}, (indices s.free.segs).Nodup → Function.Injective (hiFree s) := by
    intro s hn j j' hjj
    unfold hiFree at hjj
    rw [List.getD_eq_getElem?_getD, List.getElem?_eq_getElem j.2, List.getD_eq_getElem?_getD, List.getElem?_eq_getElem j'.2] at hjj
    exact Fin.ext ((List.Nodup.getElem_inj_iff hn).1 hjj)
  have hexp : ∀ (v : Fin (indices s.free.segs).length → ℝ) k,
      expand (hiFree s') (v ∘ e.symm) (fun _ => 0) (ev k) = expand (hiFree s) v (fun _ => 0) k := by
    intro v k
    by_cases hk : ∃ j, hiFree s j = k
    · obtain ⟨j, rfl⟩ := hk
      rw [← hfr, expand_mem _ (hinj hnd'), expand_mem _ (hinj hnd)]
      simp
    · push Not at hk
      rw [expand_notMem _ _ _ _ hk, expand_notMem]
      intro j' hj'
      obtain ⟨j, rfl⟩ := e.surjective j'
      rw [hfr] at hj'
      exact hk j (ev.injective hj')
  have hmem : ((fun j => dq' (hiFree s' j), st) : (Fin (indices s'.free.segs).length → ℝ) × S) =
      (fun m : (Fin (indices s.free.segs).length → ℝ) × S => (m.1 ∘ e.symm, m.2)) (fun j => dq (hiFree s j), st) := by
    refine Prod.ext ?_ rfl
    funext j'
    obtain ⟨j, rfl⟩ := e.surjective j'
    show dq' (hiFree s' (e j)) = dq (hiFree s (e.symm (e j)))
    rw [hfr, hdq, Equiv.symm_apply_apply]
  intro r r'
  have key : r' = (fun r => ⟨φ r.arg, (r.mem.1 ∘ e.symm, r.mem.2), r.iter, r.status⟩ : SolveOut A _ → SolveOut A' _) r := by
    show solve (s'.fullOps D o' J0' conf' sat' move' ls') s'.sqThr dqMin s'.maxIter s'.reducedDim (φ q)
      (fun j => dq' (hiFree s' j), st) = _
    rw [hmem, h1, h3, hdim]
    refine C137_iterations φ (fun m : (Fin (indices s.free.segs).length → ℝ) × S => (m.1 ∘ e.symm, m.2)) ?_ ?_ ?_ _ _ _ _ _ _
    · intro a
      show (s'.sqNorm _).getD 0 = (s.sqNorm _).getD 0
      rw [hnorm]
    · intro a m
      have hdd : (descend o' s'.byLevel s'.sqThr (s'.dLevels D J0' conf' sat' (φ a)) (m.1 ∘ e.symm)).getD 0 =
          (descend o s.byLevel s.sqThr (s.dLevels D J0 conf sat a) m.1).getD 0 ∘ e.symm := by
        rw [h1, h5, C137_direction ho hor ho' hor' s.byLevel s.sqThr (hlev a) m.1]
        cases descend o s.byLevel s.sqThr (s.dLevels D J0 conf sat a) m.1 <;> rfl
      unfold HI.fullOps
      dsimp only
      rw [hdd]
      generalize (descend o s.byLevel s.sqThr (s.dLevels D J0 conf sat a) m.1).getD 0 = d
      refine Prod.ext rfl ?_
      show ∑ j, d (e.symm j) * d (e.symm j) = ∑ j, d j * d j
      exact Equiv.sum_comp e.symm fun j => d j * d j
    · intro a m
      obtain ⟨l1, l2⟩ := hls _ _ (fun v : Fin (indices s.free.segs).length → ℝ => v ∘ e.symm) (s.lsEnv conf move) (s'.lsEnv conf' move')
        (fun q u => localSlope (s.dLevels D J0 conf sat q) u) (fun q u => localSlope (s'.dLevels D J0' conf' sat' q) u)
        (fun q v => by
          show move' (φ q) _ = φ (move q _)
          rw [hmove]
          congr 2
          funext k
          exact hexp v k)
        (fun _ _ => rfl)
        (fun q => by
          show (s'.sqNorm _).getD 0 = (s.sqNorm _).getD 0
          rw [hnorm])
        (fun q v => C137_slope (hlev q) v) m.2 a m.1
      exact Prod.ext l2 (Prod.ext rfl l1)
  rw [key]
  exact ⟨rfl, rfl, rfl⟩

/-- C137. Two solvers into which the same constraints have been inserted with the same priorities, on variables that are numbered in
two ways, with the same parameters and the same right hand sides, return the same configuration (`φ` converts from the
first numbering to the second one) and the same status after the same number of iterations.  With saturation, optional level and
`solveLevelByLevel` or not, whatever the matrices of the levels held, and with the line searches of `C137_line_searches`. -/
theorem C137_numbering [DecidableEq κ] {El : Fn ℝ κ → List ℝ → Prop} {eq ev : Nat ≃ Nat} {nv nv' : Nat} {h h' : List (Impl ℝ κ × Nat)}
    {s s' : HI ℝ κ} (hb : HI.Built El nv h s) (hb' : HI.Built El nv' h' s') (hc : SameCons (Impl.Converted (SameUpTo eq) ev) h h')
    (hl : ∀ e ∈ h, e.1.fn.space.Lawful (El e.1.fn)) (hv : ∀ e ∈ h, ∀ q, El e.1.fn (e.1.fn.value q))
    (hl' : ∀ e ∈ h', e.1.fn.space.Lawful (El e.1.fn)) (hv' : ∀ e ∈ h', ∀ q, El e.1.fn (e.1.fn.value q))
    (hopt : s.OptionsRenumbered ev s') {R : κ → List ℝ} (hR : HI.RhsIs El h s R) (hR' : HI.RhsIs El h' s' R)
    (hne : s.lastIsOptional = true → s.levels ≠ []) (D : Space ℝ → List ℝ → List ℝ → Nat → Nat → ℝ) {o o' : SvdOps ℝ}
    (ho : o.Exact) (hor : o.Ortho) (ho' : o'.Exact) (hor' : o'.Ortho) {φ : A → A'} (J0 : A → Jac ℝ) (J0' : A' → Jac ℝ)
    {conf : A → Nat → ℝ} {conf' : A' → Nat → ℝ} (hconf : ∀ q k, conf' (φ q) (eq k) = conf q k)
    {sat : A → Nat → ℝ} {sat' : A' → Nat → ℝ} (hsat : ∀ q k, sat' (φ q) (ev k) = sat q k)
    {move : A → (Nat → ℝ) → A} {move' : A' → (Nat → ℝ) → A'} (hmove : ∀ q v, move' (φ q) v = φ (move q fun k => v (ev k)))
    {ls : LineSearch A S} {ls' : LineSearch A' S} (hls : LineSearch.SameFor φ ls ls') (dqMin : ℝ) (q : A) (dq dq' : Nat → ℝ)
    (hdq : ∀ k, dq' (ev k) = dq k) (st : S) :
    let r := solve (s.fullOps D o J0 conf sat move ls) s.sqThr dqMin s.maxIter s.reducedDim q (fun j => dq (hiFree s j), st)
    let r' := solve (s'.fullOps D o' J0' conf' sat' move' ls') s'.sqThr dqMin s'.maxIter s'.reducedDim (φ q)
      (fun j => dq' (hiFree s' j), st)
    r'.arg = φ r.arg ∧ r'.status = r.status ∧ r'.iter = r.iter :=
  solve_converted hb hb' hc hl hv hl' hv' hopt hR hR' hne D ho hor ho' hor' J0 J0' (fun q k => hconf q k) hsat hmove hls dqMin q dq dq' hdq st

/-- C139. A transformation `φ` of the configurations (for instance a displacement of the robot as a whole) that changes neither the values
nor the Jacobians of the constraints, and that commutes with the integration of velocities, commutes with `solve`: from the transformed
configuration the solver returns the transformed result and the same status after the same number of iterations. -/
theorem C139_symmetry [DecidableEq κ] {El : Fn ℝ κ → List ℝ → Prop} {nv : Nat} {h : List (Impl ℝ κ × Nat)} {s : HI ℝ κ}
    (hb : HI.Built El nv h s) (hl : ∀ e ∈ h, e.1.fn.space.Lawful (El e.1.fn)) (hv : ∀ e ∈ h, ∀ q, El e.1.fn (e.1.fn.value q))
    (hfree : (indices s.free.segs).Nodup) {R : κ → List ℝ} (hR : HI.RhsIs El h s R) (hne : s.lastIsOptional = true → s.levels ≠ [])
    (D : Space ℝ → List ℝ → List ℝ → Nat → Nat → ℝ) {o : SvdOps ℝ} (ho : o.Exact) (hor : o.Ortho) {φ : A → A} (J0 : A → Jac ℝ)
    {conf : A → Nat → ℝ} (hval : ∀ e ∈ h, ∀ q, e.1.fn.value (conf (φ q)) = e.1.fn.value (conf q))
    (hjac : ∀ e ∈ h, ∀ q, e.1.fn.jac (conf (φ q)) = e.1.fn.jac (conf q))
    {sat : A → Nat → ℝ} (hsat : ∀ q, sat (φ q) = sat q) {move : A → (Nat → ℝ) → A} (hmove : ∀ q v, move (φ q) v = φ (move q v))
    {ls : LineSearch A S} (hls : LineSearch.SameFor φ ls ls) (dqMin : ℝ) (q : A) (dq : Nat → ℝ) (st : S) :
    let solveFrom := fun q => solve (s.fullOps D o J0 conf sat move ls) s.sqThr dqMin s.maxIter s.reducedDim q
      (fun j => dq (hiFree s j), st)
    (solveFrom (φ q)).arg = φ (solveFrom q).arg ∧ (solveFrom (φ q)).status = (solveFrom q).status ∧
      (solveFrom (φ q)).iter = (solveFrom q).iter := by
  have hc : SameCons (Impl.Converted (fun c c' => ∃ q, c = conf q ∧ c' = conf (φ q)) (Equiv.refl Nat)) h h := by
    refine List.forall₂_same.2 fun e he => ⟨⟨⟨rfl, rfl, ?_, ?_, fun _ => Iff.rfl⟩, rfl, rfl⟩, rfl⟩
    · rintro _ _ ⟨q, rfl, rfl⟩
      exact hval e he q
    · rintro _ _ ⟨q, rfl, rfl⟩ i k
      exact congrFun (congrFun (hjac e he q) i) k
  exact solve_converted hb hb hc hl hv hl hv ⟨fun _ => Iff.rfl, hfree, hfree, rfl, rfl, rfl, rfl, rfl⟩ hR hR hne D ho hor ho hor J0 J0
    (fun q => ⟨q, rfl, rfl⟩) (fun q k => congrFun (hsat q) k) hmove hls dqMin q dq dq (fun _ => rfl) st

namespace NumberEx
open HINewtonEx OrderEx

/-- Variable 0 becomes variable 2: the constraints are those of a robot with one more joint, in front. -/
def ren : Nat ≃ Nat := Equiv.swap 0 2

/-- `q ↦ q₁² - q₂` -/
noncomputable def fn' : Fn ℝ Nat where
  key := 0
  inputSize := 3
  inputDer := 3
  spaceId := 1
  space := vectorSpace ℝ 1
  value q := [q 1 ^ 2 - q 2]
  jac q := fun _ k => if k = 2 then -1 else if k = 1 then 2 * q 1 else 0
  activeQ := [false, true, true]
  active := [false, true, true]

/-- `q ↦ q₂ + q₁` -/
noncomputable def fn2' : Fn ℝ Nat where
  key := 1
  inputSize := 3
  inputDer := 3
  spaceId := 1
  space := vectorSpace ℝ 1
  value q := [q 2 + q 1]
  jac _ := fun _ k => if k = 1 ∨ k = 2 then 1 else 0
  activeQ := [false, true, true]
  active := [false, true, true]

noncomputable def con' : Impl ℝ Nat := (Impl.create fn' [.equality] []).get rfl
noncomputable def con2' : Impl ℝ Nat := (Impl.create fn2' [.inferior] []).get rfl

noncomputable def sol1' : HI ℝ Nat :=
  { (((HI.init ℝ Nat 3).add con' 0).1.add con2' 0).1.setFreeIndices (Blocks.empty.add 1 2) with
    sqThr := 1 / 10 ^ 8, ineqThr := 0, maxIter := 20, lastIsOptional := false, byLevel := false }

theorem built1' : HI.Built El 3 [(con', 0), (con2', 0)] sol1' :=
  .params _ _ _ _ _ (.free (.add (h := [(con', 0)]) (.add (h := []) .init
    ⟨fn', [], [.equality], .create _ _ (Option.some_get _).symm⟩ (Prod.ext rfl rfl))
    ⟨fn2', [], [.inferior], .create _ _ (Option.some_get _).symm⟩ (Prod.ext rfl rfl)))

theorem rhs1' : HI.RhsIs El [(con', 0), (con2', 0)] sol1' fun _ => [0] where
  el := by
    intro e he
    simp only [List.mem_cons, List.not_mem_nil, or_false] at he
    rcases he with rfl | rfl <;> rfl
  eq := by
    intro i l hi
    have h0 : i < 1 := lt_of_getElem?_some (l := sol1'.levels) hi
    obtain rfl : i = 0 := by omega
    obtain rfl : (sol1'.levels[0]?).get rfl = l := Option.some.inj ((Option.some_get _).trans hi)
    rfl

theorem ren_cases (k : Nat) : (k = 0 ∧ ren k = 2) ∨ (k = 1 ∧ ren k = 1) ∨ (k = 2 ∧ ren k = 0) ∨ (3 ≤ k ∧ ren k = k) := by
  unfold ren
  by_cases h0 : k = 0
  · subst h0; exact Or.inl ⟨rfl, Equiv.swap_apply_left 0 2⟩
  · by_cases h2 : k = 2
    · subst h2; exact Or.inr (Or.inr (Or.inl ⟨rfl, Equiv.swap_apply_right 0 2⟩))
    · have := Equiv.swap_apply_of_ne_of_ne h0 h2
      rw [this]
      omega

theorem ren_fn : fn.Converted (SameUpTo ren) ren fn' where
  key := rfl
  space := rfl
  value q q' h := by
    have h0 : q' 2 = q 0 := h 0
    have h1 : q' 1 = q 1 := h 1
    show [q' 1 ^ 2 - q' 2] = [q 1 ^ 2 - q 0]
    rw [h0, h1]
  jac q q' h i k := by
    have h1 : q' 1 = q 1 := h 1
    show (if ren k = 2 then -1 else if ren k = 1 then 2 * q' 1 else 0) = if k = 0 then (-1 : ℝ) else if k = 1 then 2 * q 1 else 0
    rcases ren_cases k with ⟨rfl, e⟩ | ⟨rfl, e⟩ | ⟨rfl, e⟩ | ⟨hk, e⟩ <;> rw [e]
    · simp
    · simp [h1]
    · simp
    · rw [if_neg (by omega), if_neg (by omega), if_neg (by omega), if_neg (by omega)]
  active k := by
    show [false, true, true][ren k]? = _ ↔ [true, true][k]? = _
    rcases ren_cases k with ⟨rfl, e⟩ | ⟨rfl, e⟩ | ⟨rfl, e⟩ | ⟨hk, e⟩ <;> rw [e]
    · simp
    · simp
    · simp
    · rw [List.getElem?_eq_none (by simpa using hk), List.getElem?_eq_none (by simp; omega)]

theorem ren_fn2 : fn2.Converted (SameUpTo ren) ren fn2' where
  key := rfl
  space := rfl
  value q q' h := by
    have h0 : q' 2 = q 0 := h 0
    have h1 : q' 1 = q 1 := h 1
    show [q' 2 + q' 1] = [q 0 + q 1]
    rw [h0, h1]
  jac q q' h i k := by
    show (if ren k = 1 ∨ ren k = 2 then 1 else 0) = if k < 2 then (1 : ℝ) else 0
    rcases ren_cases k with ⟨rfl, e⟩ | ⟨rfl, e⟩ | ⟨rfl, e⟩ | ⟨hk, e⟩ <;> rw [e]
    · simp
    · simp
    · simp
    · rw [if_neg (by omega), if_neg (by omega)]
  active k := ren_fn.active k

theorem law1 {e : Impl ℝ Nat × Nat} (he : e ∈ [(con, 0), (con2, 0)] ∨ e ∈ [(con', 0), (con2', 0)]) :
    e.1.fn.space.Lawful (El e.1.fn) ∧ ∀ q, El e.1.fn (e.1.fn.value q) := by
  simp only [List.mem_cons, List.not_mem_nil, or_false] at he
  rcases he with (rfl | rfl) | rfl | rfl <;> exact ⟨vectorSpace_lawful 1, fun q => rfl⟩

/-- Both numberings give the same result with backtracking, from any configuration. -/
example (o o' : SvdOps ℝ) (ho : o.Exact) (hor : o.Ortho) (ho' : o'.Exact) (hor' : o'.Ortho) (J0 J0' : (Nat → ℝ) → Jac ℝ)
    (q : Nat → ℝ) :
    (solve (sol1'.fullOps D o' J0' id (fun _ _ => 0) (fun q v i => q i + v i) lineBacktracking) sol1'.sqThr (1 / 10 ^ 12)
      sol1'.maxIter sol1'.reducedDim (fun k => q (ren k)) (fun _ => 0, ())).arg =
    fun k => (solve (sol1.fullOps D o J0 id (fun _ _ => 0) (fun q v i => q i + v i) lineBacktracking) sol1.sqThr (1 / 10 ^ 12)
      sol1.maxIter sol1.reducedDim q (fun _ => 0, ())).arg (ren k) := by
  have hinv : ∀ k, ren (ren k) = k := fun k => Equiv.swap_apply_self 0 2 k
  exact (C137_numbering (eq := ren) (ev := ren) (φ := fun (q : Nat → ℝ) k => q (ren k)) built1 built1'
    (.cons ⟨⟨ren_fn, rfl, rfl⟩, rfl⟩ (.cons ⟨⟨ren_fn2, rfl, rfl⟩, rfl⟩ .nil))
    (fun e he => (law1 (Or.inl he)).1) (fun e he => (law1 (Or.inl he)).2) (fun e he => (law1 (Or.inr he)).1) (fun e he => (law1 (Or.inr he)).2)
    ⟨fun k => by
      show ren k ∈ [1, 2] ↔ k ∈ [0, 1]
      rcases ren_cases k with ⟨rfl, e⟩ | ⟨rfl, e⟩ | ⟨rfl, e⟩ | ⟨hk, e⟩ <;> rw [e]
      · simp
      · simp
      · simp
      · simp; omega, (by decide : [0, 1].Nodup), (by decide : [1, 2].Nodup), rfl, rfl, rfl, rfl, rfl⟩
    rhs1 rhs1' (fun h => by cases h) D ho hor ho' hor' J0 J0' (conf := id) (conf' := id)
    (fun q k => by show q (ren (ren k)) = q k; rw [hinv]) (sat := fun _ _ => 0) (sat' := fun _ _ => 0) (fun _ _ => rfl)
    (move := fun q v i => q i + v i) (move' := fun q v i => q i + v i)
    (fun q v => by funext k; show q (ren k) + v k = q (ren k) + v (ren (ren k)); rw [hinv])
    (C137_line_searches _ 1).2.1 (1 / 10 ^ 12) q (fun _ => 0) (fun _ => 0) (fun _ => rfl) ()).1

/-- The same constraints when variable 0, on which they do not depend (position of the root), is free too -/
noncomputable def sol3 : HI ℝ Nat :=
  { (((HI.init ℝ Nat 3).add con' 0).1.add con2' 0).1.setFreeIndices (Blocks.empty.add 0 3) with
    sqThr := 1 / 10 ^ 8, ineqThr := 0, maxIter := 20, lastIsOptional := false, byLevel := false }

theorem built3 : HI.Built El 3 [(con', 0), (con2', 0)] sol3 :=
  .params _ _ _ _ _ (.free (.add (h := [(con', 0)]) (.add (h := []) .init
    ⟨fn', [], [.equality], .create _ _ (Option.some_get _).symm⟩ (Prod.ext rfl rfl))
    ⟨fn2', [], [.inferior], .create _ _ (Option.some_get _).symm⟩ (Prod.ext rfl rfl)))

theorem rhs3 : HI.RhsIs El [(con', 0), (con2', 0)] sol3 fun _ => [0] where
  el := rhs1'.el
  eq := by
    intro i l hi
    have h0 : i < 1 := lt_of_getElem?_some (l := sol3.levels) hi
    obtain rfl : i = 0 := by omega
    obtain rfl : (sol3.levels[0]?).get rfl = l := Option.some.inj ((Option.some_get _).trans hi)
    rfl

/-- From a configuration with the root moved by `a`, the solver returns the same result with the root moved by `a`. -/
example (o : SvdOps ℝ) (ho : o.Exact) (hor : o.Ortho) (J0 : (Nat → ℝ) → Jac ℝ) (q : Nat → ℝ) (a : ℝ) :
    let solveFrom := fun q => solve (sol3.fullOps D o J0 id (fun _ _ => 0) (fun q v i => q i + v i) lineBacktracking) sol3.sqThr
      (1 / 10 ^ 12) sol3.maxIter sol3.reducedDim q (fun _ => 0, ())
    (solveFrom fun k => q k + if k = 0 then a else 0).arg = fun k => (solveFrom q).arg k + if k = 0 then a else 0 :=
  (C139_symmetry (φ := fun (q : Nat → ℝ) k => q k + if k = 0 then a else 0) built3
    (fun e he => (law1 (Or.inr he)).1) (fun e he => (law1 (Or.inr he)).2) (by decide : [0, 1, 2].Nodup) rhs3 (fun h => by cases h) D
    ho hor J0 (conf := id)
    (fun e he q => by
      simp only [List.mem_cons, List.not_mem_nil, or_false] at he
      rcases he with rfl | rfl
      · show [(q 1 + if (1 : Nat) = 0 then a else 0) ^ 2 - (q 2 + if (2 : Nat) = 0 then a else 0)] = [q 1 ^ 2 - q 2]
        norm_num
      · show [(q 2 + if (2 : Nat) = 0 then a else 0) + (q 1 + if (1 : Nat) = 0 then a else 0)] = [q 2 + q 1]
        norm_num)
    (fun e he q => by
      simp only [List.mem_cons, List.not_mem_nil, or_false] at he
      rcases he with rfl | rfl
      · funext _ k
        show (if k = 2 then -1 else if k = 1 then 2 * (q 1 + if (1 : Nat) = 0 then a else 0) else 0) =
          if k = 2 then (-1 : ℝ) else if k = 1 then 2 * q 1 else 0
        norm_num
      · rfl)
    (sat := fun _ _ => 0) (fun _ => rfl) (move := fun q v i => q i + v i) (fun q v => by funext k; exact add_right_comm _ _ _)
    (C137_line_searches _ 1).2.1 (1 / 10 ^ 12) q (fun _ => 0) ()).1

end NumberEx

end Hpp
