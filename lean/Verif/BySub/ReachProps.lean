import Verif.BySub.BlockProps
import Verif.BySub.LoopProps
import Verif.HI.ReachProps
import Verif.BySub.JacobianProps
import Verif.BySub.NoExplicit

/-!
# C147: variables that the solver by substitution cannot move

Variables that are not free are left unchanged, and so are the outputs of the explicit constraints whose inputs are, directly or
through other explicit constraints, variables that are not free.
-/

namespace Hpp

open Matrix

variable {κ S A M : Type}

/-- Specification: the variables whose value is determined by those of `fixed`, through the explicit constraints. -/
inductive VarDetermined {α : Type} (cs : List (ECon α κ)) (fixed : Nat → Prop) : Nat → Prop
  | base {i : Nat} : fixed i → (∀ c ∈ cs, ¬ Writes c i) → VarDetermined cs fixed i
  | out {i : Nat} (c : ECon α κ) : c ∈ cs → Writes c i → (∀ x, Reads c x → VarDetermined cs fixed x) → VarDetermined cs fixed i

/-- C147. The explicit constraints: two configurations with the same values of `fixed`. -/
theorem C147_explicit {α : Type} [Zero α] [DecidableEq κ] {nq nv : Nat} {s : ECS α κ} (h : ECS.Built nq nv s)
    (hw : ∀ c ∈ s.cons, WellFormed nq nv c) (hcoh : AllCoherent s.cons) (hl : ∀ d ∈ s.data, d.OutLen) (fixed : Nat → Prop)
    (q q' : Nat → α) (hq : ∀ i, fixed i → (∀ c ∈ s.cons, ¬ Writes c i) → q i = q' i) (i : Nat)
    (hi : VarDetermined s.cons fixed i) : s.solve q i = s.solve q' i := by
  have h1 := ((C13_solve h hw hcoh hl q _).1 rfl).1
  have h2 := ((C13_solve h hw hcoh hl q' _).1 rfl).1
  induction hi with
  | base hf hn => rw [Inv.solve_other q _ hn, Inv.solve_other q' _ hn, hq _ hf hn]
  | out c hc hwr _ ih =>
    obtain ⟨d, hd, rfl⟩ := List.mem_map.1 hc
    have g1 := h1 d hd
    have g2 := h2 d hd
    unfold EData.Holds at g1 g2
    rw [rview_congr (q' := s.solve q') fun x hx => ih x ((mem_indices _ _).1 hx), ← g2] at g1
    exact rview_inj g1 _ ((mem_indices _ _).2 hwr)

section
variable {α : Type} [Field α] [LinearOrder α]

theorem bsEnd_inv (G : A → Prop) (opt : Bool) (init : Option (A × α)) (hi : ∀ p, init = some p → G p.1) (s : BsSt A M α)
    (h1 : G s.arg) (h2 : ∀ x, s.qopt = some x → G x) : G (bsEnd opt init s).arg := by
  unfold bsEnd
  split
  · rename_i a0 n0
    show G (if _ then _ else _)
    split
    · exact hi _ rfl
    · exact h1
  · show G (s.qopt.getD s.arg)
    cases hq : s.qopt with
    | none => exact h1
    | some x => exact h2 x hq
  · exact h1

theorem bsLoop_inv (o : BsOps A M α) (G : A → Prop) (hG : ∀ a m, G a → G (o.expl (o.search a m).1).1) (thr dqMin : α)
    (opt : Bool) (init : Option (A × α)) (hi : ∀ p, init = some p → G p.1) : ∀ (left : Nat) (s : BsSt A M α), G s.arg →
    (∀ x, s.qopt = some x → G x) → (bsLoop o thr dqMin opt init left s).undef = false →
    G (bsLoop o thr dqMin opt init left s).arg := by
  intro left
  induction left with
  | zero =>
    intro s h1 h2 _
    unfold bsLoop
    split
    · exact bsEnd_inv G opt init hi _ h1 h2
    · exact bsEnd_inv G opt init hi _ h1 h2
  | succ left ih =>
    intro s h1 h2
    unfold bsLoop
    dsimp only
    split
    · generalize (if opt = true then o.scale s.scaling (if s.only = true then s.mem else o.dir s.arg s.mem) else
        if s.only = true then s.mem else o.dir s.arg s.mem) = m
      generalize (if s.only = true then s.prev else s.n) = prev
      split
      · exact fun _ => bsEnd_inv G opt init hi _ h1 h2
      · have hstep : ∀ s', bsStep o thr opt s prev m = .inl s' → G s'.arg ∧ ∀ x, s'.qopt = some x → G x := by
          intro s' hs'
          have g := hG s.arg m h1
          unfold bsStep at hs'
          rcases hse : o.search s.arg m with ⟨a1, m1, b1⟩
          rw [hse] at hs' g
          cases b1 with
          | false => cases hs'
          | true =>
            dsimp only at hs' g
            rcases hex : o.expl a1 with ⟨a2, b2⟩
            rw [hex] at hs' g
            cases b2 with
            | false => cases hs'
            | true =>
              dsimp only at hs' g
              rw [Sum.inl.injEq] at hs'
              subst hs'
              split
              · split
                · refine ⟨?_, h2⟩
                  show G (s.qopt.getD a2)
                  cases hq : s.qopt with
                  | none => exact g
                  | some x => exact h2 x hq
                · split
                  · exact ⟨g, fun x hx => by cases hx; exact g⟩
                  · exact ⟨g, h2⟩
              · exact ⟨g, h2⟩
        cases hb : bsStep o thr opt s prev m with
        | inl s' => exact ih s' (hstep s' hb).1 (hstep s' hb).2
        | inr p => intro hu; cases hu
    · exact fun _ => bsEnd_inv G opt init hi _ h1 h2

/-- What each iteration keeps, `solve` keeps, in both modes. -/
theorem bsSolve_inv (o : BsOps A M α) (G : A → Prop) (a : A) (m : M) (h0 : G (o.expl a).1)
    (hG : ∀ a m, G a → G (o.expl (o.search a m).1).1) (thr dqMin : α) (maxIter rd : Nat) (w l : Bool)
    (hu : (bsSolve o thr dqMin maxIter rd w l a m).undef = false) : G (bsSolve o thr dqMin maxIter rd w l a m).arg := by
  revert hu
  unfold bsSolve
  dsimp only
  rcases hex : o.expl a with ⟨a0, b⟩
  rw [hex] at h0
  cases b with
  | false => intro hu; cases hu
  | true =>
    dsimp only
    split
    · exact fun _ => h0
    · refine bsLoop_inv o G hG thr dqMin _ _ (fun p hp => ?_) _ _ h0 fun x hx => ?_
      · split at hp
        · cases hp; exact h0
        · cases hp
      · change (if _ then some a0 else none) = some x at hx
        split at hx
        · cases hx; exact h0
        · cases hx

end

/-- Specification: the line search returns a configuration obtained by integration from the current one. -/
def BsLineSearch.Integrates (ls : BsLineSearch S) : Prop :=
  ∀ (V : Type) (env : LsEnv (Nat → ℝ) V ℝ) (slope : (Nat → ℝ) → V → ℝ) (st : S) (q : Nat → ℝ) (u : V),
    ∃ v, (ls V env slope st q u).1.2.arg = env.integrate q v

/-- C147. The line searches of the library do. -/
theorem C147_line_searches (thr : ℝ) :
    (LineSearch.total (lineConstant : LineSearch (Nat → ℝ) Unit)).Integrates ∧
    (LineSearch.total (lineBacktracking : LineSearch (Nat → ℝ) Unit)).Integrates ∧
    (LineSearch.total (lineFixedSequence : LineSearch (Nat → ℝ) (FixedSeq ℝ))).Integrates ∧
    (LineSearch.total (lineErrorNormBased thr : LineSearch (Nat → ℝ) ErrNormBased)).Integrates :=
  ⟨(C129_line_searches thr).1, (C129_line_searches thr).2.1, (C129_line_searches thr).2.2.1, (C129_line_searches thr).2.2.2⟩

section
variable [DecidableEq κ] {El : Space ℝ → List ℝ → Prop} {nq nv : Nat} {h : BHist ℝ κ} {s : BS ℝ κ}

/-- C147. Variables `fixed` that no integration of velocities of the free variables changes (`move` is the integration followed by
saturation), and those that they determine through the explicit constraints, have after `solve`, in both modes, the value
given by the explicit constraints at the initial configuration. -/
theorem C147_kept (hb : BS.Built El nq nv h s) (hw : ∀ c ∈ s.ex.cons, WellFormed nq nv c) (hcoh : AllCoherent s.ex.cons)
    (hol : ∀ d ∈ s.ex.data, d.OutLen) (fixed : Nat → Prop)
    (D : Space ℝ → List ℝ → List ℝ → Nat → Nat → ℝ) (o : SvdOps ℝ) (J0 : (Nat → ℝ) → Jac ℝ) (dom : (Nat → ℝ) → Bool)
    (sat : (Nat → ℝ) → Nat → ℝ) (move : (Nat → ℝ) → (Nat → ℝ) → Nat → ℝ)
    (hmove : ∀ q v : Nat → ℝ, (∀ k, ¬ Covers s.hi.free.segs k → v k = 0) → ∀ i, fixed i → move q v i = q i)
    (ls : BsLineSearch S) (hls : ls.Integrates) (thr dqMin : ℝ) (maxIter rd : Nat) (w l : Bool) (q : Nat → ℝ)
    (m : (Fin (indices s.hi.free.segs).length → ℝ) × (Fin (indices s.hi.free.segs).length → ℝ) × S) :
    let r := bsSolve (s.fullOps D o J0 dom sat move ls) thr dqMin maxIter rd w l q m
    r.undef = false → ∀ i, VarDetermined s.ex.cons fixed i → r.arg i = s.ex.solve q i := by
  intro r hu
  obtain ⟨-, he, -⟩ := hb.parts
  refine bsSolve_inv (s.fullOps D o J0 dom sat move ls)
    (fun p => ∀ i, VarDetermined s.ex.cons fixed i → p i = s.ex.solve q i) q m (fun i _ => rfl) ?_ _ _ _ _ _ _ hu
  intro p u hp i hi
  obtain ⟨v, hv⟩ := hls _ (s.lsEnv move) (fun q u => localSlope (s.dLevels D J0 sat q) u) u.2.2 p u.2.1
  show s.ex.solve (ls _ (s.lsEnv move) (fun q u => localSlope (s.dLevels D J0 sat q) u) u.2.2 p u.2.1).1.2.arg i = _
  rw [hv]
  refine C147_explicit he hw hcoh hol fixed _ q (fun k hk hn => ?_) i hi
  show s.ex.solve (move p (expand (hiFree s.hi) v fun _ => 0)) k = q k
  rw [Inv.solve_other _ k hn, hmove _ _ (fun k hk => expand_not_free _ _ _ fun j hj => hk ?_) k hk,
    hp k (.base hk hn), Inv.solve_other _ k hn]
  rw [← mem_indices, ← hj]
  unfold hiFree
  rw [List.getD_eq_getElem?_getD, List.getElem?_eq_getElem j.2, Option.getD_some]
  exact List.getElem_mem j.2

/-- C147. A mandatory implicit constraint that only reads such variables, and which is not satisfied once the explicit constraints
are solved: `solve` does not return SUCCESS. -/
theorem C147_never (hb : BS.Built El nq nv h s) (hl : BHist.Lawful El h) (hw : ∀ c ∈ s.ex.cons, WellFormed nq nv c)
    (hcoh : AllCoherent s.ex.cons) (hol : ∀ d ∈ s.ex.data, d.OutLen) {R : κ → List ℝ}
    (hR : HI.RhsIs (fun f => El f.space) (implOf h) s.hi R) (hne : s.hi.lastIsOptional = true → s.hi.levels ≠ [])
    {e : Impl ℝ κ × Nat} (he : e ∈ implOf h) (hm : IsMandatory s.hi e) (fixed : Nat → Prop)
    (hread : ∀ q q' : Nat → ℝ, (∀ i, VarDetermined s.ex.cons fixed i → q i = q' i) → e.1.fn.value q = e.1.fn.value q')
    (D : Space ℝ → List ℝ → List ℝ → Nat → Nat → ℝ) (o : SvdOps ℝ) (J0 : (Nat → ℝ) → Jac ℝ) (dom : (Nat → ℝ) → Bool)
    (sat : (Nat → ℝ) → Nat → ℝ) (move : (Nat → ℝ) → (Nat → ℝ) → Nat → ℝ)
    (hmove : ∀ q v : Nat → ℝ, (∀ k, ¬ Covers s.hi.free.segs k → v k = 0) → ∀ i, fixed i → move q v i = q i)
    (ls : BsLineSearch S) (hls : ls.Integrates) (dqMin : ℝ) (w : Bool) (q : Nat → ℝ)
    (m : (Fin (indices s.hi.free.segs).length → ℝ) × (Fin (indices s.hi.free.segs).length → ℝ) × S)
    (hun : s.hi.sqThr < sqSum (conError s.hi.ineqThr (s.ex.solve q) e.1 (R e.1.fn.key))) :
    (bsSolve (s.fullOps D o J0 dom sat move ls) s.hi.sqThr dqMin s.hi.maxIter s.reducedDim w s.hi.lastIsOptional q m).status ≠
      .success := by
  intro hsuc
  obtain ⟨l1, l2⟩ := hl.impl
  obtain ⟨hb1, hb2, -⟩ := hb.parts
  obtain ⟨hs, hf, -⟩ := hb1.inv l1 l2
  set ops := s.fullOps D o J0 dom sat move ls with hops
  have hnorm : ∀ q, s.hi.sqNorm q = some (ops.norm q) := by
    intro q
    show s.hi.sqNorm q = some ((s.hi.sqNorm q).getD 0)
    rw [solver_sqNorm_eq hs hf hR hne]
    rfl
  have hu := (C37_success ops s.hi.sqThr dqMin s.hi.maxIter s.reducedDim w s.hi.lastIsOptional q m hsuc).1
  have hk := C147_kept hb hw hcoh hol fixed D o J0 dom sat move hmove ls hls s.hi.sqThr dqMin s.hi.maxIter s.reducedDim w
    s.hi.lastIsOptional q m hu
  obtain ⟨-, h3⟩ := C37_success_all hb2 hw hcoh hol hb1 l1 l2 hne ops hnorm
    (fun q q' hq => by rw [show ops.expl q = (s.ex.solve q, dom q) from rfl] at hq; exact (Prod.mk.inj hq).1.symm)
    dqMin s.reducedDim w q m hsuc
  obtain ⟨v, h4, h5⟩ := h3 e he hm
  rw [getRhs_eq hs hf hR he] at h4
  obtain rfl : R e.1.fn.key = v := Option.some.inj (Option.some.inj h4)
  have h6 : e.1.fn.value (bsSolve ops s.hi.sqThr dqMin s.hi.maxIter s.reducedDim w s.hi.lastIsOptional q m).arg =
      e.1.fn.value (s.ex.solve q) := hread _ _ hk
  have h7 : conError s.hi.ineqThr (bsSolve ops s.hi.sqThr dqMin s.hi.maxIter s.reducedDim w s.hi.lastIsOptional q m).arg e.1
      (R e.1.fn.key) = conError s.hi.ineqThr (s.ex.solve q) e.1 (R e.1.fn.key) := by
    unfold conError
    rw [h6]
  rw [h7] at h5
  exact absurd hun (not_lt.2 h5)

/-- C147. When no implicit constraint depends on the free variables, nor through the explicit constraints on variables that are not
outputs: without optimization `solve` returns SUCCESS if the squared errors of the mandatory constraints are at most a quarter of the
squared threshold once the explicit constraints are solved, INFEASIBLE otherwise; in both cases no iteration is performed and the
explicit constraints are solved. -/
theorem C147_nothing (hb : BS.Built El nq nv h s) (hl : BHist.Lawful El h) (hw : ∀ c ∈ explOf h, WellFormed nq nv c)
    (hcoh : AllCoherent (explOf h)) (hso : ∀ c ∈ explOf h, c.inV.Pairwise lexLe) {R : κ → List ℝ}
    (hR : HI.RhsIs (fun f => El f.space) (implOf h) s.hi R) (hne : s.hi.lastIsOptional = true → s.hi.levels ≠ [])
    (ht : 0 ≤ s.hi.sqThr)
    (hno : ∀ e ∈ implOf h, ∀ k, (Covers s.hi.free.segs k → ¬ ActiveOn e.1 k) ∧
      (¬ IsOutput (explOf h) k → ¬ ThroughExplicit (explOf h) e.1 k))
    (D : Space ℝ → List ℝ → List ℝ → Nat → Nat → ℝ) (o : SvdOps ℝ) (J0 : (Nat → ℝ) → Jac ℝ) (dom : (Nat → ℝ) → Bool)
    (sat : (Nat → ℝ) → Nat → ℝ) (move : (Nat → ℝ) → (Nat → ℝ) → Nat → ℝ) (ls : BsLineSearch S) (dqMin : ℝ) (w : Bool)
    (hwl : (w && s.hi.lastIsOptional) = false) (q : Nat → ℝ) (hq : dom q = true)
    (m : (Fin (indices s.hi.free.segs).length → ℝ) × (Fin (indices s.hi.free.segs).length → ℝ) × S) :
    let r := bsSolve (s.fullOps D o J0 dom sat move ls) s.hi.sqThr dqMin s.hi.maxIter s.reducedDim w s.hi.lastIsOptional q m
    r.arg = s.ex.solve q ∧ r.iter = 0 ∧
    ((∀ e ∈ implOf h, IsMandatory s.hi e →
      sqSum (conError s.hi.ineqThr (s.ex.solve q) e.1 (R e.1.fn.key)) ≤ 1 / 4 * s.hi.sqThr) → r.status = .success) ∧
    ((∃ e ∈ implOf h, IsMandatory s.hi e ∧
      1 / 4 * s.hi.sqThr < sqSum (conError s.hi.ineqThr (s.ex.solve q) e.1 (R e.1.fn.key))) → r.status = .infeasible) := by
  obtain ⟨l1, l2⟩ := hl.impl
  obtain ⟨hb1, hb2, -⟩ := hb.parts
  obtain ⟨hs, hf, -⟩ := hb1.inv l1 l2
  have hdim : s.reducedDim = 0 := by
    unfold BS.reducedDim
    refine List.sum_eq_zero fun x hx => ?_
    obtain ⟨l, hm, rfl⟩ := List.mem_map.1 hx
    obtain ⟨i, hi, hil⟩ := List.mem_iff_getElem.1 hm
    have hcs : l.stack.cs = atLevel (implOf h) i :=
      (hs.level i l (by rw [List.getElem?_eq_getElem hi, hil])).stack.cs_eq
    have hoff : ∀ c ∈ l.stack.cs, s.rowActive c = false := by
      intro c hc
      rw [hcs] at hc
      obtain hc := mem_atLevel.1 hc
      rw [← Bool.not_eq_true, C73_test hb hw hcoh hso]
      rintro (⟨k, g1, g2⟩ | ⟨k, g1, g2⟩)
      · exact (hno _ hc k).1 g1 g2
      · exact (hno _ hc k).2 g1 g2
    have hnil : ∀ (cs : List (Impl ℝ κ)) (k : Nat), (∀ c ∈ cs, s.rowActive c = false) → s.rowsLoop cs k = [] := by
      intro cs
      induction cs with
      | nil => intro k _; rfl
      | cons c cs ih =>
        intro k hc
        unfold BS.rowsLoop
        rw [ih _ fun c' h' => hc c' (List.mem_cons_of_mem _ h'), hc c List.mem_cons_self]
        rfl
    unfold BS.rows
    rw [hnil _ _ hoff]
    rfl
  have hn : (s.hi.sqNorm (s.ex.solve q)).getD 0 ≤ 1 / 4 * s.hi.sqThr ↔
      ∀ e ∈ implOf h, IsMandatory s.hi e →
        sqSum (conError s.hi.ineqThr (s.ex.solve q) e.1 (R e.1.fn.key)) ≤ 1 / 4 * s.hi.sqThr := by
    rw [solver_sqNorm_eq hs hf hR hne, Option.getD_some]
    have key : ∀ (l : List (Impl ℝ κ)) (a : ℝ),
        l.foldl (fun m c => max m (sqSum (conError s.hi.ineqThr (s.ex.solve q) c (R c.fn.key)))) a ≤ 1 / 4 * s.hi.sqThr ↔
        a ≤ 1 / 4 * s.hi.sqThr ∧
          ∀ c ∈ l, sqSum (conError s.hi.ineqThr (s.ex.solve q) c (R c.fn.key)) ≤ 1 / 4 * s.hi.sqThr := by
      intro l
      induction l with
      | nil => simp
      | cons c l ih =>
        intro a
        rw [List.foldl_cons, ih, max_le_iff]
        simp only [List.mem_cons, forall_eq_or_imp, and_assoc]
    rw [key]
    constructor
    · rintro ⟨-, h2⟩ e he hm
      exact h2 e.1 ((mem_mandatory hs e.1).2 ⟨e.2, he, hm⟩)
    · intro h2
      refine ⟨by linarith, fun c hc => ?_⟩
      obtain ⟨p, hp, hm⟩ := (mem_mandatory hs c).1 hc
      exact h2 (c, p) hp hm
  intro r
  set ops := s.fullOps D o J0 dom sat move ls with hops
  have hex : ops.expl q = (s.ex.solve q, true) := Prod.ext rfl hq
  have hnorm : ops.norm (s.ex.solve q) = (s.hi.sqNorm (s.ex.solve q)).getD 0 := rfl
  by_cases hle : (s.hi.sqNorm (s.ex.solve q)).getD 0 ≤ 1 / 4 * s.hi.sqThr
  · have hnl : ¬ 1 / 4 * s.hi.sqThr < ops.norm (s.ex.solve q) := not_lt.2 hle
    have hr : r.arg = s.ex.solve q ∧ r.iter = 0 ∧ r.status = .success := by
      have hloop : ∀ (init : Option ((Nat → ℝ) × ℝ)) (left : Nat),
          bsLoop ops s.hi.sqThr dqMin false init left (bsInit ops s.hi.sqThr false (s.ex.solve q) m) =
          bsEnd false init (bsInit ops s.hi.sqThr false (s.ex.solve q) m) := by
        intro init left
        have ha : (bsInit ops s.hi.sqThr false (s.ex.solve q) m).above = false := by
          show decide _ = _
          rw [decide_eq_false hnl]
        cases left <;> unfold bsLoop <;> rw [if_neg (by rw [ha]; simp)]
      have hre : r = bsEnd false (if decide (ops.norm (s.ex.solve q) < s.hi.sqThr) = true then
          some (s.ex.solve q, ops.norm (s.ex.solve q)) else none) (bsInit ops s.hi.sqThr false (s.ex.solve q) m) := by
        show bsSolve ops s.hi.sqThr dqMin s.hi.maxIter s.reducedDim w s.hi.lastIsOptional q m = _
        unfold bsSolve
        rw [hwl, hex]
        simp only
        rw [if_neg (fun h => hnl h.1), hloop]
      rw [hre]
      split
      · refine ⟨?_, rfl, rfl⟩
        show (if ops.norm (s.ex.solve q) < ops.norm (s.ex.solve q) then _ else _) = _
        rw [if_neg (lt_irrefl _)]
        rfl
      · exact ⟨rfl, rfl, rfl⟩
    refine ⟨hr.1, hr.2.1, fun _ => hr.2.2, ?_⟩
    rintro ⟨e, he, hm, hlt⟩
    exact absurd (hn.1 hle e he hm) (not_le.2 hlt)
  · have hgt : 1 / 4 * s.hi.sqThr < ops.norm (s.ex.solve q) := not_le.1 hle
    have hr : r = ⟨s.ex.solve q, m, 0, .infeasible, false⟩ := by
      show bsSolve ops s.hi.sqThr dqMin s.hi.maxIter s.reducedDim w s.hi.lastIsOptional q m = _
      unfold bsSolve
      rw [hex]
      simp only
      rw [if_pos ⟨hgt, hdim⟩]
    rw [hr]
    exact ⟨rfl, rfl, fun h2 => absurd (hn.2 h2) hle, fun _ => rfl⟩

end

namespace BsReachEx
open BsR (E cE part iE)
open BsLinkEx (cI iI hist s_built lawful D)

/-- Explicit constraint `q₁ = q₀²`, implicit constraint `q₁ = 2`, no free variable. -/
noncomputable def s : BS ℝ Nat := { BsLinkEx.s with hi := BsLinkEx.s.hi.setFreeIndices Blocks.empty }

theorem built : BS.Built E 2 2 hist s := .free Blocks.empty s_built

theorem cons_eq : s.ex.cons = explOf hist := built.parts.2.2.1

/-- `q₁` is determined by `q₀`. -/
theorem det : VarDetermined s.ex.cons (fun _ => True) 1 := by
  rw [cons_eq, BsLinkEx.expl_eq]
  refine .out (part.econ iE) (by simp) ((mem_indices _ _).1 (by decide)) fun x hx => .base trivial fun c hc hw => ?_
  obtain rfl := List.mem_singleton.1 hc
  have h1 : x ∈ [0] := (mem_indices [⟨0, 1⟩] x).2 hx
  have h2 : x ∈ [1] := (mem_indices [⟨1, 1⟩] x).2 hw
  simp only [List.mem_singleton] at h1 h2
  omega

theorem solve_zero : s.ex.solve (fun _ => 0) 1 = 0 := by
  have e := (C95_parametrises BsR.s_built BsR.s_synced BsR.s_wf (coherent_of_vec BsR.s_vec) BsR.s_len (fun _ => 0)).2.1
  have e' : s.ex.solve (fun _ => 0) = bsSub BsR.s (fun _ => 0) 0 := (Prod.mk.inj e).1
  rw [e', (BsR.sub_zero' _ _).2]
  simp

/-- The hypotheses of `C147_never` hold: `q₀ = 0` cannot move, hence `q₁ = 0`. -/
example (o : SvdOps ℝ) (J0) (dom) (ls : BsLineSearch S) (hls : ls.Integrates) (m) :
    (bsSolve (s.fullOps D o J0 dom (fun _ _ => 0) (fun q v i => q i + v i) ls) s.hi.sqThr (1 / 10 ^ 12) s.hi.maxIter
      s.reducedDim false s.hi.lastIsOptional (fun _ => 0) m).status ≠ .success := by
  obtain ⟨l1, l2⟩ := lawful.impl
  obtain ⟨-, -, R, hR⟩ := built.parts.1.inv l1 l2
  have hR2 : R iI.fn.key = [0] := by
    have h1 := hR.eq 0 ((s.hi.levels[0]?).get rfl) (Option.some_get _).symm
    have h2 : ((s.hi.levels[0]?).get rfl).rhs = [0] := rfl
    have h3 : atLevel (implOf hist) 0 = [iI] := rfl
    rw [h2, h3] at h1
    simp only [List.flatMap_cons, List.flatMap_nil, List.append_nil] at h1
    exact h1.symm
  refine C147_never (e := (iI, 0)) built lawful (by rw [cons_eq]; exact BsR.s_wf)
    (by rw [cons_eq]; exact coherent_of_vec BsR.s_vec) BsR.s_len hR (fun h => by cases h) (by rw [BsLinkEx.impl_eq]; simp)
    (by unfold IsMandatory; decide) (fun _ => True) ?_ D o J0 dom _ _ ?_ ls hls _ false _ m ?_
  · intro q q' h
    show [q 1 - 2] = [q' 1 - 2]
    rw [h 1 det]
  · intro q v hv i _
    show q i + v i = q i
    rw [hv i (by rintro ⟨g, hg, -⟩; cases hg), add_zero]
  · show s.hi.sqThr < sqSum (conError s.hi.ineqThr (s.ex.solve fun _ => 0) iI (R iI.fn.key))
    rw [hR2]
    show (1 / 10 * (1 / 10) : ℝ) < sqSum [s.ex.solve (fun _ => 0) 1 - 2 - 0]
    rw [solve_zero]
    show (1 / 10 * (1 / 10) : ℝ) < 0 + (0 - 2 - 0) * (0 - 2 - 0)
    norm_num

/-- The hypotheses of `C147_nothing` hold for the constraint `q₁ = 2` without free variable. -/
example (o : SvdOps ℝ) (J0) (dom : (Nat → ℝ) → Bool) (hdom : ∀ q, dom q = true) (ls : BsLineSearch S) (move) (m)
    (R : Nat → List ℝ) (hR : HI.RhsIs (fun f => E f.space) (implOf NoExplEx.hist) NoExplEx.sF.hi R) (q : Nat → ℝ) :
    let r := bsSolve (NoExplEx.sF.fullOps D o J0 dom (fun _ _ => 0) move ls) NoExplEx.sF.hi.sqThr (1 / 10 ^ 12)
      NoExplEx.sF.hi.maxIter NoExplEx.sF.reducedDim false NoExplEx.sF.hi.lastIsOptional q m
    r.arg = NoExplEx.sF.ex.solve q ∧ r.iter = 0 :=
  let h := C147_nothing NoExplEx.sF_built NoExplEx.lawful (by rw [NoExplEx.expl_eq]; simp)
    (by rw [NoExplEx.expl_eq]; exact fun c hc => by cases hc) (by rw [NoExplEx.expl_eq]; simp) hR (fun h => by cases h)
    (show (0 : ℝ) ≤ 1 by norm_num) (fun e he k => ⟨fun h => (by obtain ⟨g, hg, -⟩ := h; cases hg), fun _ h => (by
      rw [NoExplEx.expl_eq] at h
      obtain ⟨_, _, _, _, _, _, h, -⟩ := h
      cases h)⟩) D o J0 dom (fun _ _ => 0) move ls (1 / 10 ^ 12) false rfl q (hdom q) m
  ⟨h.1, h.2.1⟩

end BsReachEx

end Hpp
