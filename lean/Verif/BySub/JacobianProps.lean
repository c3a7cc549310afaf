import Verif.BySub.Jacobian
import Verif.BySub.Props
import Verif.HI.ActiveProps

/-!
# Dependencies and reduced Jacobian of the solver by substitution: C73, C74, C75
-/

namespace Hpp

open Relation

variable {α κ : Type}

/-! ## Specification -/

/-- The function of `c` depends on velocity variable `k` directly. -/
def ActiveOn (c : Impl α κ) (k : Nat) : Prop := c.fn.active.getD k false = true

/-- Velocity variable `k` is an output of one of the explicit constraints `cs`. -/
def IsOutput (cs : List (ECon α κ)) (k : Nat) : Prop := ∃ c ∈ cs, WritesV c k

/-- `c` depends on velocity variable `k` through the explicit constraints `cs`: it depends on an output of a
constraint which depends on `k`, directly or through other ones. -/
def ThroughExplicit (cs : List (ECon α κ)) (c : Impl α κ) (k : Nat) : Prop :=
  ∃ v i j ci cj, ActiveOn c v ∧ cs[i]? = some ci ∧ WritesV ci v ∧
    ReflTransGen (DependsIdx cs) i j ∧ cs[j]? = some cj ∧ ReadsV cj k

/-! ## Lemmas -/

theorem dofDep_pos [Zero α] [DecidableEq κ] {nq nv : Nat} {s : ECS α κ}
    (h : ECS.Built nq nv s) (hw : ∀ c ∈ s.cons, WellFormed nq nv c) (hcoh : AllCoherent s.cons) (v k : Nat) :
    s.dofDep v k ≠ 0 ↔ ¬ IsOutput s.cons k ∧ ∃ i j ci cj, s.cons[i]? = some ci ∧ WritesV ci v ∧
      ReflTransGen (DependsIdx s.cons) i j ∧ s.cons[j]? = some cj ∧ ReadsV cj k := by
  obtain ⟨hI, -, -⟩ := Inv.built h
  unfold ECS.dofDep
  constructor
  · intro hne
    cases hd : (s.derFn[v]?).join with
    | none => rw [hd] at hne; simp at hne
    | some i =>
      rw [hd] at hne
      simp only at hne
      have hd' : s.derFn[v]? = some (some i) := by
        cases hx : s.derFn[v]? with
        | none => rw [hx] at hd; simp at hd
        | some o => rw [hx] at hd; simp only [Option.join_some] at hd; rw [hd]
      obtain ⟨ci, h1, h2⟩ := (hI.der_iff hcoh v i).1 hd'
      obtain ⟨h3, j, cj, h4, h5, h6⟩ := (C68_dependencies h hw hcoh i k (lt_of_getElem?_some h1)).1 (by omega)
      exact ⟨h3, i, j, ci, cj, h1, h2, h4, h5, h6⟩
  · rintro ⟨h3, i, j, ci, cj, h1, h2, h4, h5, h6⟩
    rw [(hI.der_iff hcoh v i).2 ⟨ci, h1, h2⟩]
    have := (C68_dependencies h hw hcoh i k (lt_of_getElem?_some h1)).2 ⟨h3, j, cj, h4, h5, h6⟩
    simp only [Option.join_some]
    omega

/-- A non zero entry of the Jacobian of the explicit constraints is the sign of a dependency. -/
theorem jacobian_dep [CommSemiring α] [DecidableEq κ] {nq nv : Nat} {s : ECS α κ}
    (h : ECS.Built nq nv s) (hw : ∀ c ∈ s.cons, WellFormed nq nv c) (hcoh : AllCoherent s.cons)
    (hs : ∀ c ∈ s.cons, c.inV.Pairwise lexLe) (q : Nat → α) (i r k : Nat) (ci : ECon α κ)
    (hi : s.cons[i]? = some ci) (hr : WritesV ci r) (hne : s.jacobian q r k ≠ 0) :
    ¬ IsOutput s.cons k ∧ ∃ j cj, ReflTransGen (DependsIdx s.cons) i j ∧ s.cons[j]? = some cj ∧ ReadsV cj k := by
  obtain ⟨g1, g2, g3⟩ := C15_jacobian h hw hcoh hs q
  refine ⟨fun ho => hne (g2 r k ho), ?_⟩
  obtain ⟨rk, hrk⟩ := (Inv.built h).1.rank
  have main : ∀ n i r ci, rk i < n → s.cons[i]? = some ci → WritesV ci r → s.jacobian q r k ≠ 0 →
      ∃ j cj, ReflTransGen (DependsIdx s.cons) i j ∧ s.cons[j]? = some cj ∧ ReadsV cj k := by
    intro n
    induction n with
    | zero => intro i r ci hlt; omega
    | succ n ih =>
      intro i r ci hlt hi hr hne
      have hi' := hi
      unfold ECS.cons at hi'
      rw [List.getElem?_map, Option.map_eq_some_iff] at hi'
      obtain ⟨d, hd, rfl⟩ := hi'
      obtain ⟨m, hm⟩ := List.mem_iff_getElem?.1 ((mem_indices _ _).2 hr)
      rw [g3 d (List.mem_of_getElem? hd) m r k hm] at hne
      obtain ⟨p, hp, hp'⟩ := Finset.exists_ne_zero_of_sum_ne_zero hne
      have hpl : p < (indices d.c.inV).length := by simpa using hp
      have hx : ReadsV d.c ((indices d.c.inV).getD p 0) := by
        refine (mem_indices _ _).1 ?_
        rw [List.getD_eq_getElem?_getD, List.getElem?_eq_getElem hpl]
        exact List.getElem_mem hpl
      have hne' : s.jacobian q ((indices d.c.inV).getD p 0) k ≠ 0 := fun h0 => hp' (by rw [h0, mul_zero])
      generalize (indices d.c.inV).getD p 0 = x at hx hne'
      by_cases ho : ∃ c ∈ s.cons, WritesV c x
      · obtain ⟨c', hc', hwx⟩ := ho
        obtain ⟨j, hj⟩ := List.mem_iff_getElem?.1 hc'
        have hdep := (hcoh _ (List.mem_of_getElem? hi) _ hc').dep ⟨x, hx, hwx⟩
        obtain ⟨j', cj, h1, h2, h3⟩ := ih j x c' (by have := hrk i j _ _ hi hj hdep; omega) hj hwx hne'
        exact ⟨j', cj, .head ⟨_, _, hi, hj, hdep⟩ h1, h2, h3⟩
      · rw [g1 x k (fun c hc hcw => ho ⟨c, hc, hcw⟩)] at hne'
        have : x = k := by
          by_contra hxk
          exact hne' (if_neg fun e => hxk e.1)
        subst this
        exact ⟨i, d.c, .refl, hi, hx⟩
  exact main _ i r ci (Nat.lt_succ_self _) hi hr hne

/-! ## C73 -/

section
variable [Zero α] [DecidableEq κ] {E : Space α → List α → Prop} {nq nv : Nat} {h : BHist α κ} {s : BS α κ}

/-- C73. Test on a constraint: it depends on one of the variables declared free, or on a variable that is not an
output through the explicit constraints. -/
theorem C73_test (hb : BS.Built E nq nv h s) (hw : ∀ c ∈ explOf h, WellFormed nq nv c)
    (hcoh : AllCoherent (explOf h)) (hs : ∀ c ∈ explOf h, c.inV.Pairwise lexLe) (c : Impl α κ) :
    s.rowActive c = true ↔ (∃ k, Covers s.hi.free.segs k ∧ ActiveOn c k) ∨
      ∃ k, ¬ IsOutput (explOf h) k ∧ ThroughExplicit (explOf h) c k := by
  obtain ⟨-, h2, h3, -⟩ := hb.parts
  rw [← h3] at hw hcoh hs ⊢
  obtain ⟨hI, hnq, hnv⟩ := Inv.built h2
  have hin := (C11_inputs h2).2.1 hs
  unfold BS.rowActive
  rw [Bool.or_eq_true, Bool.and_eq_true, List.any_eq_true, List.any_eq_true, decide_eq_true_eq]
  refine or_congr ?_ ?_
  · exact ⟨fun ⟨k, a, b⟩ => ⟨k, (mem_indices _ _).1 a, b⟩, fun ⟨k, a, b⟩ => ⟨k, (mem_indices _ _).2 a, b⟩⟩
  · have hsum : ∀ k, (((indices s.ex.outDers.segs).map fun v =>
        s.ex.dofDep v k * if c.fn.active.getD v false then 1 else 0).sum != 0) = true ↔
        ∃ v, Covers s.ex.outDers.segs v ∧ s.ex.dofDep v k ≠ 0 ∧ ActiveOn c v := by
      intro k
      rw [bne_iff_ne, ne_eq, List.sum_eq_zero_iff]
      simp only [List.mem_map, forall_exists_index, and_imp, forall_apply_eq_imp_iff₂, mul_eq_zero,
        ite_eq_right_iff, one_ne_zero, imp_false, not_forall, not_or, Bool.not_eq_true, ActiveOn,
        mem_indices, Bool.not_eq_false, exists_prop]
    constructor
    · rintro ⟨-, k, hk, hk'⟩
      obtain ⟨v, -, hv', hv''⟩ := (hsum k).1 hk'
      obtain ⟨ho, i, j, ci, cj, e1, e2, e3, e4, e5⟩ := (dofDep_pos h2 hw hcoh v k).1 hv'
      exact ⟨k, ho, v, i, j, ci, cj, hv'', e1, e2, e3, e4, e5⟩
    · rintro ⟨k, ho, v, i, j, ci, cj, hv'', e1, e2, e3, e4, e5⟩
      have hk : Covers s.ex.inDers.segs k :=
        (hin k).2 ⟨⟨cj, List.mem_of_getElem? e4, e5⟩, ho⟩
      have hv : Covers s.ex.outDers.segs v := (hI.outDers v).2 ⟨ci, List.mem_of_getElem? e1, e2⟩
      refine ⟨?_, k, (mem_indices _ _).2 hk, (hsum k).2 ⟨v, hv, (dofDep_pos h2 hw hcoh v k).2
        ⟨ho, i, j, ci, cj, e1, e2, e3, e4, e5⟩, hv''⟩⟩
      rw [hI.outDersN, hI.inDersN, cardinal_eq_length, cardinal_eq_length]
      exact Nat.mul_pos (List.length_pos_of_mem ((mem_indices _ _).2 hv))
        (List.length_pos_of_mem ((mem_indices _ _).2 hk))

/-- C73. The free variables of a solver that the caller did not change are those that are not outputs. -/
def BS.Synced (s : BS α κ) : Prop := s.hi.free = s.ex.notOutDers

omit [Zero α] [DecidableEq κ] in
theorem BS.synced_init [Zero α] (eps : α) : (BS.init α κ nq nv eps).Synced := rfl

omit [Zero α] in
theorem HI.add_free (s s' : HI α κ) (c : Impl α κ) (p : Nat) (ha : s.add c p = (s', none)) : s'.free = s.free := by
  unfold HI.add at ha
  split at ha
  · simp at ha
  · simp only at ha
    split at ha
    · simp at ha
    · split at ha
      · simp at ha
      · simp only [Prod.mk.injEq, and_true] at ha
        rw [← ha]; rfl

omit [Zero α] in
/-- C73. `add` keeps the free variables in agreement with the explicit constraints. -/
theorem C73_synced {s s' : BS α κ} (hs : s.Synced) (fuel p : Nat) (c : BCon α κ) (junk : List α)
    (ha : s.add fuel c p junk = (s', .ok true)) : s'.Synced := by
  obtain ⟨-, -, h | h⟩ := BS.add_true ha
  · obtain ⟨e, n, -, -, h2⟩ := h
    unfold BS.Synced
    rw [h2]
    rfl
  · obtain ⟨h1, h2, -⟩ := h
    unfold BS.Synced
    rw [h1, HI.add_free _ _ _ _ h2]
    exact hs

/-- C73. When the free variables are those that are not outputs, the rows kept in a level are exactly the rows
selected by the masks of the constraints that depend on a free variable, directly or through the explicit
constraints. -/
theorem C73_rows (hb : BS.Built E nq nv h s) (hl : BHist.Lawful E h) (hsy : s.Synced)
    (hw : ∀ c ∈ explOf h, WellFormed nq nv c)
    (hcoh : AllCoherent (explOf h)) (hs : ∀ c ∈ explOf h, c.inV.Pairwise lexLe) (i : Nat) (l : Level α κ)
    (hi : s.hi.levels[i]? = some l) :
    (∀ pre c post, atLevel (implOf h) i = pre ++ c :: post → ∀ r < c.fn.space.nv,
      (Covers (s.rows l).segs ((pre.map (·.fn.space.nv)).sum + r) ↔ c.mask[r]? = some true ∧
        ∃ k, k < nv ∧ ¬ IsOutput (explOf h) k ∧ (ActiveOn c k ∨ ThroughExplicit (explOf h) c k))) ∧
    (∀ r, ((atLevel (implOf h) i).map (·.fn.space.nv)).sum ≤ r → ¬ Covers (s.rows l).segs r) ∧
    Canonical (s.rows l).segs := by
  obtain ⟨h1, h2, h3, -⟩ := hb.parts
  obtain ⟨l1, l2⟩ := hl.impl
  obtain ⟨hin, hf, -⟩ := h1.inv l1 l2
  have hcs : l.stack.cs = atLevel (implOf h) i := (hin.level i l hi).stack.cs_eq
  have hok : ∀ c ∈ l.stack.cs, c.Ok := fun c hc => by
    rw [hcs] at hc
    obtain ⟨_, _, _, hcb⟩ := hf.built _ (mem_atLevel.1 hc)
    exact hcb.ok.1
  obtain ⟨k1, k2, -⟩ := BS.rows_spec s l hok
  have hml : ∀ cs : List (Impl α κ), (∀ c ∈ cs, c.Ok) →
      (rowMaskBy s.rowActive cs).length = (cs.map (·.fn.space.nv)).sum := by
    intro cs hcs
    unfold rowMaskBy
    rw [List.length_flatMap]
    congr 1
    apply List.map_congr_left
    intro c hc
    cases s.rowActive c <;> simp [(hcs c hc).mask_len]
  have htest : ∀ c, s.rowActive c = true ↔ ∃ k, k < nv ∧ ¬ IsOutput (explOf h) k ∧
      (ActiveOn c k ∨ ThroughExplicit (explOf h) c k) := by
    intro c
    rw [C73_test hb hw hcoh hs c]
    have hfree : ∀ k, Covers s.hi.free.segs k ↔ k < nv ∧ ¬ IsOutput (explOf h) k := by
      intro k
      rw [hsy, ← h3]
      exact (C11_outputs h2).2.2.2.1 k
    constructor
    · rintro (⟨k, a, b⟩ | ⟨k, a, b⟩)
      · exact ⟨k, ((hfree k).1 a).1, ((hfree k).1 a).2, .inl b⟩
      · obtain ⟨v, i, j, ci, cj, e⟩ := b
        exact ⟨k, (hw cj (List.mem_of_getElem? e.2.2.2.2.1)).inV k e.2.2.2.2.2, a, .inr ⟨v, i, j, ci, cj, e⟩⟩
    · rintro ⟨k, a, b, c | c⟩
      · exact .inl ⟨k, (hfree k).2 ⟨a, b⟩, c⟩
      · exact .inr ⟨k, b, c⟩
  refine ⟨?_, ?_, k2⟩
  · intro pre c post hsplit r hr
    rw [hsplit] at hcs
    rw [k1, hcs]
    have hc : c.Ok := hok c (by rw [hcs]; simp)
    have hpre := hml pre fun d hd => hok d (by rw [hcs]; simp [hd])
    have : rowMaskBy s.rowActive (pre ++ c :: post) = rowMaskBy s.rowActive pre ++
        ((if s.rowActive c then c.mask else List.replicate c.mask.length false) ++
          rowMaskBy s.rowActive post) := by
      simp [rowMaskBy]
    rw [this, ← hpre, List.getElem?_append_right (by omega), Nat.add_sub_cancel_left, ← htest c]
    have hlen : r < (if s.rowActive c then c.mask else List.replicate c.mask.length false).length := by
      cases s.rowActive c <;> simp [hc.mask_len, hr]
    rw [List.getElem?_append_left hlen]
    cases s.rowActive c with
    | true => simp
    | false => simp [List.getElem?_replicate]
  · intro r hr hcov
    rw [k1, hcs] at hcov
    have := lt_of_getElem?_some hcov
    rw [hml _ (by rw [← hcs]; exact hok)] at this
    omega

end

section
variable [CommSemiring α] [DecidableEq κ] {E : Space α → List α → Prop} {nq nv : Nat} {h : BHist α κ} {s : BS α κ}

/-- C73. The rows left out do not vary with the free variables: if a constraint is not kept, then each row `J` of its
Jacobian (zero on the variables it does not depend on) has a zero total derivative with respect to the free variables,
whatever the values of the partial derivatives. -/
theorem C73_left_out (hb : BS.Built E nq nv h s)
    (hw : ∀ c ∈ explOf h, WellFormed nq nv c)
    (hcoh : AllCoherent (explOf h)) (hs : ∀ c ∈ explOf h, c.inV.Pairwise lexLe) (c : Impl α κ)
    (hc : s.rowActive c = false) (q : Nat → α) (J : Nat → α) (hJ : ∀ k, ¬ ActiveOn c k → J k = 0) (k : Nat)
    (hk : Covers s.hi.free.segs k) :
    J k = 0 ∧ (∀ v, IsOutput (explOf h) v → J v * s.ex.jacobian q v k = 0) ∧
    ∑ v ∈ Finset.range nv, J v * s.ex.jacobian q v k = 0 := by
  have ht := C73_test hb hw hcoh hs c
  obtain ⟨-, h2, h3, -⟩ := hb.parts
  rw [← h3] at hw hcoh hs ht ⊢
  have hno : ¬ _ := fun hx => by rw [ht.2 hx] at hc; simp at hc
  have hJk : J k = 0 := hJ k fun ha => hno (.inl ⟨k, hk, ha⟩)
  have hout : ∀ v, IsOutput s.ex.cons v → J v * s.ex.jacobian q v k = 0 := by
    rintro v ⟨ci, hci, hwv⟩
    obtain ⟨i, hi⟩ := List.mem_iff_getElem?.1 hci
    by_cases hz : s.ex.jacobian q v k = 0
    · rw [hz, mul_zero]
    · obtain ⟨ho, j, cj, e1, e2, e3⟩ := jacobian_dep h2 hw hcoh hs q i v k ci hi hwv hz
      rw [hJ v fun ha => hno (.inr ⟨k, ho, v, i, j, ci, cj, ha, hi, hwv, e1, e2, e3⟩), zero_mul]
  refine ⟨hJk, hout, Finset.sum_eq_zero fun v _ => ?_⟩
  by_cases ho : IsOutput s.ex.cons v
  · exact hout v ho
  · rw [(C15_jacobian h2 hw hcoh hs q).1 v k fun c hc hcw => ho ⟨c, hc, hcw⟩]
    by_cases hvk : v = k
    · rw [hvk, hJk, zero_mul]
    · rw [if_neg fun e => hvk e.1, mul_zero]

/-! ## C74 -/

theorem sum_range_split {nv : Nat} {a b : List Nat} (ha : a.Nodup) (hb : b.Nodup) (hd : ∀ x ∈ a, x ∉ b)
    (hu : ∀ x, x < nv ↔ x ∈ a ∨ x ∈ b) (f : Nat → α) :
    ∑ x ∈ Finset.range nv, f x = (a.map f).sum + (b.map f).sum := by
  classical
  have : Finset.range nv = a.toFinset ∪ b.toFinset := by
    ext x; rw [Finset.mem_range, Finset.mem_union, List.mem_toFinset, List.mem_toFinset, hu]
  rw [this, Finset.sum_union (by
    rw [Finset.disjoint_left]; intro x hx; rw [List.mem_toFinset] at hx ⊢; exact hd x hx),
    List.sum_toFinset _ ha, List.sum_toFinset _ hb]

theorem sum_range_getD (a : List Nat) (f : Nat → α) :
    ∑ c ∈ Finset.range a.length, f (a.getD c 0) = (a.map f).sum := by
  induction a with
  | nil => simp
  | cons x a ih => rw [List.length_cons, Finset.sum_range_succ', List.map_cons, List.sum_cons, add_comm, ← ih]; simp

/-- C74. Let `V` be the velocities of all the variables in a motion where the explicit constraints hold: the velocity of
each output is given by the Jacobian of its constraint and the velocities of the inputs.  Then for each kept row,
the reduced Jacobian computed by `updateJacobian` times the velocities of the free variables is the row of the Jacobian
times all the velocities. -/
theorem C74_reduced (hb : BS.Built E nq nv h s) (hsy : s.Synced)
    (hw : ∀ c ∈ explOf h, WellFormed nq nv c)
    (hcoh : AllCoherent (explOf h)) (hs : ∀ c ∈ explOf h, c.inV.Pairwise lexLe) (q : Nat → α) (rows : Segs)
    (J : Jac α) (V : Nat → α)
    (hV : ∀ d ∈ s.ex.data, ∀ m r, (indices d.c.outV)[m]? = some r →
      V r = ∑ p ∈ Finset.range (indices d.c.inV).length,
        d.c.jac (rview q d.c.inQ) d.fval d.rhs m p * V ((indices d.c.inV).getD p 0)) :
    ∃ R, s.updateJ q rows J (s.reducedJ0 rows J) = some R ∧
      ∀ r, ∑ c ∈ Finset.range (indices s.hi.free.segs).length, R r c * V ((indices s.hi.free.segs).getD c 0) =
        ∑ k ∈ Finset.range nv, J ((indices rows).getD r 0) k * V k := by
  obtain ⟨-, h2, h3, -⟩ := hb.parts
  rw [← h3] at hw hcoh hs
  obtain ⟨hI, hnq, hnv⟩ := Inv.built h2
  have hnot := (C11_outputs h2).2.2.2.1
  have hvel : ∀ k < nv, (∑ l ∈ Finset.range nv, s.ex.jacobian q k l * V l) = V k :=
    C15_velocity h2 hw hcoh hs q (fun k x => x = V k) V (fun _ _ _ => rfl) (by
      intro d hd w hw' m r hm
      rw [hV d hd m r hm]
      refine Finset.sum_congr rfl fun p hp => ?_
      have hpl : p < (indices d.c.inV).length := by simpa using hp
      rw [hw' ((indices d.c.inV).getD p 0) ((mem_indices _ _).1 (by
        rw [List.getD_eq_getElem?_getD, List.getElem?_eq_getElem hpl]; exact List.getElem_mem hpl))])
  have hsplit : ∀ f : Nat → α, ∑ x ∈ Finset.range nv, f x =
      ((indices s.ex.notOutDers.segs).map f).sum + ((indices s.ex.outDers.segs).map f).sum := by
    intro f
    refine sum_range_split hI.notOutDersD.indices_nodup hI.outDersC.disjoint.indices_nodup ?_ ?_ f
    · intro x hx hx'
      rw [mem_indices, hnot] at hx
      rw [mem_indices, hI.outDers] at hx'
      exact hx.2 hx'
    · intro x
      rw [mem_indices, mem_indices, hnot, hI.outDers]
      constructor
      · intro hx
        by_cases ho : ∃ c ∈ s.ex.cons, WritesV c x
        · exact .inr ho
        · exact .inl ⟨hx, ho⟩
      · rintro (⟨hx, -⟩ | ⟨c, hc, hx⟩)
        · exact hx
        · obtain ⟨o, ho, hlt⟩ := (hw c hc).outV
          unfold WritesV at hx
          rw [ho] at hx
          simp [Seg.Has] at hx
          omega
  have hlt : ∀ v, v ∈ indices s.ex.outDers.segs → v < nv := by
    intro v hv
    rw [mem_indices, hI.outDers] at hv
    obtain ⟨c, hc, hx⟩ := hv
    obtain ⟨o, ho, hlt⟩ := (hw c hc).outV
    unfold WritesV at hx
    rw [ho] at hx
    simp [Seg.Has] at hx
    omega
  -- velocity of an output
  have hvout : ∀ v ∈ indices s.ex.outDers.segs, V v =
      ((indices s.ex.notOutDers.segs).map fun l => s.ex.jacobian q v l * V l).sum := by
    intro v hv
    rw [← hvel v (hlt v hv), hsplit]
    have : ((indices s.ex.outDers.segs).map fun l => s.ex.jacobian q v l * V l).sum = 0 := by
      apply List.sum_eq_zero
      intro x hx
      obtain ⟨l, hl, rfl⟩ := List.mem_map.1 hx
      rw [mem_indices, hI.outDers] at hl
      rw [(C15_jacobian h2 hw hcoh hs q).2.1 v l hl, zero_mul]
    rw [this, add_zero]
  have hbase : ∀ r, ∑ c ∈ Finset.range (indices s.hi.free.segs).length,
      s.reducedJ0 rows J r c * V ((indices s.hi.free.segs).getD c 0) =
      ((indices s.ex.notOutDers.segs).map fun l => J ((indices rows).getD r 0) l * V l).sum := by
    intro r
    rw [← sum_range_getD, hsy]
    unfold BS.reducedJ0
    rw [hsy]
  by_cases hz : s.ex.inDers.nb = 0
  · refine ⟨s.reducedJ0 rows J, by unfold BS.updateJ; rw [if_pos hz], fun r => ?_⟩
    rw [hbase, hsplit]
    have : ((indices s.ex.outDers.segs).map fun v => J ((indices rows).getD r 0) v * V v).sum = 0 := by
      apply List.sum_eq_zero
      intro x hx
      obtain ⟨v, hv, rfl⟩ := List.mem_map.1 hx
      rw [hvout v hv]
      have : ((indices s.ex.notOutDers.segs).map fun l => s.ex.jacobian q v l * V l).sum = 0 := by
        apply List.sum_eq_zero
        intro x hx
        obtain ⟨l, hl, rfl⟩ := List.mem_map.1 hx
        rw [mem_indices, hI.outDers] at hv
        obtain ⟨ci, hci, hwv⟩ := hv
        obtain ⟨i, hi⟩ := List.mem_iff_getElem?.1 hci
        by_cases hj : s.ex.jacobian q v l = 0
        · rw [hj, zero_mul]
        · obtain ⟨ho, j, cj, e1, e2, e3⟩ := jacobian_dep h2 hw hcoh hs q i v l ci hi hwv hj
          have hcov := ((C11_inputs h2).2.1 hs l).2 ⟨⟨cj, List.mem_of_getElem? e2, e3⟩, ho⟩
          rw [hI.inDersN, cardinal_eq_length, List.length_eq_zero_iff] at hz
          have := (mem_indices _ _).2 hcov
          rw [hz] at this
          simp at this
      rw [this, mul_zero]
    rw [this, add_zero]
  · refine ⟨_, by unfold BS.updateJ; rw [if_neg hz, if_pos (by rw [hsy])], fun r => ?_⟩
    simp only [add_mul, Finset.sum_add_distrib]
    rw [hbase, hsplit]
    congr 1
    rw [hsy]
    rw [sum_range_getD (indices s.ex.notOutDers.segs) fun l =>
      ((indices s.ex.outDers.segs).map fun v => J ((indices rows).getD r 0) v * s.ex.jacobian q v l).sum * V l]
    have hsw : ∀ (a b : List Nat) (F : Nat → Nat → α),
        (a.map fun l => (b.map fun v => F v l).sum).sum = (b.map fun v => (a.map fun l => F v l).sum).sum := by
      intro a b F
      induction a with
      | nil => simp
      | cons x a ih => simp only [List.map_cons, List.sum_cons, ih, List.sum_map_add]
    simp only [← List.sum_map_mul_right]
    rw [hsw]
    congr 1
    apply List.map_congr_left
    intro v hv
    rw [hvout v hv, ← List.sum_map_mul_left]
    congr 1
    apply List.map_congr_left
    intro l _
    rw [mul_assoc]

omit [DecidableEq κ] in
/-- C74 needs the agreement between free variables and explicit constraints: if the caller removes some of the free
variables (as with `freeVariables`) and the explicit constraints have inputs, the sizes of the matrices added differ. -/
theorem C74_locked_refuted (s : BS α κ) (hin : s.ex.inDers.nb ≠ 0) (hfree : s.hi.free.nb ≠ s.ex.notOutDers.nb)
    (q : Nat → α) (rows : Segs) (J R : Jac α) : s.updateJ q rows J R = none := by
  unfold BS.updateJ; rw [if_neg hin, if_neg hfree]

end

/-! ## C75 -/

section
variable [Zero α] [DecidableEq κ] {E : Space α → List α → Prop} {nq nv : Nat} {h : BHist α κ} {s : BS α κ}

/-- C75, part: the indices returned are those of the velocity variables that are not outputs and on which an iterative
constraint depends, directly or through the explicit ones.  Missing: levels without constraint, for which the active
variables are not defined (C71). -/
theorem C75_implicitDof_partial (hb : BS.Built E nq nv h s) (hl : BHist.Lawful E h)
    (hw : ∀ c ∈ explOf h, WellFormed nq nv c) (hcoh : AllCoherent (explOf h))
    (hn : ∀ e ∈ implOf h, e.1.fn.active.length = s.hi.nv) (hnv : s.hi.nv = nv)
    (hlev : ∀ i, i < s.hi.levels.length → ∃ e ∈ implOf h, e.2 = i) :
    ∃ l, s.implicitDof = some l ∧ Canonical l ∧ ∀ k, Covers l k ↔ k < nv ∧ ¬ IsOutput (explOf h) k ∧
      ∃ e ∈ implOf h, ActiveOn e.1 k ∨ ThroughExplicit (explOf h) e.1 k := by
  obtain ⟨h1, h2, h3, -⟩ := hb.parts
  rw [← h3] at hw hcoh ⊢
  obtain ⟨l1, l2⟩ := hl.impl
  obtain ⟨hI, -, hnv'⟩ := Inv.built h2
  obtain ⟨a, ha, halen, hact⟩ := C71_active_partial h1 l1 l2 hn hlev
  have hact' : ∀ k, a.getD k false = true ↔ ∃ e ∈ implOf h, ActiveOn e.1 k := by
    intro k
    have e : ∀ b : List Bool, b.getD k false = true ↔ b[k]? = some true := by
      intro b
      rw [List.getD_eq_getElem?_getD]
      cases b[k]? <;> simp
    rw [e, hact]
    exact ⟨fun ⟨x, hx, hx'⟩ => ⟨x, hx, (e _).2 hx'⟩, fun ⟨x, hx, hx'⟩ => ⟨x, hx, (e _).1 hx'⟩⟩
  have houtD : ∀ v, IsOutput s.ex.cons v ↔ ∃ j, (s.ex.derFn[v]?).join = some j := by
    intro v
    constructor
    · rintro ⟨c, hc, hwv⟩
      obtain ⟨j, hj⟩ := List.mem_iff_getElem?.1 hc
      exact ⟨j, by rw [(hI.der_iff hcoh v j).2 ⟨c, hj, hwv⟩]; rfl⟩
    · rintro ⟨j, hj⟩
      have hd' : s.ex.derFn[v]? = some (some j) := by
        cases hx : s.ex.derFn[v]? with
        | none => rw [hx] at hj; simp at hj
        | some o => rw [hx] at hj; simp only [Option.join_some] at hj; rw [hj]
      obtain ⟨c, h5, h6⟩ := (hI.der_iff hcoh v j).1 hd'
      exact ⟨c, List.mem_of_getElem? h5, h6⟩
  have hdof : ∀ v j k, (s.ex.derFn[v]?).join = some j → s.ex.dofDep v k = s.ex.dep j k := by
    intro v j k hj; unfold ECS.dofDep; rw [hj]
  -- the loop
  have hloop : ∀ n, ∀ k, (List.range n).foldl (dofStep s.ex a) (fun _ => 0) k ≠ 0 ↔ ¬ IsOutput s.ex.cons k ∧ ((k < n ∧ a.getD k false = true) ∨
        ∃ v < n, a.getD v false = true ∧ s.ex.dofDep v k ≠ 0) := by
    intro n
    induction n with
    | zero => intro k; simp
    | succ n ih =>
      intro k
      rw [List.range_succ, List.foldl_append, List.foldl_cons, List.foldl_nil]
      generalize (List.range n).foldl (dofStep s.ex a) (fun _ => 0) = out at ih ⊢
      unfold dofStep
      have hlt : ∀ v, v < n + 1 ↔ v < n ∨ v = n := fun v => by omega
      cases hn' : a.getD n false with
      | false =>
        simp only [Bool.false_eq_true, if_false]
        rw [ih]
        refine and_congr_right fun _ => or_congr ?_ ?_
        · constructor
          · rintro ⟨p, r⟩; exact ⟨by omega, r⟩
          · rintro ⟨p, r⟩
            rcases (hlt k).1 p with p | rfl
            · exact ⟨p, r⟩
            · rw [hn'] at r; simp at r
        · constructor
          · rintro ⟨v, p, r⟩; exact ⟨v, by omega, r⟩
          · rintro ⟨v, p, r⟩
            rcases (hlt v).1 p with p | rfl
            · exact ⟨v, p, r⟩
            · rw [hn'] at r; simp at r
      | true =>
        simp only [if_true]
        cases hj : (s.ex.derFn[n]?).join with
        | none =>
          have hno : ¬ IsOutput s.ex.cons n := fun ho => by
            obtain ⟨j, hj'⟩ := (houtD n).1 ho; rw [hj] at hj'; simp at hj'
          have hz : ∀ k, s.ex.dofDep n k = 0 := fun k => by unfold ECS.dofDep; rw [hj]
          simp only
          by_cases hk : k = n
          · subst hk
            rw [if_pos rfl]
            exact ⟨fun _ => ⟨hno, .inl ⟨by omega, hn'⟩⟩, fun _ => by omega⟩
          · rw [if_neg hk, ih]
            refine and_congr_right fun _ => or_congr ?_ ?_
            · exact ⟨fun ⟨p, r⟩ => ⟨by omega, r⟩, fun ⟨p, r⟩ => ⟨by omega, r⟩⟩
            · constructor
              · rintro ⟨v, p, r⟩; exact ⟨v, by omega, r⟩
              · rintro ⟨v, p, r1, r2⟩
                rcases (hlt v).1 p with p | rfl
                · exact ⟨v, p, r1, r2⟩
                · exact absurd (hz k) r2
        | some j =>
          have ho : IsOutput s.ex.cons n := (houtD n).2 ⟨j, hj⟩
          simp only
          by_cases hk : k = n
          · subst hk
            rw [if_pos rfl]
            exact ⟨fun h0 => absurd rfl h0, fun h0 => absurd ho h0.1⟩
          · rw [if_neg hk, ← hdof n j k hj]
            have hadd : out k + s.ex.dofDep n k ≠ 0 ↔ out k ≠ 0 ∨ s.ex.dofDep n k ≠ 0 := by omega
            rw [hadd, ih]
            constructor
            · rintro (⟨p, r⟩ | r)
              · refine ⟨p, ?_⟩
                rcases r with ⟨r1, r2⟩ | ⟨v, r1, r2⟩
                · exact .inl ⟨by omega, r2⟩
                · exact .inr ⟨v, by omega, r2⟩
              · exact ⟨((dofDep_pos h2 hw hcoh n k).1 r).1, .inr ⟨n, by omega, hn', r⟩⟩
            · rintro ⟨p, ⟨r1, r2⟩ | ⟨v, r1, r2⟩⟩
              · exact .inl ⟨p, .inl ⟨by omega, r2⟩⟩
              · rcases (hlt v).1 r1 with r1 | rfl
                · exact .inl ⟨p, .inr ⟨v, r1, r2⟩⟩
                · exact .inr r2.2
  refine ⟨_, by unfold BS.implicitDof; rw [ha]; rfl, shrink_canonical _, fun k => ?_⟩
  refine (fromLogical_covers _ k).trans ?_
  rw [List.getElem?_map]
  have hkey := hloop a.length k
  rw [halen, hnv] at hkey
  rw [halen, hnv]
  by_cases hk : k < nv
  · rw [List.getElem?_range hk]
    simp only [Option.map_some, Option.some.injEq, bne_iff_ne]
    unfold dofLoop
    rw [halen, hnv, hkey]
    simp only [hk, true_and]
    refine and_congr_right fun hno => ?_
    constructor
    · rintro (r | ⟨v, -, r1, r2⟩)
      · obtain ⟨e, he, hea⟩ := (hact' k).1 r
        exact ⟨e, he, .inl hea⟩
      · obtain ⟨e, he, hea⟩ := (hact' v).1 r1
        obtain ⟨-, i, j, ci, cj, e1, e2, e3, e4, e5⟩ := (dofDep_pos h2 hw hcoh v k).1 r2
        exact ⟨e, he, .inr ⟨v, i, j, ci, cj, hea, e1, e2, e3, e4, e5⟩⟩
    · rintro ⟨e, he, hea | ⟨v, i, j, ci, cj, hea, e1, e2, e3, e4, e5⟩⟩
      · exact .inl ((hact' k).2 ⟨e, he, hea⟩)
      · refine .inr ⟨v, ?_, (hact' v).2 ⟨e, he, hea⟩, (dofDep_pos h2 hw hcoh v k).2
          ⟨hno, i, j, ci, cj, e1, e2, e3, e4, e5⟩⟩
        obtain ⟨o, ho, hlt⟩ := (hw ci (List.mem_of_getElem? e1)).outV
        unfold WritesV at e2
        rw [ho] at e2
        simp [Seg.Has] at e2
        omega
  · rw [List.getElem?_eq_none (by simp; omega)]
    simp [hk]

/-- C75 fails as soon as a level has no constraint: the sum of the arrays of active variables is an error in Eigen. -/
theorem C75_empty_level_refuted (hb : BS.Built E nq nv h s) (hl : BHist.Lawful E h) (hpos : 0 < s.hi.nv) (i : Nat)
    (hi : i < s.hi.levels.length) (hemp : ∀ e ∈ implOf h, e.2 ≠ i) : s.implicitDof = none := by
  obtain ⟨h1, -, -, -⟩ := hb.parts
  obtain ⟨l1, l2⟩ := hl.impl
  unfold BS.implicitDof
  rw [C71_empty_level_refuted h1 l1 l2 hpos i hi hemp]
  rfl

end

/-! ## Examples -/

namespace BsX

theorem s2_wf : ∀ c ∈ explOf [(cI, 0, false), (cE, 0, true)], WellFormed 4 4 c := by
  intro c hc
  have hc' : c = part.econ iE := by simpa [explOf, BCon.econ, cE] using hc
  subst hc'
  refine ⟨⟨⟨2, 1⟩, rfl, by decide⟩, ⟨⟨2, 1⟩, rfl, by decide⟩, ?_, ?_⟩ <;>
  · intro i hi
    have : Covers [⟨0, 1⟩] i := hi
    simp [Seg.Has] at this
    omega

theorem s2_coh : AllCoherent (explOf [(cI, 0, false), (cE, 0, true)]) := by
  have hall : ∀ c ∈ explOf [(cI, 0, false), (cE, 0, true)], c = part.econ iE := by
    intro c hc; simpa [explOf, BCon.econ, cE] using hc
  have hdis : ∀ i, Covers [⟨0, 1⟩] i → Covers [⟨2, 1⟩] i → False := by
    intro i h1 h2; simp [Seg.Has] at h1 h2; omega
  intro c hc c' hc'
  rw [hall c hc, hall c' hc']
  refine ⟨?_, ?_, ?_⟩
  · rintro ⟨i, a, b⟩; exact (hdis i a b).elim
  · rintro ⟨i, a, b⟩; exact (hdis i a b).elim
  · rintro ⟨i, a, b⟩; exact ⟨i, a, b⟩

theorem s2_sorted : ∀ c ∈ explOf [(cI, 0, false), (cE, 0, true)], c.inV.Pairwise lexLe := by
  intro c hc
  have hc' : c = part.econ iE := by simpa [explOf, BCon.econ, cE] using hc
  subst hc'
  exact List.pairwise_singleton _ _

end BsX

open BsX in
/-- The solver of the example (`q 1 + q 2` iteratively, `q 2 = q 0` explicitly) meets the hypotheses: its row is kept,
its reduced Jacobian with respect to `(q 0, q 1, q 3)` is `(1, 1, 0)`, and `implicitDof` gives variables 0 and 1. -/
example : s2.Synced ∧ s2.hi.nv = 4 ∧ (∀ c ∈ explOf [(cI, 0, false), (cE, 0, true)], WellFormed 4 4 c) ∧
    AllCoherent (explOf [(cI, 0, false), (cE, 0, true)]) ∧
    s2.rowActive iI = true ∧ (s2.hi.levels.map fun l => (s2.rows l).segs) = [[⟨0, 1⟩]] ∧
    ((s2.updateJ (fun _ => 0) [⟨0, 1⟩] (fun _ k => [0, 1, 1, 0].getD k 0)
      (s2.reducedJ0 [⟨0, 1⟩] (fun _ k => [0, 1, 1, 0].getD k 0))).map fun R =>
        (List.range 3).map (R 0)) = some [1, 1, 0] ∧
    s2.implicitDof = some [⟨0, 2⟩] :=
  ⟨rfl, rfl, s2_wf, s2_coh, by decide +kernel⟩

open BsX in
/-- The velocities `(3, 4, 3, 7)` satisfy the hypothesis on the motion: the output has the velocity of the input. -/
example : ∀ d ∈ s2.ex.data, ∀ m r, (indices d.c.outV)[m]? = some r →
    [3, 4, 3, 7].getD r 0 = ∑ p ∈ Finset.range (indices d.c.inV).length,
        d.c.jac (rview (fun _ => 0) d.c.inQ) d.fval d.rhs m p *
          [3, 4, 3, 7].getD ((indices d.c.inV).getD p 0) 0 := by
  have hd : s2.ex.data.map (·.c) = [part.econ iE] := rfl
  intro d hd' m r hm
  have hc : d.c = part.econ iE := by
    have := List.mem_map_of_mem (f := fun d : EData Int Nat => d.c) hd'
    rw [hd] at this
    simpa using this
  rw [hc] at hm ⊢
  have hm' : [2][m]? = some r := hm
  have hr : r = 2 := by
    match m, hm' with
    | 0, h => simpa using h.symm
  subst hr
  have : (indices (part.econ iE).inV) = [0] := rfl
  rw [this]
  simp [EPart.econ, part]

open BsX in
/-- A row that is kept although it does not depend on the variable left free by the caller (variable 3 only): the
test on the explicit outputs does not look at the free variables. -/
theorem C73_locked_refuted : let s := { s2 with hi := s2.hi.setFreeIndices (Blocks.ofSegs [⟨3, 1⟩]) }
    BS.Built E 4 4 [(cI, 0, false), (cE, 0, true)] s ∧ s.hi.free.segs = [⟨3, 1⟩] ∧ s.rowActive iI = true ∧
    (∀ q, ∀ k, Covers s.hi.free.segs k → ∀ v, s.ex.jacobian q v k * (if v = 1 ∨ v = 2 then 1 else 0) = 0) := by
  refine ⟨.free _ s2_built, rfl, by decide +kernel, ?_⟩
  intro q k hk v
  have hk' : k = 3 := by
    have : Covers [⟨3, 1⟩] k := hk
    simp [Seg.Has] at this
    omega
  subst hk'
  have hp := s2_built.parts
  by_cases hv : v = 1 ∨ v = 2
  · rw [if_pos hv, mul_one]
    have hw := s2_wf; have hcoh := s2_coh; have hs := s2_sorted
    rw [← hp.2.2.1] at hw hcoh hs
    rcases hv with rfl | rfl
    · have := (C15_jacobian hp.2.1 hw hcoh hs q).1 1 3 (by
        intro c hc hcw
        rw [hp.2.2.1] at hc
        have hc' : c = part.econ iE := by simpa [explOf, BCon.econ, cE] using hc
        subst hc'
        have : Covers [⟨2, 1⟩] 1 := hcw
        simp [Seg.Has] at this)
      simpa using this
    · by_contra hne
      have hmem : s2.ex.cons[0]? = some (part.econ iE) := rfl
      have h2 : WritesV (part.econ iE) 2 := show Covers [⟨2, 1⟩] 2 by simp [Seg.Has]
      obtain ⟨-, j, cj, -, e2, e3⟩ := jacobian_dep hp.2.1 hw hcoh hs q 0 2 3 _ hmem h2 hne
      have hc := List.mem_of_getElem? e2
      rw [hp.2.2.1] at hc
      have hc' : cj = part.econ iE := by simpa [explOf, BCon.econ, cE] using hc
      subst hc'
      have : Covers [⟨0, 1⟩] 3 := e3
      simp [Seg.Has] at this
  · rw [if_neg hv, mul_zero]

open BsX in
/-- After the caller restricted the free variables, `updateJacobian` is undefined. -/
example : let s := { s2 with hi := s2.hi.setFreeIndices (Blocks.ofSegs [⟨3, 1⟩]) }
    s.ex.inDers.nb ≠ 0 ∧ s.hi.free.nb ≠ s.ex.notOutDers.nb := by decide +kernel

end Hpp
