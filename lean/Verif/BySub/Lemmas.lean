import Verif.BySub.Model

/-!
# Invariant of the solver by substitution
-/

namespace Hpp

variable {α κ : Type}

/-- Constraints of a history: the constraint, its priority, whether it became explicit. -/
abbrev BHist (α κ : Type) := List (BCon α κ × Nat × Bool)

/-- Specification: constraints handled by the iterative part. -/
def implOf (h : BHist α κ) : List (Impl α κ × Nat) :=
  h.filterMap fun e => if e.2.2 then none else some (e.1.impl, e.2.1)

/-- Specification: constraints handled by the explicit part. -/
def explOf (h : BHist α κ) : List (ECon α κ) := h.filterMap fun e => if e.2.2 then e.1.econ else none

theorem implOf_append (h h' : BHist α κ) : implOf (h ++ h') = implOf h ++ implOf h' := by
  simp [implOf]

theorem explOf_append (h h' : BHist α κ) : explOf (h ++ h') = explOf h ++ explOf h' := by
  simp [explOf]

/-- Solvers by substitution built by any history of calls.  `E` tells which vectors are elements of a space: right
hand sides given for constraints of the iterative part are elements. -/
inductive BS.Built [Zero α] [DecidableEq κ] (E : Space α → List α → Prop) (nq nv : Nat) :
    BHist α κ → BS α κ → Prop
  | init (eps : α) : BS.Built E nq nv [] (BS.init α κ nq nv eps)
  | add {h s s' fuel c p junk} : BS.Built E nq nv h s → (∃ fn mask comp, Impl.Built fn mask comp c.impl) →
      s.add fuel c p junk = (s', .ok true) →
      BS.Built E nq nv (h ++ [(c, p, decide (s.ex.data.length < s'.ex.data.length))]) s'
  | free {h s} (b : Blocks) : BS.Built E nq nv h s →
      BS.Built E nq nv h { s with hi := s.hi.setFreeIndices b }
  | setRhs {h s s' c v b} : BS.Built E nq nv h s → SameFn (implOf h) c.impl → E c.impl.fn.space v →
      s.setRhs c v = some (s', b) → BS.Built E nq nv h s'
  | fromConfigOne {h s s' c q b} : BS.Built E nq nv h s → SameFn (implOf h) c.impl →
      E c.impl.fn.space (c.impl.rhsFromConfig q) → s.rhsFromConfigOne c q = some (s', b) →
      BS.Built E nq nv h s'
  | fromConfig {h s q} : BS.Built E nq nv h s → BS.Built E nq nv h (s.rhsFromConfig q)
  | setRhsVec {h s s' v R} : BS.Built E nq nv h s → (∀ e ∈ implOf h, E e.1.fn.space (R e.1.fn.key)) →
      v.take s.hi.rhsSize = stackRhs (implOf h) s.hi.levels.length R → s.setRhsVec v = some s' →
      BS.Built E nq nv h s'
  | params {h s} (a b t : α) (n : Nat) (o l : Bool) : BS.Built E nq nv h s →
      BS.Built E nq nv h { s with
        hi := { s.hi with sqThr := a, ineqThr := b, maxIter := n, lastIsOptional := o, byLevel := l }
        ex := { s.ex with threshold := t } }

/-- What a call to `add` that returns `true` did. -/
theorem BS.add_true [DecidableEq κ] {fuel p : Nat} {s s' : BS α κ} {c : BCon α κ} {junk : List α}
    (ha : s.add fuel c p junk = (s', .ok true)) :
    s.contains c = false ∧ s'.all = s.all ++ [c] ∧
    ((∃ e n, c.econ = some e ∧ s.ex.add fuel e junk = .ok (some n, s'.ex) ∧
        s'.hi = s.hi.setFreeIndices s'.ex.notOutDers) ∨
      (s'.ex = s.ex ∧ s.hi.add c.impl p = (s'.hi, none) ∧
        ∀ e, c.econ = some e → s.ex.add fuel e junk = .ok (none, s.ex))) := by
  have himp : ∀ s1 : BS α κ, s1.addImplicit c p = (s', .ok true) →
      s1.hi.add c.impl p = (s'.hi, none) ∧ s'.all = s1.all ++ [c] ∧ s'.ex = s1.ex := by
    intro s1 h1
    unfold BS.addImplicit at h1
    rcases hh : s1.hi.add c.impl p with ⟨hi, er⟩
    rw [hh] at h1
    cases er with
    | some e => simp at h1
    | none =>
      simp only [Prod.mk.injEq, and_true] at h1
      subst h1
      exact ⟨rfl, rfl, rfl⟩
  unfold BS.add at ha
  cases hc : s.contains c with
  | true => rw [hc] at ha; simp at ha
  | false =>
    rw [hc] at ha
    simp only [Bool.false_eq_true, if_false] at ha
    cases he : c.econ with
    | none =>
      rw [he] at ha
      obtain ⟨h1, h2, h3⟩ := himp s ha
      exact ⟨rfl, h2, Or.inr ⟨h3, h1, by simp⟩⟩
    | some e =>
      rw [he] at ha
      simp only at ha
      rcases hx : s.ex.add fuel e junk with er | ⟨r, ex⟩
      · rw [hx] at ha; simp at ha
      · rw [hx] at ha
        cases r with
        | none =>
          have hexs := add_none hx
          subst hexs
          simp only at ha
          obtain ⟨h1, h2, h3⟩ := himp _ ha
          refine ⟨rfl, h2, Or.inr ⟨h3, h1, ?_⟩⟩
          intro e' he'
          simp only [Option.some.injEq] at he'
          subst he'
          exact hx
        | some n =>
          simp only [Prod.mk.injEq, and_true] at ha
          subst ha
          exact ⟨rfl, rfl, Or.inl ⟨e, n, rfl, hx, rfl⟩⟩

/-- The parts of a solver by substitution. -/
theorem BS.Built.parts [Zero α] [DecidableEq κ] {E : Space α → List α → Prop} {nq nv : Nat} {h : BHist α κ}
    {s : BS α κ} (hb : BS.Built E nq nv h s) :
    HI.Built (fun f => E f.space) nv (implOf h) s.hi ∧ ECS.Built nq nv s.ex ∧ s.ex.cons = explOf h ∧
    s.all = h.map (·.1) ∧ (∀ e ∈ h, e.2.2 = true → e.1.econ.isSome) ∧
    h.Pairwise (fun (a b : BCon α κ × Nat × Bool) => a.1.isEqual b.1 = false) := by
  induction hb with
  | init eps => exact ⟨.init, .init eps, rfl, rfl, by simp, List.Pairwise.nil⟩
  | @add h s s' fuel c p junk hb hc ha ih =>
    obtain ⟨i1, i2, i3, i4, i5, i6⟩ := ih
    obtain ⟨a1, a2, a3⟩ := BS.add_true ha
    have hpw : ∀ b, (h ++ [(c, p, b)]).Pairwise
        (fun (a b : BCon α κ × Nat × Bool) => a.1.isEqual b.1 = false) := by
      intro b
      rw [List.pairwise_append]
      refine ⟨i6, by simp, ?_⟩
      intro x hx y hy
      simp only [List.mem_singleton] at hy
      subst hy
      unfold BS.contains at a1
      rw [List.any_eq_false] at a1
      have := a1 x.1 (by rw [i4]; exact List.mem_map.2 ⟨x, hx, rfl⟩)
      simpa using this
    rcases a3 with ⟨e, n, he, hx, hhi⟩ | ⟨hx, hhi, -⟩
    · obtain ⟨hc1, -, hc3⟩ := (C10_accept_sound i2 fuel e junk _ hx).1 n rfl
      have hlen : s.ex.data.length < s'.ex.data.length := by
        have := congrArg List.length hc3
        simp [ECS.cons] at this
        omega
      rw [decide_eq_true hlen]
      refine ⟨?_, .add _ fuel e junk _ _ i2 hx, ?_, by rw [a2, i4]; simp, ?_, hpw _⟩
      · rw [implOf_append, hhi]
        simpa [implOf] using HI.Built.free i1
      · rw [explOf_append, hc3, i3]
        simp [explOf, he]
      · intro x hx' hf
        rcases List.mem_append.1 hx' with hx' | hx'
        · exact i5 x hx' hf
        · simp only [List.mem_singleton] at hx'; subst hx'; simp [he]
    · have hlen : ¬ s.ex.data.length < s'.ex.data.length := by rw [hx]; omega
      rw [decide_eq_false hlen]
      refine ⟨?_, by rw [hx]; exact i2, ?_, by rw [a2, i4]; simp, ?_, hpw _⟩
      · rw [implOf_append]
        simpa [implOf] using HI.Built.add i1 hc hhi
      · rw [explOf_append, hx, i3]
        simp [explOf]
      · intro x hx' hf
        rcases List.mem_append.1 hx' with hx' | hx'
        · exact i5 x hx' hf
        · simp only [List.mem_singleton] at hx'; subst hx'; simp at hf
  | free b _ ih =>
    obtain ⟨i1, i2, i3, i4, i5, i6⟩ := ih
    exact ⟨.free i1, i2, i3, i4, i5, i6⟩
  | @setRhs h s s' c v b hb hsame hel hset ih =>
    obtain ⟨i1, i2, i3, i4, i5, i6⟩ := ih
    unfold BS.setRhs at hset
    rcases hh : s.hi.setRhs c.impl v with _ | ⟨hi, b'⟩
    · rw [hh] at hset; simp at hset
    · rw [hh] at hset
      have hbi := HI.Built.setRhs i1 hsame hel hh
      cases b' with
      | true =>
        simp only [Option.some.injEq, Prod.mk.injEq] at hset
        obtain ⟨rfl, -⟩ := hset
        exact ⟨hbi, i2, i3, i4, i5, i6⟩
      | false =>
        cases he : c.econ with
        | none =>
          rw [he] at hset
          simp only [Option.some.injEq, Prod.mk.injEq] at hset
          obtain ⟨rfl, -⟩ := hset
          exact ⟨hbi, i2, i3, i4, i5, i6⟩
        | some e =>
          rw [he] at hset
          simp only [Option.some.injEq, Prod.mk.injEq] at hset
          obtain ⟨rfl, -⟩ := hset
          exact ⟨hbi, .setRhsOf _ _ _ i2, (updateFirst_map (fun d : EData α κ => decide (d.c.key = e.key))
            (fun d => d.setRhs v) (fun d => d.c) (fun _ => rfl) s.ex.data).trans i3, i4, i5, i6⟩
  | @fromConfigOne h s s' c q b hb hsame hel hset ih =>
    obtain ⟨i1, i2, i3, i4, i5, i6⟩ := ih
    unfold BS.rhsFromConfigOne at hset
    rcases hh : s.hi.rhsFromConfigOne c.impl q with _ | ⟨hi, b'⟩
    · rw [hh] at hset; simp at hset
    · rw [hh] at hset
      have hbi := HI.Built.setRhs i1 hsame hel (show s.hi.setRhs c.impl _ = _ from hh)
      cases b' with
      | true =>
        simp only [Option.some.injEq, Prod.mk.injEq] at hset
        obtain ⟨rfl, -⟩ := hset
        exact ⟨hbi, i2, i3, i4, i5, i6⟩
      | false =>
        cases he : c.econ with
        | none =>
          rw [he] at hset
          simp only [Option.some.injEq, Prod.mk.injEq] at hset
          obtain ⟨rfl, -⟩ := hset
          exact ⟨hbi, i2, i3, i4, i5, i6⟩
        | some e =>
          rw [he] at hset
          simp only [Option.some.injEq, Prod.mk.injEq] at hset
          obtain ⟨rfl, -⟩ := hset
          exact ⟨hbi, .rhsFromInputOf _ _ _ i2, (updateFirst_map (fun d : EData α κ => decide (d.c.key = e.key))
            (fun d => d.rhsFromInput q) (fun d => d.c) (fun _ => rfl) s.ex.data).trans i3, i4, i5, i6⟩
  | @fromConfig h s q hb ih =>
    obtain ⟨i1, i2, i3, i4, i5, i6⟩ := ih
    refine ⟨.fromConfig i1, .rhsFromInput _ q i2, ?_, i4, i5, i6⟩
    rw [← i3]
    simp [BS.rhsFromConfig, ECS.rhsFromInput, ECS.cons, EData.rhsFromInput]
  | @setRhsVec h s s' v R hb hel htop hset ih =>
    obtain ⟨i1, i2, i3, i4, i5, i6⟩ := ih
    simp only [BS.setRhsVec, headOf, Option.bind_eq_bind, Option.bind_eq_some_iff, Option.some.injEq] at hset
    obtain ⟨top, ht, hi, hhi, bot, hbt, ex, hex, rfl⟩ := hset
    split at ht
    · simp only [Option.some.injEq] at ht
      subst ht
      rw [htop] at hhi
      refine ⟨.setRhsVec i1 hel hhi, .setRhs _ _ _ i2 hex, ?_, i4, i5, i6⟩
      rw [← i3]
      unfold ECS.setRhs at hex
      split at hex
      · simp only [Option.some.injEq] at hex
        subst hex
        exact setRhsLoop_map (fun d : EData α κ => d.c) (fun _ _ => rfl) s.ex.data bot
      · simp at hex
    · simp at ht
  | params a b t n o l _ ih =>
    obtain ⟨i1, i2, i3, i4, i5, i6⟩ := ih
    exact ⟨.params a b n o l i1, .threshold _ t i2, i3, i4, i5, i6⟩

theorem mem_implOf {h : BHist α κ} {c : Impl α κ} {p : Nat} :
    (c, p) ∈ implOf h ↔ ∃ e ∈ h, e.2.2 = false ∧ e.1.impl = c ∧ e.2.1 = p := by
  unfold implOf
  rw [List.mem_filterMap]
  constructor
  · rintro ⟨e, he, h1⟩
    split at h1
    · simp at h1
    · rename_i hf
      simp only [Option.some.injEq, Prod.mk.injEq] at h1
      exact ⟨e, he, by simpa using hf, h1.1, h1.2⟩
  · rintro ⟨e, he, h1, h2, h3⟩
    exact ⟨e, he, by simp [h1, h2, h3]⟩

theorem mem_explOf {h : BHist α κ} {c : ECon α κ} :
    c ∈ explOf h ↔ ∃ e ∈ h, e.2.2 = true ∧ e.1.econ = some c := by
  unfold explOf
  rw [List.mem_filterMap]
  constructor
  · rintro ⟨e, he, h1⟩
    split at h1
    · rename_i hf; exact ⟨e, he, hf, h1⟩
    · simp at h1
  · rintro ⟨e, he, h1, h2⟩
    exact ⟨e, he, by simp [h1, h2]⟩

/-! ### Active rows -/

/-- Specification: rows selected by the masks of the constraints that satisfy a condition. -/
def rowMaskBy (P : Impl α κ → Bool) (cs : List (Impl α κ)) : List Bool :=
  cs.flatMap fun c => if P c then c.mask else List.replicate c.mask.length false

theorem BS.rowsLoop_covers (s : BS α κ) :
    ∀ (cs : List (Impl α κ)) (off r : Nat), (∀ c ∈ cs, c.Ok) →
    (Covers (s.rowsLoop cs off) r ↔ off ≤ r ∧ (rowMaskBy s.rowActive cs)[r - off]? = some true) := by
  intro cs
  induction cs with
  | nil => intro off r _; simp [BS.rowsLoop, rowMaskBy]
  | cons c cs ih =>
    intro off r hok
    have hc := hok c (by simp)
    unfold BS.rowsLoop
    rw [covers_append, ih _ _ fun d hd => hok d (by simp [hd])]
    have hml : (if s.rowActive c then c.mask else List.replicate c.mask.length false).length =
        c.fn.space.nv := by
      cases s.rowActive c <;> simp [hc.mask_len]
    have hrm : rowMaskBy s.rowActive (c :: cs) = (if s.rowActive c then c.mask
        else List.replicate c.mask.length false) ++ rowMaskBy s.rowActive cs := by
      simp [rowMaskBy]
    rw [hrm]
    have h1 : Covers (if s.rowActive c = true then
        c.activeRows.map (fun g => (⟨g.first + off, g.len⟩ : Seg)) else []) r ↔
        off ≤ r ∧ (if s.rowActive c then c.mask
          else List.replicate c.mask.length false)[r - off]? = some true := by
      cases s.rowActive c with
      | true => simp only [if_true]; rw [covers_shift, hc.rows.act_iff]
      | false => simp [List.getElem?_replicate]
    rw [h1]
    generalize (if s.rowActive c then c.mask else List.replicate c.mask.length false) = m at hml
    by_cases hlt : r - off < m.length
    · rw [List.getElem?_append_left hlt]
      constructor
      · rintro (h | ⟨h, -⟩)
        · exact h
        · omega
      · exact Or.inl
    · rw [List.getElem?_append_right (by omega), List.getElem?_eq_none (by omega : m.length ≤ r - off)]
      constructor
      · rintro (⟨-, h⟩ | ⟨h, h'⟩)
        · simp at h
        · exact ⟨by omega, by rw [← h']; congr 1; omega⟩
      · rintro ⟨h, h'⟩
        rcases Nat.lt_or_ge r (off + c.fn.space.nv) with h2 | h2
        · right
          exfalso; omega
        · right; exact ⟨h2, by rw [← h']; congr 1; omega⟩

theorem BS.rows_spec (s : BS α κ) (l : Level α κ) (hok : ∀ c ∈ l.stack.cs, c.Ok) :
    (∀ r : Nat, Covers (s.rows l).segs r ↔ (rowMaskBy s.rowActive l.stack.cs)[r]? = some true) ∧
    Canonical (s.rows l).segs ∧ (s.rows l).nb = (rowMaskBy s.rowActive l.stack.cs).count true := by
  have hseg : (s.rows l).segs = shrink (sort (s.rowsLoop l.stack.cs 0)) := rfl
  have hnb : (s.rows l).nb = cardinal (s.rows l).segs := rfl
  have hcov : ∀ r : Nat, Covers (s.rows l).segs r ↔
      (rowMaskBy s.rowActive l.stack.cs)[r]? = some true := by
    intro r
    rw [hseg, shrink_covers_of_sorted _ (sortedFirst_of_lex (sort_sorted _)),
      covers_perm (sort_perm _), BS.rowsLoop_covers s l.stack.cs 0 r hok]
    simp
  have hcan : Canonical (s.rows l).segs := by rw [hseg]; exact shrink_canonical _
  refine ⟨hcov, hcan, ?_⟩
  rw [hnb, cardinal_eq_length, ← onesFrom_cardinal 0]
  apply List.Perm.length_eq
  rw [List.perm_ext_iff_of_nodup hcan.disjoint.indices_nodup (onesFrom_disjoint _ _).indices_nodup]
  intro r
  rw [mem_indices, mem_indices, hcov, onesFrom_covers]
  simp

end Hpp

namespace Hpp

variable {α κ : Type}

theorem BS.Built.impl_built [Zero α] [DecidableEq κ] {E : Space α → List α → Prop} {nq nv : Nat} {h : BHist α κ}
    {s : BS α κ} (hb : BS.Built E nq nv h s) :
    ∀ e ∈ h, ∃ fn mask comp, Impl.Built fn mask comp e.1.impl := by
  induction hb with
  | init => simp
  | add _ hc _ ih =>
    intro e he
    rcases List.mem_append.1 he with he | he
    · exact ih e he
    · simp only [List.mem_singleton] at he; subst he; exact hc
  | free _ _ ih => exact ih
  | setRhs _ _ _ _ ih => exact ih
  | fromConfigOne _ _ _ _ ih => exact ih
  | fromConfig _ ih => exact ih
  | setRhsVec _ _ _ _ ih => exact ih
  | params _ _ _ _ _ _ _ ih => exact ih

theorem BCon.isEqual_refl [DecidableEq κ] (c : BCon α κ) : c.isEqual c = true := by
  unfold BCon.isEqual Impl.isEqual EPart.same
  cases c.expl <;> simp

/-- Values and right hand sides of the constraints are elements of their spaces. -/
structure BHist.Lawful [Zero α] (E : Space α → List α → Prop) (h : BHist α κ) : Prop where
  law : ∀ e ∈ h, e.1.impl.fn.space.Lawful (E e.1.impl.fn.space)
  val : ∀ e ∈ h, ∀ q, E e.1.impl.fn.space (e.1.impl.fn.value q)

theorem BHist.Lawful.impl [Zero α] {E : Space α → List α → Prop} {h : BHist α κ} (hl : BHist.Lawful E h) :
    (∀ e ∈ implOf h, e.1.fn.space.Lawful (E e.1.fn.space)) ∧
    (∀ e ∈ implOf h, ∀ q, E e.1.fn.space (e.1.fn.value q)) := by
  constructor
  · rintro ⟨c, p⟩ he
    obtain ⟨e, hm, -, rfl, rfl⟩ := mem_implOf.1 he
    exact hl.law e hm
  · rintro ⟨c, p⟩ he
    obtain ⟨e, hm, -, rfl, rfl⟩ := mem_implOf.1 he
    exact hl.val e hm

theorem econ_fields {c : BCon α κ} {e : ECon α κ} (h : c.econ = some e) :
    e.key = c.impl.fn.key ∧ e.comp = c.impl.comp ∧ e.space = c.impl.fn.space ∧ e.h = c.impl.fn.value := by
  unfold BCon.econ at h
  rw [Option.map_eq_some_iff] at h
  obtain ⟨x, -, rfl⟩ := h
  exact ⟨rfl, rfl, rfl, rfl⟩

theorem BHist.Lawful.expl [Zero α] {E : Space α → List α → Prop} {h : BHist α κ} (hl : BHist.Lawful E h) :
    (∀ c ∈ explOf h, c.space.Lawful (E c.space)) ∧ (∀ c ∈ explOf h, ∀ q, E c.space (c.h q)) := by
  constructor
  · intro c hc
    obtain ⟨e, he, -, hec⟩ := mem_explOf.1 hc
    rw [(econ_fields hec).2.2.1]; exact hl.law e he
  · intro c hc
    obtain ⟨e, he, -, hec⟩ := mem_explOf.1 hc
    rw [(econ_fields hec).2.2.1, (econ_fields hec).2.2.2]; exact hl.val e he

theorem BS.Built.comp_len [Zero α] [DecidableEq κ] {E : Space α → List α → Prop} {nq nv : Nat} {h : BHist α κ}
    {s : BS α κ} (hb : BS.Built E nq nv h s) : ∀ c ∈ explOf h, c.comp.length = c.space.nv := by
  intro c hc
  obtain ⟨e, he, -, hec⟩ := mem_explOf.1 hc
  obtain ⟨_, _, _, hi⟩ := hb.impl_built e he
  rw [(econ_fields hec).2.1, (econ_fields hec).2.2.1]
  exact hi.ok.1.comp_len

/-- The residual error of the iterative part exists and has `dimension` rows. -/
theorem residual_spec [AddGroup α] [LinearOrder α] [DecidableEq κ] {El : Fn α κ → List α → Prop} {nv : Nat}
    {h : List (Impl α κ × Nat)} {s : HI α κ} (hb : HI.Built El nv h s)
    (hl : ∀ e ∈ h, e.1.fn.space.Lawful (El e.1.fn)) (hv : ∀ e ∈ h, ∀ q, El e.1.fn (e.1.fn.value q))
    (q : Nat → α) : ∃ e, s.residual q = some e ∧ e.length = s.dimension := by
  obtain ⟨hs, hf, R, hR⟩ := hb.inv hl hv
  have key : ∀ (ls : List (Level α κ)) (k : Nat),
      (∀ (j : Nat) (l : Level α κ), ls[j]? = some l →
        l.error s.ineqThr q =
          some ((atLevel h (k + j)).flatMap fun c => conError s.ineqThr q c (R c.fn.key))) →
      ls.mapM (fun l : Level α κ => l.error s.ineqThr q) = some ((List.range' k ls.length).map fun i =>
        (atLevel h i).flatMap fun c => conError s.ineqThr q c (R c.fn.key)) := by
    intro ls
    induction ls with
    | nil => intro k _; rfl
    | cons l ls ih =>
      intro k hk
      have h2 := hk 0 l rfl
      rw [List.mapM_cons, ih (k + 1) (fun j l' hj => by
        have := hk (j + 1) l' (by simpa using hj)
        rwa [show k + (j + 1) = k + 1 + j by omega] at this), h2]
      rw [List.length_cons, List.range'_succ]
      rfl
  refine ⟨_, by
    unfold HI.residual
    rw [key s.levels 0 fun j l hj => by rw [Nat.zero_add]; exact level_error hs hf hR hj s.ineqThr q]
    rfl, ?_⟩
  rw [C23_dimension hb hl hv, ← sum_levels h (fun c => c.fn.space.nv) s.levels.length hs.nlev,
    ← List.range_eq_range', List.length_flatten, List.map_map]
  congr 1
  apply List.map_congr_left
  intro i _
  simp only [Function.comp_apply]
  rw [List.length_flatMap]
  congr 1
  apply List.map_congr_left
  intro c hc
  exact (conSub_length hf (mem_atLevel.1 hc) (hR.el _ (mem_atLevel.1 hc)) q s.ineqThr).2.2.2.2

/-- Number of output velocity variables. -/
theorem outDers_nb [Zero α] [DecidableEq κ] {nq nv : Nat} {s : ECS α κ} (h : ECS.Built nq nv s)
    (hw : ∀ c ∈ s.cons, WellFormed nq nv c) (hcoh : AllCoherent s.cons) :
    s.outDers.nb = (s.cons.map fun c => (indices c.outV).length).sum := by
  classical
  obtain ⟨hI, -, -⟩ := Inv.built h
  have huniq := (C09_accepted_compatible h).1
  have hnd : ∀ c ∈ s.cons, (indices c.outV).Nodup := by
    intro c hc
    obtain ⟨o, ho, -⟩ := (hw c hc).outV
    rw [ho]
    exact (show Disjoint' [o] from List.pairwise_singleton _ _).indices_nodup
  have hdis : s.cons.Pairwise fun c c' => List.Disjoint (indices c.outV) (indices c'.outV) := by
    rw [List.pairwise_iff_getElem]
    intro i j hi hj hij
    rw [List.disjoint_left]
    intro x hx hx'
    obtain ⟨y, hy, hy'⟩ := (hcoh _ (List.getElem_mem hi) _ (List.getElem_mem hj)).out
      ⟨x, (mem_indices _ _).1 hx, (mem_indices _ _).1 hx'⟩
    have := huniq i j _ _ y (List.getElem?_eq_getElem hi) (List.getElem?_eq_getElem hj) hy hy'
    omega
  rw [hI.outDersN, cardinal_eq_length]
  have hperm : (indices s.outDers.segs).Perm (s.cons.flatMap fun c => indices c.outV) := by
    rw [List.perm_ext_iff_of_nodup hI.outDersC.disjoint.indices_nodup
      (List.nodup_flatMap.2 ⟨hnd, hdis⟩)]
    intro x
    rw [mem_indices, hI.outDers, List.mem_flatMap]
    exact ⟨fun ⟨c, hc, hx⟩ => ⟨c, hc, (mem_indices _ _).2 hx⟩, fun ⟨c, hc, hx⟩ => ⟨c, hc, (mem_indices _ _).1 hx⟩⟩
  rw [hperm.length_eq, List.length_flatMap]

end Hpp
