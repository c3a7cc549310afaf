import Verif.HI.Model
import Verif.Implicit.Prod

/-!
# Invariant of the hierarchical solver
-/

namespace Hpp

variable {α κ : Type}

/-- Constraints added at level `i` by a history of additions, in order. -/
def atLevel (h : List (Impl α κ × Nat)) (i : Nat) : List (Impl α κ) :=
  (h.filter fun e => e.2 = i).map (·.1)

theorem atLevel_snoc (h : List (Impl α κ × Nat)) (c : Impl α κ) (p i : Nat) :
    atLevel (h ++ [(c, p)]) i = if p = i then atLevel h i ++ [c] else atLevel h i := by
  unfold atLevel
  rw [List.filter_append]
  by_cases hp : p = i <;> simp [hp]

theorem atLevel_append (h h' : List (Impl α κ × Nat)) (i : Nat) :
    atLevel (h ++ h') i = atLevel h i ++ atLevel h' i := by
  simp [atLevel]

theorem mem_atLevel {h : List (Impl α κ × Nat)} {i : Nat} {c : Impl α κ} :
    c ∈ atLevel h i ↔ (c, i) ∈ h := by
  unfold atLevel
  simp only [List.mem_map, List.mem_filter, decide_eq_true_eq]
  constructor
  · rintro ⟨⟨c', j⟩, ⟨h1, h2⟩, h3⟩
    simp only at h2 h3; subst h2 h3; exact h1
  · intro hc; exact ⟨(c, i), ⟨hc, rfl⟩, rfl⟩

/-! ### association lists -/

theorem lookupKey_append_left [DecidableEq κ] {m m' : List (κ × Nat)} {k : κ} {v : Nat}
    (h : lookupKey m k = some v) : lookupKey (m ++ m') k = some v := by
  unfold lookupKey at h ⊢
  rw [List.find?_append]
  cases hf : m.find? fun p => p.1 = k with
  | none => rw [hf] at h; simp at h
  | some e => rw [hf] at h; simpa using h

theorem lookupKey_none [DecidableEq κ] {m : List (κ × Nat)} {k : κ} :
    lookupKey m k = none ↔ k ∉ m.map (·.1) := by
  unfold lookupKey
  rw [Option.map_eq_none_iff, List.find?_eq_none]
  simp only [decide_eq_true_eq, List.mem_map, not_exists, not_and]

theorem lookupKey_append_right [DecidableEq κ] {m : List (κ × Nat)} {k : κ} {v : Nat}
    (h : k ∉ m.map (·.1)) : lookupKey (m ++ [(k, v)]) k = some v := by
  have hn := lookupKey_none.2 h
  unfold lookupKey at hn ⊢
  rw [Option.map_eq_none_iff] at hn
  rw [List.find?_append, hn]
  simp

/-! ### comparison types of a level -/

theorem pushComp_comp (c : List Comp) (l : Level α κ) : (Level.pushComp c l).comp = l.comp ++ c := by
  induction c generalizing l with
  | nil => simp [Level.pushComp]
  | cons t c ih => cases t <;> simp [Level.pushComp, ih]

theorem pushComp_ineq (c : List Comp) (l : Level α κ) :
    (Level.pushComp c l).ineq = l.ineq ++ ineqFrom l.comp.length c := by
  induction c generalizing l with
  | nil => simp [Level.pushComp, ineqFrom]
  | cons t c ih => cases t <;> simp [Level.pushComp, ih, ineqFrom]

theorem pushComp_eq (c : List Comp) (l : Level α κ) :
    (Level.pushComp c l).eq = equalityRowsFrom l.comp.length c l.eq := by
  induction c generalizing l with
  | nil => simp [Level.pushComp, equalityRowsFrom]
  | cons t c ih => cases t <;> simp [Level.pushComp, ih, equalityRowsFrom]

theorem pushComp_stack (c : List Comp) (l : Level α κ) :
    (Level.pushComp c l).stack = l.stack := by
  induction c generalizing l with
  | nil => simp [Level.pushComp]
  | cons t c ih => cases t <;> simp [Level.pushComp, ih]

/-! ### stack addition -/

theorem ImplSet.Ok.add {cs : List (Impl α κ)} {s s' : ImplSet α κ} {c : Impl α κ}
    (h : ImplSet.Ok cs s) (ha : s.add c = some s') : ImplSet.Ok (cs ++ [c]) s' := by
  unfold ImplSet.add at ha
  cases hf : s.fns.add c.fn with
  | none => rw [hf] at ha; simp at ha
  | some fns =>
    rw [hf] at ha
    simp at ha
    subst ha
    refine ⟨?_, by simp [h.cs_eq], by simp [h.comp], by simp [h.mask], ?_, rfl, rfl, h.param⟩
    · rw [List.map_append]; exact h.fns.add hf
    · exact computeActiveRows_ok _ _ _ h.rows.act_iff h.rows.act_canonical h.rows.act_first

/-! ### one level -/

/-- What a level is, given its constraints, active rows and right hand side apart. -/
structure LevelCore (cs : List (Impl α κ)) (l : Level α κ) : Prop where
  stack : ImplSet.Ok cs l.stack
  comp : l.comp = cs.flatMap (·.comp)
  ineq : l.ineq = ineqFrom 0 l.comp
  eq : ∀ i : Nat, Covers l.eq.segs i ↔ l.comp[i]? = some .equality

/-- What a level is, given its constraints. -/
structure LevelOk (free : Segs) (cs : List (Impl α κ)) (l : Level α κ) : Prop extends
    LevelCore cs l where
  rows : l.rows = l.computeRows free

theorem LevelCore.nq {cs : List (Impl α κ)} {l : Level α κ} (h : LevelCore cs l) :
    l.stack.fns.space.nq = (cs.map (·.fn.space.nq)).sum := by
  rw [h.stack.fns.space, spaceOf_nq, List.map_map]; rfl

theorem LevelCore.nv {cs : List (Impl α κ)} {l : Level α κ} (h : LevelCore cs l) :
    l.stack.fns.space.nv = (cs.map (·.fn.space.nv)).sum := by
  rw [h.stack.fns.space, spaceOf_nv, List.map_map]; rfl

theorem LevelCore.update {free' : Segs} {cs : List (Impl α κ)} {l : Level α κ}
    (h : LevelCore cs l) : LevelOk free' cs (l.update free') :=
  ⟨⟨h.stack, h.comp, h.ineq, h.eq⟩, rfl⟩

theorem LevelCore.init : LevelCore [] (Level.init α κ) :=
  ⟨ImplSet.init_ok, rfl, rfl, by simp [Level.init, Blocks.empty]⟩

theorem LevelOk.withRhs {free : Segs} {cs : List (Impl α κ)} {l : Level α κ}
    (h : LevelOk free cs l) (r : List α) : LevelOk free cs { l with rhs := r } :=
  ⟨⟨h.stack, h.comp, h.ineq, h.eq⟩, h.rows⟩

theorem LevelCore.addCon {cs : List (Impl α κ)} {l : Level α κ} {c : Impl α κ}
    {st : ImplSet α κ} (h : LevelCore cs l) (ha : l.stack.add c = some st) :
    LevelCore (cs ++ [c])
        { Level.pushComp c.comp { l with stack := st } with
          eq := (Level.pushComp c.comp { l with stack := st }).eq.update true true true } where
  stack := by
    show ImplSet.Ok _ (Level.pushComp _ _).stack
    rw [pushComp_stack]; exact h.stack.add ha
  comp := by
    show (Level.pushComp _ _).comp = _
    rw [pushComp_comp]; simp [h.comp]
  ineq := by
    show (Level.pushComp _ _).ineq = ineqFrom 0 (Level.pushComp _ _).comp
    rw [pushComp_comp, pushComp_ineq, ineqFrom_append]
    simp [h.ineq]
  eq := by
    intro i
    show Covers (Blocks.update true true true (Level.pushComp _ _).eq).segs i ↔
      (Level.pushComp _ _).comp[i]? = _
    rw [pushComp_comp, pushComp_eq]
    unfold Blocks.update
    simp only [if_true]
    rw [shrink_covers_of_sorted _ (sortedFirst_of_lex (sort_sorted _)), covers_perm (sort_perm _),
      equalityRowsFrom_covers]
    show Covers l.eq.segs i ∨ _ ↔ (l.comp ++ c.comp)[i]? = _
    rw [h.eq i]
    by_cases hi : i < l.comp.length
    · rw [List.getElem?_append_left hi]
      constructor
      · rintro (h | h)
        · exact h
        · exfalso
          have : l.comp.length ≤ i := h.1
          omega
      · exact Or.inl
    · rw [List.getElem?_append_right (by omega)]
      constructor
      · rintro (h | h)
        · exact absurd (lt_of_getElem?_some h) hi
        · exact h.2
      · intro h
        have h1 : l.comp.length ≤ i := by omega
        exact Or.inr ⟨h1, h⟩

/-! ### the solver -/

/-- What a solver is, given the history of additions. -/
structure HI.Inv [DecidableEq κ] (h : List (Impl α κ × Nat)) (s : HI α κ) : Prop where
  cons : s.constraints = h.map (·.1)
  prio : s.prio = h.map fun e => (e.1.fn.key, e.2)
  keys : (h.map (·.1.fn.key)).Nodup
  nlev : ∀ e ∈ h, e.2 < s.levels.length
  nlev_min : s.levels.length = 0 ∨ ∃ e ∈ h, e.2 + 1 = s.levels.length
  level : ∀ (i : Nat) (l : Level α κ), s.levels[i]? = some l → LevelOk s.free.segs (atLevel h i) l
  iqKeys : s.iq.map (·.1) = s.prio.map (·.1)
  ivKeys : s.iv.map (·.1) = s.prio.map (·.1)
  iq : ∀ h1 c p h2, h = h1 ++ (c, p) :: h2 →
    lookupKey s.iq c.fn.key = some (((atLevel h1 p).map (·.fn.space.nq)).sum)
  iv : ∀ h1 c p h2, h = h1 ++ (c, p) :: h2 →
    lookupKey s.iv c.fn.key = some (((atLevel h1 p).map (·.fn.space.nv)).sum)
  dim : s.dimension = (s.levels.map (·.stack.fns.space.nv)).sum
  rdim : s.reducedDim = (s.levels.map (·.rows.nb)).sum

theorem HI.Inv.init [Zero α] [DecidableEq κ] (nv : Nat) :
    HI.Inv [] (HI.init α κ nv) where
  cons := rfl
  prio := rfl
  keys := List.nodup_nil
  nlev := by simp
  nlev_min := Or.inl rfl
  level := by simp [HI.init]
  iqKeys := rfl
  ivKeys := rfl
  iq := by simp
  iv := by simp
  dim := rfl
  rdim := rfl

theorem HI.Inv.update' [DecidableEq κ] {h : List (Impl α κ × Nat)} {s : HI α κ} (hs : HI.Inv h s)
    (b : Blocks) : HI.Inv h ({ s with free := b }.update) where
  cons := hs.cons
  prio := hs.prio
  keys := hs.keys
  nlev := by simpa [HI.update] using hs.nlev
  nlev_min := by simpa [HI.update] using hs.nlev_min
  level := by
    intro i l hl
    simp only [HI.update, List.getElem?_map, Option.map_eq_some_iff] at hl
    obtain ⟨l0, h0, rfl⟩ := hl
    exact (hs.level i l0 h0).update
  iqKeys := hs.iqKeys
  ivKeys := hs.ivKeys
  iq := hs.iq
  iv := hs.iv
  dim := rfl
  rdim := rfl

theorem any_key_iff [DecidableEq κ] (m : List (κ × Nat)) (k : κ) :
    m.any (fun e => e.1 = k) = true ↔ k ∈ m.map (·.1) := by
  simp only [List.any_eq_true, decide_eq_true_eq, List.mem_map]

/-- Analysis of a successful addition. -/
theorem HI.add_none [DecidableEq κ] {s s' : HI α κ} {c : Impl α κ} {p : Nat}
    (ha : s.add c p = (s', none)) :
    c.fn.key ∉ s.prio.map (·.1) ∧
    ∃ lv st, (s.levels ++ List.replicate (p + 1 - s.levels.length) (Level.init α κ))[p]? = some lv ∧
      lv.stack.add c = some st ∧
      s' = { s with
            prio := s.prio ++ [(c.fn.key, p)]
            iq := s.iq ++ [(c.fn.key, lv.stack.fns.space.nq)]
            iv := s.iv ++ [(c.fn.key, lv.stack.fns.space.nv)]
            levels := (s.levels ++ List.replicate (p + 1 - s.levels.length) (Level.init α κ)).set p
              { Level.pushComp c.comp { lv with stack := st } with
                eq := (Level.pushComp c.comp { lv with stack := st }).eq.update true true true }
            constraints := s.constraints ++ [c] }.update := by
  unfold HI.add at ha
  split at ha
  · simp at ha
  · rename_i hk
    rw [any_key_iff] at hk
    refine ⟨hk, ?_⟩
    simp only at ha
    split at ha
    · simp at ha
    · rename_i lv hlv
      split at ha
      · simp at ha
      · rename_i st hst
        simp only [Prod.mk.injEq, and_true] at ha
        exact ⟨lv, st, hlv, hst, ha.symm⟩

theorem getElem?_append_replicate {β : Type} (l : List β) (n : Nat) (x : β) (i : Nat) (y : β)
    (h : (l ++ List.replicate n x)[i]? = some y) :
    (i < l.length ∧ l[i]? = some y) ∨ (l.length ≤ i ∧ y = x) := by
  by_cases hi : i < l.length
  · rw [List.getElem?_append_left hi] at h; exact Or.inl ⟨hi, h⟩
  · rw [List.getElem?_append_right (by omega), List.getElem?_replicate] at h
    split at h
    · simp only [Option.some.injEq] at h; exact Or.inr ⟨by omega, h.symm⟩
    · simp at h

theorem atLevel_nil_of_ge [DecidableEq κ] {h : List (Impl α κ × Nat)} {s : HI α κ} (hs : HI.Inv h s)
    {i : Nat} (hi : s.levels.length ≤ i) : atLevel h i = [] := by
  rw [List.eq_nil_iff_forall_not_mem]
  intro c hc
  have := hs.nlev _ (mem_atLevel.1 hc)
  simp only at this
  omega

/-- Level before an addition, updated. -/
theorem preLevel_ok [DecidableEq κ] {h : List (Impl α κ × Nat)} {s : HI α κ} (hs : HI.Inv h s)
    {n i : Nat} {lv : Level α κ}
    (hl : (s.levels ++ List.replicate n (Level.init α κ))[i]? = some lv) :
    LevelCore (atLevel h i) lv := by
  rcases getElem?_append_replicate _ _ _ _ _ hl with ⟨-, h1⟩ | ⟨h1, rfl⟩
  · exact (hs.level i lv h1).toLevelCore
  · rw [atLevel_nil_of_ge hs h1]
    exact LevelCore.init

theorem snoc_eq_split {β : Type} {h h1 h2 : List β} {x y : β} (he : h ++ [x] = h1 ++ y :: h2) :
    (h2 = [] ∧ h1 = h ∧ y = x) ∨ ∃ h2', h2 = h2' ++ [x] ∧ h = h1 ++ y :: h2' := by
  induction h2 using List.reverseRecOn with
  | nil =>
    have := List.append_inj' he rfl
    simp at this
    exact Or.inl ⟨rfl, this.1.symm, this.2.symm⟩
  | append_singleton h2' z _ =>
    right
    have he' : h ++ [x] = (h1 ++ y :: h2') ++ [z] := by simpa using he
    have := List.append_inj' he' rfl
    simp at this
    exact ⟨h2', by rw [this.2], by simpa using this.1⟩

theorem HI.Inv.add [DecidableEq κ] {h : List (Impl α κ × Nat)} {s s' : HI α κ} {c : Impl α κ}
    {p : Nat} (hs : HI.Inv h s) (ha : s.add c p = (s', none)) : HI.Inv (h ++ [(c, p)]) s' := by
  obtain ⟨hk, lv, st, hlv, hst, rfl⟩ := HI.add_none ha
  have hkm : c.fn.key ∉ h.map (·.1.fn.key) := by
    rw [hs.prio, List.map_map] at hk; exact hk
  have hpre := preLevel_ok hs hlv
  have hp : p < (s.levels ++ List.replicate (p + 1 - s.levels.length) (Level.init α κ)).length :=
    lt_of_getElem?_some hlv
  have hq : lv.stack.fns.space.nq = ((atLevel h p).map (·.fn.space.nq)).sum := hpre.nq
  have hv : lv.stack.fns.space.nv = ((atLevel h p).map (·.fn.space.nv)).sum := hpre.nv
  have hsplit : ∀ h1 (c' : Impl α κ) (p' : Nat) h2, h ++ [(c, p)] = h1 ++ (c', p') :: h2 →
      (h1 = h ∧ c' = c ∧ p' = p) ∨ ∃ h2', h = h1 ++ (c', p') :: h2' := by
    intro h1 c' p' h2 he
    rcases snoc_eq_split he with ⟨-, h1', h2'⟩ | ⟨h2', -, h3⟩
    · simp only [Prod.mk.injEq] at h2'; exact Or.inl ⟨h1', h2'⟩
    · exact Or.inr ⟨h2', h3⟩
  refine ⟨?_, ?_, ?_, ?_, ?_, ?_, ?_, ?_, ?_, ?_, rfl, rfl⟩
  · show s.constraints ++ [c] = _
    rw [hs.cons]; simp
  · show s.prio ++ [_] = _
    rw [hs.prio]; simp
  · rw [List.map_append, List.nodup_append]
    refine ⟨hs.keys, by simp, ?_⟩
    rintro a ha b hb rfl
    simp only [List.map_cons, List.map_nil, List.mem_singleton] at hb
    exact hkm (hb ▸ ha)
  · intro e he
    simp only [HI.update, List.length_map, List.length_set, List.length_append,
      List.length_replicate]
    rcases List.mem_append.1 he with he | he
    · have := hs.nlev e he; omega
    · simp only [List.mem_singleton] at he; subst he; simp only; omega
  · right
    simp only [HI.update, List.length_map, List.length_set, List.length_append,
      List.length_replicate]
    by_cases hlt : s.levels.length ≤ p
    · exact ⟨(c, p), by simp, by simp only; omega⟩
    · rcases hs.nlev_min with h0 | ⟨e, he, h0⟩
      · omega
      · exact ⟨e, by simp [he], by omega⟩
  · intro i l hl
    simp only [HI.update, List.getElem?_map, Option.map_eq_some_iff] at hl
    obtain ⟨l0, h0, rfl⟩ := hl
    rw [List.getElem?_set] at h0
    rw [atLevel_snoc]
    split at h0
    · rename_i hpi
      subst hpi
      simp only [Option.some.injEq] at h0
      subst h0
      rw [if_pos rfl]
      exact (hpre.addCon hst).update
    · rename_i hpi
      rw [if_neg hpi]
      exact (preLevel_ok hs h0).update
  · show (s.iq ++ [_]).map _ = (s.prio ++ [_]).map _
    rw [List.map_append, List.map_append, hs.iqKeys]; rfl
  · show (s.iv ++ [_]).map _ = (s.prio ++ [_]).map _
    rw [List.map_append, List.map_append, hs.ivKeys]; rfl
  · intro h1 c' p' h2 he
    show lookupKey (s.iq ++ [_]) _ = _
    rcases hsplit h1 c' p' h2 he with ⟨rfl, rfl, rfl⟩ | ⟨h2', h3⟩
    · rw [lookupKey_append_right (by rw [hs.iqKeys]; exact hk), hq]
    · exact lookupKey_append_left (hs.iq h1 c' p' h2' h3)
  · intro h1 c' p' h2 he
    show lookupKey (s.iv ++ [_]) _ = _
    rcases hsplit h1 c' p' h2 he with ⟨rfl, rfl, rfl⟩ | ⟨h2', h3⟩
    · rw [lookupKey_append_right (by rw [hs.ivKeys]; exact hk), hv]
    · exact lookupKey_append_left (hs.iv h1 c' p' h2' h3)

/-- Replacing right hand sides only. -/
theorem HI.Inv.withRhs [DecidableEq κ] {h : List (Impl α κ × Nat)} {s : HI α κ} (hs : HI.Inv h s)
    (ls : List (Level α κ))
    (hl : List.Forall₂ (fun l l' => ∃ r, l' = { l with rhs := r }) s.levels ls) :
    HI.Inv h { s with levels := ls } := by
  have hlen := hl.length_eq
  have hget : ∀ (i : Nat) (l' : Level α κ), ls[i]? = some l' → ∃ l r, s.levels[i]? = some l ∧
      l' = { l with rhs := r } := by
    intro i l' hi
    have hi' : i < ls.length := lt_of_getElem?_some hi
    have h1 := (List.forall₂_iff_get.1 hl).2 i (by omega) hi'
    obtain ⟨r, hr⟩ := h1
    refine ⟨s.levels[i], r, List.getElem?_eq_getElem (by omega), ?_⟩
    rw [List.getElem?_eq_getElem hi'] at hi
    simp only [Option.some.injEq] at hi
    rw [← hi]; simpa using hr
  have hmap : ∀ {β : Type} (f : Level α κ → β), (∀ l r, f { l with rhs := r } = f l) →
      ls.map f = s.levels.map f := by
    intro β f hf
    clear hget hlen
    generalize s.levels = a at hl
    induction hl with
    | nil => rfl
    | cons hr _ ih =>
      obtain ⟨r, rfl⟩ := hr
      simp only [List.map_cons, hf, ih]
  refine ⟨hs.cons, hs.prio, hs.keys, ?_, ?_, ?_, hs.iqKeys, hs.ivKeys, hs.iq, hs.iv, ?_, ?_⟩
  · intro e he
    show e.2 < ls.length
    rw [← hlen]; exact hs.nlev e he
  · show ls.length = 0 ∨ ∃ e ∈ h, e.2 + 1 = ls.length
    rw [← hlen]; exact hs.nlev_min
  · intro i l' hi
    obtain ⟨l, r, h1, rfl⟩ := hget i l' hi
    exact (hs.level i l h1).withRhs r
  · show s.dimension = _
    rw [hs.dim]; congr 1
    exact (hmap _ fun _ _ => rfl).symm
  · show s.reducedDim = _
    rw [hs.rdim]; congr 1
    exact (hmap _ fun _ _ => rfl).symm

end Hpp
