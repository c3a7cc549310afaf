import Verif.Implicit.Model
import Verif.Common.Lemmas
import Mathlib.Algebra.Order.Group.Unbundled.Basic
import Mathlib.Algebra.Order.Ring.Int
import Mathlib.Data.List.Induction

/-!
# Lemmas on implicit constraints
-/

namespace Hpp

variable {α κ : Type}

/-! ### comparison types -/

theorem pushTo_go (r : RepComp) (k : Nat) (v : List Comp) :
    RepComp.pushTo.go r k v = v ++ List.replicate k r.type := by
  induction k generalizing v with
  | zero => simp [RepComp.pushTo.go]
  | succ k ih => simp [RepComp.pushTo.go, ih, List.replicate_succ]

theorem pushTo_eq (r : RepComp) (v : List Comp) : r.pushTo v = v ++ List.replicate r.n r.type :=
  pushTo_go r r.n v

theorem computeParameterSize_eq (c : List Comp) :
    computeParameterSize c = c.count .equality := by
  unfold computeParameterSize
  have : ∀ n, c.foldl (fun n t => if t = .equality then n + 1 else n) n = n + c.count .equality := by
    induction c with
    | nil => simp
    | cons t c ih =>
      intro n
      rw [List.foldl_cons, ih, List.count_cons]
      by_cases h : t = .equality
      · simp [h]; omega
      · simp [h]
  simpa using this 0

theorem mem_ineqFrom (k : Nat) (c : List Comp) (i : Nat) :
    i ∈ ineqFrom k c ↔ k ≤ i ∧ (c[i - k]? = some .superior ∨ c[i - k]? = some .inferior) := by
  induction c generalizing k with
  | nil => simp [ineqFrom]
  | cons t c ih =>
    simp only [ineqFrom, List.mem_append, ih]
    by_cases hi : i = k
    · subst hi
      by_cases ht : t = .superior ∨ t = .inferior
      · simp [ht]
      · simp [ht, show ¬ (i + 1 ≤ i) by omega]
    · have h1 : i ∉ (if t = .superior ∨ t = .inferior then [k] else []) := by
        split <;> simp [hi]
      by_cases hk : k ≤ i
      · have h2 : i - k = (i - (k + 1)) + 1 := by omega
        rw [h2, List.getElem?_cons_succ]
        simp [h1, show k + 1 ≤ i by omega, hk]
      · simp [h1, hk, show ¬ (k + 1 ≤ i) by omega]

theorem ineqFrom_ge (k : Nat) (c : List Comp) : ∀ i ∈ ineqFrom k c, k ≤ i :=
  fun i hi => ((mem_ineqFrom k c i).1 hi).1

theorem ineqFrom_nodup (k : Nat) (c : List Comp) : (ineqFrom k c).Nodup := by
  induction c generalizing k with
  | nil => simp [ineqFrom]
  | cons t c ih =>
    simp only [ineqFrom]
    split
    · simp only [List.singleton_append, List.nodup_cons]
      exact ⟨fun h => by have := ineqFrom_ge _ _ _ h; omega, ih _⟩
    · simpa using ih _

theorem ineqFrom_append (k : Nat) (a b : List Comp) :
    ineqFrom k (a ++ b) = ineqFrom k a ++ ineqFrom (k + a.length) b := by
  induction a generalizing k with
  | nil => simp [ineqFrom]
  | cons t a ih =>
    simp only [List.cons_append, ineqFrom, ih, List.length_cons, List.append_assoc]
    rw [show k + 1 + a.length = k + (a.length + 1) by omega]

/-! ### masks -/

theorem activeLoop_eq (k : Nat) (m : List Bool) (a ia : Segs) :
    activeLoop k m (a, ia) = (a ++ onesFrom k m, ia ++ onesFrom k (m.map (!·))) := by
  induction m generalizing k a ia with
  | nil => simp [activeLoop, onesFrom]
  | cons b m ih =>
    cases b <;> simp [activeLoop, onesFrom, ih]

theorem OkC_of_disjoint (C : Nat → Prop) (l : Segs) (h : Disjoint' l) : OkC C l := by
  have := OkC.append_disjoint C l [] h (by simp) trivial
  simpa using this

theorem shrinkLoop_first (e : Seg) (l : Segs) :
    ∀ s ∈ shrinkLoop e l, ∃ t ∈ e :: l, s.first = t.first := by
  induction l generalizing e with
  | nil => intro s hs; simp [shrinkLoop] at hs; exact ⟨e, by simp, by rw [hs]⟩
  | cons x l ih =>
    intro s hs
    unfold shrinkLoop at hs
    split at hs
    · rcases List.mem_cons.1 hs with rfl | hs
      · exact ⟨s, by simp, rfl⟩
      · obtain ⟨t, ht, e⟩ := ih _ s hs
        exact ⟨t, List.mem_cons_of_mem _ ht, e⟩
    · obtain ⟨t, ht, h⟩ := ih _ s hs
      rcases List.mem_cons.1 ht with rfl | ht
      · exact ⟨e, by simp, h⟩
      · exact ⟨t, by simp [ht], h⟩

theorem shrink_first (l : Segs) : ∀ s ∈ shrink l, ∃ t ∈ l, s.first = t.first := by
  cases l with
  | nil => simp [shrink]
  | cons e l => exact shrinkLoop_first e l

theorem onesFrom_lt (k : Nat) (v : List Bool) : ∀ s ∈ onesFrom k v, s.first < k + v.length := by
  induction v generalizing k with
  | nil => simp [onesFrom]
  | cons b v ih =>
    intro s hs
    simp only [onesFrom, List.mem_append] at hs
    rcases hs with hs | hs
    · split at hs
      · simp at hs; subst hs; simp
      · simp at hs
    · have := ih _ s hs
      simp only [List.length_cons]; omega

/-- State of the row intervals with respect to the mask they were computed from. -/
structure RowsOk (mask : List Bool) (act : Segs) (inact : Blocks) : Prop where
  act_iff : ∀ i, Covers act i ↔ mask[i]? = some true
  act_canonical : Canonical act
  act_first : ∀ s ∈ act, s.first < mask.length
  inact_iff : ∀ i, Covers inact.segs i ↔ mask[i]? = some false
  inact_canonical : Canonical inact.segs
  inact_nb : inact.nb = cardinal inact.segs

theorem getElem?_map_not (m : List Bool) (i : Nat) :
    (m.map (!·))[i]? = some true ↔ m[i]? = some false := by
  rw [List.getElem?_map]
  cases m[i]? with
  | none => simp
  | some b => cases b <;> simp

/-- Recomputing the rows after more rows were appended, without clearing the previous ones. -/
theorem computeActiveRows_ok (m m' : List Bool) (act : Segs) (h1 : ∀ i, Covers act i ↔ m[i]? = some true)
    (h2 : Canonical act) (h3 : ∀ s ∈ act, s.first < m.length) :
    RowsOk (m ++ m') (computeActiveRows (m ++ m') act).1 (computeActiveRows (m ++ m') act).2 := by
  have hcov : ∀ i, Covers (shrink (act ++ onesFrom 0 (m ++ m'))) i ↔ (m ++ m')[i]? = some true := by
    intro i
    rw [shrink_covers_okC]
    · rw [covers_append, onesFrom_covers, h1]
      simp only [Nat.zero_le, Nat.sub_zero, true_and]
      constructor
      · rintro (h | h)
        · rw [List.getElem?_append_left (lt_of_getElem?_some h)]; exact h
        · exact h
      · exact Or.inr
    · refine OkC.append_disjoint _ _ _ h2.disjoint ?_ (OkC_of_disjoint _ _ (onesFrom_disjoint _ _))
      intro j hj e he hlt
      right
      rw [onesFrom_covers] at hj
      have := h3 e he
      rw [h1]
      simp only [Nat.zero_le, Nat.sub_zero, true_and] at hj
      rwa [List.getElem?_append_left (by omega)] at hj
  unfold computeActiveRows
  simp only [activeLoop_eq, List.nil_append]
  refine ⟨hcov, shrink_canonical _, ?_, ?_, shrink_canonical _, rfl⟩
  · intro s hs
    obtain ⟨t, ht, e⟩ := shrink_first _ s hs
    rw [e, List.length_append]
    rcases List.mem_append.1 ht with ht | ht
    · have := h3 t ht; omega
    · have := onesFrom_lt _ _ t ht
      rw [List.length_append] at this; omega
  · intro i
    show Covers (shrink (onesFrom 0 ((m ++ m').map (!·)))) i ↔ _
    rw [shrink_covers_of_sorted _ (onesFrom_disjoint _ _).sortedFirst, onesFrom_covers]
    simp only [Nat.zero_le, Nat.sub_zero, true_and]
    exact getElem?_map_not _ _

theorem computeActiveRows_nil (m : List Bool) :
    RowsOk m (computeActiveRows m []).1 (computeActiveRows m []).2 := by
  simpa using computeActiveRows_ok [] m [] (by simp) List.Pairwise.nil (by simp)

/-- Zeroing of the inactive rows, by components. -/
theorem lwrite_zero [Zero α] (e : List α) (l : Segs) (i : Nat) :
    (lwrite e l (List.replicate (indices l).length 0))[i]? =
      if i ∈ indices l ∧ i < e.length then some 0 else e[i]? := by
  unfold lwrite
  have : List.replicate (indices l).length (0 : α) = (indices l).map fun _ => 0 := by
    rw [List.map_const']
  rw [this, setAll_map_getElem?]

/-- Keep the components selected by the mask, zero the other ones. -/
def maskBy [Zero α] (m : List Bool) (e : List α) : List α :=
  List.zipWith (fun b x => if b then x else 0) m e

theorem zero_rows_eq [Zero α] {m : List Bool} {act : Segs} {inact : Blocks} (h : RowsOk m act inact)
    (e : List α) (he : e.length = m.length) :
    lwrite e inact.segs (List.replicate (indices inact.segs).length 0) = maskBy m e := by
  apply List.ext_getElem?
  intro i
  rw [lwrite_zero]
  simp only [mem_indices, h.inact_iff]
  unfold maskBy
  rw [List.getElem?_zipWith]
  by_cases hi : i < e.length
  · have hm : i < m.length := by omega
    rw [List.getElem?_eq_getElem hi, List.getElem?_eq_getElem hm]
    cases m[i] <;> simp [hi]
  · have hm : ¬ i < m.length := by omega
    rw [List.getElem?_eq_none (by omega), List.getElem?_eq_none (by omega)]
    simp

/-! ### invariant of `Implicit` -/

/-- What the members of an `Implicit` are with respect to its comparison types and mask. -/
structure Impl.Ok (c : Impl α κ) : Prop where
  comp_len : c.comp.length = c.fn.space.nv
  mask_len : c.mask.length = c.fn.space.nv
  param : c.paramSize = c.comp.count .equality
  rows : RowsOk c.mask c.activeRows c.inactiveRows
  ineq : c.ineq = ineqFrom 0 c.comp
  eq : c.eq = equalityIndices c.comp
  rhsSize : c.rhsSize = c.fn.space.nq

/-- The mask that is meant: an empty mask selects all the components. -/
def fullMask (fn : Fn α κ) (mask : List Bool) : List Bool :=
  if mask = [] then List.replicate fn.space.nv true else mask

/-- Constraints on function `fn` with mask `mask`, obtained by construction followed by any sequence of
calls, with the comparison types last requested. -/
inductive Impl.Built (fn : Fn α κ) (mask : List Bool) : List Comp → Impl α κ → Prop
  | create (comp : List Comp) (c : Impl α κ) : Impl.create fn comp mask = some c →
      Built fn mask comp c
  | setComparison (comp comp' : List Comp) (c : Impl α κ) : Built fn mask comp c →
      comp'.length = fn.space.nv → Built fn mask comp' (c.setComparison comp')
  | setRhsFn (comp : List Comp) (c : Impl α κ) (f : Option (Fn α κ)) (c' : Impl α κ) :
      Built fn mask comp c → c.setRhsFn f = .ok c' → Built fn mask comp c'
  | rhsAt (comp : List Comp) (c : Impl α κ) (s : α) : Built fn mask comp c →
      Built fn mask comp (c.rhsAt s).1

theorem Impl.mk'_ok {fn : Fn α κ} {comp : List Comp} {mask : List Bool} {junk : List α}
    {c : Impl α κ} (h : Impl.mk' fn comp mask junk = some c) :
    c.Ok ∧ c.fn = fn ∧ c.comp = comp ∧ c.mask = mask := by
  unfold Impl.mk' at h
  split at h
  · rename_i hl
    simp only [Option.some.injEq] at h; subst h
    exact ⟨⟨hl.1, hl.2, computeParameterSize_eq _, computeActiveRows_nil _, rfl, rfl, rfl⟩,
      rfl, rfl, rfl⟩
  · simp at h

theorem Impl.create_ok {fn : Fn α κ} {comp : List Comp} {mask : List Bool}
    {c : Impl α κ} (h : Impl.create fn comp mask = some c) :
    c.Ok ∧ c.fn = fn ∧ c.comp = comp ∧ c.mask = fullMask fn mask := by
  have := Impl.mk'_ok h
  refine ⟨this.1, this.2.1, this.2.2.1, this.2.2.2.trans ?_⟩
  unfold fullMask
  cases mask <;> simp

theorem Impl.setRhsFn_ok {c c' : Impl α κ} {f : Option (Fn α κ)} (h : c.setRhsFn f = .ok c') :
    c' = { c with rhsFn := f } := by
  unfold Impl.setRhsFn at h
  cases f with
  | none => simp at h; exact h.symm
  | some g =>
    simp only at h
    split at h
    · simp at h
    · split at h
      · simp at h
      · split at h
        · simp at h
        · simp at h; exact h.symm

theorem Impl.Built.ok {fn : Fn α κ} {mask : List Bool} {comp : List Comp} {c : Impl α κ}
    (h : Built fn mask comp c) :
    c.Ok ∧ c.fn = fn ∧ c.comp = comp ∧ c.mask = fullMask fn mask := by
  induction h with
  | create comp c h => exact Impl.create_ok h
  | setComparison comp comp' c _ hl ih =>
    obtain ⟨ih, hf, -, hm⟩ := ih
    exact ⟨⟨hl.trans (by rw [← hf]; rfl), ih.mask_len, computeParameterSize_eq _, ih.rows, rfl, rfl,
      ih.rhsSize⟩, hf, rfl, hm⟩
  | setRhsFn comp c f c' _ h ih =>
    obtain ⟨ih, hf, hc, hm⟩ := ih
    rw [Impl.setRhsFn_ok h]
    exact ⟨⟨ih.comp_len, ih.mask_len, ih.param, ih.rows, ih.ineq, ih.eq, ih.rhsSize⟩, hf, hc, hm⟩
  | rhsAt comp c s _ ih =>
    unfold Impl.rhsAt
    split
    · exact ih
    · obtain ⟨ih, hf, hc, hm⟩ := ih
      exact ⟨⟨ih.comp_len, ih.mask_len, ih.param, ih.rows, ih.ineq, ih.eq, ih.rhsSize⟩, hf, hc, hm⟩

/-! ### sets of functions -/

/-- Functions added one by one to an empty set. -/
def FnSet.ofList (fs : List (Fn α κ)) : Option (FnSet α κ) := fs.foldlM FnSet.add (FnSet.init α κ)

theorem FnSet.ofList_snoc (fs : List (Fn α κ)) (f : Fn α κ) :
    FnSet.ofList (fs ++ [f]) = (FnSet.ofList fs).bind fun s => s.add f := by
  unfold FnSet.ofList
  rw [List.foldlM_append]
  show Option.bind _ _ = Option.bind _ _
  congr 1
  funext s
  show Option.bind _ _ = _
  cases s.add f <;> rfl

/-- Product of spaces, in order. -/
def spaceOf (fs : List (Fn α κ)) : Space α := fs.foldl (fun s f => s.prod f.space) (Space.empty α)

theorem spaceOf_snoc (fs : List (Fn α κ)) (f : Fn α κ) :
    spaceOf (fs ++ [f]) = (spaceOf fs).prod f.space := by simp [spaceOf]

theorem spaceOf_nq (fs : List (Fn α κ)) : (spaceOf fs).nq = (fs.map (·.space.nq)).sum := by
  induction fs using List.reverseRecOn with
  | nil => rfl
  | append_singleton fs f ih => rw [spaceOf_snoc]; simp [Space.prod, ih]

theorem spaceOf_nv (fs : List (Fn α κ)) : (spaceOf fs).nv = (fs.map (·.space.nv)).sum := by
  induction fs using List.reverseRecOn with
  | nil => rfl
  | append_singleton fs f ih => rw [spaceOf_snoc]; simp [Space.prod, ih]

theorem getElem?_zipWith_or (a b : List Bool) (h : a.length = b.length) (i : Nat) :
    (List.zipWith (· || ·) a b)[i]? = some true ↔ a[i]? = some true ∨ b[i]? = some true := by
  rw [List.getElem?_zipWith]
  by_cases hi : i < a.length
  · rw [List.getElem?_eq_getElem hi, List.getElem?_eq_getElem (h ▸ hi)]
    simp
  · rw [List.getElem?_eq_none (by omega), List.getElem?_eq_none (by omega)]
    simp

/-- What a set of functions is once built. -/
structure FnSet.Ok (fs : List (Fn α κ)) (s : FnSet α κ) : Prop where
  fns : s.fns = fs
  space : s.space = spaceOf fs
  sizes : ∀ f ∈ fs, f.inputSize = s.inputSize ∧ f.inputDer = s.inputDer ∧
    f.activeQ.length = s.activeQ.length ∧ f.active.length = s.active.length
  active : ∀ i : Nat, s.active[i]? = some true ↔ ∃ f ∈ fs, f.active[i]? = some true
  activeQ : ∀ i : Nat, s.activeQ[i]? = some true ↔ ∃ f ∈ fs, f.activeQ[i]? = some true
  emp : fs = [] → s.active = [] ∧ s.activeQ = []

theorem FnSet.Ok.add {fs : List (Fn α κ)} {s s' : FnSet α κ} {f : Fn α κ} (h : FnSet.Ok fs s)
    (ha : s.add f = some s') : FnSet.Ok (fs ++ [f]) s' := by
  unfold FnSet.add at ha
  split at ha
  · rename_i he
    have hnil : fs = [] := by rw [← h.fns]; exact List.isEmpty_iff.1 he
    simp only [Option.some.injEq] at ha; subst ha
    subst hnil
    refine ⟨rfl, ?_, ?_, ?_, ?_, ?_⟩
    · rw [spaceOf_snoc, ← h.space]
    all_goals simp
  · split at ha
    · rename_i hs
      simp only [Option.some.injEq] at ha; subst ha
      refine ⟨by rw [h.fns], by rw [spaceOf_snoc, ← h.space], ?_, ?_, ?_, by simp⟩
      · intro g hg
        rcases List.mem_append.1 hg with hg | hg
        · have := h.sizes g hg
          simp only [List.length_zipWith]
          omega
        · simp only [List.mem_singleton] at hg; subst hg
          simp only [List.length_zipWith]
          omega
      · intro i
        show (List.zipWith _ _ _)[i]? = _ ↔ _
        rw [getElem?_zipWith_or _ _ hs.2.2.2, h.active]
        simp only [List.mem_append, List.mem_singleton, or_and_right, exists_or, exists_eq_left]
      · intro i
        show (List.zipWith _ _ _)[i]? = _ ↔ _
        rw [getElem?_zipWith_or _ _ hs.2.2.1, h.activeQ]
        simp only [List.mem_append, List.mem_singleton, or_and_right, exists_or, exists_eq_left]
    · simp at ha

theorem FnSet.init_ok : FnSet.Ok [] (FnSet.init α κ) :=
  ⟨rfl, rfl, by simp, by simp [FnSet.init], by simp [FnSet.init], fun _ => ⟨rfl, rfl⟩⟩

theorem FnSet.ofList_ok {fs : List (Fn α κ)} {s : FnSet α κ} (h : FnSet.ofList fs = some s) :
    FnSet.Ok fs s := by
  induction fs using List.reverseRecOn generalizing s with
  | nil => simp [FnSet.ofList] at h; subst h; exact FnSet.init_ok
  | append_singleton fs f ih =>
    rw [FnSet.ofList_snoc] at h
    cases hs : FnSet.ofList fs with
    | none => rw [hs] at h; simp at h
    | some s0 => rw [hs] at h; exact (ih hs).add h

theorem setAll_range' (v w a b : List α) :
    setAll (a ++ v ++ b) ((List.range' a.length v.length).zip w) =
      if w.length = v.length then a ++ w ++ b else
        setAll (a ++ v ++ b) ((List.range' a.length v.length).zip w) := by
  split
  · rename_i h
    induction v generalizing a w with
    | nil => cases w <;> simp_all [setAll]
    | cons x v ih =>
      cases w with
      | nil => simp at h
      | cons y w =>
        simp only [List.length_cons, List.range'_succ, List.zip_cons_cons, setAll]
        have := ih w (a ++ [y]) (by simpa using h)
        simp only [List.length_append, List.length_singleton, List.append_assoc,
          List.cons_append, List.nil_append] at this ⊢
        rw [← this]
        congr 1
        rw [List.set_append_right _ _ (by omega)]
        simp
  · rfl

theorem fnSetValue_eq (q : Nat → α) (fs : List (Fn α κ)) (hf : ∀ f ∈ fs, (f.value q).length = f.space.nq)
    (a buf : List α) (hb : buf.length = (fs.map (·.space.nq)).sum) :
    fnSetValue q fs a.length (a ++ buf) = a ++ fs.flatMap (·.value q) := by
  induction fs generalizing a buf with
  | nil => simp at hb; subst hb; simp [fnSetValue]
  | cons f fs ih =>
    simp only [List.map_cons, List.sum_cons] at hb
    have h1 : buf = buf.take f.space.nq ++ buf.drop f.space.nq := (List.take_append_drop _ _).symm
    have h2 : (buf.take f.space.nq).length = f.space.nq := by simp; omega
    have h3 := setAll_range' (buf.take f.space.nq) (f.value q) a (buf.drop f.space.nq)
    rw [if_pos (by rw [h2]; exact hf f (by simp)), h2, List.append_assoc, ← h1] at h3
    have h4 := ih (fun g hg => hf g (by simp [hg])) (a ++ f.value q) (buf.drop f.space.nq)
      (by simp; omega)
    rw [List.length_append, hf f (by simp)] at h4
    rw [fnSetValue, h3, h4, List.flatMap_cons, List.append_assoc]

theorem fnSetJac_out (q : Nat → α) (fs : List (Fn α κ)) (row : Nat) (J : Jac α) (r k : Nat)
    (h : r < row ∨ row + (fs.map (·.space.nv)).sum ≤ r) : fnSetJac q fs row J r k = J r k := by
  induction fs generalizing row J with
  | nil => rfl
  | cons f fs ih =>
    simp only [List.map_cons, List.sum_cons] at h
    rw [fnSetJac, ih _ _ (by omega), if_neg (by omega)]

theorem fnSetJac_in (q : Nat → α) (pre : List (Fn α κ)) (f : Fn α κ) (post : List (Fn α κ)) (row : Nat)
    (J : Jac α) (r k : Nat) (h : r < f.space.nv) :
    fnSetJac q (pre ++ f :: post) row J (row + (pre.map (·.space.nv)).sum + r) k = f.jac q r k := by
  induction pre generalizing row J with
  | nil =>
    simp only [List.nil_append, List.map_nil, List.sum_nil, Nat.add_zero, fnSetJac]
    rw [fnSetJac_out _ _ _ _ _ _ (by omega), if_pos (by omega)]
    congr 1; omega
  | cons g pre ih =>
    simp only [List.cons_append, List.map_cons, List.sum_cons, fnSetJac]
    rw [← ih (row + g.space.nv)]
    congr 1; omega

/-! ### sets of constraints -/

/-- Constraints added one by one to an empty set. -/
def ImplSet.ofList (cs : List (Impl α κ)) : Option (ImplSet α κ) :=
  cs.foldlM ImplSet.add (ImplSet.init α κ)

theorem ImplSet.ofList_snoc (cs : List (Impl α κ)) (c : Impl α κ) :
    ImplSet.ofList (cs ++ [c]) = (ImplSet.ofList cs).bind fun s => s.add c := by
  unfold ImplSet.ofList
  rw [List.foldlM_append]
  show Option.bind _ _ = Option.bind _ _
  congr 1
  funext s
  show Option.bind _ _ = _
  cases s.add c <;> rfl

/-- What a set of constraints is once built. -/
structure ImplSet.Ok (cs : List (Impl α κ)) (s : ImplSet α κ) : Prop where
  fns : FnSet.Ok (cs.map (·.fn)) s.fns
  cs_eq : s.cs = cs
  comp : s.comp = cs.flatMap (·.comp)
  mask : s.mask = cs.flatMap (·.mask)
  rows : RowsOk s.mask s.activeRows s.inactiveRows
  ineq : s.ineq = ineqFrom 0 s.comp
  eq : s.eq = equalityIndices s.comp
  param : s.paramSize = 0

theorem ImplSet.init_ok : ImplSet.Ok [] (ImplSet.init α κ) where
  fns := FnSet.init_ok
  cs_eq := rfl
  comp := rfl
  mask := rfl
  rows := computeActiveRows_nil []
  ineq := rfl
  eq := rfl
  param := rfl

theorem ImplSet.ofList_ok {cs : List (Impl α κ)} {s : ImplSet α κ} (h : ImplSet.ofList cs = some s) :
    ImplSet.Ok cs s := by
  induction cs using List.reverseRecOn generalizing s with
  | nil => simp [ImplSet.ofList] at h; subst h; exact ImplSet.init_ok
  | append_singleton cs c ih =>
    rw [ImplSet.ofList_snoc] at h
    cases hs : ImplSet.ofList cs with
    | none => rw [hs] at h; simp at h
    | some s0 =>
      rw [hs] at h
      have h0 := ih hs
      simp only [Option.bind_some, ImplSet.add] at h
      cases hf : s0.fns.add c.fn with
      | none => rw [hf] at h; simp at h
      | some fns =>
        rw [hf] at h
        simp at h
        subst h
        refine ⟨?_, by simp [h0.cs_eq], by simp [h0.comp], by simp [h0.mask], ?_, rfl, rfl, h0.param⟩
        · rw [List.map_append]; exact h0.fns.add hf
        · exact computeActiveRows_ok _ _ _ h0.rows.act_iff h0.rows.act_canonical h0.rows.act_first

/-! ### inequalities -/

/-- Expected error of one component after comparison. -/
def comparedError [Zero α] [Add α] [Sub α] [Neg α] [LE α] [DecidableLE α] (t : Comp) (thr x : α) : α :=
  match t with
  | .superior => if thr ≤ x then 0 else x - thr
  | .inferior => if x ≤ -thr then 0 else x + thr
  | _ => x

/-- Whether the inequality is inactive: its limit is met. -/
def InsideLimit [Neg α] [LE α] (t : Comp) (thr x : α) : Prop :=
  (t = .superior ∧ thr ≤ x) ∨ (t = .inferior ∧ x ≤ -thr)

theorem compare1_sup [AddGroup α] [LinearOrder α] (x thr : α) :
    compare1 true x thr = (if thr ≤ x then 0 else x - thr, decide (thr ≤ x)) := by
  unfold compare1
  by_cases h : x < thr
  · simp [h, not_le.2 h]
  · simp [h, not_lt.1 h]

theorem compare1_inf [AddGroup α] [LinearOrder α] (x thr : α) :
    compare1 false x thr = (if x ≤ -thr then 0 else x + thr, decide (x ≤ -thr)) := by
  unfold compare1
  by_cases h : -thr < x
  · simp [h, not_le.2 h]
  · simp [h, not_lt.1 h]

theorem applyComparison_spec [AddGroup α] [LinearOrder α] (comp : List Comp) (thr : α)
    (idx : List Nat) (hn : idx.Nodup)
    (hidx : ∀ i ∈ idx, comp[i]? = some .superior ∨ comp[i]? = some .inferior) (v : List α) (J : Jac α)
    (hlen : v.length = comp.length) :
    ∃ v' J', applyComparison comp thr idx (v, J) = some (v', J') ∧ v'.length = v.length ∧
      (∀ (i : Nat) (x : α), v[i]? = some x → v'[i]? =
        if i ∈ idx then (comp[i]?).map (fun t => comparedError t thr x) else some x) ∧
      (∀ r k, ∀ x, v[r]? = some x → J' r k =
        open Classical in if r ∈ idx ∧ ∃ t, comp[r]? = some t ∧ InsideLimit t thr x then 0 else J r k) ∧
      (∀ r k, r ∉ idx → J' r k = J r k) := by
  induction idx generalizing v J with
  | nil => exact ⟨v, J, rfl, rfl, by simp, by simp, by simp⟩
  | cons j idx ih =>
    have hn' := List.nodup_cons.1 hn
    have hj := hidx j (by simp)
    have hjlt : j < v.length := by
      rw [hlen]; rcases hj with h | h <;> exact lt_of_getElem?_some h
    have key : ∀ (t : Comp) (y : α) (b : Bool), (t = .superior ∨ t = .inferior) → comp[j]? = some t →
        y = comparedError t thr v[j] → (b = true ↔ InsideLimit t thr v[j]) →
        applyComparison comp thr (j :: idx) (v, J) = applyComparison comp thr idx
          (v.set j y, if b then fun r k => if r = j then 0 else J r k else J) →
        ∃ v' J', applyComparison comp thr (j :: idx) (v, J) = some (v', J') ∧ v'.length = v.length ∧
      (∀ (i : Nat) (x : α), v[i]? = some x → v'[i]? =
        if i ∈ (j :: idx) then (comp[i]?).map (fun t => comparedError t thr x) else some x) ∧
      (∀ r k, ∀ x, v[r]? = some x → J' r k =
        open Classical in if r ∈ (j :: idx) ∧ ∃ t, comp[r]? = some t ∧ InsideLimit t thr x then 0
          else J r k) ∧ (∀ r k, r ∉ (j :: idx) → J' r k = J r k) := by
      intro t y b ht hct hy hb happ
      obtain ⟨v', J', h1, h2, h3, h4, h5⟩ := ih hn'.2 (fun i hi => hidx i (by simp [hi]))
        (v.set j y) (if b then fun r k => if r = j then 0 else J r k else J) (by simpa using hlen)
      refine ⟨v', J', happ.trans h1, by simpa using h2, ?_, ?_, ?_⟩
      · intro i x hx
        by_cases hij : i = j
        · subst hij
          rw [h3 i y (by rw [List.getElem?_set]; simp [hjlt]), if_neg hn'.1, if_pos (by simp), hct]
          rw [List.getElem?_eq_getElem hjlt] at hx
          simp only [Option.some.injEq] at hx
          rw [hy, hx]; rfl
        · rw [h3 i x (by rw [List.getElem?_set]; simp [Ne.symm hij, hx])]
          simp [hij]
      · intro r k x hx
        by_cases hrj : r = j
        · subst hrj
          rw [h5 r k hn'.1]
          rw [List.getElem?_eq_getElem hjlt] at hx
          simp only [Option.some.injEq] at hx
          rw [hx] at hb
          by_cases hin : InsideLimit t thr x
          · have hR : r ∈ r :: idx ∧ ∃ t, comp[r]? = some t ∧ InsideLimit t thr x :=
              ⟨by simp, t, hct, hin⟩
            rw [if_pos hR, if_pos (hb.2 hin)]; simp
          · rw [if_neg (fun h => hin (hb.1 h)), if_neg]
            rintro ⟨-, t', ht', hin'⟩
            rw [hct] at ht'; simp only [Option.some.injEq] at ht'; subst ht'; exact hin hin'
        · rw [h4 r k x (by rw [List.getElem?_set]; simp [Ne.symm hrj, hx])]
          have : (if b = true then fun r k => if r = j then (0 : α) else J r k else J) r k = J r k := by
            cases b <;> simp [hrj]
          rw [this]
          by_cases hc : r ∈ idx ∧ ∃ t, comp[r]? = some t ∧ InsideLimit t thr x
          · rw [if_pos hc, if_pos ⟨List.mem_cons_of_mem _ hc.1, hc.2⟩]
          · rw [if_neg hc, if_neg]
            rintro ⟨h1, h2⟩
            rcases List.mem_cons.1 h1 with h1 | h1
            · exact hrj h1
            · exact hc ⟨h1, h2⟩
      · intro r k hr
        simp only [List.mem_cons, not_or] at hr
        rw [h5 r k hr.2]
        cases b <;> simp [hr.1]
    rcases hj with hj | hj
    · refine key .superior _ (decide (thr ≤ v[j])) (Or.inl rfl) hj rfl ?_ ?_
      · simp [InsideLimit]
      · simp only [applyComparison, hj, List.getElem?_eq_getElem hjlt, compare1_sup, comparedError]
    · refine key .inferior _ (decide (v[j] ≤ -thr)) (Or.inr rfl) hj rfl ?_ ?_
      · simp [InsideLimit]
      · simp only [applyComparison, hj, List.getElem?_eq_getElem hjlt, compare1_inf, comparedError]

end Hpp
