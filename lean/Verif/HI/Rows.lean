import Verif.HI.Error

/-!
# Active rows, additions and merges of the hierarchical solver
-/

namespace Hpp

variable {α κ : Type}

/-- Specification: whether a constraint depends on one of the free variables. -/
def dependsOnFree (free : Segs) (c : Impl α κ) : Bool :=
  (indices free).any fun i => decide (c.fn.active[i]? = some true)

/-- Specification: which rows of a level are solved for.  Those selected by the mask of a constraint
whose function depends on a free variable. -/
def rowMask (free : Segs) (cs : List (Impl α κ)) : List Bool :=
  cs.flatMap fun c => if dependsOnFree free c then c.mask else List.replicate c.mask.length false

theorem dependsOnFree_eq (free : Segs) (c : Impl α κ) :
    (indices free).any (fun i => c.fn.active.getD i false) = dependsOnFree free c := by
  unfold dependsOnFree
  congr 1
  funext i
  rw [List.getD_eq_getElem?_getD]
  cases c.fn.active[i]? with
  | none => simp
  | some b => cases b <;> simp

theorem covers_shift (l : Segs) (k i : Nat) :
    Covers (l.map fun s => ⟨s.first + k, s.len⟩) i ↔ k ≤ i ∧ Covers l (i - k) := by
  unfold Covers Seg.Has
  simp only [List.mem_map, exists_exists_and_eq_and]
  constructor
  · rintro ⟨s, hs, h1, h2⟩; exact ⟨by omega, s, hs, by omega, by omega⟩
  · rintro ⟨hk, s, hs, h1, h2⟩; exact ⟨s, hs, by omega, by omega⟩

theorem activeRowsLoop_covers (free : Segs) :
    ∀ (cs : List (Impl α κ)) (off r : Nat), (∀ c ∈ cs, c.Ok) →
    (Covers (activeRowsLoop free cs off) r ↔ off ≤ r ∧ (rowMask free cs)[r - off]? = some true) := by
  intro cs
  induction cs with
  | nil => intro off r _; simp [activeRowsLoop, rowMask]
  | cons c cs ih =>
    intro off r hok
    have hc := hok c (by simp)
    unfold activeRowsLoop
    rw [covers_append, ih _ _ fun d hd => hok d (by simp [hd]), dependsOnFree_eq]
    have hml : (if dependsOnFree free c then c.mask else List.replicate c.mask.length false).length =
        c.fn.space.nv := by
      cases dependsOnFree free c <;> simp [hc.mask_len]
    have hrm : rowMask free (c :: cs) = (if dependsOnFree free c then c.mask
        else List.replicate c.mask.length false) ++ rowMask free cs := by
      simp [rowMask]
    rw [hrm]
    have h1 : Covers (if dependsOnFree free c = true then
        c.activeRows.map (fun s => (⟨s.first + off, s.len⟩ : Seg)) else []) r ↔
        off ≤ r ∧ (if dependsOnFree free c then c.mask
          else List.replicate c.mask.length false)[r - off]? = some true := by
      cases dependsOnFree free c with
      | true => simp only [if_true]; rw [covers_shift, hc.rows.act_iff]
      | false => simp [List.getElem?_replicate]
    rw [h1]
    generalize (if dependsOnFree free c then c.mask else List.replicate c.mask.length false) = m at hml
    by_cases hlt : r - off < m.length
    · rw [List.getElem?_append_left hlt]
      constructor
      · rintro (h | ⟨h, -⟩)
        · exact h
        · omega
      · exact Or.inl
    · rw [List.getElem?_append_right (by omega), List.getElem?_eq_none (by omega : m.length ≤ r - off)]
      constructor
      · rintro (⟨-, h⟩ | ⟨h, h'⟩)
        · simp at h
        · exact ⟨by omega, by rw [← h']; congr 1; omega⟩
      · rintro ⟨h, h'⟩
        rcases Nat.lt_or_ge r (off + c.fn.space.nv) with h2 | h2
        · right
          exfalso; omega
        · right; exact ⟨h2, by rw [← h']; congr 1; omega⟩

theorem onesFrom_cardinal (k : Nat) (v : List Bool) :
    (indices (onesFrom k v)).length = v.count true := by
  induction v generalizing k with
  | nil => rfl
  | cons b v ih => cases b <;> simp [onesFrom, ih]

theorem LevelOk.rows_spec {free : Segs} {cs : List (Impl α κ)} {l : Level α κ}
    (h : LevelOk free cs l) (hok : ∀ c ∈ cs, c.Ok) :
    (∀ r : Nat, Covers l.rows.segs r ↔ (rowMask free cs)[r]? = some true) ∧
    Canonical l.rows.segs ∧ l.rows.nb = (rowMask free cs).count true := by
  have hseg : l.rows.segs = shrink (sort (activeRowsLoop free cs 0)) := by
    rw [h.rows]; unfold Level.computeRows; rw [h.stack.cs_eq]; rfl
  have hnb : l.rows.nb = cardinal l.rows.segs := by
    rw [h.rows]; rfl
  have hcov : ∀ r : Nat, Covers l.rows.segs r ↔ (rowMask free cs)[r]? = some true := by
    intro r
    rw [hseg, shrink_covers_of_sorted _ (sortedFirst_of_lex (sort_sorted _)),
      covers_perm (sort_perm _), activeRowsLoop_covers free cs 0 r hok]
    simp
  have hcan : Canonical l.rows.segs := by rw [hseg]; exact shrink_canonical _
  refine ⟨hcov, hcan, ?_⟩
  rw [hnb, cardinal_eq_length, ← onesFrom_cardinal 0]
  apply List.Perm.length_eq
  rw [List.perm_ext_iff_of_nodup hcan.disjoint.indices_nodup (onesFrom_disjoint _ _).indices_nodup]
  intro r
  rw [mem_indices, mem_indices, hcov, onesFrom_covers]
  simp

/-! ### sums over levels are sums over constraints -/

theorem sum_levels (h : List (Impl α κ × Nat)) (f : Impl α κ → Nat) (n : Nat)
    (hn : ∀ e ∈ h, e.2 < n) :
    ((List.range n).map fun i => ((atLevel h i).map f).sum).sum = (h.map fun e => f e.1).sum := by
  induction h using List.reverseRecOn with
  | nil =>
    simp [atLevel]
  | append_singleton h e ih =>
    rcases e with ⟨c, p⟩
    have hp : p < n := hn (c, p) (by simp)
    have key : ∀ m, ((List.range m).map fun i => ((atLevel (h ++ [(c, p)]) i).map f).sum).sum =
        ((List.range m).map fun i => ((atLevel h i).map f).sum).sum + if p < m then f c else 0 := by
      intro m
      induction m with
      | zero => simp
      | succ m ihm =>
        rw [List.range_succ, List.map_append, List.map_append, List.sum_append, List.sum_append, ihm]
        simp only [List.map_cons, List.map_nil, List.sum_cons, List.sum_nil, Nat.add_zero]
        rw [atLevel_snoc]
        by_cases hpm : p = m
        · subst hpm
          simp
          omega
        · rw [if_neg hpm]
          by_cases h2 : p < m
          · rw [if_pos h2, if_pos (by omega)]; omega
          · rw [if_neg h2, if_neg (by omega)]; omega
    rw [key n, if_pos hp, ih fun e he => hn e (by simp [he])]
    simp

theorem levels_map_eq {h : List (Impl α κ × Nat)} {s : HI α κ}
    (f : Level α κ → Nat) (g : List (Impl α κ) → Nat)
    (hfg : ∀ (i : Nat) (l : Level α κ), s.levels[i]? = some l → f l = g (atLevel h i)) :
    s.levels.map f = (List.range s.levels.length).map fun i => g (atLevel h i) := by
  apply List.ext_getElem?
  intro i
  rw [List.getElem?_map, List.getElem?_map]
  by_cases hi : i < s.levels.length
  · rw [List.getElem?_eq_getElem hi, List.getElem?_range hi]
    simp only [Option.map_some, Option.some.injEq]
    exact hfg i _ (List.getElem?_eq_getElem hi)
  · rw [List.getElem?_eq_none (by omega), List.getElem?_eq_none (by simp; omega)]
    rfl

theorem sum_flatMap_count {β : Type} (l : List β) (f : β → List Bool) :
    (l.flatMap f).count true = (l.map fun x => (f x).count true).sum := by
  rw [List.count_flatMap]; rfl

/-! ### additions that succeed -/

/-- All the functions are defined on the same configuration space. -/
def SameInput (nq nv : Nat) (c : Impl α κ) : Prop :=
  c.fn.inputSize = nq ∧ c.fn.inputDer = nv ∧ c.fn.activeQ.length = nq ∧ c.fn.active.length = nv

theorem FnSet.add_isSome {fs : List (Fn α κ)} {s : FnSet α κ} {f : Fn α κ} {nq nv : Nat}
    (h : FnSet.Ok fs s) (hfs : ∀ g ∈ fs, g.inputSize = nq ∧ g.inputDer = nv ∧ g.activeQ.length = nq ∧
      g.active.length = nv) (hf : f.inputSize = nq ∧ f.inputDer = nv ∧ f.activeQ.length = nq ∧
      f.active.length = nv) : ∃ s', s.add f = some s' := by
  unfold FnSet.add
  cases fs with
  | nil => simp [h.fns]
  | cons g fs =>
    have h1 := h.sizes g (by simp)
    have h2 := hfs g (by simp)
    rw [if_neg (by simp [h.fns]), if_pos]
    · exact ⟨_, rfl⟩
    · refine ⟨?_, ?_, ?_, ?_⟩ <;> omega

theorem HI.add_succeeds [DecidableEq κ] {h : List (Impl α κ × Nat)} {s : HI α κ} (hs : HI.Inv h s)
    {nq nv : Nat} (hcomp : ∀ e ∈ h, SameInput nq nv e.1) {c : Impl α κ} (hc : SameInput nq nv c)
    (hk : ∀ e ∈ h, e.1.fn.key ≠ c.fn.key) (p : Nat) : ∃ s', s.add c p = (s', none) := by
  unfold HI.add
  have hk' : ¬ s.prio.any (fun e => e.1 = c.fn.key) = true := by
    rw [any_key_iff, key_mem_prio hs]
    intro hm
    obtain ⟨e, he, hke⟩ := List.mem_map.1 hm
    exact hk e he hke
  rw [if_neg hk']
  simp only
  have hp : p < (s.levels ++ List.replicate (p + 1 - s.levels.length) (Level.init α κ)).length := by
    simp; omega
  rw [List.getElem?_eq_getElem hp]
  have hlv := preLevel_ok hs (List.getElem?_eq_getElem hp)
  generalize (s.levels ++ List.replicate (p + 1 - s.levels.length) (Level.init α κ))[p] = lv at *
  simp only
  obtain ⟨fs', hfs'⟩ := FnSet.add_isSome (f := c.fn) hlv.stack.fns (by
    intro g hg
    obtain ⟨d, hd, rfl⟩ := List.mem_map.1 hg
    exact hcomp _ (mem_atLevel.1 hd)) hc
  have : ∃ st, lv.stack.add c = some st := by
    unfold ImplSet.add
    rw [hfs']
    exact ⟨_, rfl⟩
  obtain ⟨st, hst⟩ := this
  rw [hst]
  exact ⟨_, rfl⟩

theorem HI.add_dup [DecidableEq κ] {h : List (Impl α κ × Nat)} {s : HI α κ} (hs : HI.Inv h s)
    {c : Impl α κ} {e : Impl α κ × Nat} (he : e ∈ h) (hk : e.1.fn.key = c.fn.key) (p : Nat) :
    s.add c p = (s, some .throws) := by
  unfold HI.add
  rw [if_pos]
  rw [any_key_iff, key_mem_prio hs]
  exact List.mem_map.2 ⟨e, he, hk⟩

theorem contains_iff [DecidableEq κ] {h : List (Impl α κ × Nat)} {s : HI α κ} (hs : HI.Inv h s)
    (c : Impl α κ) : s.contains c = true ↔ ∃ e ∈ h, e.1.isEqual c = true := by
  unfold HI.contains
  rw [hs.cons, List.any_map, List.any_eq_true]
  rfl

/-- Additions keep everything but the constraints, priorities and levels. -/
theorem HI.add_params [DecidableEq κ] {s s' : HI α κ} {c : Impl α κ} {p : Nat}
    (ha : s.add c p = (s', none)) : s'.sqThr = s.sqThr ∧ s'.ineqThr = s.ineqThr ∧
      s'.maxIter = s.maxIter ∧ s'.nv = s.nv ∧ s'.free = s.free ∧
      s'.lastIsOptional = s.lastIsOptional ∧ s'.byLevel = s.byLevel := by
  obtain ⟨-, lv, st, -, -, rfl⟩ := HI.add_none ha
  exact ⟨rfl, rfl, rfl, rfl, rfl, rfl, rfl⟩

/-- Elements of `l` whose function is not among those of `h`. -/
def missing [DecidableEq κ] (h l : List (Impl α κ × Nat)) : List (Impl α κ × Nat) :=
  l.filter fun e => h.all fun e' => e'.1.fn.key ≠ e.1.fn.key

theorem mergeLoop_spec [DecidableEq κ] {nq nv : Nat} (prio : List (κ × Nat)) :
    ∀ (l h : List (Impl α κ × Nat)) (s : HI α κ), HI.Inv h s →
    (∀ e ∈ h, SameInput nq nv e.1) → (∀ e ∈ l, SameInput nq nv e.1) →
    (l.map (·.1.fn.key)).Nodup →
    (∀ e ∈ l, lookupKey prio e.1.fn.key = some e.2) →
    (∀ e ∈ l, ∀ e' ∈ h, e'.1.fn.key = e.1.fn.key → e'.1.isEqual e.1 = true) →
    ∃ s', HI.mergeLoop prio (l.map (·.1)) s = (s', none) ∧ HI.Inv (h ++ missing h l) s' ∧
      s'.free = s.free ∧ s'.sqThr = s.sqThr ∧ s'.ineqThr = s.ineqThr := by
  intro l
  induction l with
  | nil => intro h s hs _ _ _ _ _; exact ⟨s, rfl, by simpa [missing] using hs, rfl, rfl, rfl⟩
  | cons e l ih =>
    intro h s hs hch hcl hnd hpr hsame
    simp only [List.map_cons, List.nodup_cons] at hnd
    unfold HI.mergeLoop
    simp only [List.map_cons]
    by_cases hk : ∃ e' ∈ h, e'.1.fn.key = e.1.fn.key
    · obtain ⟨e', he', hke⟩ := hk
      rw [if_pos ((contains_iff hs _).2 ⟨e', he', hsame e (by simp) e' he' hke⟩)]
      obtain ⟨s', h1, h2, h3⟩ := ih h s hs hch (fun d hd => hcl d (by simp [hd])) hnd.2
        (fun d hd => hpr d (by simp [hd])) (fun d hd => hsame d (by simp [hd]))
      refine ⟨s', h1, ?_, h3⟩
      have : missing h (e :: l) = missing h l := by
        unfold missing
        rw [List.filter_cons, if_neg]
        simp only [List.all_eq_true, decide_eq_true_eq, ne_eq]
        intro hall
        exact hall e' he' hke
      rw [this]; exact h2
    · have hk' : ∀ e' ∈ h, e'.1.fn.key ≠ e.1.fn.key := fun e' he' hke => hk ⟨e', he', hke⟩
      have hnc : ¬ s.contains e.1 = true := by
        rw [contains_iff hs]
        rintro ⟨e', he', heq⟩
        unfold Impl.isEqual at heq
        simp only [Bool.and_eq_true, decide_eq_true_eq] at heq
        exact hk' e' he' heq.2
      rw [if_neg hnc, hpr e (by simp)]
      simp only [Option.getD_some]
      obtain ⟨s1, hs1⟩ := HI.add_succeeds hs hch (hcl e (by simp)) hk' e.2
      rw [hs1]
      simp only
      have hinv := hs.add hs1
      have hpar := HI.add_params hs1
      obtain ⟨s', h1, h2, h3, h4, h5⟩ := ih (h ++ [(e.1, e.2)]) s1 hinv
        (by
          intro d hd
          rcases List.mem_append.1 hd with hd | hd
          · exact hch d hd
          · simp only [List.mem_singleton] at hd; subst hd; exact hcl e (by simp))
        (fun d hd => hcl d (by simp [hd])) hnd.2
        (fun d hd => hpr d (by simp [hd]))
        (by
          intro d hd d' hd' hdk
          rcases List.mem_append.1 hd' with hd' | hd'
          · exact hsame d (by simp [hd]) d' hd' hdk
          · simp only [List.mem_singleton] at hd'
            subst hd'
            exact absurd (List.mem_map.2 ⟨d, hd, hdk.symm⟩) hnd.1)
      refine ⟨s', h1, ?_, h3.trans hpar.2.2.2.2.1, h4.trans hpar.1, h5.trans hpar.2.1⟩
      have : h ++ missing h (e :: l) = h ++ [(e.1, e.2)] ++ missing (h ++ [(e.1, e.2)]) l := by
        rw [List.append_assoc]
        congr 1
        unfold missing
        rw [List.filter_cons, if_pos]
        · simp only [List.singleton_append]
          congr 1
          apply List.filter_congr
          intro d hd
          rw [List.all_append]
          have : e.1.fn.key ≠ d.1.fn.key := fun hdk => hnd.1 (List.mem_map.2 ⟨d, hd, hdk.symm⟩)
          simp [this]
        · simp only [List.all_eq_true, decide_eq_true_eq]
          exact hk'
      rw [this]; exact h2

theorem loadLoop_spec [DecidableEq κ] {nq nv : Nat} :
    ∀ (l h : List (Impl α κ × Nat)) (s : HI α κ), HI.Inv h s →
    (∀ e ∈ h, SameInput nq nv e.1) → (∀ e ∈ l, SameInput nq nv e.1) →
    ((h ++ l).map (·.1.fn.key)).Nodup →
    ∃ s', HI.loadLoop l s = (s', none) ∧ HI.Inv (h ++ l) s' ∧
      s'.sqThr = s.sqThr ∧ s'.ineqThr = s.ineqThr ∧ s'.maxIter = s.maxIter ∧ s'.nv = s.nv ∧
      s'.free = s.free ∧ s'.lastIsOptional = s.lastIsOptional ∧ s'.byLevel = s.byLevel ∧
      (l ≠ [] → ∀ lv ∈ s'.levels, lv.rhs = lv.stack.fns.space.neutral) := by
  intro l
  induction l with
  | nil =>
    intro h s hs _ _ _
    exact ⟨s, rfl, by simpa using hs, rfl, rfl, rfl, rfl, rfl, rfl, rfl, fun h => absurd rfl h⟩
  | cons e l ih =>
    rcases e with ⟨c, p⟩
    intro h s hs hch hcl hnd
    have hk : ∀ e' ∈ h, e'.1.fn.key ≠ c.fn.key := by
      intro e' he' hke
      rw [List.map_append, List.nodup_append] at hnd
      exact hnd.2.2 _ (List.mem_map.2 ⟨e', he', rfl⟩) _ (List.mem_map.2 ⟨(c, p), by simp, rfl⟩) hke
    obtain ⟨s1, hs1⟩ := HI.add_succeeds hs hch (hcl (c, p) (by simp)) hk p
    have hinv := hs.add hs1
    have hpar := HI.add_params hs1
    obtain ⟨s', h1, h2, h3⟩ := ih (h ++ [(c, p)]) s1 hinv
      (by
        intro d hd
        rcases List.mem_append.1 hd with hd | hd
        · exact hch d hd
        · simp only [List.mem_singleton] at hd; subst hd; exact hcl (c, p) (by simp))
      (fun d hd => hcl d (by simp [hd])) (by simpa using hnd)
    refine ⟨s', ?_, by simpa using h2, ?_⟩
    · unfold HI.loadLoop; rw [hs1]; exact h1
    · obtain ⟨g1, g2, g3, g4, g5, g6, g7, g8⟩ := h3
      obtain ⟨k1, k2, k3, k4, k5, k6, k7⟩ := hpar
      refine ⟨g1.trans k1, g2.trans k2, g3.trans k3, g4.trans k4, g5.trans k5, g6.trans k6,
        g7.trans k7, fun _ => ?_⟩
      by_cases hl : l = []
      · subst hl
        simp only [HI.loadLoop, Prod.mk.injEq, and_true] at h1
        subst h1
        obtain ⟨-, lv, st, -, -, rfl⟩ := HI.add_none hs1
        exact update_neutral _
      · exact g8 hl

theorem le_sum_of_mem {l : List Nat} {x : Nat} (h : x ∈ l) : x ≤ l.sum := by
  induction l with
  | nil => simp at h
  | cons y l ih =>
    rw [List.sum_cons]
    rcases List.mem_cons.1 h with rfl | h
    · omega
    · have := ih h; omega

/-- `add` computes the dimensions again, whatever they were. -/
theorem HI.add_junk [DecidableEq κ] {s s' : HI α κ} {c : Impl α κ} {p : Nat}
    (ha : s.add c p = (s', none)) (d r : Nat) :
    HI.add { s with dimension := d, reducedDim := r } c p = (s', none) := by
  obtain ⟨h1, lv, st, h2, h3, rfl⟩ := HI.add_none ha
  unfold HI.add
  rw [if_neg (by rw [any_key_iff]; exact h1)]
  simp only [h2, h3]
  rfl

theorem loadLoop_junk [DecidableEq κ] {s s' : HI α κ} {e : Impl α κ × Nat}
    {l : List (Impl α κ × Nat)} (ha : HI.loadLoop (e :: l) s = (s', none)) (d r : Nat) :
    HI.loadLoop (e :: l) { s with dimension := d, reducedDim := r } = (s', none) := by
  rcases e with ⟨c, p⟩
  unfold HI.loadLoop at ha ⊢
  split at ha
  · rename_i s1 h1
    rw [HI.add_junk h1]
    exact ha
  · simp at ha

end Hpp
