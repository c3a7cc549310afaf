import Verif.HI.Inv

/-!
# Right hand sides of the hierarchical solver, by constraint
-/

namespace Hpp

variable {α κ : Type}

/-! ### products, one factor at a time from the left -/

theorem spaceOf_cons_nq (f : Fn α κ) (fs : List (Fn α κ)) :
    (spaceOf (f :: fs)).nq = f.space.nq + (spaceOf fs).nq := by
  simp [spaceOf_nq]

theorem spaceOf_cons_nv (f : Fn α κ) (fs : List (Fn α κ)) :
    (spaceOf (f :: fs)).nv = f.space.nv + (spaceOf fs).nv := by
  simp [spaceOf_nv]

theorem spaceOf_cons_neutral (f : Fn α κ) (fs : List (Fn α κ)) :
    (spaceOf (f :: fs)).neutral = f.space.neutral ++ (spaceOf fs).neutral := by
  induction fs using List.reverseRecOn with
  | nil => show [] ++ f.space.neutral = f.space.neutral ++ []; simp
  | append_singleton fs g ih =>
    rw [← List.cons_append, spaceOf_snoc, spaceOf_snoc]
    show (spaceOf (f :: fs)).neutral ++ g.space.neutral = _
    rw [ih, List.append_assoc]; rfl

theorem take_add_append {β : Type} (a b : List β) (n k : Nat) (h : a.length = n) :
    (a ++ b).take (n + k) = a ++ b.take k := by
  subst h; rw [List.take_append, List.take_of_length_le (by omega)]; simp

theorem drop_add_append {β : Type} (a b : List β) (n k : Nat) (h : a.length = n) :
    (a ++ b).drop (n + k) = b.drop k := by
  subst h; rw [List.drop_append, List.drop_of_length_le (by omega)]; simp

theorem spaceOf_cons_exp (f : Fn α κ) (fs : List (Fn α κ)) (a b : List α)
    (h : a.length = f.space.nv) (hb : b.length = (spaceOf fs).nv) :
    (spaceOf (f :: fs)).exp (a ++ b) = f.space.exp a ++ (spaceOf fs).exp b := by
  induction fs using List.reverseRecOn generalizing b with
  | nil =>
    have : b = [] := List.eq_nil_of_length_eq_zero hb
    subst this
    show [] ++ f.space.exp ((a ++ []).drop 0) = f.space.exp a ++ []
    simp
  | append_singleton fs g ih =>
    rw [spaceOf_snoc] at hb
    have hb' : b.length = (spaceOf fs).nv + g.space.nv := hb
    rw [← List.cons_append, spaceOf_snoc, spaceOf_snoc]
    show (spaceOf (f :: fs)).exp ((a ++ b).take (spaceOf (f :: fs)).nv) ++
      g.space.exp ((a ++ b).drop (spaceOf (f :: fs)).nv) = _
    rw [spaceOf_cons_nv, take_add_append _ _ _ _ h, drop_add_append _ _ _ _ h,
      ih _ (by rw [List.length_take]; omega), List.append_assoc]
    rfl

theorem spaceOf_cons_log (f : Fn α κ) (fs : List (Fn α κ)) (a b : List α)
    (h : a.length = f.space.nq) (hb : b.length = (spaceOf fs).nq) :
    (spaceOf (f :: fs)).log (a ++ b) = f.space.log a ++ (spaceOf fs).log b := by
  induction fs using List.reverseRecOn generalizing b with
  | nil =>
    have : b = [] := List.eq_nil_of_length_eq_zero hb
    subst this
    show [] ++ f.space.log ((a ++ []).drop 0) = f.space.log a ++ []
    simp
  | append_singleton fs g ih =>
    rw [spaceOf_snoc] at hb
    have hb' : b.length = (spaceOf fs).nq + g.space.nq := hb
    rw [← List.cons_append, spaceOf_snoc, spaceOf_snoc]
    show (spaceOf (f :: fs)).log ((a ++ b).take (spaceOf (f :: fs)).nq) ++
      g.space.log ((a ++ b).drop (spaceOf (f :: fs)).nq) = _
    rw [spaceOf_cons_nq, take_add_append _ _ _ _ h, drop_add_append _ _ _ _ h,
      ih _ (by rw [List.length_take]; omega), List.append_assoc]
    rfl

theorem spaceOf_cons_sub (f : Fn α κ) (fs : List (Fn α κ)) (a b a' b' : List α)
    (h : a.length = f.space.nq) (hb : b.length = (spaceOf fs).nq)
    (h' : a'.length = f.space.nq) (hb' : b'.length = (spaceOf fs).nq) :
    (spaceOf (f :: fs)).sub (a ++ b) (a' ++ b') = f.space.sub a a' ++ (spaceOf fs).sub b b' := by
  induction fs using List.reverseRecOn generalizing b b' with
  | nil =>
    have : b = [] := List.eq_nil_of_length_eq_zero hb
    subst this
    have : b' = [] := List.eq_nil_of_length_eq_zero hb'
    subst this
    show [] ++ f.space.sub ((a ++ []).drop 0) ((a' ++ []).drop 0) = f.space.sub a a' ++ []
    simp
  | append_singleton fs g ih =>
    rw [spaceOf_snoc] at hb hb'
    have hb : b.length = (spaceOf fs).nq + g.space.nq := hb
    have hb' : b'.length = (spaceOf fs).nq + g.space.nq := hb'
    rw [← List.cons_append, spaceOf_snoc, spaceOf_snoc]
    show (spaceOf (f :: fs)).sub ((a ++ b).take (spaceOf (f :: fs)).nq)
        ((a' ++ b').take (spaceOf (f :: fs)).nq) ++
      g.space.sub ((a ++ b).drop (spaceOf (f :: fs)).nq)
        ((a' ++ b').drop (spaceOf (f :: fs)).nq) = _
    rw [spaceOf_cons_nq, take_add_append _ _ _ _ h, drop_add_append _ _ _ _ h,
      take_add_append _ _ _ _ h', drop_add_append _ _ _ _ h',
      ih _ _ (by rw [List.length_take]; omega) (by rw [List.length_take]; omega), List.append_assoc]
    rfl

/-! ### a vector as the list of its parts by constraint -/

/-- One element of the output space of each constraint. -/
def PartsOk (El : Fn α κ → List α → Prop) (cs : List (Impl α κ)) (parts : List (List α)) : Prop :=
  List.Forall₂ (fun c r => El c.fn r) cs parts

/-- Every space is lawful, with elements `El`. -/
def LawfulCs [Zero α] (El : Fn α κ → List α → Prop) (cs : List (Impl α κ)) : Prop :=
  ∀ c ∈ cs, c.fn.space.Lawful (El c.fn)

theorem PartsOk.lengths [Zero α] {El : Fn α κ → List α → Prop} {cs : List (Impl α κ)}
    {parts : List (List α)} (hL : LawfulCs El cs) (h : PartsOk El cs parts) :
    parts.flatten.length = (spaceOf (cs.map (·.fn))).nq := by
  induction h with
  | nil => rfl
  | @cons c r cs parts h1 _ ih =>
    rw [List.map_cons, spaceOf_cons_nq, List.flatten_cons, List.length_append,
      ih fun c hc => hL c (by simp [hc]), (hL c (by simp)).len r h1]

theorem PartsOk.el [Zero α] {El : Fn α κ → List α → Prop} {cs : List (Impl α κ)}
    {parts : List (List α)} (hL : LawfulCs El cs) (h : PartsOk El cs parts) :
    spaceOfEl El (cs.map (·.fn)) parts.flatten := by
  induction cs using List.reverseRecOn generalizing parts with
  | nil => cases h; rfl
  | append_singleton cs c ih =>
    rcases List.eq_nil_or_concat parts with rfl | ⟨ps, r, rfl⟩
    · have := h.length_eq; simp at this
    · have hl : cs.length = ps.length := by have := h.length_eq; simpa using this
      rw [List.concat_eq_append] at h ⊢
      have h1 : PartsOk El cs ps := by
        have := List.forall₂_take cs.length h
        simp [hl] at this
        exact this
      have h2 : El c.fn r := by
        have := List.forall₂_drop cs.length h
        simpa [hl] using this
      rw [List.map_append, List.map_singleton, spaceOfEl_snoc, List.flatten_append]
      have hlen := h1.lengths fun c hc => hL c (by simp [hc])
      rw [spaceOf_nq] at hlen
      refine ⟨?_, ?_⟩
      · rw [List.take_left' hlen]
        exact ih (fun c hc => hL c (by simp [hc])) h1
      · rw [List.drop_left' hlen]; simpa using h2

theorem PartsOk.log [Zero α] {El : Fn α κ → List α → Prop} {cs : List (Impl α κ)}
    {parts : List (List α)} (hL : LawfulCs El cs) (h : PartsOk El cs parts) :
    (spaceOf (cs.map (·.fn))).log parts.flatten =
      (List.zipWith (fun c r => c.fn.space.log r) cs parts).flatten := by
  induction h with
  | nil => rfl
  | @cons c r cs parts h1 h2 ih =>
    have hL' : LawfulCs El cs := fun c hc => hL c (by simp [hc])
    rw [List.map_cons, List.flatten_cons, spaceOf_cons_log _ _ _ _ ((hL c (by simp)).len r h1)
      (PartsOk.lengths hL' h2), ih hL']
    simp

theorem PartsOk.sub [Zero α] {El : Fn α κ → List α → Prop} {cs : List (Impl α κ)}
    {parts parts' : List (List α)} (hL : LawfulCs El cs) (h : PartsOk El cs parts)
    (h' : PartsOk El cs parts') :
    (spaceOf (cs.map (·.fn))).sub parts.flatten parts'.flatten =
      (List.zipWith (fun c rr => c.fn.space.sub rr.1 rr.2) cs (parts.zip parts')).flatten := by
  induction h generalizing parts' with
  | nil => cases h'; rfl
  | @cons c r cs parts h1 h2 ih =>
    cases h' with
    | @cons _ r' _ parts' h1' h2' =>
      have hL' : LawfulCs El cs := fun c hc => hL c (by simp [hc])
      have hc := hL c (by simp)
      rw [List.map_cons, List.flatten_cons, List.flatten_cons,
        spaceOf_cons_sub _ _ _ _ _ _ (hc.len r h1) (PartsOk.lengths hL' h2) (hc.len r' h1')
          (PartsOk.lengths hL' h2'), ih hL' h2']
      simp

theorem PartsOk.neutral [Zero α] {El : Fn α κ → List α → Prop} {cs : List (Impl α κ)}
    (hL : LawfulCs El cs) : PartsOk El cs (cs.map (·.fn.space.neutral)) ∧
      (spaceOf (cs.map (·.fn))).neutral = (cs.map (·.fn.space.neutral)).flatten := by
  induction cs with
  | nil => exact ⟨.nil, rfl⟩
  | cons c cs ih =>
    have := ih fun c hc => hL c (by simp [hc])
    refine ⟨.cons (hL c (by simp)).neutral_mem this.1, ?_⟩
    rw [List.map_cons, spaceOf_cons_neutral, this.2]; simp

theorem PartsOk.map [Zero α] {El : Fn α κ → List α → Prop} {cs : List (Impl α κ)}
    (f : Impl α κ → List α) (h : ∀ c ∈ cs, El c.fn (f c)) : PartsOk El cs (cs.map f) := by
  induction cs with
  | nil => exact .nil
  | cons c cs ih => exact .cons (h c (by simp)) (ih fun c hc => h c (by simp [hc]))

/-- Rank of the part of a constraint. -/
theorem PartsOk.seg [Zero α] {El : Fn α κ → List α → Prop} {l1 l2 : List (Impl α κ)} {c : Impl α κ}
    {parts : List (List α)} (hL : LawfulCs El (l1 ++ c :: l2))
    (h : PartsOk El (l1 ++ c :: l2) parts) :
    ∃ p1 r p2, parts = p1 ++ r :: p2 ∧ PartsOk El l1 p1 ∧ El c.fn r ∧ PartsOk El l2 p2 ∧
      p1.flatten.length = (l1.map (·.fn.space.nq)).sum ∧ r.length = c.fn.space.nq := by
  have h1 := List.forall₂_take l1.length h
  have h2 := List.forall₂_drop l1.length h
  rw [List.take_left] at h1
  rw [List.drop_left] at h2
  generalize hp2 : parts.drop l1.length = d at h2
  cases h2 with
  | @cons _ r _ p2 h3 h4 =>
    refine ⟨parts.take l1.length, r, p2, ?_, h1, h3, h4, ?_, (hL c (by simp)).len r h3⟩
    · rw [← hp2, List.take_append_drop]
    · have := PartsOk.lengths (El := El) (fun c hc => hL c (by simp [hc])) h1
      rw [this, spaceOf_nq, List.map_map]; rfl

theorem segGet_mid (a b c : List α) (i n : Nat) (ha : a.length = i) (hb : b.length = n) :
    segGet (a ++ (b ++ c)) i n = some b := by
  unfold segGet
  rw [if_pos (by simp; omega), List.drop_left' ha, List.take_left' hb]

theorem segSet_mid (a b c w : List α) (i n : Nat) (ha : a.length = i) (hb : b.length = n)
    (hw : w.length = n) : segSet (a ++ (b ++ c)) i n w = some (a ++ (w ++ c)) := by
  unfold segSet
  rw [if_pos ⟨by simp; omega, hw⟩, List.take_left' ha, ← List.append_assoc a b c,
    List.drop_left' (by simp; omega)]
  simp

/-! ### reachable solvers -/

/-- Two constraints with the same key are on the same function. -/
def SameFn (h : List (Impl α κ × Nat)) (c : Impl α κ) : Prop :=
  ∀ e ∈ h, e.1.fn.key = c.fn.key → e.1.fn = c.fn

/-- The vector that stacks one right hand side for each constraint, level after level. -/
def stackRhs (h : List (Impl α κ × Nat)) (n : Nat) (R : κ → List α) : List α :=
  (List.range n).flatMap fun i => (atLevel h i).flatMap fun c => R c.fn.key

/-- Solvers built by a sequence of operations, with the history of the additions.  `El f` says which
vectors are elements of the output space of `f`: right hand sides given by the caller are elements. -/
inductive HI.Built [Zero α] [DecidableEq κ] (El : Fn α κ → List α → Prop) (nv : Nat) :
    List (Impl α κ × Nat) → HI α κ → Prop
  | init : HI.Built El nv [] (HI.init α κ nv)
  | add {h s s' c p} : HI.Built El nv h s → (∃ fn mask comp, Impl.Built fn mask comp c) →
      s.add c p = (s', none) → HI.Built El nv (h ++ [(c, p)]) s'
  | free {h s b} : HI.Built El nv h s → HI.Built El nv h (s.setFreeIndices b)
  | setRhs {h s s' c v b} : HI.Built El nv h s → SameFn h c → El c.fn v →
      s.setRhs c v = some (s', b) → HI.Built El nv h s'
  | fromConfigOne {h s s' c q b} : HI.Built El nv h s → c ∈ s.constraints →
      s.rhsFromConfigOne c q = some (s', b) → HI.Built El nv h s'
  | fromConfig {h s q} : HI.Built El nv h s → HI.Built El nv h (s.rhsFromConfig q)
  | setRhsVec {h s s' R} : HI.Built El nv h s → (∀ e ∈ h, El e.1.fn (R e.1.fn.key)) →
      s.setRhsVec (stackRhs h s.levels.length R) = some s' → HI.Built El nv h s'
  | rhsAt {h s s' t} : HI.Built El nv h s →
      (∀ c ∈ s.constraints, c.rhsFn.isSome → El c.fn (c.rhsAt t).2) →
      s.rhsAt t = some s' → HI.Built El nv h s'
  | params {h s} (a b : α) (n : Nat) (o l : Bool) : HI.Built El nv h s →
      HI.Built El nv h
        { s with sqThr := a, ineqThr := b, maxIter := n, lastIsOptional := o, byLevel := l }

/-- `R` gives the right hand side of each constraint. -/
structure HI.RhsIs (El : Fn α κ → List α → Prop) (h : List (Impl α κ × Nat)) (s : HI α κ)
    (R : κ → List α) : Prop where
  el : ∀ e ∈ h, El e.1.fn (R e.1.fn.key)
  eq : ∀ (i : Nat) (l : Level α κ), s.levels[i]? = some l →
    l.rhs = (atLevel h i).flatMap fun c => R c.fn.key

/-- Spaces and values are as expected. -/
structure FnsOk [Zero α] (El : Fn α κ → List α → Prop) (h : List (Impl α κ × Nat)) : Prop where
  lawful : ∀ e ∈ h, e.1.fn.space.Lawful (El e.1.fn)
  value : ∀ e ∈ h, ∀ q, El e.1.fn (e.1.fn.value q)
  built : ∀ e ∈ h, ∃ fn mask comp, Impl.Built fn mask comp e.1

theorem FnsOk.level [Zero α] {El : Fn α κ → List α → Prop} {h : List (Impl α κ × Nat)}
    (hf : FnsOk El h) (i : Nat) : LawfulCs El (atLevel h i) :=
  fun _ hc => hf.lawful _ (mem_atLevel.1 hc)

theorem level_value [Zero α] {El : Fn α κ → List α → Prop} {h : List (Impl α κ × Nat)}
    (hf : FnsOk El h) {i : Nat} {l : Level α κ} (hl : LevelCore (atLevel h i) l) (q : Nat → α) :
    PartsOk El (atLevel h i) ((atLevel h i).map (·.fn.value q)) ∧
    l.stack.fns.value q (List.replicate l.stack.fns.space.nq 0) =
      ((atLevel h i).map (·.fn.value q)).flatten := by
  refine ⟨PartsOk.map _ fun c hc => hf.value _ (mem_atLevel.1 hc) q, ?_⟩
  have hlen : ∀ f ∈ (atLevel h i).map (·.fn), (f.value q).length = f.space.nq := by
    intro f hf'
    obtain ⟨c, hc, rfl⟩ := List.mem_map.1 hf'
    exact (hf.level i c hc).len _ (hf.value _ (mem_atLevel.1 hc) q)
  have := fnSetValue_eq q ((atLevel h i).map (·.fn)) hlen [] (List.replicate l.stack.fns.space.nq 0)
    (by rw [List.length_replicate, hl.nq, List.map_map]; rfl)
  unfold FnSet.value
  rw [hl.stack.fns.fns]
  simp only [List.length_nil, List.nil_append] at this
  rw [this, List.flatMap_map, List.flatMap_def]

/-! ### operations on right hand sides -/

theorem split_of_mem {β : Type} {l : List β} {x : β} (h : x ∈ l) : ∃ l1 l2, l = l1 ++ x :: l2 :=
  List.append_of_mem h

theorem key_unique {h : List (Impl α κ × Nat)} (hk : (h.map (·.1.fn.key)).Nodup)
    {e e' : Impl α κ × Nat} (he : e ∈ h) (he' : e' ∈ h) (heq : e.1.fn.key = e'.1.fn.key) : e = e' :=
  List.inj_on_of_nodup_map hk he he' heq

theorem key_mem_prio [DecidableEq κ] {h : List (Impl α κ × Nat)} {s : HI α κ} (hs : HI.Inv h s)
    (k : κ) : k ∈ s.prio.map (·.1) ↔ k ∈ h.map (·.1.fn.key) := by
  rw [hs.prio, List.map_map]; rfl

theorem lookup_prio [DecidableEq κ] {h : List (Impl α κ × Nat)} {s : HI α κ} (hs : HI.Inv h s)
    {c : Impl α κ} {p : Nat} (hc : (c, p) ∈ h) : lookupKey s.prio c.fn.key = some p := by
  cases hl : lookupKey s.prio c.fn.key with
  | none =>
    rw [lookupKey_none, key_mem_prio hs] at hl
    exact absurd (List.mem_map.2 ⟨(c, p), hc, rfl⟩) hl
  | some p' =>
    unfold lookupKey at hl
    rw [Option.map_eq_some_iff] at hl
    obtain ⟨e, he, rfl⟩ := hl
    have h1 := List.mem_of_find?_eq_some he
    have h2 := List.find?_some he
    simp only [decide_eq_true_eq] at h2
    rw [hs.prio] at h1
    obtain ⟨e', he', rfl⟩ := List.mem_map.1 h1
    have := key_unique hs.keys he' hc h2
    subst this; rfl

/-- Where the right hand side of a constraint is. -/
theorem rhs_place [Zero α] [DecidableEq κ] {El : Fn α κ → List α → Prop}
    {h : List (Impl α κ × Nat)} {s : HI α κ} {R : κ → List α} (hs : HI.Inv h s) (hf : FnsOk El h)
    (hR : HI.RhsIs El h s R) {c : Impl α κ} {p : Nat} (hc : (c, p) ∈ h) :
    ∃ lv l1 l2 iq, s.levels[p]? = some lv ∧ lookupKey s.prio c.fn.key = some p ∧
      lookupKey s.iq c.fn.key = some iq ∧
      atLevel h p = l1 ++ c :: l2 ∧
      lv.rhs = l1.flatMap (fun c => R c.fn.key) ++ (R c.fn.key ++ l2.flatMap fun c => R c.fn.key) ∧
      (l1.flatMap fun c => R c.fn.key).length = iq ∧ (R c.fn.key).length = c.fn.space.nq ∧
      iq = (l1.map (·.fn.space.nq)).sum ∧ lookupKey s.iv c.fn.key = some (l1.map (·.fn.space.nv)).sum := by
  obtain ⟨h1, h2, hsplit⟩ := List.append_of_mem hc
  have hp := hs.nlev _ hc
  simp only at hp
  have hat : atLevel h p = atLevel h1 p ++ c :: atLevel h2 p := by
    rw [hsplit, atLevel_append]
    congr 1
    simp [atLevel]
  refine ⟨s.levels[p], atLevel h1 p, atLevel h2 p, _, List.getElem?_eq_getElem hp, lookup_prio hs hc,
    hs.iq h1 c p h2 hsplit, hat, ?_, ?_, ?_, rfl, hs.iv h1 c p h2 hsplit⟩
  · rw [hR.eq p _ (List.getElem?_eq_getElem hp), hat]; simp
  · rw [List.length_flatMap]
    congr 1
    apply List.map_congr_left
    intro c' hc'
    have : (c', p) ∈ h := by rw [hsplit]; exact List.mem_append_left _ (mem_atLevel.1 hc')
    exact (hf.lawful _ this).len _ (hR.el _ this)
  · exact (hf.lawful _ hc).len _ (hR.el _ hc)

/-- Update of one right hand side. -/
def setKey [DecidableEq κ] (R : κ → List α) (k : κ) (v : List α) : κ → List α :=
  fun k' => if k' = k then v else R k'

theorem writeRhs_absent [DecidableEq κ] {h : List (Impl α κ × Nat)} {s : HI α κ} (hs : HI.Inv h s)
    {c : Impl α κ} (hc : ∀ e ∈ h, e.1.fn.key ≠ c.fn.key) (v : List α) :
    s.writeRhs c v = some (s, false) := by
  have hn : c.fn.key ∉ s.iq.map (·.1) := by
    rw [hs.iqKeys, key_mem_prio hs]
    rintro hm
    obtain ⟨e, he, hk⟩ := List.mem_map.1 hm
    exact hc e he hk
  unfold HI.writeRhs
  rw [lookupKey_none.2 hn]

theorem writeRhs_present [Zero α] [DecidableEq κ] {El : Fn α κ → List α → Prop}
    {h : List (Impl α κ × Nat)} {s : HI α κ} {R : κ → List α} (hs : HI.Inv h s) (hf : FnsOk El h)
    (hR : HI.RhsIs El h s R) {c c' : Impl α κ} {p : Nat} (hc : (c', p) ∈ h) (hcc : c'.fn = c.fn)
    {v : List α} (hv : El c.fn v) :
    ∃ s', s.writeRhs c v = some (s', true) ∧ (∃ ls, s' = { s with levels := ls }) ∧
      HI.Inv h s' ∧ HI.RhsIs El h s' (setKey R c.fn.key v) := by
  obtain ⟨lv, l1, l2, iq, h1, h2, h3, h4, h5, h6, h7, h8, h9⟩ := rhs_place hs hf hR hc
  rw [hcc] at h2 h3 h5 h7 h9
  have hvl : v.length = c.fn.space.nq := by
    have := (hf.lawful _ hc).len v
    simp only [hcc] at this
    exact this hv
  have hp : p < s.levels.length := lt_of_getElem?_some h1
  let r := l1.flatMap (fun c => R c.fn.key) ++ (v ++ l2.flatMap fun c => R c.fn.key)
  refine ⟨{ s with levels := s.levels.set p { lv with rhs := r } }, ?_, ⟨_, rfl⟩, ?_, ?_, ?_⟩
  · unfold HI.writeRhs
    simp only [h3, h2, h1]
    rw [h5, segSet_mid _ _ _ _ _ _ h6 h7 hvl]
  · apply hs.withRhs
    rw [List.forall₂_iff_get]
    refine ⟨by simp, fun i hi hi' => ?_⟩
    simp only [List.get_eq_getElem, List.getElem_set]
    by_cases hpi : p = i
    · subst hpi
      rw [List.getElem?_eq_getElem hp] at h1
      simp only [Option.some.injEq] at h1
      exact ⟨r, by simp [h1]⟩
    · exact ⟨s.levels[i].rhs, by simp [hpi]⟩
  · intro e he
    unfold setKey
    split
    · rename_i hk
      have := key_unique hs.keys he hc (by rw [hcc]; exact hk)
      subst this
      simp only [hcc]; exact hv
    · exact hR.el e he
  · intro i l hl
    simp only [List.getElem?_set] at hl
    have hne : ∀ c'' : Impl α κ, (c'', i) ∈ h → c''.fn.key = c.fn.key → c'' = c' ∧ i = p := by
      intro c'' hc'' hk
      have := key_unique hs.keys hc'' hc (by rw [hcc]; exact hk)
      simpa using this
    split at hl
    · rename_i hpi
      subst hpi
      simp only [Option.some.injEq] at hl
      subst hl
      show r = _
      have hnd : (l1 ++ c' :: l2).Nodup := by
        rw [← h4]
        have := hs.keys.of_map
        exact (this.filter _).map_on (by
          intro x hx y hy hxy
          have hx' := (List.mem_filter.1 hx); have hy' := (List.mem_filter.1 hy)
          simp only [decide_eq_true_eq] at hx' hy'
          exact Prod.ext hxy (hx'.2.trans hy'.2.symm))
      have hother : ∀ x, x ∈ l1 ∨ x ∈ l2 → setKey R c.fn.key v x.fn.key = R x.fn.key := by
        intro x hx
        unfold setKey
        rw [if_neg]
        intro hk
        have hxm : (x, p) ∈ h := by
          rw [← mem_atLevel, h4]; rcases hx with hx | hx <;> simp [hx]
        have := (hne x hxm hk).1
        subst this
        rw [List.nodup_append] at hnd
        rcases hx with hx | hx
        · exact hnd.2.2 _ hx _ (by simp) rfl
        · exact (List.nodup_cons.1 hnd.2.1).1 hx
      rw [h4, List.flatMap_append, List.flatMap_cons]
      have e1 : l1.flatMap (fun c_1 => setKey R c.fn.key v c_1.fn.key) =
          l1.flatMap fun c => R c.fn.key := by
        rw [List.flatMap_def, List.flatMap_def]
        congr 1
        exact List.map_congr_left fun x hx => hother x (Or.inl hx)
      have e2 : l2.flatMap (fun c_1 => setKey R c.fn.key v c_1.fn.key) =
          l2.flatMap fun c => R c.fn.key := by
        rw [List.flatMap_def, List.flatMap_def]
        congr 1
        exact List.map_congr_left fun x hx => hother x (Or.inr hx)
      rw [e1, e2, hcc]
      simp [r, setKey]
    · rename_i hpi
      rw [hR.eq i l hl, List.flatMap_def, List.flatMap_def]
      congr 1
      apply List.map_congr_left
      intro x hx
      unfold setKey
      rw [if_neg]
      intro hk
      exact hpi (hne x (mem_atLevel.1 hx) hk).2.symm

theorem updated_rhsIs [Zero α] [DecidableEq κ] {El : Fn α κ → List α → Prop}
    {h : List (Impl α κ × Nat)} {s : HI α κ} (hs : HI.Inv h s) (hf : FnsOk El h)
    (hu : ∀ l ∈ s.levels, l.rhs = l.stack.fns.space.neutral) :
    ∃ R, HI.RhsIs El h s R ∧ ∀ e ∈ h, R e.1.fn.key = e.1.fn.space.neutral := by
  classical
  let R : κ → List α := fun k =>
    if hk : ∃ e ∈ h, e.1.fn.key = k then hk.choose.1.fn.space.neutral else []
  have hRe : ∀ e ∈ h, R e.1.fn.key = e.1.fn.space.neutral := by
    intro e he
    have hk : ∃ e' ∈ h, e'.1.fn.key = e.1.fn.key := ⟨e, he, rfl⟩
    simp only [R, dif_pos hk]
    rw [key_unique hs.keys hk.choose_spec.1 he hk.choose_spec.2]
  refine ⟨R, ⟨fun e he => by rw [hRe e he]; exact (hf.lawful e he).neutral_mem, ?_⟩, hRe⟩
  intro i l hl
  have h1 := hs.level i l hl
  rw [hu l (List.mem_of_getElem? hl), h1.stack.fns.space, (PartsOk.neutral (hf.level i)).2,
    List.flatMap_def]
  congr 1
  apply List.map_congr_left
  intro c hc
  exact (hRe _ (mem_atLevel.1 hc)).symm

theorem update_neutral (s : HI α κ) : ∀ l ∈ s.update.levels, l.rhs = l.stack.fns.space.neutral := by
  intro l hl
  obtain ⟨l0, -, rfl⟩ := List.mem_map.1 hl
  rfl

theorem flatMap_zip_map {β γ : Type} (l : List β) (f : β → List γ) :
    (List.zipWith (fun (_ : β) (r : List γ) => r) l (l.map f)).flatten = l.flatMap f := by
  induction l with
  | nil => rfl
  | cons a l ih => simp [ih]

/-- The stacked computation is the one of each constraint. -/
theorem stack_rhsFromConfig [Zero α] [DecidableEq κ] {El : Fn α κ → List α → Prop}
    {h : List (Impl α κ × Nat)} (hf : FnsOk El h) {i : Nat}
    {l : Level α κ} (hl : LevelCore (atLevel h i) l) (q : Nat → α) :
    (Level.rhsFromConfig q l).rhs = (atLevel h i).flatMap fun c => c.rhsFromConfig q :=
  hl.stack.rhsFromConfig_eq (fun _ hc => hf.built _ (mem_atLevel.1 hc)) q
    (fun _ hc => ⟨(hf.lawful _ (mem_atLevel.1 hc)).len _ (hf.value _ (mem_atLevel.1 hc) q),
      (hf.lawful _ (mem_atLevel.1 hc)).log_len _ (hf.value _ (mem_atLevel.1 hc) q)⟩) _
    (by simp)

theorem impl_rhsFromConfig_el [Zero α] {El : Fn α κ → List α → Prop}
    {h : List (Impl α κ × Nat)} (hf : FnsOk El h) {e : Impl α κ × Nat} (he : e ∈ h) (q : Nat → α) :
    e.1.rhsFromConfig q =
      e.1.fn.space.exp (maskEq e.1.comp (e.1.fn.space.log (e.1.fn.value q))) ∧
    El e.1.fn (e.1.rhsFromConfig q) := by
  obtain ⟨fn, mask, comp, hb⟩ := hf.built e he
  have hok := hb.ok.1
  have hl := (hf.lawful e he).log_len _ (hf.value e he q)
  have heq : e.1.rhsFromConfig q =
      e.1.fn.space.exp (maskEq e.1.comp (e.1.fn.space.log (e.1.fn.value q))) := by
    unfold Impl.rhsFromConfig
    rw [hok.eq, keepEquality_eq _ _ _ hok.comp_len hl]
  refine ⟨heq, ?_⟩
  rw [heq]
  exact (hf.lawful e he).exp_mem _ (by rw [maskEq_length _ _ (hok.comp_len.trans hl.symm), hl])

/-- A function on keys from a function on constraints. -/
theorem exists_onKeys {h : List (Impl α κ × Nat)} (hk : (h.map (·.1.fn.key)).Nodup)
    (g : Impl α κ → List α) : ∃ R : κ → List α, ∀ e ∈ h, R e.1.fn.key = g e.1 := by
  classical
  refine ⟨fun k => if hk : ∃ e ∈ h, e.1.fn.key = k then g hk.choose.1 else [], ?_⟩
  intro e he
  have hk' : ∃ e' ∈ h, e'.1.fn.key = e.1.fn.key := ⟨e, he, rfl⟩
  simp only [dif_pos hk']
  rw [key_unique hk hk'.choose_spec.1 he hk'.choose_spec.2]

theorem fromConfig_rhsIs [Zero α] [DecidableEq κ] {El : Fn α κ → List α → Prop}
    {h : List (Impl α κ × Nat)} {s : HI α κ} (hs : HI.Inv h s) (hf : FnsOk El h) (q : Nat → α) :
    HI.Inv h (s.rhsFromConfig q) ∧ ∃ R, HI.RhsIs El h (s.rhsFromConfig q) R ∧
      ∀ e ∈ h, R e.1.fn.key = e.1.rhsFromConfig q := by
  refine ⟨?_, ?_⟩
  · apply hs.withRhs
    rw [List.forall₂_map_right_iff, List.forall₂_same]
    intro l _
    exact ⟨_, rfl⟩
  · obtain ⟨R, hR⟩ := exists_onKeys hs.keys fun c => c.rhsFromConfig q
    refine ⟨R, ⟨fun e he => by rw [hR e he]; exact (impl_rhsFromConfig_el hf he q).2, ?_⟩, hR⟩
    intro i l hl
    simp only [HI.rhsFromConfig, List.getElem?_map, Option.map_eq_some_iff] at hl
    obtain ⟨l0, h0, rfl⟩ := hl
    rw [stack_rhsFromConfig hf (hs.level i l0 h0).toLevelCore, List.flatMap_def, List.flatMap_def]
    congr 1
    apply List.map_congr_left
    intro c hc
    exact (hR _ (mem_atLevel.1 hc)).symm

/-- The loop of `rightHandSide(v)` only succeeds if the ranks are zero, then each level gets its
part. -/
theorem setRhsLoop_eq [Zero α] [DecidableEq κ] {El : Fn α κ → List α → Prop}
    {h : List (Impl α κ × Nat)} {R' : κ → List α} (hf : FnsOk El h)
    (hR' : ∀ e ∈ h, El e.1.fn (R' e.1.fn.key)) :
    ∀ (ls : List (Level α κ)) (k iq iv : Nat) (pre : List α) (ls' : List (Level α κ)),
    (∀ (j : Nat) (l : Level α κ), ls[j]? = some l → LevelCore (atLevel h (k + j)) l ∧
      l.rhs.length = l.stack.fns.space.nq) →
    pre.length = iq →
    HI.setRhsLoop ls iq iv (pre ++ (List.range' k ls.length).flatMap fun i =>
      (atLevel h i).flatMap fun c => R' c.fn.key) = some ls' →
    (ls = [] ∨ iq = 0) ∧
    List.Forall₂ (fun l l' => ∃ r, l' = { l with rhs := r }) ls ls' ∧
    ∀ (j : Nat) (l' : Level α κ), ls'[j]? = some l' →
      l'.rhs = (atLevel h (k + j)).flatMap fun c => R' c.fn.key := by
  intro ls
  induction ls with
  | nil =>
    intro k iq iv pre ls' _ _ he
    simp only [HI.setRhsLoop, Option.some.injEq] at he
    subst he
    exact ⟨Or.inl rfl, .nil, by simp⟩
  | cons l ls ih =>
    intro k iq iv pre ls' hok hpre he
    obtain ⟨hc, hrl⟩ := hok 0 l rfl
    rw [Nat.add_zero] at hc
    have hpk : PartsOk El (atLevel h k) ((atLevel h k).map fun c => R' c.fn.key) :=
      PartsOk.map _ fun c hc => hR' _ (mem_atLevel.1 hc)
    have hlen := hpk.lengths (hf.level k)
    rw [← hc.stack.fns.space, ← List.flatMap_def] at hlen
    simp only [List.length_cons, List.range'_succ, List.flatMap_cons] at he
    unfold HI.setRhsLoop at he
    simp only at he
    rw [segGet_mid _ _ _ _ _ hpre hlen] at he
    simp only [Option.bind_eq_bind, Option.bind_some] at he
    split at he
    · simp at he
    · have hel := hpk.el (hf.level k)
      have hexp : l.stack.fns.space.exp (l.stack.fns.space.log
          ((atLevel h k).flatMap fun c => R' c.fn.key)) =
          (atLevel h k).flatMap fun c => R' c.fn.key := by
        rw [hc.stack.fns.space, List.flatMap_def]
        exact (spaceOf_lawful El _ (by
          intro f hf'
          obtain ⟨c, hc', rfl⟩ := List.mem_map.1 hf'
          exact hf.level k c hc')).exp_log _ hel
      rw [hexp] at he
      by_cases hiq : iq = 0
      · subst hiq
        have hpre0 : pre = [] := List.eq_nil_of_length_eq_zero hpre
        subst hpre0
        have hset : segSet l.rhs 0 l.stack.fns.space.nq ((atLevel h k).flatMap fun c => R' c.fn.key)
            = some ((atLevel h k).flatMap fun c => R' c.fn.key) := by
          have := segSet_mid [] l.rhs [] ((atLevel h k).flatMap fun c => R' c.fn.key) 0
            l.stack.fns.space.nq rfl hrl hlen
          simpa using this
        rw [hset] at he
        simp only [Option.bind_some, List.nil_append, Nat.zero_add] at he
        rw [Option.bind_eq_some_iff] at he
        obtain ⟨rest, hrest, hls⟩ := he
        simp only [Option.some.injEq] at hls
        subst hls
        have := ih (k + 1) l.stack.fns.space.nq (iv + l.stack.fns.space.nv)
          ((atLevel h k).flatMap fun c => R' c.fn.key) rest
          (fun j l' hj => by
            have := hok (j + 1) l' (by simpa using hj)
            rwa [show k + (j + 1) = k + 1 + j by omega] at this) hlen hrest
        refine ⟨Or.inr rfl, .cons ⟨_, rfl⟩ this.2.1, ?_⟩
        intro j l' hj
        cases j with
        | zero => simp only [List.getElem?_cons_zero, Option.some.injEq] at hj; subst hj; rfl
        | succ j =>
          rw [show k + (j + 1) = k + 1 + j by omega]
          exact this.2.2 j l' (by simpa using hj)
      · exfalso
        have : segSet l.rhs iq l.stack.fns.space.nq ((atLevel h k).flatMap fun c => R' c.fn.key)
            = none := by
          unfold segSet
          rw [if_neg]
          rintro ⟨h1, -⟩
          omega
        rw [this] at he
        simp at he

theorem setRhsVec_rhsIs [Zero α] [DecidableEq κ] {El : Fn α κ → List α → Prop}
    {h : List (Impl α κ × Nat)} {s s' : HI α κ} {R R' : κ → List α} (hs : HI.Inv h s)
    (hf : FnsOk El h) (hR : HI.RhsIs El h s R) (hR' : ∀ e ∈ h, El e.1.fn (R' e.1.fn.key))
    (he : s.setRhsVec (stackRhs h s.levels.length R') = some s') :
    HI.Inv h s' ∧ HI.RhsIs El h s' R' := by
  unfold HI.setRhsVec at he
  rw [Option.map_eq_some_iff] at he
  obtain ⟨ls, hls, rfl⟩ := he
  have := setRhsLoop_eq hf hR' s.levels 0 0 0 [] ls
    (fun j l hj => by
      rw [Nat.zero_add]
      refine ⟨(hs.level j l hj).toLevelCore, ?_⟩
      rw [hR.eq j l hj, List.flatMap_def, (hs.level j l hj).stack.fns.space]
      exact (PartsOk.map (El := El) (fun c => R c.fn.key)
        fun c hc => hR.el _ (mem_atLevel.1 hc)).lengths (hf.level j)) rfl
    (by rw [List.nil_append, ← List.range_eq_range']; exact hls)
  refine ⟨hs.withRhs ls this.2.1, hR', ?_⟩
  intro i l hl
  have := this.2.2 i l hl
  rwa [Nat.zero_add] at this

open Classical in
theorem rhsAtLoop_rhsIs [Zero α] [DecidableEq κ] {El : Fn α κ → List α → Prop}
    {h : List (Impl α κ × Nat)} (hf : FnsOk El h) (t : α) :
    ∀ (cs : List (Impl α κ)) (s s' : HI α κ) (R : κ → List α), HI.Inv h s → HI.RhsIs El h s R →
    (∀ c ∈ cs, ∃ p, (c, p) ∈ h) →
    (∀ c ∈ cs, c.rhsFn.isSome → El c.fn (c.rhsAt t).2) →
    HI.rhsAtLoop t cs s = some s' → HI.Inv h s' ∧ ∃ R', HI.RhsIs El h s' R' ∧
      ∀ e ∈ h, R' e.1.fn.key = if e.1 ∈ cs ∧ e.1.paramSize ≠ 0 ∧ e.1.rhsFn.isSome then
        (e.1.rhsAt t).2 else R e.1.fn.key := by
  intro cs
  induction cs with
  | nil =>
    intro s s' R hs hR _ _ he
    simp only [HI.rhsAtLoop, Option.some.injEq] at he
    subst he
    exact ⟨hs, R, hR, by simp⟩
  | cons c cs ih =>
    intro s s' R hs hR hmem hel he
    obtain ⟨p, hp⟩ := hmem c (by simp)
    unfold HI.rhsAtLoop at he
    split at he
    · rename_i hcond
      obtain ⟨s1, h1, -, h3, h4⟩ := writeRhs_present hs hf hR hp rfl (hel c (by simp) hcond.2)
      have h1' : s.setRhs c (c.rhsAt t).2 = some (s1, true) := h1
      rw [h1'] at he
      simp only [Option.bind_eq_bind, Option.bind_some] at he
      obtain ⟨h5, R', h6, h7⟩ := ih s1 s' _ h3 h4 (fun d hd => hmem d (by simp [hd]))
        (fun d hd => hel d (by simp [hd])) he
      refine ⟨h5, R', h6, fun e hee => ?_⟩
      rw [h7 e hee]
      by_cases hec : e.1 = c
      · by_cases hin : e.1 ∈ cs
        · rw [if_pos ⟨hin, hec ▸ hcond⟩, if_pos ⟨by simp [hec], hec ▸ hcond⟩]
        · rw [if_neg (fun h => hin h.1), if_pos ⟨by simp [hec], hec ▸ hcond⟩, hec]
          simp [setKey]
      · have hne : e.1.fn.key ≠ c.fn.key := by
          intro hk
          have := key_unique hs.keys hee hp hk
          exact hec (by rw [this])
        simp only [List.mem_cons, hec, false_or, setKey, if_neg hne]
    · rename_i hcond
      obtain ⟨h5, R', h6, h7⟩ := ih s s' R hs hR (fun d hd => hmem d (by simp [hd]))
        (fun d hd => hel d (by simp [hd])) he
      refine ⟨h5, R', h6, fun e hee => ?_⟩
      rw [h7 e hee]
      by_cases hec : e.1 = c
      · rw [if_neg (fun h => hcond (hec ▸ h.2)), if_neg (fun h => hcond (hec ▸ h.2))]
      · simp only [List.mem_cons, hec, false_or]

theorem mem_cons_of_hist [DecidableEq κ] {h : List (Impl α κ × Nat)} {s : HI α κ} (hs : HI.Inv h s)
    {c : Impl α κ} : c ∈ s.constraints ↔ ∃ p, (c, p) ∈ h := by
  rw [hs.cons, List.mem_map]
  constructor
  · rintro ⟨⟨c', p⟩, he, rfl⟩; exact ⟨p, he⟩
  · rintro ⟨p, he⟩; exact ⟨(c, p), he, rfl⟩

/-- Every solver built by the operations meets the invariants. -/
theorem HI.Built.inv [Zero α] [DecidableEq κ] {El : Fn α κ → List α → Prop} {nv : Nat}
    {h : List (Impl α κ × Nat)} {s : HI α κ} (hb : HI.Built El nv h s)
    (hl : ∀ e ∈ h, e.1.fn.space.Lawful (El e.1.fn)) (hv : ∀ e ∈ h, ∀ q, El e.1.fn (e.1.fn.value q)) :
    HI.Inv h s ∧ FnsOk El h ∧ ∃ R, HI.RhsIs El h s R := by
  induction hb with
  | init => exact ⟨HI.Inv.init nv, ⟨hl, hv, by simp⟩, fun _ => [], by simp, by simp [HI.init]⟩
  | @add h s s' c p hb hc ha ih =>
    obtain ⟨h1, h2, R, h3⟩ := ih (fun e he => hl e (by simp [he])) (fun e he => hv e (by simp [he]))
    have h4 := h1.add ha
    have h5 : FnsOk El (h ++ [(c, p)]) := by
      refine ⟨hl, hv, fun e he => ?_⟩
      rcases List.mem_append.1 he with he | he
      · exact h2.built e he
      · simp only [List.mem_singleton] at he; subst he; exact hc
    refine ⟨h4, h5, ?_⟩
    obtain ⟨-, lv, st, -, -, rfl⟩ := HI.add_none ha
    obtain ⟨R', hR', -⟩ := updated_rhsIs h4 h5 (update_neutral _)
    exact ⟨R', hR'⟩
  | @free h s b hb ih =>
    obtain ⟨h1, h2, R, h3⟩ := ih hl hv
    have h4 := h1.update' b
    obtain ⟨R', hR', -⟩ := updated_rhsIs h4 h2 (update_neutral _)
    exact ⟨h4, h2, R', hR'⟩
  | @setRhs h s s' c v b hb hsame hel he ih =>
    obtain ⟨h1, h2, R, h3⟩ := ih hl hv
    by_cases hc : ∃ e ∈ h, e.1.fn.key = c.fn.key
    · obtain ⟨⟨c', p⟩, hm, hk⟩ := hc
      obtain ⟨s1, h4, -, h5, h6⟩ := writeRhs_present h1 h2 h3 hm (hsame _ hm hk) hel
      have : s.setRhs c v = some (s1, true) := h4
      rw [this] at he
      simp only [Option.some.injEq, Prod.mk.injEq] at he
      obtain ⟨rfl, -⟩ := he
      exact ⟨h5, h2, _, h6⟩
    · have : s.setRhs c v = some (s, false) :=
        writeRhs_absent h1 (fun e he hk => hc ⟨e, he, hk⟩) v
      rw [this] at he
      simp only [Option.some.injEq, Prod.mk.injEq] at he
      obtain ⟨rfl, -⟩ := he
      exact ⟨h1, h2, R, h3⟩
  | @fromConfigOne h s s' c q b hb hc he ih =>
    obtain ⟨h1, h2, R, h3⟩ := ih hl hv
    obtain ⟨p, hm⟩ := (mem_cons_of_hist h1).1 hc
    obtain ⟨s1, h4, -, h5, h6⟩ := writeRhs_present h1 h2 h3 hm rfl (impl_rhsFromConfig_el h2 hm q).2
    have : s.rhsFromConfigOne c q = some (s1, true) := h4
    rw [this] at he
    simp only [Option.some.injEq, Prod.mk.injEq] at he
    obtain ⟨rfl, -⟩ := he
    exact ⟨h5, h2, _, h6⟩
  | @fromConfig h s q hb ih =>
    obtain ⟨h1, h2, R, h3⟩ := ih hl hv
    obtain ⟨h4, R', h5, -⟩ := fromConfig_rhsIs h1 h2 q
    exact ⟨h4, h2, R', h5⟩
  | @setRhsVec h s s' R' hb hR' he ih =>
    obtain ⟨h1, h2, R, h3⟩ := ih hl hv
    obtain ⟨h4, h5⟩ := setRhsVec_rhsIs h1 h2 h3 hR' he
    exact ⟨h4, h2, R', h5⟩
  | @rhsAt h s s' t hb hel he ih =>
    obtain ⟨h1, h2, R, h3⟩ := ih hl hv
    obtain ⟨h4, R', h5, -⟩ := rhsAtLoop_rhsIs h2 t s.constraints s s' R h1 h3
      (fun c hc => (mem_cons_of_hist h1).1 hc) hel he
    exact ⟨h4, h2, R', h5⟩
  | @params h s a b n o l hb ih =>
    obtain ⟨h1, h2, R, h3⟩ := ih hl hv
    exact ⟨⟨h1.cons, h1.prio, h1.keys, h1.nlev, h1.nlev_min, h1.level, h1.iqKeys, h1.ivKeys, h1.iq,
      h1.iv, h1.dim, h1.rdim⟩, h2, R, h3.el, h3.eq⟩

theorem getRhs_eq [Zero α] [DecidableEq κ] {El : Fn α κ → List α → Prop}
    {h : List (Impl α κ × Nat)} {s : HI α κ} {R : κ → List α} (hs : HI.Inv h s) (hf : FnsOk El h)
    (hR : HI.RhsIs El h s R) {e : Impl α κ × Nat} (he : e ∈ h) :
    s.getRhs e.1 = some (some (R e.1.fn.key)) := by
  obtain ⟨lv, l1, l2, iq, h1, h2, h3, h4, h5, h6, h7, h8, h9⟩ := rhs_place hs hf hR he
  unfold HI.getRhs
  simp only [h2, h3, h1]
  rw [h5, segGet_mid _ _ _ _ _ h6 h7]
  rfl

theorem rhs_eq_stack {El : Fn α κ → List α → Prop}
    {h : List (Impl α κ × Nat)} {s : HI α κ} {R : κ → List α} (hR : HI.RhsIs El h s R) :
    s.rhs = stackRhs h s.levels.length R := by
  unfold HI.rhs stackRhs
  rw [List.flatMap_def, List.flatMap_def]
  congr 1
  apply List.ext_getElem?
  intro i
  rw [List.getElem?_map, List.getElem?_map]
  by_cases hi : i < s.levels.length
  · rw [List.getElem?_eq_getElem hi, List.getElem?_range hi]
    simp only [Option.map_some, Option.some.injEq]
    exact hR.eq i _ (List.getElem?_eq_getElem hi)
  · rw [List.getElem?_eq_none (by omega), List.getElem?_eq_none (by simp; omega)]
    rfl

theorem rhs_length [Zero α] [DecidableEq κ] {El : Fn α κ → List α → Prop}
    {h : List (Impl α κ × Nat)} {s : HI α κ} {R : κ → List α} (hs : HI.Inv h s) (hf : FnsOk El h)
    (hR : HI.RhsIs El h s R) {i : Nat} {l : Level α κ} (hi : s.levels[i]? = some l) :
    l.rhs.length = l.stack.fns.space.nq := by
  rw [hR.eq i l hi, List.flatMap_def, (hs.level i l hi).stack.fns.space]
  exact (PartsOk.map (El := El) (fun c => R c.fn.key)
      fun c hc => hR.el _ (mem_atLevel.1 hc)).lengths (hf.level i)

theorem setRhsLoop_head (l0 : Level α κ) (ls : List (Level α κ)) (iq iv : Nat) (v : List α)
    (ls' : List (Level α κ)) (hlen : l0.rhs.length = l0.stack.fns.space.nq)
    (he : HI.setRhsLoop (l0 :: ls) iq iv v = some ls') :
    iq = 0 ∧ ∃ rest, HI.setRhsLoop ls l0.stack.fns.space.nq (iv + l0.stack.fns.space.nv) v =
      some rest := by
  unfold HI.setRhsLoop at he
  simp only [Option.bind_eq_bind] at he
  rw [Option.bind_eq_some_iff] at he
  obtain ⟨out, -, he⟩ := he
  split at he
  · simp at he
  · rw [Option.bind_eq_some_iff] at he
    obtain ⟨r, hr, he⟩ := he
    rw [Option.bind_eq_some_iff] at he
    obtain ⟨rest, hrest, -⟩ := he
    have hiq : iq = 0 := by
      unfold segSet at hr
      split at hr
      · omega
      · simp at hr
    subst hiq
    rw [Nat.zero_add] at hrest
    exact ⟨rfl, rest, hrest⟩

/-- When the loop of `rightHandSide(v)` goes to the end, only the last level may have an output. -/
theorem setRhsLoop_zero : ∀ (ls : List (Level α κ)) (iq iv : Nat) (v : List α) (ls' : List (Level α κ)),
    (∀ (j : Nat) (l : Level α κ), ls[j]? = some l → l.rhs.length = l.stack.fns.space.nq) →
    HI.setRhsLoop ls iq iv v = some ls' →
    ∀ (j : Nat) (l : Level α κ), ls[j]? = some l → j + 1 < ls.length → l.stack.fns.space.nq = 0 := by
  intro ls
  induction ls with
  | nil => intro iq iv v ls' _ _ j l hj; simp at hj
  | cons l0 ls ih =>
    intro iq iv v ls' hlen he j l hj hlt
    obtain ⟨-, rest, hrest⟩ := setRhsLoop_head l0 ls iq iv v ls' (hlen 0 l0 rfl) he
    have hlen' : ∀ (j : Nat) (l : Level α κ), ls[j]? = some l →
        l.rhs.length = l.stack.fns.space.nq := fun j l hj => hlen (j + 1) l (by simpa using hj)
    cases j with
    | zero =>
      simp only [List.getElem?_cons_zero, Option.some.injEq] at hj
      subst hj
      cases ls with
      | nil => simp at hlt
      | cons l1 ls => exact (setRhsLoop_head l1 ls _ _ v rest (hlen' 0 l1 rfl) hrest).1
    | succ j =>
      exact ih _ _ v rest hlen' hrest j l (by simpa using hj) (by simpa using hlt)

/-- The loop succeeds when only the last level has constraints. -/
theorem setRhsLoop_some [Zero α] [DecidableEq κ] {El : Fn α κ → List α → Prop}
    {h : List (Impl α κ × Nat)} {R' : κ → List α} (hf : FnsOk El h)
    (hR' : ∀ e ∈ h, El e.1.fn (R' e.1.fn.key)) :
    ∀ (ls : List (Level α κ)) (k : Nat),
    (∀ (j : Nat) (l : Level α κ), ls[j]? = some l → LevelCore (atLevel h (k + j)) l ∧
      l.rhs.length = l.stack.fns.space.nq) →
    (∀ j : Nat, j + 1 < ls.length → atLevel h (k + j) = []) →
    (HI.setRhsLoop ls 0 0 ((List.range' k ls.length).flatMap fun i =>
      (atLevel h i).flatMap fun c => R' c.fn.key)).isSome := by
  intro ls
  induction ls with
  | nil => intro k _ _; rfl
  | cons l ls ih =>
    intro k hok hemp
    obtain ⟨hc, hrl⟩ := hok 0 l rfl
    rw [Nat.add_zero] at hc
    have hpk : PartsOk El (atLevel h k) ((atLevel h k).map fun c => R' c.fn.key) :=
      PartsOk.map _ fun c hc => hR' _ (mem_atLevel.1 hc)
    have hlen := hpk.lengths (hf.level k)
    rw [← hc.stack.fns.space, ← List.flatMap_def] at hlen
    have hexp : l.stack.fns.space.exp (l.stack.fns.space.log
        ((atLevel h k).flatMap fun c => R' c.fn.key)) =
        (atLevel h k).flatMap fun c => R' c.fn.key := by
      rw [hc.stack.fns.space, List.flatMap_def]
      exact (spaceOf_lawful El _ (by
        intro f hf'
        obtain ⟨c, hc', rfl⟩ := List.mem_map.1 hf'
        exact hf.level k c hc')).exp_log _ (hpk.el (hf.level k))
    have hset : segSet l.rhs 0 l.stack.fns.space.nq ((atLevel h k).flatMap fun c => R' c.fn.key)
        = some ((atLevel h k).flatMap fun c => R' c.fn.key) := by
      have := segSet_mid [] l.rhs [] ((atLevel h k).flatMap fun c => R' c.fn.key) 0
        l.stack.fns.space.nq rfl hrl hlen
      simpa using this
    have hcl : l.comp.length = l.stack.fns.space.nv := by
      rw [hc.comp, hc.nv, List.length_flatMap]
      congr 1
      apply List.map_congr_left
      intro c hc'
      obtain ⟨_, _, _, hcb⟩ := hf.built _ (mem_atLevel.1 hc')
      exact hcb.ok.1.comp_len
    simp only [List.length_cons, List.range'_succ, List.flatMap_cons]
    unfold HI.setRhsLoop
    have hget := segGet_mid [] ((atLevel h k).flatMap fun c => R' c.fn.key)
      ((List.range' (k + 1) ls.length).flatMap fun i => (atLevel h i).flatMap fun c => R' c.fn.key)
      0 l.stack.fns.space.nq rfl hlen
    rw [List.nil_append] at hget
    simp only [hget, Option.bind_eq_bind, Option.bind_some, hexp, hset]
    rw [if_neg (by omega)]
    simp only [Nat.zero_add]
    have hrest : (HI.setRhsLoop ls l.stack.fns.space.nq l.stack.fns.space.nv
        (((atLevel h k).flatMap fun c => R' c.fn.key) ++ ((List.range' (k + 1) ls.length).flatMap
          fun i => (atLevel h i).flatMap fun c => R' c.fn.key))).isSome := by
      cases ls with
      | nil => rfl
      | cons l1 ls =>
        have h0 := hemp 0 (by simp)
        rw [Nat.add_zero] at h0
        have h1 := hc.nq
        have h2 := hc.nv
        rw [h0] at h1 h2
        simp only [List.map_nil, List.sum_nil] at h1 h2
        rw [h1, h2, h0]
        exact ih (k + 1) (fun j l' hj => by
            have := hok (j + 1) l' (by simpa using hj)
            rwa [show k + (j + 1) = k + 1 + j by omega] at this)
          (fun j hj => by
            have := hemp (j + 1) (by simpa using hj)
            rwa [show k + (j + 1) = k + 1 + j by omega] at this)
    rw [Option.isSome_iff_exists] at hrest
    obtain ⟨rest, hrest⟩ := hrest
    rw [hrest]
    rfl

theorem setRhsVec_some [Zero α] [DecidableEq κ] {El : Fn α κ → List α → Prop}
    {h : List (Impl α κ × Nat)} {s : HI α κ} {R R' : κ → List α} (hs : HI.Inv h s)
    (hf : FnsOk El h) (hR : HI.RhsIs El h s R) (hR' : ∀ e ∈ h, El e.1.fn (R' e.1.fn.key)) (p : Nat)
    (hp : ∀ e ∈ h, e.2 = p) : ∃ s', s.setRhsVec (stackRhs h s.levels.length R') = some s' := by
  have := setRhsLoop_some hf hR' s.levels 0
    (fun j l hj => by
      rw [Nat.zero_add]
      exact ⟨(hs.level j l hj).toLevelCore, rhs_length hs hf hR hj⟩)
    (by
      intro j hj
      rw [Nat.zero_add, List.eq_nil_iff_forall_not_mem]
      intro c hc
      have h1 := hp _ (mem_atLevel.1 hc)
      rcases hs.nlev_min with h0 | ⟨e, he, h0⟩
      · omega
      · have := hp e he
        simp only at h1
        omega)
  rw [Option.isSome_iff_exists] at this
  obtain ⟨ls, hls⟩ := this
  refine ⟨{ s with levels := ls }, ?_⟩
  unfold HI.setRhsVec stackRhs
  rw [List.range_eq_range', hls]
  rfl

end Hpp
