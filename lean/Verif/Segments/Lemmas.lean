import Verif.Segments.Spec
import Mathlib.Data.List.Perm.Basic
import Mathlib.Data.List.Sort
import Mathlib.Tactic.Set

/-! Helper lemmas on intervals of indices. -/

namespace Hpp

@[simp] theorem covers_nil (i : Nat) : ¬ Covers [] i := by simp [Covers]

@[simp] theorem covers_cons (s : Seg) (l : Segs) (i : Nat) :
    Covers (s :: l) i ↔ s.Has i ∨ Covers l i := by simp [Covers]

@[simp] theorem covers_append (l m : Segs) (i : Nat) :
    Covers (l ++ m) i ↔ Covers l i ∨ Covers m i := by
  simp [Covers, or_and_right, exists_or]

theorem covers_flatMap {α : Type} (l : List α) (f : α → Segs) (i : Nat) :
    Covers (l.flatMap f) i ↔ ∃ a ∈ l, Covers (f a) i := by
  unfold Covers; simp only [List.mem_flatMap]
  constructor
  · rintro ⟨s, ⟨a, ha, hs⟩, h⟩; exact ⟨a, ha, s, hs, h⟩
  · rintro ⟨a, ha, s, hs, h⟩; exact ⟨s, ⟨a, ha, hs⟩, h⟩

theorem mem_indices (l : Segs) (i : Nat) : i ∈ indices l ↔ Covers l i := by
  simp [indices, Covers, Seg.Has, List.mem_flatMap, List.mem_range'_1]

@[simp] theorem indices_nil : indices [] = [] := rfl
@[simp] theorem indices_cons (s : Seg) (l : Segs) :
    indices (s :: l) = List.range' s.first s.len ++ indices l := by simp [indices]
@[simp] theorem indices_append (l m : Segs) : indices (l ++ m) = indices l ++ indices m := by
  simp [indices]

theorem covers_perm {l m : Segs} (h : l.Perm m) (i : Nat) : Covers l i ↔ Covers m i := by
  unfold Covers; constructor
  · rintro ⟨s, hs, hi⟩; exact ⟨s, h.mem_iff.1 hs, hi⟩
  · rintro ⟨s, hs, hi⟩; exact ⟨s, h.mem_iff.2 hs, hi⟩

theorem leFull_iff (a b : Seg) : leFull a b = true ↔ lexLe a b := by
  unfold leFull compFull lexLe; simp; omega

theorem lexLe_trans {a b c : Seg} (h : lexLe a b) (h' : lexLe b c) : lexLe a c := by
  unfold lexLe at *; omega

theorem lexLe_total (a b : Seg) : lexLe a b ∨ lexLe b a := by unfold lexLe; omega

theorem lexLe_antisymm {a b : Seg} (h : lexLe a b) (h' : lexLe b a) : a = b := by
  unfold lexLe at *; cases a; cases b; simp at *; omega

theorem sortInsert_perm (x : Seg) (l : Segs) : (sortInsert x l).Perm (x :: l) := by
  induction l with
  | nil => simp [sortInsert]
  | cons y l ih =>
    unfold sortInsert; split
    · exact List.Perm.refl _
    · exact (List.Perm.cons y ih).trans (List.Perm.swap x y l)

theorem sort_perm (a : Segs) : (sort a).Perm a := by
  induction a with
  | nil => simp [sort]
  | cons x a ih => exact (sortInsert_perm x _).trans (List.Perm.cons x ih)

theorem sortInsert_sorted (x : Seg) (l : Segs) (h : l.Pairwise lexLe) :
    (sortInsert x l).Pairwise lexLe := by
  induction l with
  | nil => simp [sortInsert]
  | cons y l ih =>
    have h' := List.pairwise_cons.1 h
    unfold sortInsert; split
    · rename_i hxy
      rw [leFull_iff] at hxy
      refine List.pairwise_cons.2 ⟨?_, h⟩
      intro z hz
      rcases List.mem_cons.1 hz with rfl | hz
      · exact hxy
      · exact lexLe_trans hxy (h'.1 z hz)
    · rename_i hxy
      rw [leFull_iff] at hxy
      refine List.pairwise_cons.2 ⟨?_, ih h'.2⟩
      intro z hz
      rcases List.mem_cons.1 ((sortInsert_perm x l).mem_iff.1 hz) with rfl | hz
      · exact (lexLe_total z y).resolve_left hxy
      · exact h'.1 z hz

theorem sort_sorted (a : Segs) : (sort a).Pairwise lexLe := by
  induction a with
  | nil => simp [sort]
  | cons x a ih => exact sortInsert_sorted x _ ih

theorem sort_of_sorted (a : Segs) (h : a.Pairwise lexLe) : sort a = a :=
  (sort_perm a).eq_of_pairwise (le := lexLe) (fun _ _ _ _ => lexLe_antisymm) (sort_sorted a) h

theorem sortedFirst_of_lex {l : Segs} (h : l.Pairwise lexLe) : SortedFirst l :=
  h.imp (by intro a b h; unfold lexLe at h; omega)

theorem Canonical.disjoint {l : Segs} (h : Canonical l) : Disjoint' l :=
  List.Pairwise.imp (by intro a b h; omega) h

theorem Disjoint'.sortedFirst {l : Segs} (h : Disjoint' l) : SortedFirst l :=
  List.Pairwise.imp (by intro a b h; omega) h

theorem compEndFirst_iff (a b : Seg) : compEndFirst a b = true ↔ a.first + a.len < b.first :=
  decide_eq_true_iff

theorem compEndFirst_false (a b : Seg) : compEndFirst a b = false ↔ b.first ≤ a.first + a.len := by
  rw [← Bool.not_eq_true, compEndFirst_iff]; omega

theorem compFirstEnd_iff (a b : Seg) : compFirstEnd a b = true ↔ a.first < b.first + b.len :=
  decide_eq_true_iff

theorem compFirstEnd_false (a b : Seg) : compFirstEnd a b = false ↔ b.first + b.len ≤ a.first := by
  rw [← Bool.not_eq_true, compFirstEnd_iff]; omega

/-! ### shrink -/

theorem shrinkLoop_covers (e1 : Seg) (l : Segs) (h : SortedFirst (e1 :: l)) (i : Nat) :
    Covers (shrinkLoop e1 l) i ↔ Covers (e1 :: l) i := by
  induction l generalizing e1 with
  | nil => simp [shrinkLoop]
  | cons e2 rest ih =>
    have h' := h
    simp only [SortedFirst, List.pairwise_cons, List.mem_cons, forall_eq_or_imp] at h
    unfold shrinkLoop
    split
    · rw [covers_cons, ih]
      · simp
      · simp only [SortedFirst, List.pairwise_cons]; exact h.2
    · rename_i hc
      rw [ih]
      · simp only [covers_cons, Seg.Has]
        rw [compEndFirst_iff] at hc
        constructor
        · rintro (h1 | h1)
          · by_cases hb : i < e1.first + e1.len
            · exact Or.inl ⟨h1.1, hb⟩
            · right; left; omega
          · exact Or.inr (Or.inr h1)
        · rintro (h1 | h1 | h1)
          · left; omega
          · left; omega
          · exact Or.inr h1
      · simp only [SortedFirst, List.pairwise_cons]; exact ⟨h.1.2, h.2.2⟩

theorem shrink_covers_of_sorted (l : Segs) (h : SortedFirst l) (i : Nat) :
    Covers (shrink l) i ↔ Covers l i := by
  cases l with
  | nil => simp [shrink]
  | cons e l => exact shrinkLoop_covers e l h i

theorem shrinkLoop_head (e1 : Seg) (l : Segs) :
    ∃ n tl, shrinkLoop e1 l = ⟨e1.first, n⟩ :: tl := by
  induction l generalizing e1 with
  | nil => exact ⟨e1.len, [], rfl⟩
  | cons e2 rest ih =>
    unfold shrinkLoop; split
    · exact ⟨e1.len, _, rfl⟩
    · obtain ⟨n, tl, h⟩ := ih { e1 with len := max e1.len (e2.first + e2.len - e1.first) }
      exact ⟨n, tl, h⟩

theorem canonical_cons_iff_head (a : Seg) (l : Segs) :
    Canonical (a :: l) ↔ (∀ b, l.head? = some b → a.first + a.len < b.first) ∧ Canonical l := by
  constructor
  · intro h
    refine ⟨?_, (List.pairwise_cons.1 h).2⟩
    intro b hb
    exact (List.pairwise_cons.1 h).1 b (List.mem_of_mem_head? hb)
  · rintro ⟨h1, h2⟩
    refine List.pairwise_cons.2 ⟨?_, h2⟩
    intro b hb
    cases l with
    | nil => simp at hb
    | cons c l =>
      have hc := h1 c rfl
      rcases List.mem_cons.1 hb with rfl | hb
      · exact hc
      · have := (List.pairwise_cons.1 h2).1 b hb
        omega

/-- `shrink` always yields separated increasing intervals, even on unsorted input. -/
theorem shrinkLoop_canonical (e1 : Seg) (l : Segs) : Canonical (shrinkLoop e1 l) := by
  induction l generalizing e1 with
  | nil => simp [shrinkLoop, Canonical]
  | cons e2 rest ih =>
    unfold shrinkLoop; split
    · rename_i hc
      rw [canonical_cons_iff_head]
      refine ⟨?_, ih _⟩
      intro b hb
      obtain ⟨n, tl, h⟩ := shrinkLoop_head e2 rest
      rw [h] at hb
      simp at hb; subst hb
      simpa [compEndFirst_iff] using hc
    · exact ih _

theorem shrink_canonical (l : Segs) : Canonical (shrink l) := by
  cases l with
  | nil => simp [shrink, Canonical]
  | cons e l => exact shrinkLoop_canonical e l

/-! ### cardinal -/

theorem le_sum_map {α : Type} (f : α → Nat) (l : List α) (x : α) (h : x ∈ l) :
    f x ≤ (l.map f).sum := by
  induction l with
  | nil => simp at h
  | cons y l ih =>
    rcases List.mem_cons.1 h with rfl | h
    · simp
    · have := ih h; simp; omega

theorem cardinal_eq_sum (l : Segs) : cardinal l = (l.map Seg.len).sum := by
  unfold cardinal
  have : ∀ (c : Nat), l.foldl (fun c s => c + s.len) c = c + (l.map Seg.len).sum := by
    induction l with
    | nil => simp
    | cons s l ih => intro c; simp [ih]; omega
  simpa using this 0

theorem cardinal_eq_length (l : Segs) : cardinal l = (indices l).length := by
  rw [cardinal_eq_sum]; induction l with
  | nil => simp
  | cons s l ih => simp [ih]

@[simp] theorem cardinal_nil : cardinal [] = 0 := rfl
@[simp] theorem cardinal_cons (s : Seg) (l : Segs) : cardinal (s :: l) = s.len + cardinal l := by
  simp [cardinal_eq_sum]
@[simp] theorem cardinal_append (l m : Segs) : cardinal (l ++ m) = cardinal l + cardinal m := by
  simp [cardinal_eq_sum]

theorem Disjoint'.indices_sorted {l : Segs} (h : Disjoint' l) : (indices l).Pairwise (· < ·) := by
  induction l with
  | nil => simp
  | cons s l ih =>
    rw [indices_cons, List.pairwise_append]
    have h' := List.pairwise_cons.1 h
    refine ⟨List.pairwise_lt_range', ih h'.2, ?_⟩
    intro i hi j hj
    rw [mem_indices] at hj
    obtain ⟨t, ht, hj⟩ := hj
    have := h'.1 t ht
    simp [List.mem_range'_1] at hi
    unfold Seg.Has at hj; omega

theorem Disjoint'.indices_nodup {l : Segs} (h : Disjoint' l) : (indices l).Nodup :=
  h.indices_sorted.imp (by intro a b h; omega)

/-! ### upper_bound -/

theorem upperBoundLoop_le {α : Type} (p : α → Bool) (l : List α) (fuel first n : Nat) :
    first ≤ upperBoundLoop p l fuel first n ∧ upperBoundLoop p l fuel first n ≤ first + n := by
  induction fuel generalizing first n with
  | zero => simp [upperBoundLoop]
  | succ fuel ih =>
    unfold upperBoundLoop
    split
    · omega
    · split
      · omega
      · split
        · have := ih first (n / 2); omega
        · have := ih (first + n / 2 + 1) (n - n / 2 - 1); omega

theorem upperBound_bounds {α : Type} (p : α → Bool) (l : List α) (s : Nat) (h : s ≤ l.length) :
    s ≤ upperBound p l s ∧ upperBound p l s ≤ l.length := by
  have := upperBoundLoop_le p l (l.length - s) s (l.length - s)
  unfold upperBound; omega

/-- Correctness of binary search on a partitioned range. -/
theorem upperBoundLoop_spec {α : Type} (p : α → Bool) (l : List α) (fuel first n : Nat)
    (hfuel : n ≤ fuel) (hn : first + n ≤ l.length)
    (mono : ∀ i j x y, first ≤ i → i ≤ j → j < first + n → l[i]? = some x → l[j]? = some y →
      p x = true → p y = true) :
    (∀ i x, first ≤ i → i < upperBoundLoop p l fuel first n → l[i]? = some x → p x = false) ∧
    (∀ i x, upperBoundLoop p l fuel first n ≤ i → i < first + n → l[i]? = some x → p x = true) := by
  induction fuel generalizing first n with
  | zero => simp only [upperBoundLoop]; constructor <;> intros <;> omega
  | succ fuel ih =>
    unfold upperBoundLoop
    split
    · subst n; constructor <;> intros <;> omega
    · rename_i hn0
      split
      · rename_i h; rw [List.getElem?_eq_none_iff] at h; omega
      · rename_i x hx
        split
        · rename_i hp
          obtain ⟨h1, h2⟩ := ih first (n / 2) (by omega) (by omega)
            (by intro i j x y a b c; exact mono i j x y a b (by omega))
          refine ⟨h1, ?_⟩
          intro i y hi hi' hy
          by_cases hlt : i < first + n / 2
          · exact h2 i y hi hlt hy
          · exact mono _ _ _ _ (by omega) (by omega) hi' hx hy hp
        · rename_i hp
          obtain ⟨h1, h2⟩ := ih (first + n / 2 + 1) (n - n / 2 - 1) (by omega) (by omega)
            (by intro i j x y a b c; exact mono i j x y (by omega) b (by omega))
          refine ⟨?_, ?_⟩
          · intro i y hi hi' hy
            by_cases hlt : first + n / 2 + 1 ≤ i
            · exact h1 i y hlt hi' hy
            · by_contra hpy
              simp only [Bool.not_eq_false] at hpy
              exact hp (mono i (first + n / 2) y x hi (by omega) (by omega) hy hx hpy)
          · intro i y hi hi' hy
            exact h2 i y hi (by omega) hy

theorem upperBound_spec {α : Type} (p : α → Bool) (l : List α) (s : Nat) (hs : s ≤ l.length)
    (mono : (l.drop s).Pairwise fun x y => p x = true → p y = true) :
    (∀ i x, s ≤ i → i < upperBound p l s → l[i]? = some x → p x = false) ∧
    (∀ i x, upperBound p l s ≤ i → l[i]? = some x → p x = true) := by
  have := upperBoundLoop_spec p l (l.length - s) s (l.length - s) (by omega) (by omega) (by
    intro i j x y hi hij hj hx hy hp
    rcases Nat.eq_or_lt_of_le hij with rfl | hij
    · rw [hx] at hy; cases hy; exact hp
    · rw [List.pairwise_iff_getElem] at mono
      obtain ⟨hil, rfl⟩ := List.getElem?_eq_some_iff.1 hx
      obtain ⟨hjl, rfl⟩ := List.getElem?_eq_some_iff.1 hy
      have := mono (i - s) (j - s) (by simp; omega) (by simp; omega) (by omega)
      simp only [List.getElem_drop] at this
      have e1 : s + (i - s) = i := by omega
      have e2 : s + (j - s) = j := by omega
      simp only [e1, e2] at this
      exact this hp)
  refine ⟨this.1, ?_⟩
  intro i x hi hx
  refine this.2 i x hi ?_ hx
  have := (List.getElem?_eq_some_iff.1 hx).1
  omega

theorem insertAt_perm {α : Type} (l : List α) (p : Nat) (x : α) :
    (insertAt l p x).Perm (x :: l) := by
  unfold insertAt
  refine List.perm_middle.trans ?_
  rw [List.take_append_drop]

/-! ### add -/

theorem addSeg_perm (a : Segs) (b : Seg) : (addSeg a b).Perm (b :: a) := insertAt_perm _ _ _

theorem addSegsLoop_perm (b : Segs) (a : Segs) (pos : Nat) :
    (addSegsLoop a pos b).Perm (b ++ a) := by
  induction b generalizing a pos with
  | nil => simp [addSegsLoop]
  | cons x b ih =>
    simp only [addSegsLoop]
    refine (ih _ _).trans ?_
    refine (List.Perm.append_left b (insertAt_perm _ _ _)).trans ?_
    exact List.perm_middle

theorem addSegs_perm (a b : Segs) : (addSegs a b).Perm (b ++ a) := by
  unfold addSegs; split
  · rename_i h; simp at h; subst h; simp
  · exact addSegsLoop_perm _ _ _

theorem compFull_false {a b : Seg} : compFull b a = false ↔ lexLe a b := by
  rw [← leFull_iff]; simp [leFull]

theorem compFull_true {a b : Seg} (h : compFull b a = true) : lexLe b a := by
  unfold compFull at h; unfold lexLe; simp at h; omega

theorem insertAt_sorted (a : Segs) (s : Nat) (hs : s ≤ a.length) (ha : a.Pairwise lexLe) (b : Seg)
    (hb : ∀ x ∈ a.take s, lexLe x b) :
    (insertAt a (upperBound (compFull b) a s) b).Pairwise lexLe := by
  obtain ⟨h1, h2⟩ := upperBound_spec (compFull b) a s hs (by
    refine (ha.sublist (List.drop_sublist _ _)).imp ?_
    intro x y hxy hx
    have hbx := compFull_true hx
    unfold compFull at hx ⊢; unfold lexLe at hxy; simp at hx ⊢; omega)
  set p := upperBound (compFull b) a s
  have hpl := upperBound_bounds (compFull b) a s hs
  unfold insertAt
  have ha' := ha
  rw [← List.take_append_drop p a, List.pairwise_append] at ha
  rw [List.pairwise_append]
  have hle : ∀ x ∈ a.take p, lexLe x b := by
    intro x hx
    obtain ⟨i, hi, rfl⟩ := List.getElem_of_mem hx
    simp only [List.length_take] at hi
    rw [List.getElem_take]
    by_cases his : i < s
    · apply hb
      rw [List.mem_iff_getElem]
      exact ⟨i, by simp; omega, by simp⟩
    · rw [← compFull_false]
      exact h1 i _ (by omega) (by omega) (by rw [List.getElem?_eq_getElem])
  have hge : ∀ x ∈ a.drop p, lexLe b x := by
    intro x hx
    obtain ⟨i, hi, rfl⟩ := List.getElem_of_mem hx
    rw [List.getElem_drop]
    apply compFull_true
    refine h2 (p + i) _ (by omega) ?_
    rw [List.getElem?_eq_getElem]
  refine ⟨ha.1, List.pairwise_cons.2 ⟨hge, ha.2.1⟩, ?_⟩
  intro x hx y hy
  rcases List.mem_cons.1 hy with rfl | hy
  · exact hle x hx
  · exact ha.2.2 x hx y hy

theorem addSegsLoop_sorted (b a : Segs) (pos : Nat) (hpos : pos ≤ a.length)
    (ha : a.Pairwise lexLe) (hb : b.Pairwise lexLe)
    (hab : ∀ x ∈ a.take pos, ∀ y ∈ b, lexLe x y) : (addSegsLoop a pos b).Pairwise lexLe := by
  induction b generalizing a pos with
  | nil => simpa [addSegsLoop]
  | cons y b ih =>
    simp only [addSegsLoop]
    have hb' := List.pairwise_cons.1 hb
    have hs := insertAt_sorted a pos hpos ha y (fun x hx => hab x hx y (by simp))
    have hp := upperBound_bounds (compFull y) a pos hpos
    generalize upperBound (compFull y) a pos = p at *
    apply ih
    · simp [insertAt]; omega
    · exact hs
    · exact hb'.2
    · intro x hx z hz
      have hyz := hb'.1 z hz
      have hxy : lexLe x y := by
        have hlen : (a.take p).length = p := by simp; omega
        unfold insertAt at hx hs
        rw [List.take_append, hlen] at hx
        simp only [Nat.add_sub_cancel_left, List.take_succ_cons, List.take_zero] at hx
        rw [List.mem_append] at hx
        rcases hx with hx | hx
        · have hx' : x ∈ a.take p := List.mem_of_mem_take hx
          exact (List.pairwise_append.1 hs).2.2 x hx' y (by simp)
        · simp at hx; subst hx; unfold lexLe; omega
      exact lexLe_trans hxy hyz

theorem addSegs_sorted (a b : Segs) (ha : a.Pairwise lexLe) (hb : b.Pairwise lexLe) :
    (addSegs a b).Pairwise lexLe := by
  unfold addSegs; split
  · exact hb
  · exact addSegsLoop_sorted b a 0 (by omega) ha hb (by simp)

/-! ### difference -/

theorem diffSegSeg_covers (a b : Seg) (i : Nat) :
    Covers (diffSegSeg a b) i ↔ a.Has i ∧ ¬ b.Has i := by
  unfold diffSegSeg Seg.Has Seg.stop
  split
  · simp; omega
  · split
    · simp [Seg.Has]; omega
    · rw [covers_append]
      split <;> split <;> simp [Seg.Has] <;> omega

theorem diffSegSeg_within (a b : Seg) : ∀ s ∈ diffSegSeg a b,
    a.first ≤ s.first ∧ s.first + s.len ≤ a.first + a.len := by
  intro s hs
  unfold diffSegSeg Seg.stop at hs
  split at hs
  · simp at hs
  · split at hs
    · simp at hs; subst hs; omega
    · split at hs <;> split at hs <;> simp at hs
      · rcases hs with rfl | rfl <;> simp <;> omega
      · subst hs; simp; omega
      · subst hs; simp; omega

theorem diffSegSeg_disjoint (a b : Seg) : Disjoint' (diffSegSeg a b) := by
  unfold diffSegSeg Disjoint' Seg.stop
  split
  · simp
  · split
    · simp
    · split <;> split <;> simp; omega

theorem take_drop_lemma {α : Type} (l : List α) {m n : Nat} (h : m ≤ n) :
    l.take m ++ ((l.drop m).take (n - m) ++ l.drop n) = l := by
  have : l.drop n = (l.drop m).drop (n - m) := by
    rw [List.drop_drop]; congr 1; omega
  rw [this, List.take_append_drop, List.take_append_drop]

theorem diffSegsSeg_bounds (a : Segs) (b : Seg) (h : Disjoint' a) :
    upperBound (compFirstEnd b) a 0 ≤ upperBound (compEndFirst b) a 0 ∧
    (∀ s ∈ a.take (upperBound (compFirstEnd b) a 0), s.first + s.len ≤ b.first) ∧
    (∀ s ∈ a.drop (upperBound (compEndFirst b) a 0), b.first + b.len < s.first) := by
  obtain ⟨h1, h2⟩ := upperBound_spec (compFirstEnd b) a 0 (by omega) (by
    simp only [List.drop_zero]
    refine List.Pairwise.imp ?_ h
    intro x y hxy hx
    rw [compFirstEnd_iff] at hx ⊢; omega)
  obtain ⟨h3, h4⟩ := upperBound_spec (compEndFirst b) a 0 (by omega) (by
    simp only [List.drop_zero]
    refine List.Pairwise.imp ?_ h
    intro x y hxy hx
    rw [compEndFirst_iff] at hx ⊢; omega)
  have hf := upperBound_bounds (compFirstEnd b) a 0 (by omega)
  have hl := upperBound_bounds (compEndFirst b) a 0 (by omega)
  set f := upperBound (compFirstEnd b) a 0
  set l := upperBound (compEndFirst b) a 0
  refine ⟨?_, ?_, ?_⟩
  · by_contra hlt
    have e : a[l]? = some (a[l]'(by omega)) := List.getElem?_eq_getElem _
    have e1 := h1 l _ (by omega) (by omega) e
    have e2 := h4 l _ (by omega) e
    rw [compFirstEnd_false] at e1; rw [compEndFirst_iff] at e2; omega
  · intro s hs
    obtain ⟨i, hi, rfl⟩ := List.getElem_of_mem hs
    simp only [List.length_take] at hi
    rw [List.getElem_take]
    have := h1 i _ (by omega) (by omega) (List.getElem?_eq_getElem (by omega))
    simpa [compFirstEnd_false] using this
  · intro s hs
    obtain ⟨i, hi, rfl⟩ := List.getElem_of_mem hs
    rw [List.getElem_drop]
    have := h4 (l + i) _ (by omega) (List.getElem?_eq_getElem (by simp at hi; omega))
    simpa [compEndFirst_iff] using this

theorem disjoint_flatMap (a : Segs) (f : Seg → Segs) (h : Disjoint' a)
    (hf : ∀ s ∈ a, Disjoint' (f s))
    (hw : ∀ s ∈ a, ∀ t ∈ f s, s.first ≤ t.first ∧ t.first + t.len ≤ s.first + s.len) :
    Disjoint' (a.flatMap f) := by
  induction a with
  | nil => simp [Disjoint']
  | cons s a ih =>
    rw [List.flatMap_cons]
    have h' := List.pairwise_cons.1 h
    refine List.pairwise_append.2 ⟨hf s (by simp), ih h'.2 (fun t ht => hf t (by simp [ht]))
      (fun t ht => hw t (by simp [ht])), ?_⟩
    intro x hx y hy
    obtain ⟨t, ht, hy⟩ := List.mem_flatMap.1 hy
    have h1 := hw s (by simp) x hx
    have h2 := hw t (by simp [ht]) y hy
    have h3 := h'.1 t ht
    omega

/-- Everything needed about `difference(segments_t, segment_t)`. -/
theorem diffSegsSeg_spec (a : Segs) (b : Seg) (h : Disjoint' a) :
    ∃ r, diffSegsSeg a b = some r ∧ Disjoint' r ∧
      (∀ i, Covers r i ↔ Covers a i ∧ ¬ b.Has i) ∧
      (∀ lo hi, (∀ s ∈ a, lo ≤ s.first ∧ s.first + s.len ≤ hi) →
        ∀ s ∈ r, lo ≤ s.first ∧ s.first + s.len ≤ hi) := by
  obtain ⟨hfl, hpre, hpost⟩ := diffSegsSeg_bounds a b h
  unfold diffSegsSeg
  simp only
  set f := upperBound (compFirstEnd b) a 0 with hf
  set l := upperBound (compEndFirst b) a 0 with hl
  rw [if_neg (by omega)]
  refine ⟨_, rfl, ?_, ?_, ?_⟩
  · -- the result is `a.flatMap g` where `g` acts as the identity outside the middle part
    have hd := h
    rw [← take_drop_lemma a hfl] at hd
    unfold Disjoint' at hd ⊢
    rw [List.append_assoc]
    rw [List.pairwise_append] at hd ⊢
    obtain ⟨d1, d2, d3⟩ := hd
    rw [List.pairwise_append] at d2 ⊢
    obtain ⟨d4, d5, d6⟩ := d2
    refine ⟨d1, ⟨?_, d5, ?_⟩, ?_⟩
    · exact disjoint_flatMap _ _ d4 (fun s _ => diffSegSeg_disjoint s b)
        (fun s _ => diffSegSeg_within s b)
    · intro x hx y hy
      obtain ⟨t, ht, hx⟩ := List.mem_flatMap.1 hx
      have := diffSegSeg_within t b x hx
      have := d6 t ht y hy
      omega
    · intro x hx y hy
      rcases List.mem_append.1 hy with hy | hy
      · obtain ⟨t, ht, hy⟩ := List.mem_flatMap.1 hy
        have := diffSegSeg_within t b y hy
        have := d3 x hx t (List.mem_append.2 (Or.inl ht))
        omega
      · exact d3 x hx y (List.mem_append.2 (Or.inr hy))
  · intro i
    conv_rhs => rw [← take_drop_lemma a hfl]
    simp only [covers_append, covers_flatMap, diffSegSeg_covers]
    constructor
    · rintro ((⟨s, hs, hi⟩ | ⟨s, hs, hi⟩) | ⟨s, hs, hi⟩)
      · refine ⟨Or.inl ⟨s, hs, hi⟩, ?_⟩
        have := hpre s hs
        unfold Seg.Has at *; omega
      · exact ⟨Or.inr (Or.inl ⟨s, hs, hi.1⟩), hi.2⟩
      · refine ⟨Or.inr (Or.inr ⟨s, hs, hi⟩), ?_⟩
        have := hpost s hs
        unfold Seg.Has at *; omega
    · rintro ⟨h1 | ⟨s, hs, hi⟩ | h1, h2⟩
      · exact Or.inl (Or.inl h1)
      · exact Or.inl (Or.inr ⟨s, hs, hi, h2⟩)
      · exact Or.inr h1
  · intro lo hi hlh s hs
    rcases List.mem_append.1 hs with hs | hs
    · rcases List.mem_append.1 hs with hs | hs
      · exact hlh s (List.mem_of_mem_take hs)
      · obtain ⟨t, ht, hs⟩ := List.mem_flatMap.1 hs
        have h1 := diffSegSeg_within t b s hs
        have h2 := hlh t (List.mem_of_mem_drop (List.mem_of_mem_take ht))
        omega
    · exact hlh s (List.mem_of_mem_drop hs)

theorem diffLoop_spec (b a : Segs) (h : Disjoint' a) :
    ∃ r, diffLoop a b = some r ∧ Disjoint' r ∧
      (∀ i, Covers r i ↔ Covers a i ∧ ¬ Covers b i) ∧
      (∀ lo hi, (∀ s ∈ a, lo ≤ s.first ∧ s.first + s.len ≤ hi) →
        ∀ s ∈ r, lo ≤ s.first ∧ s.first + s.len ≤ hi) := by
  induction b generalizing a with
  | nil => exact ⟨a, rfl, h, by simp, fun lo hi h => h⟩
  | cons x b ih =>
    obtain ⟨r, h1, h2, h3, h4⟩ := diffSegsSeg_spec a x h
    obtain ⟨r', g1, g2, g3, g4⟩ := ih r h2
    refine ⟨r', by simp [diffLoop, h1, g1], g2, ?_, fun lo hi hh => g4 lo hi (h4 lo hi hh)⟩
    intro i; rw [g3, h3, covers_cons]; tauto

theorem diffSegSegs_spec (a : Seg) (b : Segs) :
    ∃ r, diffSegSegs a b = some r ∧ Disjoint' r ∧
      (∀ i, Covers r i ↔ a.Has i ∧ ¬ Covers b i) ∧
      (∀ s ∈ r, a.first ≤ s.first ∧ s.first + s.len ≤ a.first + a.len) := by
  obtain ⟨r, h1, h2, h3, h4⟩ := diffLoop_spec b [a] (by simp [Disjoint'])
  exact ⟨r, h1, h2, by simpa using h3, h4 _ _ (by simp)⟩

theorem diffSegsSegs_spec (a b : Segs) :
    ∃ r, diffSegsSegs a b = some r ∧
      (∀ i, Covers r i ↔ Covers a i ∧ ¬ Covers b i) ∧
      (Disjoint' a → Disjoint' r) ∧
      (∀ lo hi, (∀ s ∈ a, lo ≤ s.first ∧ s.first + s.len ≤ hi) →
        ∀ s ∈ r, lo ≤ s.first ∧ s.first + s.len ≤ hi) := by
  induction a with
  | nil => exact ⟨[], rfl, by simp, by simp, by simp⟩
  | cons x a ih =>
    obtain ⟨r, h1, h2, h3, h4⟩ := diffSegSegs_spec x b
    obtain ⟨r', g1, g2, g3, g4⟩ := ih
    refine ⟨r ++ r', by simp [diffSegsSegs, h1, g1], ?_, ?_, ?_⟩
    · intro i; rw [covers_append, h3, g2, covers_cons]; tauto
    · intro hd
      have hd' := List.pairwise_cons.1 hd
      refine List.pairwise_append.2 ⟨h2, g3 hd'.2, ?_⟩
      intro s hs t ht
      have e1 := h4 s hs
      by_cases ha : a = []
      · subst ha; simp [diffSegsSegs] at g1; subst g1; simp at ht
      · -- every element of `r'` starts after the end of `x`
        have := g4 (x.first + x.len) (x.first + x.len + t.first + t.len +
            (a.map fun s => s.first + s.len).sum) (by
          intro u hu
          refine ⟨hd'.1 u hu, ?_⟩
          have : u.first + u.len ≤ (a.map fun s => s.first + s.len).sum :=
            le_sum_map (fun s : Seg => s.first + s.len) a u hu
          omega) t ht
        omega
    · intro lo hi hlh s hs
      rcases List.mem_append.1 hs with hs | hs
      · have := h4 s hs
        have := hlh x (by simp)
        omega
      · exact g4 lo hi (fun s hs => hlh s (by simp [hs])) s hs

/-! ### unsorted shrink after a difference (the `inArgs_` pipeline of `ExplicitConstraintSet`) -/

/-- Condition on a list under which `shrink` loses nothing although the list is not sorted:
an index of a later interval that is before the current interval is already covered by the
context `C` or by earlier intervals. -/
def OkC : (Nat → Prop) → Segs → Prop
  | _, [] => True
  | C, e :: l => (∀ i, Covers l i → i < e.first → C i) ∧ OkC (fun i => C i ∨ e.Has i) l

theorem OkC.mono {C D : Nat → Prop} (l : Segs) (h : OkC C l) (hCD : ∀ i, C i → D i) : OkC D l := by
  induction l generalizing C D with
  | nil => trivial
  | cons e l ih =>
    exact ⟨fun i hi hlt => hCD i (h.1 i hi hlt), ih h.2 (fun i hi => hi.imp (hCD i) id)⟩

theorem shrinkLoop_covers_okC (C : Nat → Prop) (e1 : Seg) (l : Segs)
    (h1 : ∀ i, Covers l i → i < e1.first → C i) (h2 : OkC (fun i => C i ∨ e1.Has i) l) (i : Nat) :
    (C i ∨ Covers (shrinkLoop e1 l) i) ↔ (C i ∨ Covers (e1 :: l) i) := by
  induction l generalizing C e1 with
  | nil => simp [shrinkLoop]
  | cons e2 rest ih =>
    unfold shrinkLoop
    split
    · have := ih (fun i => C i ∨ e1.Has i) e2 h2.1 h2.2
      simp only [covers_cons] at this ⊢
      tauto
    · rename_i hc
      rw [compEndFirst_iff] at hc
      have key : ∀ i, (C i ∨ Seg.Has ⟨e1.first, max e1.len (e2.first + e2.len - e1.first)⟩ i) ↔
          (C i ∨ e1.Has i ∨ e2.Has i) := by
        intro i
        have hC := h1 i
        simp only [covers_cons] at hC
        unfold Seg.Has at hC ⊢
        simp only
        constructor
        · rintro (h | h)
          · exact Or.inl h
          · right; omega
        · rintro (h | h | h)
          · exact Or.inl h
          · right; omega
          · by_cases hlt : i < e1.first
            · exact Or.inl (hC (Or.inl h) hlt)
            · right; omega
      rw [ih C ⟨e1.first, max e1.len (e2.first + e2.len - e1.first)⟩
        (fun i hi hlt => h1 i (by simp [hi]) hlt)
        (h2.2.mono _ (fun i hi => (key i).2 (by tauto)))]
      have := key i
      simp only [covers_cons]
      tauto

theorem shrink_covers_okC (l : Segs) (h : OkC (fun _ => False) l) (i : Nat) :
    Covers (shrink l) i ↔ Covers l i := by
  cases l with
  | nil => simp [shrink]
  | cons e l =>
    have := shrinkLoop_covers_okC (fun _ => False) e l h.1 h.2 i
    simpa [shrink] using this

theorem OkC.append_disjoint (C : Nat → Prop) (D r : Segs) (hD : Disjoint' D)
    (h1 : ∀ i, Covers r i → ∀ e ∈ D, i < e.first → C i ∨ Covers D i)
    (h2 : OkC (fun i => C i ∨ Covers D i) r) : OkC C (D ++ r) := by
  induction D generalizing C with
  | nil => exact h2.mono _ (by simp)
  | cons e D ih =>
    have hD' := List.pairwise_cons.1 hD
    refine ⟨?_, ih _ hD'.2 ?_ ?_⟩
    · intro i hi hlt
      have hno : ¬ Covers (e :: D) i := by
        rw [covers_cons]; rintro (h | ⟨s, hs, h⟩)
        · unfold Seg.Has at h; omega
        · have := hD'.1 s hs; unfold Seg.Has at h; omega
      rcases (covers_append _ _ _).1 hi with hi | hi
      · exact absurd (by simp [hi]) hno
      · exact (h1 i hi e (by simp) hlt).resolve_right hno
    · intro i hi e' he' hlt
      have := h1 i hi e' (by simp [he']) hlt
      rw [covers_cons] at this; tauto
    · exact h2.mono _ (fun i hi => by rw [covers_cons] at hi; tauto)

theorem diffSegsSegs_okC (C : Nat → Prop) (a b r : Segs) (ha : SortedFirst a)
    (hr : diffSegsSegs a b = some r) : OkC C r := by
  induction a generalizing C r with
  | nil => simp [diffSegsSegs] at hr; subst hr; trivial
  | cons x a ih =>
    obtain ⟨D, h1, h2, h3, h4⟩ := diffSegSegs_spec x b
    obtain ⟨r', g1, g2, g3, g4⟩ := diffSegsSegs_spec a b
    simp [diffSegsSegs, h1, g1] at hr; subst hr
    have ha' := List.pairwise_cons.1 ha
    refine OkC.append_disjoint C D r' h2 ?_ (ih _ r' ha'.2 g1)
    intro i hi e he hlt
    right
    rw [g2] at hi
    obtain ⟨⟨s, hs, his⟩, hb⟩ := hi
    rw [h3]
    refine ⟨?_, hb⟩
    have e1 := ha'.1 s hs
    have e2 := h4 e he
    unfold Seg.Has at *; omega

/-- The `difference` then `shrink` (without `sort`) sequence of `ExplicitConstraintSet::add` yields
the exact set difference. -/
theorem shrink_diff_covers (a b : Segs) (ha : SortedFirst a) :
    ∃ r, diffSegsSegs a b = some r ∧ Canonical (shrink r) ∧
      ∀ i, Covers (shrink r) i ↔ Covers a i ∧ ¬ Covers b i := by
  obtain ⟨r, h1, h2, -, -⟩ := diffSegsSegs_spec a b
  refine ⟨r, h1, shrink_canonical r, fun i => ?_⟩
  rw [shrink_covers_okC r (diffSegsSegs_okC _ a b r ha h1), h2]

/-! ### split, extract -/

theorem split_indices (l : Segs) (n : Nat) :
    indices (split l n).1 = (indices l).take n ∧ indices (split l n).2 = (indices l).drop n := by
  induction l generalizing n with
  | nil => simp [split]
  | cons s l ih =>
    unfold split
    split
    · rename_i h
      simp only [indices_cons, indices_nil, List.append_nil]
      have e : List.range' s.first s.len =
          List.range' s.first n ++ List.range' (s.first + n) (s.len - n) := by
        rw [List.range'_append_1]; congr 1; omega
      rw [e, List.append_assoc]
      constructor
      · rw [List.take_append_of_le_length (by simp)]; simp
      · rw [List.drop_append_of_le_length (by simp)]; simp
    · split
      · rename_i h h'
        subst h'
        simp only [indices_cons, indices_nil, List.append_nil]
        constructor
        · rw [List.take_append_of_le_length (by simp)]; simp
        · rw [List.drop_append_of_le_length (by simp)]; simp
      · rename_i h h'
        have := ih (n - s.len)
        simp only [indices_cons]
        rw [List.take_append, List.drop_append]
        simp only [List.length_range']
        rw [List.take_of_length_le (by simp; omega), List.drop_of_length_le (by simp; omega)]
        simp [this.1, this.2]

theorem extractEnd_spec (l : Segs) (n : Nat) :
    (n ≤ cardinal l → n > 0 → ∃ r, extractEnd l n = some r ∧ indices r = (indices l).take n) ∧
    (cardinal l < n → extractEnd l n = none) := by
  induction l generalizing n with
  | nil => simp [extractEnd]
  | cons s l ih =>
    unfold extractEnd
    simp only [cardinal_cons, indices_cons]
    split
    · rename_i h
      refine ⟨fun _ _ => ⟨_, rfl, ?_⟩, fun h' => by omega⟩
      rw [List.take_append_of_le_length (by simp; omega), List.take_range'_of_length_ge h]
      simp
    · rename_i h
      obtain ⟨h1, h2⟩ := ih (n - s.len)
      constructor
      · intro hn hp
        obtain ⟨r, hr, hi⟩ := h1 (by omega) (by omega)
        refine ⟨s :: r, by simp [hr], ?_⟩
        rw [indices_cons, hi, List.take_append, List.take_range'_of_length_le (by omega)]
        simp
      · intro hn
        rw [h2 (by omega)]; rfl

theorem extract?_spec (l : Segs) (s n : Nat) :
    (s < cardinal l → s + n ≤ cardinal l →
      ∃ r, extract? l s n = some r ∧ indices r = ((indices l).drop s).take n) ∧
    ((cardinal l ≤ s ∨ cardinal l < s + n) → extract? l s n = none) := by
  induction l generalizing s with
  | nil => simp [extract?]
  | cons x l ih =>
    unfold extract?
    simp only [cardinal_cons, indices_cons]
    have hr : s ≤ x.len → List.drop s (List.range' x.first x.len) =
        List.range' (x.first + s) (x.len - s) := by
      intro _; rw [List.drop_range']; simp
    split
    · rename_i h
      rw [List.drop_append_of_le_length (by simp; omega), hr (by omega)]
      split
      · rename_i h'
        refine ⟨fun _ _ => ⟨_, rfl, ?_⟩, fun h' => by omega⟩
        rw [List.take_append_of_le_length (by simp; omega), List.take_range'_of_length_ge h']
        simp
      · rename_i h'
        obtain ⟨h1, h2⟩ := extractEnd_spec l (n - (x.len - s))
        constructor
        · intro _ hn
          obtain ⟨r, hr, hi⟩ := h1 (by omega) (by omega)
          refine ⟨⟨x.first + s, x.len - s⟩ :: r, by simp [hr], ?_⟩
          rw [indices_cons, hi, List.take_append, List.take_range'_of_length_le (by omega)]
          simp
        · intro hn
          rw [h2 (by omega)]; rfl
    · rename_i h
      obtain ⟨h1, h2⟩ := ih (s - x.len)
      constructor
      · intro hs hn
        obtain ⟨r, hr, hi⟩ := h1 (by omega) (by omega)
        refine ⟨r, hr, ?_⟩
        rw [hi, List.drop_append, List.drop_of_length_le (l := List.range' _ _) (by simp; omega)]
        simp
      · intro hn
        exact h2 (by omega)

theorem extract_indices (l : Segs) (s n : Nat) (h : s + n ≤ cardinal l) :
    indices (extract l s n) = ((indices l).drop s).take n := by
  unfold extract
  by_cases hs : s < cardinal l
  · obtain ⟨r, hr, hi⟩ := (extract?_spec l s n).1 hs h
    simp [hr, hi]
  · rw [(extract?_spec l s n).2 (Or.inl (by omega))]
    have : n = 0 := by omega
    subst this; simp

/-! ### boolean masks -/

theorem onesFrom_covers (k : Nat) (v : List Bool) (i : Nat) :
    Covers (onesFrom k v) i ↔ k ≤ i ∧ v[i - k]? = some true := by
  induction v generalizing k with
  | nil => simp [onesFrom]
  | cons b v ih =>
    simp only [onesFrom, covers_append, ih]
    by_cases hik : i = k
    · subst hik; cases b <;> simp [Seg.Has]
    · constructor
      · rintro (h | ⟨h1, h2⟩)
        · cases b
          · simp at h
          · simp [Seg.Has] at h; omega
        · refine ⟨by omega, ?_⟩
          rw [show i - k = (i - (k + 1)) + 1 by omega]; simpa using h2
      · rintro ⟨h1, h2⟩
        right
        refine ⟨by omega, ?_⟩
        rw [show i - k = (i - (k + 1)) + 1 by omega] at h2; simpa using h2

theorem onesFrom_ge (k : Nat) (v : List Bool) : ∀ s ∈ onesFrom k v, k ≤ s.first := by
  induction v generalizing k with
  | nil => simp [onesFrom]
  | cons b v ih =>
    intro s hs
    simp only [onesFrom, List.mem_append] at hs
    rcases hs with hs | hs
    · cases b <;> simp at hs; subst hs; simp
    · have := ih (k + 1) s hs; omega

theorem onesFrom_disjoint (k : Nat) (v : List Bool) : Disjoint' (onesFrom k v) := by
  induction v generalizing k with
  | nil => simp [onesFrom, Disjoint']
  | cons b v ih =>
    simp only [onesFrom]
    refine List.pairwise_append.2 ⟨by cases b <;> simp, ih _, ?_⟩
    intro s hs t ht
    have := onesFrom_ge (k + 1) v t ht
    cases b <;> simp at hs; subst hs; simpa

theorem fromLogical_covers (v : List Bool) (i : Nat) :
    Covers (fromLogical v) i ↔ v[i]? = some true := by
  unfold fromLogical
  rw [shrink_covers_of_sorted _ (onesFrom_disjoint 0 v).sortedFirst, onesFrom_covers]
  simp

theorem lt_of_getElem?_some {β : Type} {l : List β} {i : Nat} {x : β} (h : l[i]? = some x) :
    i < l.length := (List.getElem?_eq_some_iff.1 h).1

end Hpp
