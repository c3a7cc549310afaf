import Verif.Common.Space
import Mathlib.Algebra.Group.Basic
import Verif.Segments.Lemmas

namespace Hpp

variable {α : Type}

theorem assignAll_not_mem (l : List Nat) (vals : List α) (q : Nat → α) (i : Nat) (h : i ∉ l) :
    assignAll q (l.zip vals) i = q i := by
  induction l generalizing vals q with
  | nil => simp [assignAll]
  | cons a l ih =>
    cases vals with
    | nil => simp [assignAll]
    | cons v vals =>
      simp only [List.mem_cons, not_or] at h
      simp only [List.zip_cons_cons, assignAll]
      rw [ih _ _ h.2, if_neg h.1]

theorem map_assignAll (l : List Nat) (vals : List α) (q : Nat → α) (hn : l.Nodup)
    (hl : vals.length = l.length) : l.map (assignAll q (l.zip vals)) = vals := by
  induction l generalizing vals q with
  | nil => cases vals with
    | nil => rfl
    | cons => simp at hl
  | cons a l ih =>
    cases vals with
    | nil => simp at hl
    | cons v vals =>
      have hn' := List.nodup_cons.1 hn
      simp only [List.zip_cons_cons, assignAll, List.map_cons]
      rw [ih _ _ hn'.2 (by simpa using hl), assignAll_not_mem _ _ _ _ hn'.1]
      simp

theorem lview_not_mem (q : Nat → α) (l : Segs) (vals : List α) (i : Nat) (h : i ∉ indices l) :
    lview q l vals i = q i := assignAll_not_mem _ _ _ _ h

theorem rview_lview (q : Nat → α) (l : Segs) (vals : List α) (hn : (indices l).Nodup)
    (hl : vals.length = (indices l).length) : rview (lview q l vals) l = vals :=
  map_assignAll _ _ _ hn hl

theorem rview_congr {q q' : Nat → α} {l : Segs} (h : ∀ i ∈ indices l, q i = q' i) :
    rview q l = rview q' l := List.map_congr_left h

theorem rview_inj {q q' : Nat → α} {l : Segs} (h : rview q l = rview q' l) :
    ∀ i ∈ indices l, q i = q' i := by
  intro i hi
  exact (List.map_inj_left.1 h) i hi

theorem rview_length (q : Nat → α) (l : Segs) : (rview q l).length = (indices l).length := by
  simp [rview]

/-! ### finite vectors -/

theorem setAll_length (v : List α) (l : List (Nat × α)) : (setAll v l).length = v.length := by
  induction l generalizing v with
  | nil => rfl
  | cons p l ih => rcases p with ⟨i, x⟩; simp [setAll, ih]

theorem setAll_map_getElem? (idx : List Nat) (f : Nat → α) (v : List α) (i : Nat) :
    (setAll v (idx.zip (idx.map f)))[i]? =
      if i ∈ idx ∧ i < v.length then some (f i) else v[i]? := by
  induction idx generalizing v with
  | nil => simp [setAll]
  | cons a idx ih =>
    simp only [List.map_cons, List.zip_cons_cons, setAll, ih, List.length_set, List.getElem?_set,
      List.mem_cons]
    by_cases h1 : i ∈ idx
    · by_cases h2 : i < v.length
      · simp [h1, h2]
      · simp [h1, h2]
        intro h3; subst h3; omega
    · by_cases h2 : a = i
      · subst h2
        by_cases h3 : a < v.length
        · simp [h1, h3]
        · simp [h1, h3]
      · have : i ≠ a := fun h => h2 h.symm
        simp [h1, h2, this]

theorem equalityRowsFrom_covers (k : Nat) (c : List Comp) (b : Blocks) (i : Nat) :
    Covers (equalityRowsFrom k c b).segs i ↔
      Covers b.segs i ∨ (k ≤ i ∧ c[i - k]? = some .equality) := by
  induction c generalizing k b with
  | nil => simp [equalityRowsFrom]
  | cons t c ih =>
    have key : (k ≤ i ∧ (t :: c)[i - k]? = some Comp.equality) ↔
        (i = k ∧ t = .equality) ∨ (k + 1 ≤ i ∧ c[i - (k + 1)]? = some .equality) := by
      by_cases h : i = k
      · subst h; simp
      · by_cases h2 : k + 1 ≤ i
        · have : i - k = (i - (k + 1)) + 1 := by omega
          rw [this]; simp [h]; omega
        · have : ¬ k ≤ i := by omega
          simp [h, h2, this]
    rw [key]
    cases t
    case equality =>
      simp only [equalityRowsFrom]
      rw [ih]
      simp only [Blocks.add, covers_append, covers_cons, covers_nil, or_false, Seg.Has]
      constructor
      · rintro ((h | h) | h)
        · exact .inl h
        · exact .inr (.inl ⟨by omega, by trivial⟩)
        · exact .inr (.inr h)
      · rintro (h | ⟨h, -⟩ | h)
        · exact .inl (.inl h)
        · exact .inl (.inr (by omega))
        · exact .inr h
    all_goals simp [equalityRowsFrom, ih]

theorem equalityIndices_mem (c : List Comp) (i : Nat) :
    i ∈ indices (equalityIndices c).segs ↔ c[i]? = some .equality := by
  rw [mem_indices]
  unfold equalityIndices Blocks.update
  simp only [if_true]
  rw [shrink_covers_of_sorted _ (sortedFirst_of_lex (sort_sorted _)), covers_perm (sort_perm _),
    equalityRowsFrom_covers]
  simp [Blocks.empty]

theorem equalityIndices_nodup (c : List Comp) : (indices (equalityIndices c).segs).Nodup := by
  unfold equalityIndices Blocks.update
  simp only [if_true]
  exact (shrink_canonical _).disjoint.indices_nodup

/-- The masking of the code is the masking of the specification. -/
theorem keepEquality_eq [Zero α] (c : List Comp) (v : List α) (nv : Nat) (hc : c.length = nv)
    (hv : v.length = nv) : keepEquality nv (equalityIndices c).segs v = maskEq c v := by
  apply List.ext_getElem?
  intro i
  unfold keepEquality lwrite lread maskEq
  rw [setAll_map_getElem?]
  simp only [equalityIndices_mem, List.length_replicate, List.getElem?_zipWith]
  by_cases hi : i < nv
  · have h1 : c[i]? = some c[i] := List.getElem?_eq_getElem (by omega)
    have h2 : v[i]? = some v[i] := List.getElem?_eq_getElem (by omega)
    rw [h1, h2]
    simp only [hi, Option.some.injEq, and_true, List.getD, h2, Option.getD_some]
    by_cases h : c[i] = .equality
    · simp [h]
    · simp [h, hi]
  · have h1 : c[i]? = none := List.getElem?_eq_none (by omega)
    rw [h1]; simp [hi]

theorem maskEq_length [Zero α] (c : List Comp) (v : List α) (h : c.length = v.length) :
    (maskEq c v).length = v.length := by simp [maskEq, h]

theorem maskEq_all [Zero α] (c : List Comp) (v : List α) (h : c.length = v.length)
    (hc : ∀ t ∈ c, t = .equality) : maskEq c v = v := by
  induction c generalizing v with
  | nil => cases v with
    | nil => rfl
    | cons => simp at h
  | cons t c ih => cases v with
    | nil => simp at h
    | cons x v =>
      have := hc t (by simp)
      simp only [maskEq, List.zipWith_cons_cons, this, if_true]
      congr 1
      exact ih v (by simpa using h) (fun t ht => hc t (by simp [ht]))

theorem maskEq_idem [Zero α] (c : List Comp) (v : List α) : maskEq c (maskEq c v) = maskEq c v := by
  induction c generalizing v with
  | nil => rfl
  | cons t c ih => cases v with
    | nil => rfl
    | cons x v =>
      simp only [maskEq, List.zipWith_cons_cons]
      congr 1
      · split <;> rfl
      · exact ih v

/-- The vector space of dimension `n` satisfies the laws. -/
theorem vectorSpace_lawful (n : Nat) [AddGroup α] :
    (vectorSpace α n).Lawful (fun v => v.length = n) where
  neutral_mem := by simp [vectorSpace]
  log_len := by intro g h; exact h
  len := by intro g h; exact h
  exp_mem := by intro g h; exact h
  exp_log := by intro g _; rfl
  exp_zero := rfl
  log_exp_mask := by intro g c _ _; rfl
  sub_len := by intro g h hg hh; simp [vectorSpace, hg, hh]
  sub_eq_zero := by
    intro g h hg hh
    simp only [vectorSpace]
    induction n generalizing g h with
    | zero =>
      rw [List.length_eq_zero_iff] at hg hh; subst hg; subst hh; simp
    | succ n ih =>
      cases g with
      | nil => simp at hg
      | cons a g => cases h with
        | nil => simp at hh
        | cons b h =>
          simp only [List.zipWith_cons_cons, List.replicate_succ, List.cons.injEq, sub_eq_zero]
          rw [ih g h (by simpa using hg) (by simpa using hh)]

end Hpp
