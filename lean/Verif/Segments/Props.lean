import Verif.Segments.Lemmas
import Mathlib.Data.List.Dedup

/-!
# Properties of intervals of indices (C01-C06, C08)
-/

namespace Hpp

/-! ### C01: normalisation -/

/-- C01. `sort` followed by `shrink` returns separated increasing intervals covering exactly the
indices of the input. -/
theorem C01_normalise (a : Segs) :
    Canonical (shrink (sort a)) ∧ ∀ i, Covers (shrink (sort a)) i ↔ Covers a i := by
  refine ⟨shrink_canonical _, fun i => ?_⟩
  rw [shrink_covers_of_sorted _ (sortedFirst_of_lex (sort_sorted a)), covers_perm (sort_perm a)]

/-- C01. Normalising twice changes nothing. -/
theorem C01_normalise_idempotent (a : Segs) :
    shrink (sort (shrink (sort a))) = shrink (sort a) := by
  have key : ∀ l : Segs, Canonical l → sort l = l ∧ shrink l = l := by
    intro l hl
    constructor
    · apply sort_of_sorted
      refine List.Pairwise.imp ?_ hl
      intro x y h
      unfold lexLe; omega
    · cases l with
      | nil => rfl
      | cons e l =>
        simp only [shrink]
        induction l generalizing e with
        | nil => rfl
        | cons e2 l ih =>
          have h' := List.pairwise_cons.1 hl
          unfold shrinkLoop
          rw [if_pos ((compEndFirst_iff _ _).2 (h'.1 e2 (by simp))), ih e2 h'.2]
  obtain ⟨h1, h2⟩ := key _ (shrink_canonical (sort a))
  rw [h1, h2]

/-- C01. The normal form only depends on the set of non empty intervals' indices: two lists without
empty intervals covering the same indices normalise to the same intervals. -/
theorem C01_normal_form_unique (a b : Segs) (ha : Canonical a) (hb : Canonical b)
    (ea : ∀ s ∈ a, s.len ≠ 0) (eb : ∀ s ∈ b, s.len ≠ 0)
    (h : ∀ i, Covers a i ↔ Covers b i) : a = b := by
  induction a generalizing b with
  | nil =>
    cases b with
    | nil => rfl
    | cons s b =>
      exfalso
      have := (h s.first).2 (by simp [Seg.Has]; left; have := eb s (by simp); omega)
      simp at this
  | cons s a ih =>
    cases b with
    | nil =>
      exfalso
      have := (h s.first).1 (by simp [Seg.Has]; left; have := ea s (by simp); omega)
      simp at this
    | cons t b =>
      have ha' := List.pairwise_cons.1 ha
      have hb' := List.pairwise_cons.1 hb
      have es := ea s (by simp)
      have et := eb t (by simp)
      have covA : ∀ i, Covers a i → s.first + s.len < i := by
        rintro i ⟨u, hu, hi⟩; have := ha'.1 u hu; unfold Seg.Has at hi; omega
      have covB : ∀ i, Covers b i → t.first + t.len < i := by
        rintro i ⟨u, hu, hi⟩; have := hb'.1 u hu; unfold Seg.Has at hi; omega
      have e1 : s.first = t.first := by
        have h1 := (h s.first).1 (by simp [Seg.Has]; left; omega)
        have h2 := (h t.first).2 (by simp [Seg.Has]; left; omega)
        rw [covers_cons] at h1 h2
        have h3 : t.first ≤ s.first := by
          rcases h1 with h1 | h1
          · exact h1.1
          · have := covB _ h1; omega
        have h4 : s.first ≤ t.first := by
          rcases h2 with h2 | h2
          · exact h2.1
          · have := covA _ h2; omega
        omega
      have e2 : s.len = t.len := by
        have h1 := (h (s.first + s.len))
        have h2 := (h (t.first + t.len))
        rw [covers_cons, covers_cons] at h1 h2
        have n1 : ¬ (s.Has (s.first + s.len) ∨ Covers a (s.first + s.len)) := by
          rintro (h | h)
          · unfold Seg.Has at h; omega
          · have := covA _ h; omega
        have n2 : ¬ (t.Has (t.first + t.len) ∨ Covers b (t.first + t.len)) := by
          rintro (h | h)
          · unfold Seg.Has at h; omega
          · have := covB _ h; omega
        have m1 : ¬ t.Has (s.first + s.len) := fun hh => n1 (h1.2 (Or.inl hh))
        have m2 : ¬ s.Has (t.first + t.len) := fun hh => n2 (h2.1 (Or.inl hh))
        unfold Seg.Has at m1 m2; omega
      have est : s = t := by cases s; cases t; simp_all
      subst est
      congr 1
      apply ih b ha'.2 hb'.2 (fun u hu => ea u (by simp [hu])) (fun u hu => eb u (by simp [hu]))
      intro i
      have hi := h i
      rw [covers_cons, covers_cons] at hi
      constructor
      · intro hc
        rcases hi.1 (Or.inr hc) with hh | hh
        · have := covA _ hc; unfold Seg.Has at hh; omega
        · exact hh
      · intro hc
        rcases hi.2 (Or.inr hc) with hh | hh
        · have := covB _ hc; unfold Seg.Has at hh; omega
        · exact hh

example : Covers [⟨5, 2⟩, ⟨0, 3⟩, ⟨2, 3⟩] 4 ∧
    shrink (sort [⟨5, 2⟩, ⟨0, 3⟩, ⟨2, 3⟩, ⟨9, 1⟩]) = [⟨0, 7⟩, ⟨9, 1⟩] := by
  decide +kernel

/-! ### C02: number of indices -/

/-- C02. Whatever the intervals added, after `updateRows<true,true,true>` the announced number of
rows is the number of distinct indices that were added. -/
theorem C02_number_of_rows (added : List Seg) :
    ((added.foldl (fun b s => b.add s.first s.len) Blocks.empty).update true true true).nb =
      (indices added).dedup.length := by
  have hsegs : ∀ (b : Blocks), (added.foldl (fun b s => b.add s.first s.len) b).segs =
      b.segs ++ added := by
    induction added with
    | nil => simp
    | cons s l ih => intro b; rw [List.foldl_cons, ih]; simp [Blocks.add]
  simp only [Blocks.update, if_true, hsegs, Blocks.empty, List.nil_append]
  obtain ⟨h1, h2⟩ := C01_normalise added
  rw [cardinal_eq_length]
  apply List.Perm.length_eq
  rw [List.perm_ext_iff_of_nodup h1.disjoint.indices_nodup (List.nodup_dedup _)]
  intro i
  rw [mem_indices, h2, List.mem_dedup, mem_indices]

/-- C02. After any sequence of `addRow` the announced number of rows is the number of rows that a
view visits. -/
theorem C02_add_rows (added : List Seg) :
    (added.foldl (fun b s => b.add s.first s.len) Blocks.empty).nb =
      (indices (added.foldl (fun b s => b.add s.first s.len) Blocks.empty).segs).length := by
  have h : ∀ (b : Blocks), b.nb = (indices b.segs).length →
      (added.foldl (fun b s => b.add s.first s.len) b).nb =
      (indices (added.foldl (fun b s => b.add s.first s.len) b).segs).length := by
    induction added with
    | nil => intro b hb; exact hb
    | cons s l ih =>
      intro b hb
      rw [List.foldl_cons]
      apply ih
      rw [← cardinal_eq_length] at hb ⊢
      simp only [Blocks.add, cardinal, List.foldl_append, List.foldl_cons, List.foldl_nil] at hb ⊢
      rw [hb]
  exact h _ rfl

/-- C02. Without the final update the number of rows counts twice the indices added twice: the
update is needed. -/
theorem C02_count_needs_update :
    ((Blocks.empty.add 0 3).add 1 2).nb = 5 ∧
    (((Blocks.empty.add 0 3).add 1 2).update true true true).nb = 3 := by decide +kernel

/-- C02. The number of indices of disjoint intervals is the length of the list of visited
indices, which is strictly increasing (so no index is visited twice). -/
theorem C02_disjoint_visit (a : Segs) (h : Disjoint' a) :
    cardinal a = (indices a).length ∧ (indices a).Pairwise (· < ·) :=
  ⟨cardinal_eq_length a, h.indices_sorted⟩

example : Disjoint' [⟨0, 3⟩, ⟨3, 2⟩, ⟨7, 1⟩] ∧ indices [⟨0, 3⟩, ⟨3, 2⟩, ⟨7, 1⟩] = [0, 1, 2, 3, 4, 7]
    := by decide

/-! ### C03: difference -/

/-- C03, interval minus interval: exact, for all arguments. -/
theorem C03_difference_seg_seg (a b : Seg) (i : Nat) :
    Covers (diffSegSeg a b) i ↔ a.Has i ∧ ¬ b.Has i := diffSegSeg_covers a b i

/-- C03, intervals minus interval: on sorted disjoint intervals the binary searches never cross (no
undefined behaviour), the result is the exact set difference and is again sorted and disjoint. -/
theorem C03_difference_segs_seg (a : Segs) (b : Seg) (h : Disjoint' a) :
    ∃ r, diffSegsSeg a b = some r ∧ Disjoint' r ∧ ∀ i, Covers r i ↔ Covers a i ∧ ¬ b.Has i := by
  obtain ⟨r, h1, h2, h3, -⟩ := diffSegsSeg_spec a b h
  exact ⟨r, h1, h2, h3⟩

/-- C03, interval minus intervals: exact for all arguments, even unsorted. -/
theorem C03_difference_seg_segs (a : Seg) (b : Segs) :
    ∃ r, diffSegSegs a b = some r ∧ Disjoint' r ∧ ∀ i, Covers r i ↔ a.Has i ∧ ¬ Covers b i := by
  obtain ⟨r, h1, h2, h3, -⟩ := diffSegSegs_spec a b
  exact ⟨r, h1, h2, h3⟩

/-- C03, intervals minus intervals: exact for all arguments, even unsorted; sorted and disjoint
when the first argument is. -/
theorem C03_difference_segs_segs (a b : Segs) :
    ∃ r, diffSegsSegs a b = some r ∧ (∀ i, Covers r i ↔ Covers a i ∧ ¬ Covers b i) ∧
      (Disjoint' a → Disjoint' r) := by
  obtain ⟨r, h1, h2, h3, -⟩ := diffSegsSegs_spec a b
  exact ⟨r, h1, h2, h3⟩

/-- C03. The two binary searches never cross, even on unsorted intervals: the copy loop never runs
out of the vector. -/
theorem C03_no_crossing (a : Segs) (b : Seg) : (diffSegsSeg a b).isSome = true := by
  have key : ∀ fuel first n, upperBoundLoop (compFirstEnd b) a fuel first n ≤
      upperBoundLoop (compEndFirst b) a fuel first n := by
    intro fuel
    induction fuel with
    | zero => intros; simp [upperBoundLoop]
    | succ fuel ih =>
      intro first n
      unfold upperBoundLoop
      split
      · omega
      · split
        · omega
        · rename_i x _
          by_cases h1 : compEndFirst b x = true
          · have h2 : compFirstEnd b x = true := by
              rw [compEndFirst_iff] at h1; rw [compFirstEnd_iff]; omega
            rw [if_pos h1, if_pos h2]; exact ih _ _
          · rw [if_neg h1]
            split
            · have := (upperBoundLoop_le (compFirstEnd b) a fuel first (n / 2)).2
              have := (upperBoundLoop_le (compEndFirst b) a fuel (first + n / 2 + 1)
                (n - n / 2 - 1)).1
              omega
            · exact ih _ _
  unfold diffSegsSeg upperBound
  have := key (a.length - 0) 0 (a.length - 0)
  simp only
  rw [if_neg (by omega)]; rfl

/-- C03. The documented precondition of the (intervals, interval) overload is necessary: on
unsorted intervals, indices to be removed may be kept. -/
theorem C03_unsorted_wrong :
    ∃ r, diffSegsSeg [⟨5, 1⟩, ⟨0, 1⟩, ⟨9, 1⟩] ⟨5, 1⟩ = some r ∧ Covers r 5 :=
  ⟨[⟨5, 1⟩, ⟨0, 1⟩, ⟨9, 1⟩], by decide +kernel, by decide⟩

example : Disjoint' [⟨0, 3⟩, ⟨5, 5⟩] ∧
    diffSegsSeg [⟨0, 3⟩, ⟨5, 5⟩] ⟨2, 5⟩ = some [⟨0, 2⟩, ⟨7, 3⟩] := by decide +kernel

/-! ### C04: union -/

/-- C04. `sum` is the union, returned as increasing separated intervals. -/
theorem C04_sum (a b : Seg) :
    Canonical (sum a b) ∧ ∀ i, Covers (sum a b) i ↔ a.Has i ∨ b.Has i := by
  unfold sum sumOrdered Canonical Seg.stop
  constructor
  · split <;> split <;> simp <;> omega
  · intro i
    split <;> split <;> simp [Seg.Has] <;> omega

/-- C04. Adding an interval gives the union, and keeps sorted lists sorted. -/
theorem C04_add_seg (a : Segs) (b : Seg) :
    (∀ i, Covers (addSeg a b) i ↔ Covers a i ∨ b.Has i) ∧
    (a.Pairwise lexLe → (addSeg a b).Pairwise lexLe) := by
  refine ⟨fun i => ?_, fun h => insertAt_sorted a 0 (by omega) h b (by simp)⟩
  rw [covers_perm (addSeg_perm a b), covers_cons]; tauto

/-- C04. Adding a list of intervals gives the union, and merges sorted lists into a sorted list. -/
theorem C04_add_segs (a b : Segs) :
    (∀ i, Covers (addSegs a b) i ↔ Covers a i ∨ Covers b i) ∧
    (a.Pairwise lexLe → b.Pairwise lexLe → (addSegs a b).Pairwise lexLe) := by
  refine ⟨fun i => ?_, addSegs_sorted a b⟩
  rw [covers_perm (addSegs_perm a b), covers_append]; tauto

/-- C04. `add` keeps every interval with its multiplicity: nothing is merged or dropped. -/
theorem C04_add_segs_multiset (a b : Segs) : (addSegs a b).Perm (b ++ a) := addSegs_perm a b

example : (List.Pairwise lexLe [⟨0, 3⟩, ⟨4, 1⟩]) ∧
    addSegs [⟨0, 3⟩, ⟨4, 1⟩] [⟨0, 2⟩, ⟨3, 5⟩, ⟨9, 1⟩] =
      [⟨0, 2⟩, ⟨0, 3⟩, ⟨3, 5⟩, ⟨4, 1⟩, ⟨9, 1⟩] := by decide +kernel

/-! ### C05: split, extract -/

/-- C05. `split` returns the first `n` indices, in order, and leaves the others, in order. -/
theorem C05_split (l : Segs) (n : Nat) :
    indices (split l n).1 = (indices l).take n ∧ indices (split l n).2 = (indices l).drop n :=
  split_indices l n

/-- C05. `extract` returns exactly the indices of rank `start .. start + n - 1`, in order; it
succeeds whenever the range is within the set and starts before its end. -/
theorem C05_extract (l : Segs) (start n : Nat) (hs : start < cardinal l)
    (hn : start + n ≤ cardinal l) :
    ∃ r, extract? l start n = some r ∧ indices r = ((indices l).drop start).take n :=
  (extract?_spec l start n).1 hs hn

/-- C05. Compiled without assertions, `extract` is right for every range within the set. -/
theorem C05_extract_release (l : Segs) (start n : Nat) (hn : start + n ≤ cardinal l) :
    indices (extract l start n) = ((indices l).drop start).take n := extract_indices l start n hn

/-- C05. The asserted precondition `start + cardinal <= size` is not sufficient: extracting zero
index at the end of a set reaches the final `assert(false)`. -/
theorem C05_extract_empty_at_end_asserts (l : Segs) : extract? l (cardinal l) 0 = none :=
  (extract?_spec l (cardinal l) 0).2 (Or.inl (Nat.le_refl _))

example : extract? [⟨0, 3⟩, ⟨5, 5⟩] 2 3 = some [⟨2, 1⟩, ⟨5, 2⟩] ∧
    split [⟨0, 3⟩, ⟨5, 5⟩] 4 = ([⟨0, 3⟩, ⟨5, 1⟩], [⟨6, 4⟩]) := by decide

/-! ### C06: overlap -/

/-- C06, full statement: `overlap` answers whether two intervals share an index. -/
def C06_full : Prop := ∀ a b : Seg, overlap a b = true ↔ ∃ i, a.Has i ∧ b.Has i

/-- C06 is false of the code: an interval strictly inside the second argument is missed. -/
theorem C06_overlap_refuted : ¬ C06_full := by
  intro h
  have := (h ⟨2, 1⟩ ⟨0, 5⟩).2 ⟨2, by decide, by decide⟩
  exact absurd this (by decide)

/-- C06, what holds: `overlap` never reports a false overlap, and misses exactly the pairs where
the first interval lies strictly inside the second one (both ends). -/
theorem C06_overlap_partial (a b : Seg) :
    overlap a b = true ↔
      (∃ i, a.Has i ∧ b.Has i) ∧ ¬ (b.first < a.first ∧ a.first + a.len < b.first + b.len) := by
  unfold overlap Seg.Has Seg.stop
  constructor
  · intro h
    split at h
    · simp at h
    · split at h
      · simp at h
      · split at h
        · exact ⟨⟨b.first, by omega⟩, by omega⟩
        · split at h
          · exact ⟨⟨b.first + b.len - 1 , by omega⟩, by omega⟩
          · simp at h
  · rintro ⟨⟨i, hi⟩, h⟩
    rw [if_neg (by omega), if_neg (by omega)]
    split
    · rfl
    · split
      · rfl
      · omega

/-- C06. Testing both argument orders would be exact. -/
theorem C06_overlap_symmetrised (a b : Seg) :
    (overlap a b || overlap b a) = true ↔ ∃ i, a.Has i ∧ b.Has i := by
  rw [Bool.or_eq_true, C06_overlap_partial, C06_overlap_partial]
  constructor
  · rintro (h | h)
    · exact h.1
    · obtain ⟨⟨i, h1, h2⟩, -⟩ := h; exact ⟨i, h2, h1⟩
  · rintro ⟨i, h1, h2⟩
    by_cases hc : b.first < a.first ∧ a.first + a.len < b.first + b.len
    · exact Or.inr ⟨⟨i, h2, h1⟩, by omega⟩
    · exact Or.inl ⟨⟨i, h1, h2⟩, hc⟩

example : overlap ⟨0, 5⟩ ⟨4, 3⟩ = true ∧ overlap ⟨2, 1⟩ ⟨0, 5⟩ = false := by decide

/-! ### C08: boolean masks -/

/-- C08. Converting booleans to intervals selects exactly the true positions, as separated
increasing intervals, visited in increasing order. -/
theorem C08_mask_to_intervals (v : List Bool) :
    Canonical (fromLogical v) ∧ (∀ i, Covers (fromLogical v) i ↔ v[i]? = some true) ∧
    indices (fromLogical v) = (List.range v.length).filter (fun i => v[i]? == some true) := by
  refine ⟨shrink_canonical _, fromLogical_covers v, ?_⟩
  have h1 : (indices (fromLogical v)).Pairwise (· < ·) :=
    (shrink_canonical _).disjoint.indices_sorted
  have h2 : ((List.range v.length).filter (fun i => v[i]? == some true)).Pairwise (· < ·) :=
    List.Pairwise.filter _ List.pairwise_lt_range
  refine List.Perm.eq_of_pairwise (le := (· < ·)) ?_ h1 h2 ?_
  · intro a b _ _ hab hba; omega
  · rw [List.perm_ext_iff_of_nodup]
    · intro i
      rw [mem_indices, fromLogical_covers, List.mem_filter, List.mem_range]
      simp only [beq_iff_eq]
      constructor
      · intro h; exact ⟨(List.getElem?_eq_some_iff.1 h).1, h⟩
      · exact fun h => h.2
    · exact (shrink_canonical _).disjoint.indices_nodup
    · exact h2.imp (by intro a b h; omega)

/-- C08. The number of selected indices is the number of `true`. -/
theorem C08_mask_cardinal (v : List Bool) : cardinal (fromLogical v) = v.count true := by
  rw [cardinal_eq_length]
  have hk : ∀ k, cardinal (onesFrom k v) = v.count true := by
    induction v with
    | nil => intro k; rfl
    | cons b v ih => intro k; cases b <;> simp [onesFrom, ih, Nat.add_comm]
  rw [← hk 0, cardinal_eq_length]
  apply List.Perm.length_eq
  rw [List.perm_ext_iff_of_nodup (l₁ := indices (fromLogical v))
    (shrink_canonical _).disjoint.indices_nodup
    (onesFrom_disjoint 0 v).indices_nodup]
  intro i
  rw [mem_indices, mem_indices, fromLogical_covers, onesFrom_covers]; simp

example : fromLogical [true, true, false, true] = [⟨0, 2⟩, ⟨3, 1⟩] := by decide

end Hpp
