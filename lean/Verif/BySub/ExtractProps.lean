import Verif.BySub.Extract

/-!
# Extraction of a solver: C39
-/

namespace Hpp.Extract

variable {F : Type}

theorem copies_length (heap : List (Obj F)) (cons : List Nat) (h : ∀ r ∈ cons, r < heap.length) :
    (copies heap cons).length = cons.length ∧ ∀ k : Nat, (copies heap cons)[k]? = cons[k]?.bind (heap[·]?) := by
  induction cons with
  | nil => simp [copies]
  | cons r cons ih =>
    obtain ⟨h1, h2⟩ := ih fun x hx => h x (by simp [hx])
    have hr : heap[r]? = some (heap[r]'(h r (by simp))) := List.getElem?_eq_getElem _
    unfold copies at *
    rw [List.filterMap_cons, hr]
    refine ⟨by simp [h1], fun k => ?_⟩
    cases k with
    | zero => simp [hr]
    | succ k => simpa using h2 k

theorem replaced_mem {cons : List Nat} {n r : Nat} (h : r ∈ cons) :
    ∃ k, cons[k]? = some r ∧ replaced cons n r = n + k := by
  unfold replaced
  cases hx : cons.idxOf? r with
  | none => rw [List.idxOf?_eq_none_iff] at hx; exact absurd h hx
  | some k =>
    refine ⟨k, ?_, rfl⟩
    rw [List.idxOf?, List.findIdx?_eq_some_iff_getElem] at hx
    obtain ⟨hk, he, -⟩ := hx
    rw [List.getElem?_eq_getElem hk]
    simpa using he

/-- Content of the heap after the copy and the restriction. -/
theorem extracted_heap {heap : List (Obj F)} {s : Slv} (hs : s.Ok heap) (f : F → F) :
    (∀ r, r < heap.length →
      (restrictAt f (copySlv heap s).2.cons (copySlv heap s).1)[r]? = heap[r]?) ∧
    (∀ (k r : Nat), s.cons[k]? = some r →
      (restrictAt f (copySlv heap s).2.cons (copySlv heap s).1)[heap.length + k]? =
        heap[r]?.map (Obj.restrict f)) := by
  obtain ⟨h1, h2⟩ := copies_length heap s.cons hs.valid
  constructor
  · intro r hr
    unfold restrictAt copySlv
    simp only
    rw [List.getElem?_mapIdx, List.getElem?_append_left hr, List.getElem?_eq_getElem hr]
    simp only [Option.map_some, List.mem_map, List.mem_range]
    rw [if_neg]
    rintro ⟨k, -, hk⟩
    omega
  · intro k r hk
    have hkl : k < s.cons.length := by
      by_contra hc
      rw [List.getElem?_eq_none (by omega)] at hk; simp at hk
    have hr : r < heap.length := hs.valid r (List.mem_of_getElem? hk)
    unfold restrictAt copySlv
    simp only
    rw [List.getElem?_mapIdx, List.getElem?_append_right (by omega), Nat.add_sub_cancel_left, h2, hk]
    simp only [Option.bind_some]
    rw [List.getElem?_eq_getElem hr]
    simp only [Option.map_some, List.mem_map, List.mem_range]
    rw [if_pos ⟨k, hkl, rfl⟩]

theorem map_range_cons (cons : List Nat) (g : Nat → Option (Obj F)) (g' : Nat → Option (Obj F)) (n : Nat)
    (h : ∀ k r, cons[k]? = some r → g (n + k) = g' r) :
    ((List.range cons.length).map fun k => n + k).map g = cons.map g' := by
  rw [List.map_map]
  apply List.ext_getElem?
  intro k
  rw [List.getElem?_map, List.getElem?_map]
  by_cases hk : k < cons.length
  · rw [List.getElem?_range hk, List.getElem?_eq_getElem hk]
    simp [h k _ (List.getElem?_eq_getElem hk)]
  · rw [List.getElem?_eq_none (by simp; omega), List.getElem?_eq_none (by omega)]
    rfl

/-- What the extracted solver reads: for each constraint of the original, at the same place, the same constraint with
its right hand side function restricted. -/
def restricted (f : F → F) (v : List (Option (Obj F))) : List (Option (Obj F)) := v.map (Option.map (Obj.restrict f))

theorem extracted_view {heap : List (Obj F)} {s : Slv} (hs : s.Ok heap) (f : F → F) :
    view (restrictAt f (copySlv heap s).2.cons (copySlv heap s).1) (copySlv heap s).2 =
      (restricted f (view heap s).1, restricted f (view heap s).2.1, restricted f (view heap s).2.2) := by
  obtain ⟨-, h2⟩ := extracted_heap hs f
  have hpart : ∀ l : List Nat, (∀ r ∈ l, r ∈ s.cons) →
      (l.map (replaced s.cons heap.length)).map
        ((restrictAt f (copySlv heap s).2.cons (copySlv heap s).1)[·]?) =
      restricted f (l.map (heap[·]?)) := by
    intro l hl
    unfold restricted
    rw [List.map_map, List.map_map]
    apply List.map_congr_left
    intro r hr
    obtain ⟨k, h3, h4⟩ := replaced_mem (n := heap.length) (hl r hr)
    simp only [Function.comp_apply, h4]
    exact h2 k r h3
  unfold view
  refine Prod.ext ?_ (Prod.ext (hpart s.stk hs.stk) (hpart s.expl hs.expl))
  show ((List.range s.cons.length).map fun k => heap.length + k).map _ = restricted f (s.cons.map _)
  unfold restricted
  rw [List.map_map (l := s.cons)]
  exact map_range_cons s.cons _ _ _ h2

theorem view_old {heap heap' : List (Obj F)} {s : Slv} (hs : s.Ok heap)
    (h : ∀ r, r < heap.length → heap'[r]? = heap[r]?) : view heap' s = view heap s := by
  unfold view
  have hp : ∀ l : List Nat, (∀ r ∈ l, r ∈ s.cons) → l.map (heap'[·]?) = l.map (heap[·]?) := fun l hl =>
    List.map_congr_left fun r hr => h r (hs.valid r (hl r hr))
  rw [hp _ hs.stk, hp _ hs.expl, hp s.cons fun _ h => h]

/-- C39 for `HierarchicalIterative`: the extracted solver has the same constraints with restricted right hand side
functions; the original keeps its pointers and reads the same constraints; and no later assignment to the constraints
of the extracted solver changes what the original reads, nor the converse. -/
theorem C39_hierarchical (heap : List (Obj F)) (s : Slv) (hs : s.Ok heap) (f : F → F) :
    let r := hiExtract f heap s
    r.2.1 = s ∧ view r.1 s = view heap s ∧
    view r.1 r.2.2 = (restricted f (view heap s).1, restricted f (view heap s).2.1, restricted f (view heap s).2.2) ∧
    (∀ p ∈ r.2.2.cons ++ r.2.2.stk ++ r.2.2.expl, ∀ o, view (write p o r.1) s = view r.1 s) ∧
    (∀ p ∈ s.cons, ∀ o, view (write p o r.1) r.2.2 = view r.1 r.2.2) := by
  obtain ⟨h1, h2⟩ := extracted_heap hs f
  have hfresh : ∀ p ∈ (copySlv heap s).2.cons ++ (copySlv heap s).2.stk ++ (copySlv heap s).2.expl,
      heap.length ≤ p := by
    intro p hp
    rw [List.mem_append, List.mem_append] at hp
    rcases hp with (hp | hp) | hp
    · obtain ⟨k, -, rfl⟩ := List.mem_map.1 hp; omega
    · obtain ⟨x, hx, rfl⟩ := List.mem_map.1 hp
      obtain ⟨k, -, e⟩ := replaced_mem (n := heap.length) (hs.stk x hx)
      omega
    · obtain ⟨x, hx, rfl⟩ := List.mem_map.1 hp
      obtain ⟨k, -, e⟩ := replaced_mem (n := heap.length) (hs.expl x hx)
      omega
  refine ⟨rfl, view_old hs h1, extracted_view hs f, ?_, ?_⟩
  · intro p hp o
    have hp' := hfresh p hp
    have : ∀ r, r < heap.length → (write p o (hiExtract f heap s).1)[r]? = heap[r]? := by
      intro r hr
      unfold write
      rw [List.getElem?_set_ne (by omega)]
      exact h1 r hr
    rw [view_old hs this]
    exact (view_old hs h1).symm
  · intro p hp o
    have hlt := hs.valid p hp
    unfold view
    have hp : ∀ l : List Nat, (∀ x ∈ l, heap.length ≤ x) →
        l.map ((write p o (hiExtract f heap s).1)[·]?) = l.map ((hiExtract f heap s).1[·]?) := fun l hl =>
      List.map_congr_left fun x hx => by
        have := hl x hx
        unfold write
        exact List.getElem?_set_ne (by omega)
    rw [hp _ fun x hx => hfresh x (by simp only [List.mem_append]; exact .inl (.inl hx)),
      hp _ fun x hx => hfresh x (by simp only [List.mem_append]; exact .inl (.inr hx)),
      hp _ fun x hx => hfresh x (by simp only [List.mem_append]; exact .inr hx)]

/-- C39 for `BySubstitution`, part: the extracted solver has the same constraints, in the same parts, with restricted
right hand side functions; the iterative part of the original is unchanged.  Missing: the explicit part of the
original. -/
theorem C39_by_substitution_partial (heap : List (Obj F)) (s : Slv) (hs : s.Ok heap) (f : F → F) :
    let r := bsExtract f heap s
    r.2.1.cons = s.cons ∧ r.2.1.stk = s.stk ∧
    (view r.1 r.2.1).1 = (view heap s).1 ∧ (view r.1 r.2.1).2.1 = (view heap s).2.1 ∧
    view r.1 r.2.2 =
      (restricted f (view heap s).1, restricted f (view heap s).2.1, restricted f (view heap s).2.2) := by
  have h := view_old (heap' := (bsExtract f heap s).1) hs (extracted_heap hs f).1
  refine ⟨rfl, rfl, ?_, ?_, extracted_view hs f⟩
  · exact congrArg (·.1) h
  · exact congrArg (·.2.1) h

/-- C39 is false for `BySubstitution`: after the call the explicit part of the original consists of the constraints of
the extracted solver: same pointers, with restricted right hand side functions. -/
theorem C39_explicit_moved_refuted (heap : List (Obj F)) (s : Slv) (hs : s.Ok heap) (f : F → F) :
    let r := bsExtract f heap s
    r.2.1.expl = r.2.2.expl ∧ (∀ p ∈ r.2.1.expl, p ∈ r.2.2.cons ∧ p ∉ r.2.1.cons) ∧
    (view r.1 r.2.1).2.2 = restricted f (view heap s).2.2 := by
  refine ⟨rfl, ?_, ?_⟩
  · intro p hp
    obtain ⟨x, hx, rfl⟩ := List.mem_map.1 hp
    obtain ⟨k, hk, e⟩ := replaced_mem (n := heap.length) (hs.expl x hx)
    have hkl : k < s.cons.length := by
      by_contra hc
      rw [List.getElem?_eq_none (by omega)] at hk; simp at hk
    refine ⟨?_, fun hm => ?_⟩
    · rw [e]; exact List.mem_map.2 ⟨k, List.mem_range.2 hkl, rfl⟩
    · have := hs.valid _ hm
      rw [e] at this
      omega
  · exact congrArg (·.2.2) (extracted_view hs f)

/-- C39, consequence: the solver of a second extraction shares its explicit constraints with the first. -/
theorem C39_second_refuted (heap : List (Obj F)) (s : Slv) (hs : s.Ok heap) (f g : F → F) :
    let r := bsExtract f heap s
    let r' := bsExtract g r.1 r.2.1
    r'.2.2.expl = r.2.2.expl ∧ ∀ p ∈ r'.2.2.expl, p ∉ r'.2.2.cons := by
  obtain ⟨-, hm, -⟩ := C39_explicit_moved_refuted heap s hs f
  have hsame : ∀ n, (bsExtract f heap s).2.1.expl.map (replaced (bsExtract f heap s).2.1.cons n) =
      (bsExtract f heap s).2.1.expl := by
    intro n
    conv_rhs => rw [← List.map_id (bsExtract f heap s).2.1.expl]
    apply List.map_congr_left
    intro p hp
    unfold replaced
    rw [List.idxOf?_eq_none_iff.2 (hm p hp).2]
    rfl
  have hl : (bsExtract f heap s).1.length = heap.length + s.cons.length := by
    show (restrictAt f _ _).length = _
    unfold restrictAt
    rw [List.length_mapIdx, List.length_append, (copies_length heap s.cons hs.valid).1]
  refine ⟨hsame _, fun p hp hp' => ?_⟩
  have hp2 : p ∈ (bsExtract f heap s).2.1.expl := by rw [← hsame]; exact hp
  obtain ⟨k, hk, e⟩ := List.mem_map.1 (hm p hp2).1
  obtain ⟨k', -, e'⟩ := List.mem_map.1 hp'
  rw [List.mem_range] at hk
  have : (copySlv heap s).2.cons.length = s.cons.length := by simp [copySlv]
  rw [hl] at e'
  omega

/-- A solver with an implicit and an explicit constraint; the second has a right hand side function, the
identity of the interval `[0, 10]`, given by its bounds. -/
def exHeap : List (Obj (Nat × Nat)) := [⟨0, [0], none⟩, ⟨1, [1], some (0, 10)⟩]
def exSlv : Slv := ⟨[0, 1], [0], [1]⟩

example : exSlv.Ok exHeap := ⟨by decide, by decide, by decide, by decide⟩

/-- After an extraction on `[2, 3]` of the example, a change of the comparison types of the extracted constraint is read
by the explicit part of the original. -/
theorem C39_write_refuted :
    let r := bsExtract (fun _ => (2, 3)) exHeap exSlv
    (view r.1 r.2.1).2.2 = [some ⟨1, [1], some (2, 3)⟩] ∧ r.2.2.cons = [2, 3] ∧
    (view (write 3 ⟨1, [5], some (2, 3)⟩ r.1) r.2.1).2.2 = [some ⟨1, [5], some (2, 3)⟩] :=
  ⟨rfl, rfl, rfl⟩

end Hpp.Extract
