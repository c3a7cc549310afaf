import Verif.ECS.Graph

/-!
# Invariant of `ExplicitConstraintSet`
-/

namespace Hpp

open Relation

variable {α κ : Type}

theorem setConst_length (v : List (Option Nat)) (l : List Nat) (n : Nat) :
    (setConst v l n).length = v.length := by
  unfold setConst
  induction l generalizing v with
  | nil => rfl
  | cons a l ih => simp [ih]

theorem setConst_getElem? (v : List (Option Nat)) (l : List Nat) (n i : Nat) :
    (setConst v l n)[i]? = if i ∈ l ∧ i < v.length then some (some n) else v[i]? := by
  unfold setConst
  induction l generalizing v with
  | nil => simp
  | cons a l ih =>
    simp only [List.foldl_cons, ih, List.length_set, List.getElem?_set, List.mem_cons]
    by_cases h1 : i ∈ l
    · by_cases h2 : i < v.length
      · simp [h1, h2]
      · simp [h1, h2]
        intro h3; subst h3; omega
    · by_cases h2 : a = i
      · subst h2
        by_cases h3 : a < v.length
        · simp [h1, h3]
        · simp [h1, h3]
      · have : i ≠ a := fun h => h2 h.symm
        simp [h1, h2, this]

/-- Invariant on everything but the evaluation order and the sets of inputs. -/
structure Inv (s : ECS α κ) : Prop where
  argLen : s.argFn.length = s.nq
  derLen : s.derFn.length = s.nv
  arg : ∀ i j : Nat, s.argFn[i]? = some (some j) ↔ ∃ c, s.cons[j]? = some c ∧ Writes c i
  wf : ∀ c ∈ s.cons, ∃ o od, c.outQ = [o] ∧ c.outV = [od] ∧ o.first + o.len ≤ s.nq ∧
    od.first + od.len ≤ s.nv
  rangeQ : ∀ c ∈ s.cons, ∀ i, Reads c i → i < s.nq
  comp : ∀ c ∈ s.cons, ∀ t ∈ c.comp, IsEq t
  rank : ∃ rk : Nat → Nat, ∀ i j c c', s.cons[i]? = some c → s.cons[j]? = some c' →
    Depends c c' → rk j < rk i
  outArgsC : Canonical s.outArgs.segs
  outArgs : ∀ i, Covers s.outArgs.segs i ↔ ∃ c ∈ s.cons, Writes c i
  outArgsN : s.outArgs.nb = cardinal s.outArgs.segs
  notOutArgsD : Disjoint' s.notOutArgs.segs
  notOutArgs : ∀ i, Covers s.notOutArgs.segs i ↔ i < s.nq ∧ ¬ ∃ c ∈ s.cons, Writes c i
  notOutArgsN : s.notOutArgs.nb = cardinal s.notOutArgs.segs
  outDersC : Canonical s.outDers.segs
  outDers : ∀ i, Covers s.outDers.segs i ↔ ∃ c ∈ s.cons, WritesV c i
  outDersN : s.outDers.nb = cardinal s.outDers.segs
  notOutDersD : Disjoint' s.notOutDers.segs
  notOutDers : ∀ i, Covers s.notOutDers.segs i ↔ i < s.nv ∧ ¬ ∃ c ∈ s.cons, WritesV c i
  notOutDersN : s.notOutDers.nb = cardinal s.notOutDers.segs
  der : ∀ v j : Nat, s.derFn[v]? = some (some j) ↔ ∃ c, s.cons[j]? = some c ∧ WritesV c v ∧
    ∀ j' c', j < j' → s.cons[j']? = some c' → ¬ WritesV c' v
  eqIdx : ∀ d ∈ s.data, d.eq = equalityIndices d.c.comp
  errSize : s.errorSize = (s.cons.map fun c => c.space.nv).sum
  order : ∃ fuel st, orderAll (s.cons.map fun c => c.inV) s.derFn fuel = .ok st ∧
    s.order = st.order ∧ s.dep = st.dep
  inArgsC : Canonical s.inArgs.segs
  inDersC : Canonical s.inDers.segs
  inArgsN : s.inArgs.nb = cardinal s.inArgs.segs
  inDersN : s.inDers.nb = cardinal s.inDers.segs

theorem cons_map (s : ECS α κ) (f : ECon α κ → Segs) :
    (s.data.map fun d => f d.c) = s.cons.map f := by simp [ECS.cons]

theorem Inv.init (nq nv : Nat) (eps : α) : Inv (ECS.init nq nv eps : ECS α κ) where
  argLen := by simp [ECS.init]
  derLen := by simp [ECS.init]
  arg := by
    intro i j
    simp only [ECS.init, ECS.cons, List.map_nil, List.getElem?_nil, List.getElem?_replicate]
    split <;> simp
  wf := by simp [ECS.init, ECS.cons]
  rangeQ := by simp [ECS.init, ECS.cons]
  comp := by simp [ECS.init, ECS.cons]
  rank := ⟨fun _ => 0, by simp [ECS.init, ECS.cons]⟩
  outArgsC := by simp [ECS.init, Blocks.empty, Canonical]
  outArgs := by simp [ECS.init, ECS.cons, Blocks.empty]
  outArgsN := by simp [ECS.init, Blocks.empty]
  notOutArgsD := by simp [ECS.init, Blocks.empty, Blocks.add, Disjoint']
  notOutArgs := by simp [ECS.init, ECS.cons, Blocks.empty, Blocks.add, Seg.Has]
  notOutArgsN := by simp [ECS.init, Blocks.empty, Blocks.add]
  outDersC := by simp [ECS.init, Blocks.empty, Canonical]
  outDers := by simp [ECS.init, ECS.cons, Blocks.empty]
  outDersN := by simp [ECS.init, Blocks.empty]
  notOutDersD := by simp [ECS.init, Blocks.empty, Blocks.add, Disjoint']
  notOutDers := by simp [ECS.init, ECS.cons, Blocks.empty, Blocks.add, Seg.Has]
  notOutDersN := by simp [ECS.init, Blocks.empty, Blocks.add]
  der := by
    intro i j
    simp only [ECS.init, ECS.cons, List.map_nil, List.getElem?_nil, List.getElem?_replicate]
    split <;> simp
  eqIdx := by simp [ECS.init]
  errSize := by simp [ECS.init, ECS.cons]
  order := ⟨0, _, rfl, rfl, rfl⟩
  inArgsC := by simp [ECS.init, Blocks.empty, Canonical]
  inDersC := by simp [ECS.init, Blocks.empty, Canonical]
  inArgsN := by simp [ECS.init, Blocks.empty]
  inDersN := by simp [ECS.init, Blocks.empty]

/-- Edges of the loop detection are those of the specification. -/
theorem edge_iff (s : ECS α κ) (h : Inv s) (x y : Nat) :
    Edge (s.data.map fun d => d.c.inQ) s.argFn x y ↔ Before s.cons x y := by
  rw [cons_map s (fun c => c.inQ)]
  unfold Edge Before
  constructor
  · rintro ⟨j, l, h1, h2, h3⟩
    obtain ⟨c, hc, hw⟩ := (h.arg x j).1 h1
    rw [List.getElem?_map, hc] at h2
    simp only [Option.map_some, Option.some.injEq] at h2; subst h2
    exact ⟨c, List.mem_of_getElem? hc, hw, (mem_indices _ _).1 h3⟩
  · rintro ⟨c, hc, hw, hr⟩
    obtain ⟨j, hj⟩ := List.mem_iff_getElem?.1 hc
    exact ⟨j, c.inQ, (h.arg x j).2 ⟨c, hj, hw⟩, by rw [List.getElem?_map, hj]; rfl,
      (mem_indices _ _).2 hr⟩

theorem edge_rtg (s : ECS α κ) (h : Inv s) (x y : Nat) :
    ReflTransGen (Edge (s.data.map fun d => d.c.inQ) s.argFn) x y ↔
      ReflTransGen (Before s.cons) x y := by
  have : Edge (s.data.map fun d => d.c.inQ) s.argFn = Before s.cons := by
    funext a b; exact propext (edge_iff s h a b)
  rw [this]

/-- `add` succeeds only through `insert`; what was checked before. -/
theorem add_some {s s' : ECS α κ} {fuel n : Nat} {c : ECon α κ} {junk : List α}
    (h : s.add fuel c junk = .ok (some n, s')) :
    ∃ o od, c.outQ = [o] ∧ c.outV = [od] ∧ (∀ t ∈ c.comp, IsEq t) ∧ o.first + o.len ≤ s.nq ∧
      (∀ i ∈ indices c.outQ, ∀ j, s.argFn[i]? ≠ some (some j)) ∧
      bfs (s.data.map fun d => d.c.inQ) s.argFn o fuel (indices c.inQ) = .ok false ∧
      od.first + od.len ≤ s.nv ∧ s.insert fuel c o od junk = .ok (some n, s') := by
  unfold ECS.add at h
  split at h
  · rename_i o od h1 h2
    split at h
    · simp at h
    · split at h
      · simp at h
      · rename_i hcomp
        split at h
        · simp at h
        · rename_i hrange
          split at h
          · simp at h
          · rename_i hfresh
            split at h
            · simp at h
            · simp at h
            · rename_i hb
              split at h
              · simp at h
              · rename_i hrv
                refine ⟨o, od, h1, h2, ?_, by omega, ?_, hb, by omega, h⟩
                · intro t ht
                  simp only [List.any_eq_true, not_exists, not_and, decide_eq_true_eq] at hcomp
                  have := hcomp t ht
                  unfold IsEq
                  by_contra hne
                  exact this (fun e => hne (.inl e)) (fun e => hne (.inr e))
                · intro i hi j hj
                  simp only [List.any_eq_true, not_exists, not_and] at hfresh
                  have := hfresh i hi
                  rw [hj] at this; simp at this
  · simp at h

theorem add_none {s s' : ECS α κ} {fuel : Nat} {c : ECon α κ} {junk : List α}
    (h : s.add fuel c junk = .ok (none, s')) : s' = s := by
  unfold ECS.add at h
  split at h
  · split at h
    · simp at h
    · split at h
      · simp only [Except.ok.injEq, Prod.mk.injEq, true_and] at h; exact h.symm
      · split at h
        · simp at h
        · split at h
          · simp only [Except.ok.injEq, Prod.mk.injEq, true_and] at h; exact h.symm
          · split at h
            · simp at h
            · simp only [Except.ok.injEq, Prod.mk.injEq, true_and] at h; exact h.symm
            · split at h
              · simp at h
              · exfalso
                unfold ECS.insert at h
                simp only [bind, Except.bind] at h
                repeat' split at h
                all_goals simp at h
  · simp at h

/-- What `insert` computes. -/
theorem insert_eq (s : ECS α κ) (fuel : Nat) (c : ECon α κ) (o od : Seg) (junk : List α) :
    ∃ nq' in' nv' ind',
      diffSegSegs ⟨0, s.nq⟩ ((s.outArgs.add o.first o.len).update true true true).segs = some nq' ∧
      diffSegsSegs (addSegs s.inArgs.segs c.inQ)
        ((s.outArgs.add o.first o.len).update true true true).segs = some in' ∧
      diffSegSegs ⟨0, s.nv⟩ ((s.outDers.add od.first od.len).update true true true).segs = some nv' ∧
      diffSegsSegs (addSegs s.inDers.segs c.inV)
        ((s.outDers.add od.first od.len).update true true true).segs = some ind' ∧
      s.insert fuel c o od junk =
        (orderAll ((s.data ++ [EData.new c junk]).map fun d => d.c.inV)
          (setConst s.derFn (indices c.outV) s.data.length) fuel).bind fun st =>
        .ok (some s.data.length, { s with
          data := s.data ++ [EData.new c junk]
          argFn := setConst s.argFn (indices c.outQ) s.data.length
          derFn := setConst s.derFn (indices c.outV) s.data.length
          outArgs := (s.outArgs.add o.first o.len).update true true true
          notOutArgs := Blocks.ofSegs nq'
          inArgs := (Blocks.ofSegs in').update false true true
          outDers := (s.outDers.add od.first od.len).update true true true
          notOutDers := Blocks.ofSegs nv'
          inDers := (Blocks.ofSegs ind').update false true true
          order := st.order
          dep := st.dep
          errorSize := s.errorSize + c.space.nv }) := by
  obtain ⟨a, ha, -⟩ := diffSegSegs_spec ⟨0, s.nq⟩
    ((s.outArgs.add o.first o.len).update true true true).segs
  obtain ⟨b, hb, -⟩ := diffSegsSegs_spec (addSegs s.inArgs.segs c.inQ)
    ((s.outArgs.add o.first o.len).update true true true).segs
  obtain ⟨d, hd, -⟩ := diffSegSegs_spec ⟨0, s.nv⟩
    ((s.outDers.add od.first od.len).update true true true).segs
  obtain ⟨e, he, -⟩ := diffSegsSegs_spec (addSegs s.inDers.segs c.inV)
    ((s.outDers.add od.first od.len).update true true true).segs
  refine ⟨a, b, d, e, ha, hb, hd, he, ?_⟩
  unfold ECS.insert
  simp only [ha, hb, hd, he, diffOrUb, bind, Except.bind]

theorem update_ttt_covers (b : Blocks) (row size i : Nat) :
    Covers ((b.add row size).update true true true).segs i ↔
      Covers b.segs i ∨ (row ≤ i ∧ i < row + size) := by
  unfold Blocks.update
  simp only [if_true]
  rw [shrink_covers_of_sorted _ (sortedFirst_of_lex (sort_sorted _)), covers_perm (sort_perm _)]
  simp [Blocks.add, Seg.Has]

theorem update_ttt_canonical (b : Blocks) :
    Canonical (b.update true true true).segs := by
  unfold Blocks.update; exact shrink_canonical _

/-- The new constraint keeps the dependency graph acyclic. -/
theorem rank_extend (cs : List (ECon α κ)) (c : ECon α κ)
    (hr : ∃ rk : Nat → Nat, ∀ i j d d', cs[i]? = some d → cs[j]? = some d' →
      Depends d d' → rk j < rk i)
    (hnl : ∀ y, Needs cs c y → ¬ Writes c y) :
    ∃ rk : Nat → Nat, ∀ i j d d', (cs ++ [c])[i]? = some d → (cs ++ [c])[j]? = some d' →
      Depends d d' → rk j < rk i := by
  classical
  obtain ⟨rk, hrk⟩ := hr
  -- constraints needed by the new one
  let D : Nat → Prop := fun i => ∃ d y, cs[i]? = some d ∧ Needs cs c y ∧ Writes d y
  let M := ((List.range cs.length).map rk).sum + 1
  have hM : ∀ i, i < cs.length → rk i < M := by
    intro i hi
    have := le_sum_map rk (List.range cs.length) i (by simpa using hi)
    omega
  have hDstep : ∀ i j d d', cs[i]? = some d → cs[j]? = some d' → D i → Depends d d' → D j := by
    rintro i j d d' hi hj ⟨d0, y, h0, ⟨x, hx, hxy⟩, hw⟩ ⟨z, hz1, hz2⟩
    rw [hi] at h0; simp only [Option.some.injEq] at h0; subst h0
    exact ⟨d', z, hj, ⟨x, hx, hxy.tail ⟨d, List.mem_of_getElem? hi, hw, hz1⟩⟩, hz2⟩
  refine ⟨fun i => if i = cs.length then M else if D i then rk i else rk i + M + 1, ?_⟩
  intro i j d d' hi hj hdep
  have get : ∀ (k : Nat) (e : ECon α κ), (cs ++ [c])[k]? = some e →
      (k = cs.length ∧ e = c) ∨ (k < cs.length ∧ cs[k]? = some e) := by
    intro k e hk
    by_cases hlt : k < cs.length
    · rw [List.getElem?_append_left hlt] at hk; exact .inr ⟨hlt, hk⟩
    · rw [List.getElem?_append_right (by omega)] at hk
      by_cases h0 : k - cs.length = 0
      · rw [h0] at hk; simp at hk; exact .inl ⟨by omega, hk.symm⟩
      · rw [List.getElem?_eq_none (by simp; omega)] at hk; simp at hk
  rcases get i d hi with ⟨hi', hdc⟩ | ⟨hi', hdi⟩ <;> rcases get j d' hj with ⟨hj', hdc'⟩ | ⟨hj', hdj⟩
  · -- the new constraint would read its own output
    exfalso
    subst hdc; subst hdc'
    obtain ⟨z, h1, h2⟩ := hdep
    exact hnl z ⟨z, h1, .refl⟩ h2
  · subst hdc
    obtain ⟨z, h1, h2⟩ := hdep
    have hDj : D j := ⟨d', z, hdj, ⟨z, h1, .refl⟩, h2⟩
    have : j ≠ cs.length := by omega
    simp only [hi', if_true, this, if_false, hDj]
    exact hM j hj'
  · subst hdc'
    have hDi : ¬ D i := by
      rintro ⟨d0, y, h0, ⟨x, hx, hxy⟩, hw⟩
      rw [hdi] at h0; simp only [Option.some.injEq] at h0; subst h0
      obtain ⟨z, h1, h2⟩ := hdep
      exact hnl z ⟨x, hx, hxy.tail ⟨d, List.mem_of_getElem? hdi, hw, h1⟩⟩ h2
    have : i ≠ cs.length := by omega
    simp only [hj', if_true, this, if_false, hDi]
    omega
  · have h1 := hrk i j d d' hdi hdj hdep
    have hni : i ≠ cs.length := by omega
    have hnj : j ≠ cs.length := by omega
    have h2 := hM j hj'
    simp only [hni, hnj, if_false]
    by_cases hDi : D i
    · have hDj := hDstep i j d d' hdi hdj hDi hdep
      simp [hDi, hDj, h1]
    · by_cases hDj : D j
      · simp only [hDi, hDj, if_false, if_true]; omega
      · simp only [hDi, hDj, if_false]; omega

theorem getElem?_append_singleton {β : Type} (l : List β) (a : β) (k : Nat) (e : β) :
    (l ++ [a])[k]? = some e ↔ (k < l.length ∧ l[k]? = some e) ∨ (k = l.length ∧ e = a) := by
  by_cases hlt : k < l.length
  · rw [List.getElem?_append_left hlt]
    constructor
    · intro h; exact .inl ⟨hlt, h⟩
    · rintro (h | h)
      · exact h.2
      · omega
  · rw [List.getElem?_append_right (by omega)]
    by_cases h0 : k - l.length = 0
    · rw [h0]
      constructor
      · intro h; simp at h; exact .inr ⟨by omega, h.symm⟩
      · rintro (h | h)
        · omega
        · simp [h.2]
    · rw [List.getElem?_eq_none (by simp; omega)]
      constructor
      · intro h; simp at h
      · rintro (h | h) <;> omega

/-- What is known once a constraint is accepted. -/
theorem accepted {s s' : ECS α κ} {fuel n : Nat} {c : ECon α κ} {junk : List α} (hI : Inv s)
    (h : s.add fuel c junk = .ok (some n, s')) :
    Compatible s.cons c ∧ (∀ i, Reads c i → i < s.nq) := by
  obtain ⟨o, od, h1, h2, h3, h4, h5, h6, h7, h8⟩ := add_some h
  have hb := bfs_false _ _ _ _ _ h6
  have hneed : ∀ y, Needs s.cons c y → ¬ o.Has y ∧ y < s.nq := by
    rintro y ⟨x, hx, hxy⟩
    have := hb x ((mem_indices _ _).2 hx) y ((edge_rtg s hI x y).2 hxy)
    rw [hI.argLen] at this; exact this
  refine ⟨⟨h3, ?_, ?_⟩, fun i hi => (hneed i ⟨i, hi, .refl⟩).2⟩
  · rintro c' hc' i ⟨hw, hw'⟩
    obtain ⟨j, hj⟩ := List.mem_iff_getElem?.1 hc'
    exact h5 i ((mem_indices _ _).2 hw) j ((hI.arg i j).2 ⟨c', hj, hw'⟩)
  · intro y hy hw
    unfold Writes at hw; rw [h1] at hw
    simp only [covers_cons, covers_nil, or_false] at hw
    exact (hneed y hy).1 hw

theorem add_cons {s s' : ECS α κ} {fuel n : Nat} {c : ECon α κ} {junk : List α}
    (h : s.add fuel c junk = .ok (some n, s')) :
    s'.cons = s.cons ++ [c] ∧ n = s.cons.length ∧ s'.nq = s.nq ∧ s'.nv = s.nv ∧
      s'.data = s.data ++ [EData.new c junk] ∧ s'.threshold = s.threshold := by
  obtain ⟨o, od, h1, h2, h3, h4, h5, h6, h7, h8⟩ := add_some h
  obtain ⟨a, b, d, e, ha, hb, hd, he, heq⟩ := insert_eq s fuel c o od junk
  rw [heq] at h8
  cases hst : orderAll ((s.data ++ [EData.new c junk]).map fun d => d.c.inV)
      (setConst s.derFn (indices c.outV) s.data.length) fuel with
  | error => rw [hst] at h8; simp [Except.bind] at h8
  | ok st =>
    rw [hst] at h8
    simp only [Except.bind, Except.ok.injEq, Prod.mk.injEq, Option.some.injEq] at h8
    obtain ⟨rfl, rfl⟩ := h8
    simp [ECS.cons, EData.new]

theorem Inv.add {s s' : ECS α κ} {fuel n : Nat} {c : ECon α κ} {junk : List α} (hI : Inv s)
    (h : s.add fuel c junk = .ok (some n, s')) : Inv s' := by
  obtain ⟨hcompat, hrangeQ⟩ := accepted hI h
  obtain ⟨o, od, h1, h2, h3, h4, h5, h6, h7, h8⟩ := add_some h
  obtain ⟨a, b, d, e, ha, hb, hd, he, heq⟩ := insert_eq s fuel c o od junk
  rw [heq] at h8
  cases hst : orderAll ((s.data ++ [EData.new c junk]).map fun d => d.c.inV)
      (setConst s.derFn (indices c.outV) s.data.length) fuel with
  | error => rw [hst] at h8; simp [Except.bind] at h8
  | ok st =>
    rw [hst] at h8
    simp only [Except.bind, Except.ok.injEq, Prod.mk.injEq, Option.some.injEq] at h8
    obtain ⟨rfl, rfl⟩ := h8
    have hlen : s.data.length = s.cons.length := by simp [ECS.cons]
    have hcons : ∀ (t : ECS α κ), t.data = s.data ++ [EData.new c junk] →
        t.cons = s.cons ++ [c] := by intro t ht; simp [ECS.cons, ht, EData.new]
    have hwc : ∀ i, Writes c i ↔ o.first ≤ i ∧ i < o.first + o.len := by
      intro i; unfold Writes; rw [h1]; simp [Seg.Has]
    have hwcv : ∀ i, WritesV c i ↔ od.first ≤ i ∧ i < od.first + od.len := by
      intro i; unfold WritesV; rw [h2]; simp [Seg.Has]
    obtain ⟨_, hx, haD, haC, -⟩ := diffSegSegs_spec ⟨0, s.nq⟩
      ((s.outArgs.add o.first o.len).update true true true).segs
    rw [ha] at hx; simp only [Option.some.injEq] at hx; subst hx
    obtain ⟨_, hx, hdD, hdC, -⟩ := diffSegSegs_spec ⟨0, s.nv⟩
      ((s.outDers.add od.first od.len).update true true true).segs
    rw [hd] at hx; simp only [Option.some.injEq] at hx; subst hx
    constructor
    case argLen => simp [setConst_length, hI.argLen]
    case derLen => simp [setConst_length, hI.derLen]
    case arg =>
      intro i j
      rw [hcons _ rfl]
      simp only [setConst_getElem?, mem_indices, getElem?_append_singleton]
      have harg := hI.arg i j
      by_cases hw : Covers c.outQ i
      · have hi : i < s.argFn.length := by
          rw [hI.argLen]; have := (hwc i).1 hw; omega
        simp only [hw, hi, and_self, if_true, Option.some.injEq]
        constructor
        · rintro rfl; exact ⟨c, .inr ⟨hlen, rfl⟩, hw⟩
        · rintro ⟨c', (⟨-, hc'⟩ | ⟨hj, -⟩), hw'⟩
          · exfalso
            exact hcompat.fresh c' (List.mem_of_getElem? hc') i ⟨hw, hw'⟩
          · omega
      · simp only [hw, false_and, if_false]
        rw [harg]
        constructor
        · rintro ⟨c', hc', hw'⟩
          refine ⟨c', .inl ⟨?_, hc'⟩, hw'⟩
          by_contra hlt; rw [List.getElem?_eq_none (by omega)] at hc'; simp at hc'
        · rintro ⟨c', (⟨-, hc'⟩ | ⟨-, rfl⟩), hw'⟩
          · exact ⟨c', hc', hw'⟩
          · exact absurd hw' hw
    case wf =>
      rw [hcons _ rfl]
      intro c' hc'
      rcases List.mem_append.1 hc' with hc' | hc'
      · exact hI.wf c' hc'
      · simp only [List.mem_singleton] at hc'; subst hc'
        exact ⟨o, od, h1, h2, h4, h7⟩
    case rangeQ =>
      rw [hcons _ rfl]
      intro c' hc'
      rcases List.mem_append.1 hc' with hc' | hc'
      · exact hI.rangeQ c' hc'
      · simp only [List.mem_singleton] at hc'; subst hc'; exact hrangeQ
    case comp =>
      rw [hcons _ rfl]
      intro c' hc'
      rcases List.mem_append.1 hc' with hc' | hc'
      · exact hI.comp c' hc'
      · simp only [List.mem_singleton] at hc'; subst hc'; exact h3
    case rank =>
      rw [hcons _ rfl]
      exact rank_extend s.cons c hI.rank hcompat.noLoop
    case outArgsC => exact update_ttt_canonical _
    case outArgs =>
      rw [hcons _ rfl]
      intro i
      simp only [update_ttt_covers, hI.outArgs, List.mem_append, List.mem_singleton]
      constructor
      · rintro (⟨c', hc', hw⟩ | h)
        · exact ⟨c', .inl hc', hw⟩
        · exact ⟨c, .inr rfl, (hwc i).2 h⟩
      · rintro ⟨c', (hc' | rfl), hw⟩
        · exact .inl ⟨c', hc', hw⟩
        · exact .inr ((hwc i).1 hw)
    case outArgsN => rfl
    case notOutArgsD => exact haD
    case notOutArgs =>
      rw [hcons _ rfl]
      intro i
      simp only [Blocks.ofSegs, haC, update_ttt_covers, hI.outArgs, List.mem_append,
        List.mem_singleton, Seg.Has, Nat.zero_le, true_and, Nat.zero_add]
      constructor
      · rintro ⟨hi, hn⟩
        refine ⟨hi, ?_⟩
        rintro ⟨c', (hc' | rfl), hw⟩
        · exact hn (.inl ⟨c', hc', hw⟩)
        · exact hn (.inr ((hwc i).1 hw))
      · rintro ⟨hi, hn⟩
        refine ⟨hi, ?_⟩
        rintro (⟨c', hc', hw⟩ | h)
        · exact hn ⟨c', .inl hc', hw⟩
        · exact hn ⟨c, .inr rfl, (hwc i).2 h⟩
    case notOutArgsN => rfl
    case outDersC => exact update_ttt_canonical _
    case outDers =>
      rw [hcons _ rfl]
      intro i
      simp only [update_ttt_covers, hI.outDers, List.mem_append, List.mem_singleton]
      constructor
      · rintro (⟨c', hc', hw⟩ | h)
        · exact ⟨c', .inl hc', hw⟩
        · exact ⟨c, .inr rfl, (hwcv i).2 h⟩
      · rintro ⟨c', (hc' | rfl), hw⟩
        · exact .inl ⟨c', hc', hw⟩
        · exact .inr ((hwcv i).1 hw)
    case outDersN => rfl
    case notOutDersD => exact hdD
    case notOutDers =>
      rw [hcons _ rfl]
      intro i
      simp only [Blocks.ofSegs, hdC, update_ttt_covers, hI.outDers, List.mem_append,
        List.mem_singleton, Seg.Has, Nat.zero_le, true_and, Nat.zero_add]
      constructor
      · rintro ⟨hi, hn⟩
        refine ⟨hi, ?_⟩
        rintro ⟨c', (hc' | rfl), hw⟩
        · exact hn (.inl ⟨c', hc', hw⟩)
        · exact hn (.inr ((hwcv i).1 hw))
      · rintro ⟨hi, hn⟩
        refine ⟨hi, ?_⟩
        rintro (⟨c', hc', hw⟩ | h)
        · exact hn ⟨c', .inl hc', hw⟩
        · exact hn ⟨c, .inr rfl, (hwcv i).2 h⟩
    case notOutDersN => rfl
    case der =>
      intro v j
      rw [hcons _ rfl]
      simp only [setConst_getElem?, mem_indices, getElem?_append_singleton]
      have hder := hI.der v j
      by_cases hw : Covers c.outV v
      · have hi : v < s.derFn.length := by
          rw [hI.derLen]; have := (hwcv v).1 hw; omega
        simp only [hw, hi, and_self, if_true, Option.some.injEq]
        constructor
        · rintro rfl
          refine ⟨c, .inr ⟨hlen, rfl⟩, hw, ?_⟩
          rintro j' c' hj' (⟨hlt, -⟩ | ⟨he, -⟩) <;> omega
        · rintro ⟨c', (⟨hlt, hc'⟩ | ⟨hj, -⟩), hw', hlast⟩
          · exfalso
            exact hlast s.cons.length c hlt (.inr ⟨rfl, rfl⟩) hw
          · omega
      · simp only [hw, false_and, if_false]
        rw [hder]
        constructor
        · rintro ⟨c', hc', hw', hlast⟩
          refine ⟨c', .inl ⟨?_, hc'⟩, hw', ?_⟩
          · by_contra hlt; rw [List.getElem?_eq_none (by omega)] at hc'; simp at hc'
          · rintro j' c'' hj' (⟨-, hc''⟩ | ⟨-, rfl⟩)
            · exact hlast j' c'' hj' hc''
            · exact hw
        · rintro ⟨c', (⟨-, hc'⟩ | ⟨-, rfl⟩), hw', hlast⟩
          · refine ⟨c', hc', hw', fun j' c'' hj' hc'' => hlast j' c'' hj' (.inl ⟨?_, hc''⟩)⟩
            by_contra hlt; rw [List.getElem?_eq_none (by omega)] at hc''; simp at hc''
          · exact absurd hw' hw
    case eqIdx =>
      intro d' hd'
      simp only [List.mem_append, List.mem_singleton] at hd'
      rcases hd' with hd' | rfl
      · exact hI.eqIdx d' hd'
      · rfl
    case errSize =>
      rw [hcons _ rfl]
      simp [hI.errSize]
    case order =>
      refine ⟨fuel, st, ?_, rfl, rfl⟩
      rw [hcons _ rfl, ← hst]
      simp [ECS.cons, EData.new, Function.comp_def]
    case inArgsC => exact shrink_canonical _
    case inDersC => exact shrink_canonical _
    case inArgsN => rfl
    case inDersN => rfl

/-- Operations on right hand sides do not change the constraints. -/
theorem Inv.of_same {s s' : ECS α κ} (hI : Inv s) (hdata : s'.cons = s.cons)
    (heq : ∀ d ∈ s'.data, d.eq = equalityIndices d.c.comp)
    (hrest : s' = { s with data := s'.data, threshold := s'.threshold }) : Inv s' := by
  obtain ⟨nq, nv, data, argFn, derFn, inA, nA, oA, inD, nD, oD, ord, dep, es, th⟩ := s
  obtain ⟨nq', nv', data', argFn', derFn', inA', nA', oA', inD', nD', oD', ord', dep', es', th'⟩ := s'
  simp only [ECS.mk.injEq] at hrest
  obtain ⟨rfl, rfl, -, rfl, rfl, rfl, rfl, rfl, rfl, rfl, rfl, rfl, rfl, rfl, -⟩ := hrest
  constructor
  case eqIdx => exact heq
  all_goals first
    | exact hI.argLen
    | exact hI.derLen
    | exact hI.outArgsC
    | exact hI.outArgsN
    | exact hI.notOutArgsD
    | exact hI.notOutArgsN
    | exact hI.outDersC
    | exact hI.outDersN
    | exact hI.notOutDersD
    | exact hI.notOutDersN
    | exact hI.inArgsC
    | exact hI.inDersC
    | exact hI.inArgsN
    | exact hI.inDersN
    | (rw [hdata]; exact hI.wf)
    | (rw [hdata]; exact hI.arg)
    | (rw [hdata]; exact hI.rangeQ)
    | (rw [hdata]; exact hI.comp)
    | (rw [hdata]; exact hI.rank)
    | (rw [hdata]; exact hI.outArgs)
    | (rw [hdata]; exact hI.notOutArgs)
    | (rw [hdata]; exact hI.outDers)
    | (rw [hdata]; exact hI.notOutDers)
    | (rw [hdata]; exact hI.der)
    | (rw [hdata]; exact hI.errSize)
    | (rw [hdata]; exact hI.order)

theorem updateFirst_map {β γ : Type} (p : β → Bool) (f : β → β) (g : β → γ)
    (h : ∀ x, g (f x) = g x) (l : List β) : (updateFirst p f l).1.map g = l.map g := by
  induction l with
  | nil => rfl
  | cons x l ih =>
    unfold updateFirst
    split
    · simp [h]
    · simp [ih]

theorem mem_updateFirst {β : Type} {p : β → Bool} {f : β → β} {l : List β} {y : β}
    (h : y ∈ (updateFirst p f l).1) : y ∈ l ∨ ∃ x ∈ l, y = f x := by
  induction l with
  | nil => simp [updateFirst] at h
  | cons x l ih =>
    unfold updateFirst at h
    split at h
    · rcases List.mem_cons.1 h with rfl | h
      · exact .inr ⟨x, by simp, rfl⟩
      · exact .inl (by simp [h])
    · simp only [List.mem_cons] at h
      rcases h with rfl | h
      · exact .inl (by simp)
      · rcases ih h with h | ⟨z, hz, e⟩
        · exact .inl (by simp [h])
        · exact .inr ⟨z, by simp [hz], e⟩

theorem setRhsLoop_map {γ : Type} [Zero α] (g : EData α κ → γ)
    (hg : ∀ d v, g (EData.setRhs d v) = g d) (l : List (EData α κ)) (v : List α) :
    (setRhsLoop l v).map g = l.map g := by
  induction l generalizing v with
  | nil => rfl
  | cons d l ih => simp [setRhsLoop, hg, ih]

theorem Inv.built [Zero α] [DecidableEq κ] {nq nv : Nat} {s : ECS α κ} (h : ECS.Built nq nv s) :
    Inv s ∧ s.nq = nq ∧ s.nv = nv := by
  have eqOf : ∀ (l l' : List (EData α κ)), (∀ d ∈ l, d.eq = equalityIndices d.c.comp) →
      (l'.map fun d => (d.c, d.eq)) = (l.map fun d => (d.c, d.eq)) →
      ∀ d ∈ l', d.eq = equalityIndices d.c.comp := by
    intro l l' hl e d hd
    have : (d.c, d.eq) ∈ l.map fun d => (d.c, d.eq) := by
      rw [← e]; exact List.mem_map.2 ⟨d, hd, rfl⟩
    obtain ⟨d', hd', e'⟩ := List.mem_map.1 this
    simp only [Prod.mk.injEq] at e'
    rw [← e'.1, ← e'.2]; exact hl d' hd'
  have consOf : ∀ (l l' : List (EData α κ)), (l'.map fun d => (d.c, d.eq)) =
      (l.map fun d => (d.c, d.eq)) → (l'.map fun d => d.c) = l.map fun d => d.c := by
    intro l l' e
    have := congrArg (List.map Prod.fst) e
    simpa [List.map_map, Function.comp_def] using this
  induction h with
  | init eps => exact ⟨Inv.init _ _ eps, rfl, rfl⟩
  | add s fuel c junk r s' _ hadd ih =>
    cases r with
    | none => rw [add_none hadd]; exact ih
    | some n =>
      have := add_cons hadd
      exact ⟨ih.1.add hadd, by rw [this.2.2.1]; exact ih.2.1, by rw [this.2.2.2.1]; exact ih.2.2⟩
  | rhsFromInput s q _ ih =>
    have e : (s.data.map fun d => d.rhsFromInput q).map (fun d => (d.c, d.eq)) =
        s.data.map fun d => (d.c, d.eq) := by simp [List.map_map, Function.comp_def, EData.rhsFromInput]
    exact ⟨ih.1.of_same (consOf _ _ e) (eqOf _ _ ih.1.eqIdx e) rfl, ih.2⟩
  | rhsFromInputOf s c q _ ih =>
    have e := updateFirst_map (fun d : EData α κ => decide (d.c.key = c.key))
      (fun d => d.rhsFromInput q) (fun d => (d.c, d.eq)) (fun _ => rfl) s.data
    exact ⟨ih.1.of_same (consOf _ _ e) (eqOf _ _ ih.1.eqIdx e) rfl, ih.2⟩
  | setRhsOf s c v _ ih =>
    have e := updateFirst_map (fun d : EData α κ => decide (d.c.key = c.key))
      (fun d => d.setRhs v) (fun d => (d.c, d.eq)) (fun _ => rfl) s.data
    exact ⟨ih.1.of_same (consOf _ _ e) (eqOf _ _ ih.1.eqIdx e) rfl, ih.2⟩
  | setRhs s v s' _ hs ih =>
    unfold ECS.setRhs at hs
    split at hs
    · simp only [Option.some.injEq] at hs; subst hs
      have e := setRhsLoop_map (fun d : EData α κ => (d.c, d.eq)) (fun _ _ => rfl) s.data v
      exact ⟨ih.1.of_same (consOf _ _ e) (eqOf _ _ ih.1.eqIdx e) rfl, ih.2⟩
    · simp at hs
  | threshold s t _ ih =>
    exact ⟨ih.1.of_same rfl ih.1.eqIdx rfl, ih.2⟩

end Hpp
