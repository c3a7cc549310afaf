import Verif.Solve.SatArchive

/-!
# Saturation objects: C109
-/

namespace Hpp

variable {α : Type}

/-- Specification: all indices used by `saturate` are within the vectors. -/
structure SatBounds.Fits (b : SatBounds α) (q qSat : List α) (sat : List Int) : Prop where
  lb : q.length ≤ b.lb.length
  ub : q.length ≤ b.ub.length
  out : q.length ≤ qSat.length
  iv : ∀ i : Nat, i < q.length → ∃ j, b.iq2iv[i]? = some j ∧ j < sat.length

/-- A list holds the values of a function. -/
def Holds {β : Type} (l : List β) (n : Nat) (f : Nat → β) : Prop := l.length = n ∧ ∀ i : Nat, i < n → l[i]? = some (f i)

theorem Holds.set {β : Type} {l : List β} {n : Nat} {f : Nat → β} (h : Holds l n f) (i : Nat) (x : β) :
    Holds (l.set i x) n (Function.update f i x) := by
  refine ⟨by rw [List.length_set, h.1], fun k hk => ?_⟩
  rw [List.getElem?_set]
  by_cases hik : i = k
  · subst hik
    rw [if_pos rfl, if_pos (h.1 ▸ hk)]
    simp
  · rw [if_neg hik, Function.update_of_ne (Ne.symm hik)]
    exact h.2 k hk

variable [LinearOrder α]

theorem SatBounds.loop_spec (b : SatBounds α) (q : List α) (lb ub qf : Nat → α) (iv : Nat → Nat)
    {nq nv : Nat} (is : List Nat) : ∀ (m : SatMem α) (s : SatState α),
    (∀ i ∈ is, b.lb[i]? = some (lb i) ∧ b.ub[i]? = some (ub i) ∧ q[i]? = some (qf i) ∧ b.iq2iv[i]? = some (iv i) ∧
      i < nq ∧ iv i < nv) →
    Holds m.qSat nq s.qSat → Holds m.sat nv s.sat → m.ret = s.ret →
    ∃ m', b.loop q is m = some m' ∧
      Holds m'.qSat nq ((is.map fun i => (⟨i, iv i, lb i, ub i⟩ : SatEntry α)).foldl (satStep qf) s).qSat ∧
      Holds m'.sat nv ((is.map fun i => (⟨i, iv i, lb i, ub i⟩ : SatEntry α)).foldl (satStep qf) s).sat ∧
      m'.ret = ((is.map fun i => (⟨i, iv i, lb i, ub i⟩ : SatEntry α)).foldl (satStep qf) s).ret := by
  induction is with
  | nil => intro m s _ h1 h2 h3; exact ⟨m, rfl, h1, h2, h3⟩
  | cons i is ih =>
    intro m s h h1 h2 h3
    obtain ⟨g1, g2, g3, g4, g5, g6⟩ := h i (by simp)
    have hstep : b.step q m i = some ⟨m.qSat.set i (clamp (lb i) (ub i) (qf i)).1,
        m.sat.set (iv i) (clamp (lb i) (ub i) (qf i)).2.1, m.ret || (clamp (lb i) (ub i) (qf i)).2.2⟩ := by
      unfold SatBounds.step
      rw [g1, g2, g3, g4]
      simp only
      rw [if_pos ⟨h1.1 ▸ g5, h2.1 ▸ g6⟩]
    unfold SatBounds.loop
    rw [hstep]
    simp only [Option.bind_some, List.map_cons, List.foldl_cons]
    refine ih _ _ (fun k hk => h k (by simp [hk])) ?_ ?_ ?_
    · exact h1.set _ _
    · exact h2.set _ _
    · simp only [satStep, h3]

/-- C109. When the vectors are large enough `Bounds::saturate` computes what C31 is about: the calls of `clamp` listed by
`boundsEntries`, and reads and writes nothing out of the vectors. -/
theorem C109_bounds (b : SatBounds α) (q qSat : List α) (sat : List Int) (h : b.Fits q qSat sat)
    (lb ub qf qs : Nat → α) (iv : Nat → Nat) (sf : Nat → Int)
    (hlb : ∀ i : Nat, i < q.length → b.lb[i]? = some (lb i)) (hub : ∀ i : Nat, i < q.length → b.ub[i]? = some (ub i))
    (hq : ∀ i : Nat, i < q.length → q[i]? = some (qf i)) (hiv : ∀ i : Nat, i < q.length → b.iq2iv[i]? = some (iv i))
    (hqs : ∀ i : Nat, i < qSat.length → qSat[i]? = some (qs i)) (hsf : ∀ i : Nat, i < sat.length → sat[i]? = some (sf i)) :
    ∃ m, b.saturate q qSat sat = some m ∧ m.qSat.length = qSat.length ∧ m.sat.length = sat.length ∧
      (∀ i : Nat, i < qSat.length →
        m.qSat[i]? = some ((clampLoop qf (boundsEntries q.length lb ub iv) qs sf).qSat i)) ∧
      (∀ i : Nat, i < sat.length → m.sat[i]? = some ((clampLoop qf (boundsEntries q.length lb ub iv) qs sf).sat i)) ∧
      m.ret = (clampLoop qf (boundsEntries q.length lb ub iv) qs sf).ret := by
  obtain ⟨m, h1, h2, h3, h4⟩ := b.loop_spec q lb ub qf iv (nq := qSat.length) (nv := sat.length) (List.range q.length)
    ⟨qSat, sat, false⟩ ⟨qs, sf, false⟩ (fun i hi => by
      have hi := List.mem_range.1 hi
      obtain ⟨j, hj1, hj2⟩ := h.iv i hi
      have : iv i = j := by simpa [hj1] using (hiv i hi).symm
      exact ⟨hlb i hi, hub i hi, hq i hi, hiv i hi, hi.trans_le h.out, this ▸ hj2⟩) ⟨rfl, hqs⟩ ⟨rfl, hsf⟩ rfl
  exact ⟨m, h1, h2.1, h3.1, h2.2, h3.2, h4⟩

theorem SatBounds.step_length {b : SatBounds α} {q : List α} {m m' : SatMem α} {i : Nat} (h : b.step q m i = some m') :
    m'.qSat.length = m.qSat.length ∧ m'.sat.length = m.sat.length ∧ i < b.lb.length ∧ i < b.ub.length ∧
      i < m.qSat.length ∧ ∃ j, b.iq2iv[i]? = some j ∧ j < m.sat.length := by
  unfold SatBounds.step at h
  split at h
  · rename_i l u v j h1 h2 h3 h4
    split at h
    · rename_i hc
      obtain rfl := Option.some.inj h
      refine ⟨by simp, by simp, ?_, ?_, hc.1, j, h4, hc.2⟩
      · exact (List.getElem?_eq_some_iff.1 h1).1
      · exact (List.getElem?_eq_some_iff.1 h2).1
    · simp at h
  · simp at h

theorem SatBounds.loop_fits {b : SatBounds α} {q : List α} (is : List Nat) : ∀ {m m' : SatMem α},
    b.loop q is m = some m' → ∀ i ∈ is, i < b.lb.length ∧ i < b.ub.length ∧ i < m.qSat.length ∧
      ∃ j, b.iq2iv[i]? = some j ∧ j < m.sat.length := by
  induction is with
  | nil => intro m m' _ i hi; simp at hi
  | cons k is ih =>
    intro m m' h i hi
    unfold SatBounds.loop at h
    cases hs : b.step q m k with
    | none => rw [hs] at h; simp at h
    | some m1 =>
      rw [hs] at h
      obtain ⟨g1, g2, g3, g4, g5, g6⟩ := SatBounds.step_length hs
      rcases List.mem_cons.1 hi with rfl | hi
      · exact ⟨g3, g4, g5, g6⟩
      · have := ih h i hi
        rw [g1, g2] at this
        exact this

/-- C109. `Bounds::saturate` is defined exactly if the vectors are large enough. -/
theorem C109_defined (b : SatBounds α) (q qSat : List α) (sat : List Int) :
    (∃ m, b.saturate q qSat sat = some m) ↔ b.Fits q qSat sat := by
  constructor
  · rintro ⟨m, hm⟩
    have h := SatBounds.loop_fits _ hm
    have hlt : ∀ n : Nat, (∀ i ∈ List.range q.length, i < n) → q.length ≤ n := by
      intro n hn
      by_contra hc
      exact absurd (hn n (List.mem_range.2 (by omega))) (lt_irrefl _)
    exact ⟨hlt _ fun i hi => (h i hi).1, hlt _ fun i hi => (h i hi).2.1, hlt _ fun i hi => (h i hi).2.2.1,
      fun i hi => (h i (List.mem_range.2 hi)).2.2.2⟩
  · intro h
    by_cases hq : q = []
    · subst hq
      exact ⟨_, rfl⟩
    · have hpos : 0 < q.length := List.length_pos_iff.2 hq
      let a : α := q[0]'hpos
      obtain ⟨m, hm, -⟩ := C109_bounds b q qSat sat h (fun i => b.lb[i]?.getD a) (fun i => b.ub[i]?.getD a)
        (fun i => q[i]?.getD a) (fun i => qSat[i]?.getD a) (fun i => b.iq2iv[i]?.getD 0) (fun i => sat[i]?.getD 0)
        (fun i hi => by rw [List.getElem?_eq_getElem (hi.trans_le h.lb)]; rfl)
        (fun i hi => by rw [List.getElem?_eq_getElem (hi.trans_le h.ub)]; rfl)
        (fun i hi => by rw [List.getElem?_eq_getElem hi]; rfl)
        (fun i hi => by obtain ⟨j, hj, -⟩ := h.iv i hi; rw [hj]; rfl)
        (fun i hi => by rw [List.getElem?_eq_getElem hi]; rfl)
        (fun i hi => by rw [List.getElem?_eq_getElem hi]; rfl)
      exact ⟨m, hm⟩

/-- C109. The constructor without indices is right if configurations and velocities have the same size. -/
theorem C109_default_partial (lb ub q qSat : List α) (sat : List Int) (h1 : q.length ≤ lb.length)
    (h2 : q.length ≤ ub.length) (h3 : q.length ≤ qSat.length) (h4 : q.length ≤ sat.length) :
    ∃ m, (SatBounds.mk2 lb ub).saturate q qSat sat = some m := by
  rw [C109_defined]
  refine ⟨h1, h2, h3, fun i hi => ⟨i, ?_, hi.trans_le h4⟩⟩
  show (List.range ub.length)[i]? = some i
  rw [List.getElem?_range (hi.trans_le h2)]

/-- C109 fails if configurations are larger than velocities, as soon as there is a quaternion or an unbounded rotation:
`saturation_` has the size of velocities (hierarchical-iterative.cc:200) and the constructor without indices makes
`saturate` write after its end, for all bounds. -/
theorem C109_default_refuted (lb ub q qSat : List α) (sat : List Int) (h : sat.length < q.length) :
    (SatBounds.mk2 lb ub).saturate q qSat sat = none := by
  by_contra hc
  obtain ⟨m, hm⟩ := Option.ne_none_iff_exists'.1 hc
  have hf := (C109_defined _ _ _ _).1 ⟨m, hm⟩
  obtain ⟨j, hj, hlt⟩ := hf.iv sat.length h
  have hub : q.length ≤ ub.length := hf.ub
  change (List.range ub.length)[sat.length]? = some j at hj
  rw [List.getElem?_range (h.trans_le hub)] at hj
  obtain rfl := Option.some.inj hj
  exact lt_irrefl _ hlt

theorem layout_mem (l : List (Nat × Nat)) : ∀ (iq iv : Nat) (j : JointLayout), j ∈ layout l iq iv → (j.nq, j.nv) ∈ l := by
  induction l with
  | nil => intro iq iv j hj; simp [layout] at hj
  | cons x l ih =>
    intro iq iv j hj
    obtain ⟨nq, nv⟩ := x
    simp only [layout, List.mem_cons] at hj
    rcases hj with rfl | hj
    · simp
    · exact List.mem_cons_of_mem _ (ih _ _ j hj)

theorem layout_cover_iv (l : List (Nat × Nat)) : ∀ (iq iv i : Nat), iv ≤ i → i < iv + (l.map (·.2)).sum →
    ∃ j ∈ layout l iq iv, j.idxV ≤ i ∧ i < j.idxV + j.nv := by
  induction l with
  | nil => intro iq iv i h1 h2; simp at h2; omega
  | cons x l ih =>
    intro iq iv i h1 h2
    obtain ⟨nq, nv⟩ := x
    simp only [List.map_cons, List.sum_cons] at h2
    by_cases h : i < iv + nv
    · exact ⟨⟨nq, nv, iq, iv⟩, by simp [layout], h1, h⟩
    · obtain ⟨j, hj, g⟩ := ih (iq + nq) (iv + nv) i (by omega) (by omega)
      exact ⟨j, by simp [layout, hj], g⟩

omit [LinearOrder α] in
/-- C109 for `Device`: whatever the joints, if their velocities are not larger than their configurations and not empty when the
configurations are not, all the indices are those of coordinates and of variables of the robot, and the flags of all
the variables are written. -/
theorem C109_device (joints : List (Nat × Nat)) (h : ∀ x ∈ joints, x.2 ≤ x.1 ∧ (0 < x.1 → 0 < x.2)) (d : Nat)
    (lower upper exLower exUpper : Nat → α) :
    let entries := deviceEntries (layout joints 0 0) lower upper (modelNq joints) (modelNv joints) d exLower exUpper
    (∀ e ∈ entries, e.iq < modelNq joints + d ∧ e.iv < modelNv joints + d) ∧
    ∀ i, i < modelNv joints + d → ∃ e ∈ entries, e.iv = i := by
  intro entries
  have hmem := device_mem joints d lower upper exLower exUpper
  constructor
  · intro e he
    rcases (hmem e).1 he with ⟨j, hj, k, hk, rfl⟩ | ⟨k, hk, rfl⟩
    · have hb := layout_bounds joints 0 0 j hj
      have hx := (h _ (layout_mem joints 0 0 j hj)).2
      simp only at hx
      have h0 := hx (by omega)
      unfold modelNq modelNv
      simp only
      omega
    · simp only
      omega
  · intro i hi
    by_cases hi' : i < modelNv joints
    · obtain ⟨j, hj, g1, g2⟩ := layout_cover_iv joints 0 0 i (by omega) (by unfold modelNv at hi'; omega)
      have hx := (h _ (layout_mem joints 0 0 j hj)).1
      simp only at hx
      refine ⟨_, (hmem _).2 (Or.inl ⟨j, hj, i - j.idxV, by omega, rfl⟩), ?_⟩
      simp only
      omega
    · exact ⟨_, (hmem _).2 (Or.inr ⟨i - modelNv joints, by omega, rfl⟩), by simp only; omega⟩

/-! ## Serialization -/

/-- C109. What is loaded: objects without saturation and objects that use the bounds of a robot are restored; for
`Bounds` the bounds are; a `Function` cannot be saved. -/
theorem C109_saved_partial (i d : Nat) (b : SatBounds ℝ) :
    SatObj.base.reload = some .base ∧ (SatObj.device d).reload = some (.device d) ∧
    (SatObj.function i).reload = none ∧
    (∃ iv, (SatObj.bounds b).reload = some (.bounds ⟨b.lb, b.ub, iv⟩)) :=
  ⟨rfl, rfl, rfl, [], rfl⟩

/-- C109 fails for `Bounds`: the indices `iq2iv_` are not saved.  After loading, `saturate` reads out of the
empty vector of indices for all configurations that are not empty. -/
theorem C109_saved_refuted (b : SatBounds ℝ) (q qSat : List ℝ) (sat : List Int) (hq : q ≠ []) :
    ∃ b', (SatObj.bounds b).reload = some (.bounds b') ∧ b'.saturate q qSat sat = none := by
  refine ⟨⟨b.lb, b.ub, []⟩, rfl, ?_⟩
  by_contra hc
  obtain ⟨m, hm⟩ := Option.ne_none_iff_exists'.1 hc
  obtain ⟨j, hj, -⟩ := ((C109_defined _ _ _ _).1 ⟨m, hm⟩).iv 0 (List.length_pos_iff.2 hq)
  simp at hj

/-- A case that meets the hypotheses: two coordinates, one variable. -/
example : (⟨[0, 0], [1, 1], [0, 0]⟩ : SatBounds ℚ).Fits [2, 1 / 2] [0, 0] [0] ∧
    (⟨[0, 0], [1, 1], [0, 0]⟩ : SatBounds ℚ).saturate [2, 1 / 2] [0, 0] [0] = some ⟨[1, 1 / 2], [0], true⟩ ∧
    (SatBounds.mk2 [0, 0] [1, 1] : SatBounds ℚ).saturate [2, 1 / 2] [0, 0] [0] = none := by
  refine ⟨⟨by simp, by simp, by simp, ?_⟩, ?_, C109_default_refuted _ _ _ _ _ (by simp)⟩
  · intro i hi
    have : i = 0 ∨ i = 1 := by simp at hi; omega
    rcases this with rfl | rfl <;> simp
  · have h1 : clamp (0 : ℚ) 1 2 = (1, 1, true) := by unfold clamp; norm_num
    have h2 : clamp (0 : ℚ) 1 (1 / 2) = (1 / 2, 0, false) := by unfold clamp; norm_num
    simp [SatBounds.saturate, SatBounds.loop, SatBounds.step, List.range_succ, h1]
    rw [show (2 : ℚ)⁻¹ = 1 / 2 by norm_num, h2]
    simp

/-- A free-flying robot with two revolute joints and an extra variable. -/
example : ∀ x ∈ [((7 : Nat), (6 : Nat)), (1, 1), (2, 1)], x.2 ≤ x.1 ∧ (0 < x.1 → 0 < x.2) := by decide

end Hpp
