import Verif.Solve.Saturation
import Mathlib.Order.MinMax
import Mathlib.Order.Lattice
import Mathlib.Data.List.Induction
import Mathlib.Algebra.BigOperators.Group.List.Basic
import Mathlib.Data.List.Pairwise
import Mathlib.Tactic.Tauto

/-!
# Saturation: C31
-/

namespace Hpp

variable {α : Type}

theorem clamp_val [LinearOrder α] (lb ub v : α) (h : lb ≤ ub) :
    (clamp lb ub v).1 = max lb (min v ub) := by
  unfold clamp
  split
  · rename_i h1; simp [h1.trans h, h1]
  · rename_i h1
    split
    · rename_i h2; simp [h, h2]
    · rename_i h2
      simp only [ge_iff_le, not_le] at h1 h2
      simp [h1.le, h2.le]

theorem clamp_ret [LinearOrder α] (lb ub v : α) : (clamp lb ub v).2.2 = true ↔ v ≤ lb ∨ ub ≤ v := by
  unfold clamp
  split
  · simp_all
  · split <;> simp_all

/-- Specification of the flag of a coordinate. -/
def flagSpec [LE α] (lb ub v : α) (f : Int) : Prop :=
  (f = -1 ∧ v ≤ lb) ∨ (f = 1 ∧ ¬ v ≤ lb ∧ ub ≤ v) ∨ (f = 0 ∧ ¬ v ≤ lb ∧ ¬ ub ≤ v)

theorem clamp_flag [LinearOrder α] (lb ub v : α) : flagSpec lb ub v (clamp lb ub v).2.1 := by
  unfold clamp flagSpec
  split
  · simp_all
  · split <;> simp_all

section
variable [LinearOrder α]

theorem satFold_qSat_notMem (q : Nat → α) (l : List (SatEntry α)) : ∀ (s : SatState α) (i : Nat),
    (∀ e ∈ l, e.iq ≠ i) → (l.foldl (satStep q) s).qSat i = s.qSat i := by
  induction l with
  | nil => intros; rfl
  | cons e l ih =>
    intro s i h
    rw [List.foldl_cons, ih _ _ fun e he => h e (by simp [he])]
    exact Function.update_of_ne (h e (by simp)).symm _ _

theorem satFold_qSat (q : Nat → α) (l : List (SatEntry α)) : ∀ (s : SatState α) (e : SatEntry α),
    (l.map (·.iq)).Nodup → e ∈ l → (l.foldl (satStep q) s).qSat e.iq = (clamp e.lb e.ub (q e.iq)).1 := by
  induction l with
  | nil => intro s e _ he; simp at he
  | cons x l ih =>
    intro s e hn he
    rw [List.map_cons, List.nodup_cons] at hn
    rw [List.foldl_cons]
    rcases List.mem_cons.1 he with rfl | he
    · rw [satFold_qSat_notMem]
      · exact Function.update_self _ _ _
      · intro e' he' h
        exact hn.1 (List.mem_map.2 ⟨e', he', h⟩)
    · exact ih _ e hn.2 he

theorem satFold_sat_notMem (q : Nat → α) (l : List (SatEntry α)) : ∀ (s : SatState α) (i : Nat),
    (∀ e ∈ l, e.iv ≠ i) → (l.foldl (satStep q) s).sat i = s.sat i := by
  induction l with
  | nil => intros; rfl
  | cons e l ih =>
    intro s i h
    rw [List.foldl_cons, ih _ _ fun e he => h e (by simp [he])]
    exact Function.update_of_ne (h e (by simp)).symm _ _

theorem satFold_sat_last (q : Nat → α) (l₁ l₂ : List (SatEntry α)) (e : SatEntry α) (s : SatState α)
    (h : ∀ e' ∈ l₂, e'.iv ≠ e.iv) :
    ((l₁ ++ e :: l₂).foldl (satStep q) s).sat e.iv = (clamp e.lb e.ub (q e.iq)).2.1 := by
  rw [List.foldl_append, List.foldl_cons, satFold_sat_notMem q l₂ _ _ h]
  exact Function.update_self _ _ _

theorem satFold_ret (q : Nat → α) (l : List (SatEntry α)) : ∀ (s : SatState α),
    (l.foldl (satStep q) s).ret = (s.ret || l.any fun e => (clamp e.lb e.ub (q e.iq)).2.2) := by
  induction l with
  | nil => intro s; simp
  | cons e l ih =>
    intro s
    rw [List.foldl_cons, ih, List.any_cons, ← Bool.or_assoc]
    rfl

theorem satFold_inPlace (q : Nat → α) (l : List (SatEntry α)) : ∀ (s : SatState α),
    (l.map (·.iq)).Nodup → (∀ e ∈ l, s.qSat e.iq = q e.iq) →
    l.foldl (fun s e => satStep s.qSat s e) s = l.foldl (satStep q) s := by
  induction l with
  | nil => intros; rfl
  | cons e l ih =>
    intro s hn h
    rw [List.map_cons, List.nodup_cons] at hn
    rw [List.foldl_cons, List.foldl_cons]
    have : satStep s.qSat s e = satStep q s e := by
      unfold satStep; rw [h e (by simp)]
    rw [this]
    refine ih _ hn.2 fun e' he' => ?_
    have hne : e'.iq ≠ e.iq := fun heq => hn.1 (List.mem_map.2 ⟨e', he', heq⟩)
    rw [← h e' (by simp [he'])]
    exact Function.update_of_ne hne _ _

end

/-- Specification: the coordinates are processed once and the bounds are consistent. -/
structure SatEntriesOk [LE α] (entries : List (SatEntry α)) : Prop where
  iq : (entries.map (·.iq)).Nodup
  le : ∀ e ∈ entries, e.lb ≤ e.ub

/-! ## C31 -/

/-- C31. The coordinates processed are projected on their interval, the others are not modified by the
loops; `true` is returned exactly if a coordinate is at a bound or outside. -/
theorem C31_within_bounds [LinearOrder α] (entries : List (SatEntry α)) (h : SatEntriesOk entries)
    (q qSat : Nat → α) (sat : Nat → Int) :
    let r := clampLoop q entries qSat sat
    (∀ e ∈ entries, e.lb ≤ r.qSat e.iq ∧ r.qSat e.iq ≤ e.ub ∧
      (e.lb ≤ q e.iq → q e.iq ≤ e.ub → r.qSat e.iq = q e.iq) ∧
      (q e.iq ≤ e.lb → r.qSat e.iq = e.lb) ∧ (e.ub ≤ q e.iq → r.qSat e.iq = e.ub)) ∧
    (∀ i, (∀ e ∈ entries, e.iq ≠ i) → r.qSat i = qSat i) ∧
    (r.ret = true ↔ ∃ e ∈ entries, q e.iq ≤ e.lb ∨ e.ub ≤ q e.iq) := by
  intro r
  refine ⟨fun e he => ?_, fun i hi => satFold_qSat_notMem q entries _ i hi, ?_⟩
  · have hle := h.le e he
    have : r.qSat e.iq = max e.lb (min (q e.iq) e.ub) :=
      (satFold_qSat q entries _ e h.iq he).trans (clamp_val _ _ _ hle)
    rw [this]
    refine ⟨le_max_left _ _, max_le hle (min_le_right _ _), ?_, ?_, ?_⟩
    · intro h1 h2; rw [min_eq_left h2, max_eq_right h1]
    · intro h1; rw [min_eq_left (h1.trans hle), max_eq_left h1]
    · intro h1; rw [min_eq_right h1, max_eq_right hle]
  · show (entries.foldl (satStep q) _).ret = true ↔ _
    rw [satFold_ret]
    simp [clamp_ret]

/-- C31. Saturation is idempotent, and working in place gives the same result. -/
theorem C31_idempotent [LinearOrder α] (entries : List (SatEntry α)) (h : SatEntriesOk entries)
    (q : Nat → α) (sat sat' : Nat → Int) :
    let r := satLoopInPlace entries q sat
    r = clampLoop q entries q sat ∧ (satLoopInPlace entries r.qSat sat').qSat = r.qSat := by
  intro r
  have hr : ∀ q sat, satLoopInPlace entries q sat = clampLoop q entries q sat := fun q sat =>
    satFold_inPlace q entries _ h.iq fun _ _ => rfl
  refine ⟨hr q sat, ?_⟩
  rw [hr]
  have hrr : r = clampLoop q entries q sat := hr q sat
  funext i
  by_cases hi : ∃ e ∈ entries, e.iq = i
  · obtain ⟨e, he, rfl⟩ := hi
    obtain ⟨h1, -⟩ := C31_within_bounds entries h q q sat
    obtain ⟨h2, -⟩ := C31_within_bounds entries h r.qSat r.qSat sat'
    obtain ⟨g1, g2, -⟩ := h1 e he
    rw [← hrr] at g1 g2
    exact (h2 e he).2.2.1 g1 g2
  · obtain ⟨-, h2, -⟩ := C31_within_bounds entries h r.qSat r.qSat sat'
    exact h2 i fun e he h' => hi ⟨e, he, h'⟩

/-- C31, flags. If no velocity index is shared by two coordinates, the flag of each coordinate is -1 if
the lower bound is reached, 1 if the upper one is, 0 otherwise. -/
theorem C31_flags_partial [LinearOrder α] (entries : List (SatEntry α))
    (h : (entries.map (·.iv)).Nodup) (q qSat : Nat → α) (sat : Nat → Int) :
    ∀ e ∈ entries, flagSpec e.lb e.ub (q e.iq) ((clampLoop q entries qSat sat).sat e.iv) := by
  intro e he
  obtain ⟨l₁, l₂, rfl⟩ := List.append_of_mem he
  have : ∀ e' ∈ l₂, e'.iv ≠ e.iv := by
    intro e' he' heq
    rw [List.map_append, List.map_cons, List.nodup_append] at h
    have h2 := (List.nodup_cons.1 h.2.1).1
    exact h2 (List.mem_map.2 ⟨e', he', heq⟩)
  show flagSpec _ _ _ (((l₁ ++ e :: l₂).foldl (satStep q) _).sat e.iv)
  rw [satFold_sat_last q l₁ l₂ e _ this]
  exact clamp_flag _ _ _

/-- C31, flags, in general: the flag of a velocity index is the one of the last coordinate processed with
this index. -/
theorem C31_flags_last [LinearOrder α] (l₁ l₂ : List (SatEntry α)) (e : SatEntry α)
    (h : ∀ e' ∈ l₂, e'.iv ≠ e.iv) (q qSat : Nat → α) (sat : Nat → Int) :
    flagSpec e.lb e.ub (q e.iq) ((clampLoop q (l₁ ++ e :: l₂) qSat sat).sat e.iv) := by
  show flagSpec _ _ _ (((l₁ ++ e :: l₂).foldl (satStep q) _).sat e.iv)
  rw [satFold_sat_last q l₁ l₂ e _ h]
  exact clamp_flag _ _ _

theorem bounds_ok [LinearOrder α] (n : Nat) (lb ub : Nat → α) (iq2iv : Nat → Nat)
    (h : ∀ i, i < n → lb i ≤ ub i) : SatEntriesOk (boundsEntries n lb ub iq2iv) := by
  constructor
  · unfold boundsEntries
    rw [List.map_map]
    have : ((fun e : SatEntry α => e.iq) ∘ fun i => ⟨i, iq2iv i, lb i, ub i⟩) = id := rfl
    rw [this, List.map_id]
    exact List.nodup_range
  · intro e he
    simp only [boundsEntries, List.mem_map, List.mem_range] at he
    obtain ⟨i, hi, rfl⟩ := he
    exact h i hi

/-- C31 for `Bounds`: every vector whose bounds are consistent is handled; with the default indices (or any
injective ones) the flags are right. -/
theorem C31_bounds [LinearOrder α] (n : Nat) (lb ub : Nat → α) (iq2iv : Nat → Nat)
    (h : ∀ i, i < n → lb i ≤ ub i) (hinj : ∀ i j, i < n → j < n → iq2iv i = iq2iv j → i = j)
    (q qSat : Nat → α) (sat : Nat → Int) :
    let r := clampLoop q (boundsEntries n lb ub iq2iv) qSat sat
    (∀ i, i < n → lb i ≤ r.qSat i ∧ r.qSat i ≤ ub i ∧
      (lb i ≤ q i → q i ≤ ub i → r.qSat i = q i) ∧ flagSpec (lb i) (ub i) (q i) (r.sat (iq2iv i))) ∧
    (∀ i, n ≤ i → r.qSat i = qSat i) ∧
    (r.ret = true ↔ ∃ i, i < n ∧ (q i ≤ lb i ∨ ub i ≤ q i)) := by
  intro r
  obtain ⟨h1, h2, h3⟩ := C31_within_bounds _ (bounds_ok n lb ub iq2iv h) q qSat sat
  have hmem : ∀ i, i < n → (⟨i, iq2iv i, lb i, ub i⟩ : SatEntry α) ∈ boundsEntries n lb ub iq2iv :=
    fun i hi => List.mem_map.2 ⟨i, List.mem_range.2 hi, rfl⟩
  refine ⟨fun i hi => ?_, fun i hi => ?_, ?_⟩
  · obtain ⟨g1, g2, g3, -⟩ := h1 _ (hmem i hi)
    refine ⟨g1, g2, g3, C31_flags_partial _ ?_ q qSat sat _ (hmem i hi)⟩
    unfold boundsEntries
    rw [List.map_map]
    refine List.Nodup.map_on ?_ List.nodup_range
    intro i hi j hj hij
    exact hinj i j (List.mem_range.1 hi) (List.mem_range.1 hj) hij
  · refine h2 i fun e he => ?_
    simp only [boundsEntries, List.mem_map, List.mem_range] at he
    obtain ⟨j, hj, rfl⟩ := he
    show j ≠ i
    omega
  · rw [h3]
    constructor
    · rintro ⟨e, he, hh⟩
      simp only [boundsEntries, List.mem_map, List.mem_range] at he
      obtain ⟨j, hj, rfl⟩ := he
      exact ⟨j, hj, hh⟩
    · rintro ⟨i, hi, hh⟩
      exact ⟨_, hmem i hi, hh⟩

example :
    let r := (clampLoop (fun i => [5, 0, -7, 2].getD i 0)
      (boundsEntries 4 (fun _ => -3) (fun _ => (2 : Int)) id) (fun _ => 0) (fun _ => 9))
    (List.range 5).map r.qSat = [2, 0, -3, 2, 0] ∧ (List.range 5).map r.sat = [1, 0, -1, 1, 9] ∧ r.ret = true := by
  decide +kernel

/-- Ranks of the joints of a robot are increasing and disjoint. -/
theorem layout_bounds (l : List (Nat × Nat)) : ∀ (iq iv : Nat) (j : JointLayout), j ∈ layout l iq iv →
    iq ≤ j.idxQ ∧ j.idxQ + j.nq ≤ iq + (l.map (·.1)).sum ∧
    iv ≤ j.idxV ∧ j.idxV + j.nv ≤ iv + (l.map (·.2)).sum := by
  induction l with
  | nil => intro iq iv j hj; simp [layout] at hj
  | cons x l ih =>
    intro iq iv j hj
    obtain ⟨nq, nv⟩ := x
    simp only [layout, List.mem_cons] at hj
    simp only [List.map_cons, List.sum_cons]
    rcases hj with rfl | hj
    · simp only; omega
    · have := ih _ _ j hj
      omega

theorem layout_nodup_iq (l : List (Nat × Nat)) : ∀ (iq iv : Nat),
    ((layout l iq iv).flatMap fun j => (List.range j.nq).map fun k => j.idxQ + k).Nodup := by
  induction l with
  | nil => intros; simp [layout]
  | cons x l ih =>
    intro iq iv
    obtain ⟨nq, nv⟩ := x
    simp only [layout, List.flatMap_cons]
    rw [List.nodup_append]
    refine ⟨List.nodup_range.map fun a b h => by simpa using h, ih _ _, ?_⟩
    intro a ha b hb
    simp only [List.mem_map, List.mem_range] at ha
    simp only [List.mem_flatMap, List.mem_map, List.mem_range] at hb
    obtain ⟨k, hk, rfl⟩ := ha
    obtain ⟨j, hj, k', hk', rfl⟩ := hb
    have := (layout_bounds l _ _ j hj).1
    omega

theorem layout_nodup_iv (l : List (Nat × Nat)) : ∀ (iq iv : Nat), (∀ x ∈ l, x.1 ≤ x.2) →
    ((layout l iq iv).flatMap fun j => (List.range j.nq).map fun k => j.idxV + min k (j.nv - 1)).Nodup := by
  induction l with
  | nil => intros; simp [layout]
  | cons x l ih =>
    intro iq iv h
    obtain ⟨nq, nv⟩ := x
    have hx : nq ≤ nv := h (nq, nv) (by simp)
    simp only [layout, List.flatMap_cons]
    rw [List.nodup_append]
    refine ⟨?_, ih _ _ fun x hx => h x (by simp [hx]), ?_⟩
    · refine List.Nodup.map_on ?_ List.nodup_range
      intro a ha b hb hab
      rw [List.mem_range] at ha hb
      rw [Nat.min_eq_left (by omega), Nat.min_eq_left (by omega)] at hab
      omega
    intro a ha b hb
    simp only [List.mem_map, List.mem_range] at ha
    simp only [List.mem_flatMap, List.mem_map, List.mem_range] at hb
    obtain ⟨k, hk, rfl⟩ := ha
    obtain ⟨j, hj, k', hk', rfl⟩ := hb
    have := (layout_bounds l _ _ j hj).2.2.1
    omega

theorem flatMap_map_comp {β γ δ : Type} (f : β → List γ) (g : γ → δ) (l : List β) :
    (l.flatMap f).map g = l.flatMap fun x => (f x).map g := by
  induction l with
  | nil => rfl
  | cons x l ih => simp [List.flatMap_cons, ih]

theorem layout_cover (l : List (Nat × Nat)) : ∀ (iq iv i : Nat), iq ≤ i → i < iq + (l.map (·.1)).sum →
    ∃ j ∈ layout l iq iv, j.idxQ ≤ i ∧ i < j.idxQ + j.nq := by
  induction l with
  | nil => intro iq iv i h1 h2; simp at h2; omega
  | cons x l ih =>
    intro iq iv i h1 h2
    obtain ⟨nq, nv⟩ := x
    simp only [List.map_cons, List.sum_cons] at h2
    by_cases h : i < iq + nq
    · exact ⟨⟨nq, nv, iq, iv⟩, by simp [layout], h1, h⟩
    · obtain ⟨j, hj, hh⟩ := ih (iq + nq) (iv + nv) i (by omega) (by omega)
      exact ⟨j, by simp [layout, hj], hh⟩

/-- Sizes of the model. -/
def modelNq (joints : List (Nat × Nat)) : Nat := (joints.map (·.1)).sum
def modelNv (joints : List (Nat × Nat)) : Nat := (joints.map (·.2)).sum

/-- `Device::saturate` for a robot given by the sizes of its joints. -/
def deviceSat [LE α] [DecidableLE α] (joints : List (Nat × Nat)) (d : Nat)
    (lower upper exLower exUpper : Nat → α) (q qSat : Nat → α) (sat : Nat → Int) : SatState α :=
  clampLoop q (deviceEntries (layout joints 0 0) lower upper (modelNq joints) (modelNv joints) d
    exLower exUpper) qSat sat

theorem device_mem (joints : List (Nat × Nat)) (d : Nat) (lower upper exLower exUpper : Nat → α)
    (e : SatEntry α) :
    e ∈ deviceEntries (layout joints 0 0) lower upper (modelNq joints) (modelNv joints) d
        exLower exUpper ↔
      (∃ j ∈ layout joints 0 0, ∃ k, k < j.nq ∧
        e = ⟨j.idxQ + k, j.idxV + min k (j.nv - 1), lower (j.idxQ + k), upper (j.idxQ + k)⟩) ∨
      ∃ k, k < d ∧ e = ⟨modelNq joints + k, modelNv joints + k, exLower k, exUpper k⟩ := by
  simp only [deviceEntries, List.mem_append, List.mem_flatMap, List.mem_map, List.mem_range, eq_comm]

theorem device_iq [LinearOrder α] (joints : List (Nat × Nat)) (d : Nat)
    (lower upper exLower exUpper : Nat → α)
    (h : ∀ i, i < modelNq joints → lower i ≤ upper i) (hex : ∀ k, k < d → exLower k ≤ exUpper k) :
    SatEntriesOk (deviceEntries (layout joints 0 0) lower upper (modelNq joints) (modelNv joints) d
      exLower exUpper) := by
  constructor
  · unfold deviceEntries
    rw [List.map_append, flatMap_map_comp, List.nodup_append]
    simp only [List.map_map]
    refine ⟨layout_nodup_iq joints 0 0, List.nodup_range.map fun a b h => by simpa using h, ?_⟩
    intro a ha b hb
    simp only [List.mem_flatMap, List.mem_map, List.mem_range, Function.comp] at ha hb
    obtain ⟨j, hj, k, hk, rfl⟩ := ha
    obtain ⟨k', hk', rfl⟩ := hb
    have := (layout_bounds joints 0 0 j hj).2.1
    unfold modelNq
    omega
  · intro e he
    rcases (device_mem joints d lower upper exLower exUpper e).1 he with ⟨j, hj, k, hk, rfl⟩ | ⟨k, hk, rfl⟩
    · have := (layout_bounds joints 0 0 j hj).2.1
      exact h _ (by unfold modelNq; omega)
    · exact hex k hk

/-- C31 for `Device`, coordinates: for every list of joints (sizes in configuration and velocity) and every
extra configuration space, with consistent limits, all the coordinates are brought within their limits. -/
theorem C31_device [LinearOrder α] (joints : List (Nat × Nat)) (d : Nat)
    (lower upper exLower exUpper : Nat → α)
    (h : ∀ i, i < modelNq joints → lower i ≤ upper i) (hex : ∀ k, k < d → exLower k ≤ exUpper k)
    (q qSat : Nat → α) (sat : Nat → Int) :
    let r := deviceSat joints d lower upper exLower exUpper q qSat sat
    (∀ i, i < modelNq joints → lower i ≤ r.qSat i ∧ r.qSat i ≤ upper i ∧
      (lower i ≤ q i → q i ≤ upper i → r.qSat i = q i)) ∧
    (∀ k, k < d → exLower k ≤ r.qSat (modelNq joints + k) ∧ r.qSat (modelNq joints + k) ≤ exUpper k ∧
      (exLower k ≤ q (modelNq joints + k) → q (modelNq joints + k) ≤ exUpper k →
        r.qSat (modelNq joints + k) = q (modelNq joints + k))) ∧
    (r.ret = true ↔ (∃ i, i < modelNq joints ∧ (q i ≤ lower i ∨ upper i ≤ q i)) ∨
      ∃ k, k < d ∧ (q (modelNq joints + k) ≤ exLower k ∨ exUpper k ≤ q (modelNq joints + k))) := by
  intro r
  obtain ⟨h1, h2, h3⟩ := C31_within_bounds _ (device_iq joints d lower upper exLower exUpper h hex) q qSat sat
  have hmem := device_mem joints d lower upper exLower exUpper
  have hj : ∀ i, i < modelNq joints → ∃ e, e ∈ deviceEntries (layout joints 0 0) lower upper
      (modelNq joints) (modelNv joints) d exLower exUpper ∧ e.iq = i ∧ e.lb = lower i ∧ e.ub = upper i := by
    intro i hi
    obtain ⟨j, hj, g1, g2⟩ := layout_cover joints 0 0 i (by omega) (by unfold modelNq at hi; omega)
    refine ⟨_, (hmem _).2 (Or.inl ⟨j, hj, i - j.idxQ, by omega, rfl⟩), ?_⟩
    rw [show j.idxQ + (i - j.idxQ) = i by omega]
    exact ⟨rfl, rfl, rfl⟩
  refine ⟨fun i hi => ?_, fun k hk => ?_, ?_⟩
  · obtain ⟨e, he, g1, g2, g3⟩ := hj i hi
    have := h1 e he
    rw [g1, g2, g3] at this
    exact ⟨this.1, this.2.1, this.2.2.1⟩
  · have := h1 _ ((hmem _).2 (Or.inr ⟨k, hk, rfl⟩))
    exact ⟨this.1, this.2.1, this.2.2.1⟩
  · refine h3.trans ?_
    constructor
    · rintro ⟨e, he, hh⟩
      rcases (hmem e).1 he with ⟨j, hj, k, hk, rfl⟩ | ⟨k, hk, rfl⟩
      · have := (layout_bounds joints 0 0 j hj).2.1
        exact Or.inl ⟨j.idxQ + k, by unfold modelNq; omega, hh⟩
      · exact Or.inr ⟨k, hk, hh⟩
    · rintro (⟨i, hi, hh⟩ | ⟨k, hk, hh⟩)
      · obtain ⟨e, he, g1, g2, g3⟩ := hj i hi
        exact ⟨e, he, by rw [g1, g2, g3]; exact hh⟩
      · exact ⟨_, (hmem _).2 (Or.inr ⟨k, hk, rfl⟩), hh⟩

/-- C31 for `Device`, flags: right for robots all joints of which have as many coordinates as degrees of
freedom. -/
theorem C31_device_flags_partial [LinearOrder α] (joints : List (Nat × Nat)) (d : Nat)
    (lower upper exLower exUpper : Nat → α) (hv : ∀ x ∈ joints, x.1 = x.2)
    (q qSat : Nat → α) (sat : Nat → Int) :
    let r := deviceSat joints d lower upper exLower exUpper q qSat sat
    (∀ i, i < modelNq joints → flagSpec (lower i) (upper i) (q i) (r.sat i)) ∧
    ∀ k, k < d → flagSpec (exLower k) (exUpper k) (q (modelNq joints + k)) (r.sat (modelNq joints + k)) := by
  intro r
  have hmem := device_mem joints d lower upper exLower exUpper
  have hidx : ∀ (l : List (Nat × Nat)), (∀ x ∈ l, x.1 = x.2) → ∀ a, ∀ j ∈ layout l a a,
      j.idxQ = j.idxV ∧ j.nq = j.nv := by
    intro l
    induction l with
    | nil => intro _ a j hj; simp [layout] at hj
    | cons x l ih =>
      intro hl a j hj
      have hx := hl x (by simp)
      obtain ⟨nq, nv⟩ := x
      simp only at hx
      subst hx
      simp only [layout, List.mem_cons] at hj
      rcases hj with rfl | hj
      · exact ⟨rfl, rfl⟩
      · exact ih (fun x hx => hl x (by simp [hx])) _ j hj
  have hn : ((deviceEntries (layout joints 0 0) lower upper (modelNq joints) (modelNv joints) d
      exLower exUpper).map (·.iv)).Nodup := by
    unfold deviceEntries
    rw [List.map_append, flatMap_map_comp, List.nodup_append]
    simp only [List.map_map]
    refine ⟨layout_nodup_iv joints 0 0 fun x hx => (hv x hx).le,
      List.nodup_range.map fun a b h => by simpa using h, ?_⟩
    intro a ha b hb
    simp only [List.mem_flatMap, List.mem_map, List.mem_range, Function.comp] at ha hb
    obtain ⟨j, hj, k, hk, rfl⟩ := ha
    obtain ⟨k', hk', rfl⟩ := hb
    have h4 := (layout_bounds joints 0 0 j hj).2.2.2
    have h5 := (hidx joints hv 0 j hj).2
    unfold modelNv
    omega
  have hf := C31_flags_partial _ hn q qSat sat
  have heq : modelNq joints = modelNv joints := by
    unfold modelNq modelNv
    congr 1
    exact List.map_congr_left hv
  constructor
  · intro i hi
    obtain ⟨j, hj, g1, g2⟩ := layout_cover joints 0 0 i (by omega) (by unfold modelNq at hi; omega)
    obtain ⟨e1, e2⟩ := hidx joints hv 0 j hj
    have := hf _ ((hmem _).2 (Or.inl ⟨j, hj, i - j.idxQ, by omega, rfl⟩))
    simp only [show j.idxQ + (i - j.idxQ) = i by omega,
      show j.idxV + min (i - j.idxQ) (j.nv - 1) = i by omega] at this
    exact this
  · intro k hk
    have := hf _ ((hmem _).2 (Or.inr ⟨k, hk, rfl⟩))
    simp only at this
    have e : modelNv joints + k = modelNq joints + k := by rw [heq]
    rw [e] at this
    exact this

/-- C31 fails for joints with more coordinates than degrees of freedom: for a rotation without limit
(two coordinates, one degree of freedom) the first coordinate reaches its upper limit, but the flag is
0 since the second coordinate writes the same flag afterwards. -/
theorem C31_device_flags_refuted :
    ∃ (lower upper q : Nat → Int), (∀ i, lower i ≤ upper i) ∧
      let r := deviceSat [(2, 1)] 0 lower upper lower upper q q (fun _ => 0)
      r.ret = true ∧ r.qSat 0 = upper 0 ∧ q 0 > upper 0 ∧ ∀ i, r.sat i = 0 := by
  refine ⟨fun _ => -1, fun _ => 1, fun i => if i = 0 then 2 else 0, fun _ => by simp, ?_⟩
  refine ⟨rfl, rfl, by decide, fun i => ?_⟩
  by_cases h : i = 0
  · subst h; rfl
  · have : ∀ e ∈ deviceEntries (layout [(2, 1)] 0 0) (fun _ => (-1 : Int)) (fun _ => 1)
        (modelNq [(2, 1)]) (modelNv [(2, 1)]) 0 (fun _ => -1) (fun _ => 1), e.iv ≠ i := by
      intro e he
      rcases (device_mem _ _ _ _ _ _ e).1 he with ⟨j, hj, k, hk, rfl⟩ | ⟨k, hk, _⟩
      · simp only [layout, List.mem_cons, List.not_mem_nil, or_false] at hj
        subst hj
        simp only at hk ⊢
        omega
      · omega
    exact satFold_sat_notMem _ _ _ i this

example :
    let r := deviceSat [(1, 1), (2, 2), (0, 0), (1, 1)] 1 (fun _ => -1) (fun _ => (1 : Int)) (fun _ => 0) (fun _ => 5)
      (fun i => [0, 3, -1, -2, 7].getD i 0) (fun _ => 0) (fun _ => 0)
    (List.range 5).map r.qSat = [0, 1, -1, -1, 5] ∧ (List.range 5).map r.sat = [0, 1, -1, -1, 1] := by
  decide +kernel

end Hpp
