import Verif.Solve.BoundsProps
import Verif.Solve.SlopeProps
import Verif.Solve.ShortestProps

/-!
# Bounds and descent: C108

Source: `/repo/src/solver/hierarchical-iterative.cc`, lines 653-672 (`computeSaturation`), 744-774
(`computeDescentDirection`, one level) and 712-719 (`integrate`).

One level, all variables free, configuration space a vector space: coordinate `i` of the configuration is
variable `i`.  Coordinates that are not bounded have no entry and their flag is zero.
-/

namespace Hpp

open Matrix

variable {α : Type}

/-- `computeSaturation` (hierarchical-iterative.cc:653-672) for one level, all variables being free: `saturate`
then, if it returned true, columns set to zero.  `sat0` is the content of `saturation_` before. -/
def computeSat [Field α] [LinearOrder α] {n : Nat} (entries : List (SatEntry α)) (sat0 : Nat → Int) (q : Nat → α)
    (d : DLevel α n) : DLevel α n :=
  let r := clampLoop q entries q sat0
  if r.ret then satLevel (fun j => ((r.sat j : Int) : α)) d else d

/-- Integration in a vector space. -/
def plusVec [Add α] {n : Nat} (q : Nat → α) (v : Fin n → α) : Nat → α :=
  fun i => if h : i < n then q i + v ⟨i, h⟩ else q i

/-- Specification: bounds of some coordinates of a vector space of dimension `n`, each with an interior. -/
structure BoxEntries [LT α] (n : Nat) (entries : List (SatEntry α)) : Prop where
  iv : ∀ e ∈ entries, e.iv = e.iq
  lt : ∀ e ∈ entries, e.iq < n
  nodup : (entries.map (·.iq)).Nodup
  bounds : ∀ e ∈ entries, e.lb < e.ub

/-- Specification: a velocity that does not leave the bounds at first order. -/
def Inward [Zero α] [LE α] {n : Nat} (entries : List (SatEntry α)) (q : Nat → α) (v : Fin n → α) : Prop :=
  ∀ e ∈ entries, ∀ h : e.iq < n, (q e.iq = e.lb → 0 ≤ v ⟨e.iq, h⟩) ∧ (q e.iq = e.ub → v ⟨e.iq, h⟩ ≤ 0)

/-- Specification: no velocity that remains within the bounds decreases the squared error at first order
(`Jᵀ e` is half its gradient). -/
def BoxStationary [Field α] [LinearOrder α] {n : Nat} (entries : List (SatEntry α)) (q : Nat → α) (d : DLevel α n) : Prop :=
  ∀ v : Fin n → α, Inward entries q v → 0 ≤ (d.J *ᵥ v) ⬝ᵥ d.e

section
variable [Field α] [LinearOrder α] [IsStrictOrderedRing α]

omit [IsStrictOrderedRing α] in
theorem BoxEntries.ok {n : Nat} {entries : List (SatEntry α)} (h : BoxEntries n entries) : SatEntriesOk entries :=
  ⟨h.nodup, fun e he => (h.bounds e he).le⟩

/-- What the flags say of a configuration within the bounds. -/
structure BoxFlags {n : Nat} (entries : List (SatEntry α)) (q : Nat → α) (s : Fin n → α) : Prop where
  cases : ∀ j : Fin n, s j = 0 ∨ (s j = 1 ∧ ∃ e ∈ entries, e.iq = j ∧ q e.iq = e.ub) ∨
    (s j = -1 ∧ ∃ e ∈ entries, e.iq = j ∧ q e.iq = e.lb)
  ub : ∀ e ∈ entries, ∀ h : e.iq < n, q e.iq = e.ub → s ⟨e.iq, h⟩ = 1
  lb : ∀ e ∈ entries, ∀ h : e.iq < n, q e.iq = e.lb → s ⟨e.iq, h⟩ = -1

theorem computeSat_flags {n : Nat} {entries : List (SatEntry α)} (h : BoxEntries n entries) (sat0 : Nat → Int)
    (h0 : ∀ i, (∀ e ∈ entries, e.iq ≠ i) → sat0 i = 0) (q : Nat → α) (hq : InBounds entries q) (d : DLevel α n) :
    ∃ s : Fin n → α, BoxFlags entries q s ∧ computeSat entries sat0 q d = satLevel s d := by
  have hiv : (entries.map (·.iv)).Nodup := by
    rw [List.map_congr_left (g := (·.iq)) h.iv]
    exact h.nodup
  have hf := C31_flags_partial entries hiv q q sat0
  obtain ⟨-, -, hret⟩ := C31_within_bounds entries h.ok q q sat0
  have hcl : ∀ e ∈ entries, (q e.iq = e.ub → (clampLoop q entries q sat0).sat e.iq = 1) ∧
      (q e.iq = e.lb → (clampLoop q entries q sat0).sat e.iq = -1) ∧
      (q e.iq ≠ e.lb → q e.iq ≠ e.ub → (clampLoop q entries q sat0).sat e.iq = 0) := by
    intro e he
    have := hf e he
    rw [h.iv e he] at this
    have hb := h.bounds e he
    obtain ⟨h1, h2⟩ := hq e he
    unfold flagSpec at this
    rcases this with ⟨hs, h3⟩ | ⟨hs, h3, h4⟩ | ⟨hs, h3, h4⟩ <;> rw [hs]
    · have h5 : q e.iq = e.lb := le_antisymm h3 h1
      exact ⟨fun h6 => absurd (h5.symm.trans h6) hb.ne, fun _ => rfl, fun h6 => absurd h5 h6⟩
    · have h5 : q e.iq = e.ub := le_antisymm h2 h4
      exact ⟨fun _ => rfl, fun h6 => absurd h6.le h3, fun _ h6 => absurd h5 h6⟩
    · exact ⟨fun h6 => absurd h6.ge h4, fun h6 => absurd h6.le h3, fun _ _ => rfl⟩
  have hno : ∀ i, (∀ e ∈ entries, e.iq ≠ i) → (clampLoop q entries q sat0).sat i = 0 := by
    intro i hi
    rw [← h0 i hi]
    exact satFold_sat_notMem q entries _ i fun e he => h.iv e he ▸ hi e he
  refine ⟨fun j => (((clampLoop q entries q sat0).sat j : Int) : α), ⟨fun j => ?_, fun e he _ hu => ?_, fun e he _ hl => ?_⟩, ?_⟩
  · by_cases hj : ∃ e ∈ entries, e.iq = j
    · obtain ⟨e, he, hj⟩ := hj
      obtain ⟨h1, h2, h3⟩ := hcl e he
      by_cases hu : q e.iq = e.ub
      · right; left
        exact ⟨by simp only [← hj]; rw [h1 hu]; simp, e, he, hj, hu⟩
      · by_cases hl : q e.iq = e.lb
        · right; right
          exact ⟨by simp only [← hj]; rw [h2 hl]; simp, e, he, hj, hl⟩
        · left
          simp only [← hj]
          rw [h3 hl hu]; simp
    · left
      rw [hno j fun e he h' => hj ⟨e, he, h'⟩]
      simp
  · simp only [(hcl e he).1 hu]; simp
  · simp only [(hcl e he).2.1 hl]; simp
  · unfold computeSat
    simp only
    by_cases hr : (clampLoop q entries q sat0).ret = true
    · rw [if_pos hr]
    · rw [if_neg hr]
      have hall : ∀ j : Fin n, (((clampLoop q entries q sat0).sat j : Int) : α) = 0 := by
        intro j
        by_cases hj : ∃ e ∈ entries, e.iq = j
        · obtain ⟨e, he, hj⟩ := hj
          rw [← hj, (hcl e he).2.2 (fun h' => hr (hret.2 ⟨e, he, Or.inl h'.le⟩))
            fun h' => hr (hret.2 ⟨e, he, Or.inr h'.ge⟩)]
          simp
        · rw [hno j fun e he h' => hj ⟨e, he, h'⟩]
          simp
      unfold satLevel
      simp only [hall, zero_mul, lt_self_iff_false, if_false]

omit [LinearOrder α] [IsStrictOrderedRing α] in
/-- Sum over the variables of the slope. -/
theorem slope_grad {n : Nat} (d : DLevel α n) (v : Fin n → α) :
    (d.J *ᵥ v) ⬝ᵥ d.e = ∑ j, (d.Jᵀ *ᵥ d.e) j * v j := by
  rw [dotProduct_comm, dotProduct_mulVec, ← mulVec_transpose]
  rfl

omit [IsStrictOrderedRing α] in
theorem satLevel_grad {n : Nat} (s : Fin n → α) (d : DLevel α n) (j : Fin n) :
    ((satLevel s d).Jᵀ *ᵥ d.e) j = if s j * (d.Jᵀ *ᵥ d.e) j < 0 then 0 else (d.Jᵀ *ᵥ d.e) j := by
  show ∑ i, (if s j * (d.Jᵀ *ᵥ d.e) j < 0 then 0 else d.J i j) * d.e i = _
  split
  · simp
  · rfl

/-- Facts about the direction computed with one level. -/
theorem solve_facts {o : SvdOps α} (ho : o.Exact) {n : Nat} (d : DLevel α n) :
    d.Jᵀ *ᵥ (d.J *ᵥ o.solve d.J (-d.e) + d.e) = 0 ∧
    (d.J *ᵥ o.solve d.J (-d.e)) ⬝ᵥ d.e = -((d.J *ᵥ o.solve d.J (-d.e)) ⬝ᵥ (d.J *ᵥ o.solve d.J (-d.e))) ∧
    (d.J *ᵥ o.solve d.J (-d.e) = 0 ↔ o.solve d.J (-d.e) = 0) ∧
    (d.Jᵀ *ᵥ d.e = 0 ↔ o.solve d.J (-d.e) = 0) := by
  have hn := cost_normal d (o.solve d.J (-d.e)) fun y => by
    simpa [DLevel.cost, sub_neg_eq_add] using ho.ls d.J (-d.e) y
  obtain ⟨h1, h2⟩ := slope_normal d _ hn
  have h3 : d.J *ᵥ o.solve d.J (-d.e) = 0 ↔ o.solve d.J (-d.e) = 0 := by
    constructor
    · intro h
      obtain ⟨w, hw⟩ := ho.range d.J (-d.e)
      rw [hw] at h ⊢
      have : (d.Jᵀ *ᵥ w) ⬝ᵥ (d.Jᵀ *ᵥ w) = 0 := by
        rw [dotProduct_mulVec, vecMul_transpose, h, zero_dotProduct]
      exact dot_self_zero this
    · intro h; rw [h, mulVec_zero]
  refine ⟨hn, h1, h3, ?_⟩
  rw [← h2, ← h3, h1, neg_eq_zero]
  exact ⟨fun h => dot_self_zero h, fun h => by rw [h, zero_dotProduct]⟩

omit [IsStrictOrderedRing α] in
/-- Coordinates after a step. -/
theorem step_coord {n : Nat} {entries : List (SatEntry α)} (h : SatEntriesOk entries) (q : Nat → α)
    (v : Fin n → α) :
    (∀ e ∈ entries, ∀ hn : e.iq < n,
      integrateSat plusVec entries q v e.iq = max e.lb (min (q e.iq + v ⟨e.iq, hn⟩) e.ub)) ∧
    ∀ i, (∀ e ∈ entries, e.iq ≠ i) → integrateSat plusVec entries q v i = plusVec q v i := by
  unfold integrateSat
  rw [(C31_idempotent entries h (plusVec q v) (fun _ => 0) fun _ => 0).1]
  refine ⟨fun e he hn => ?_, fun i hi => ?_⟩
  · refine (satFold_qSat _ entries _ e h.iq he).trans ?_
    rw [clamp_val _ _ _ (h.le e he)]
    simp [plusVec, hn]
  · exact satFold_qSat_notMem _ entries _ i hi

/-- Direction without the components that go out of the bounds. -/
def clipDir {n : Nat} (s r : Fin n → α) : Fin n → α := fun j => if 0 < s j * r j then 0 else r j

theorem clip_slope {o : SvdOps α} (ho : o.Exact) {n : Nat} {entries : List (SatEntry α)} {q : Nat → α} {s : Fin n → α}
    (hs : BoxFlags entries q s) (d : DLevel α n) (r : Fin n → α)
    (hr : r = o.solve (satLevel s d).J (-d.e)) :
    (d.J *ᵥ clipDir s r) ⬝ᵥ d.e ≤ -(((satLevel s d).J *ᵥ r) ⬝ᵥ ((satLevel s d).J *ᵥ r)) := by
  have h1 := (solve_facts ho (satLevel s d)).2.1
  change ((satLevel s d).J *ᵥ o.solve (satLevel s d).J (-d.e)) ⬝ᵥ d.e = -(((satLevel s d).J *ᵥ o.solve (satLevel s d).J (-d.e)) ⬝ᵥ
    ((satLevel s d).J *ᵥ o.solve (satLevel s d).J (-d.e))) at h1
  rw [← hr] at h1
  rw [← h1, slope_grad]
  have h2 := slope_grad (satLevel s d) r
  change ((satLevel s d).J *ᵥ r) ⬝ᵥ d.e = ∑ j, ((satLevel s d).Jᵀ *ᵥ d.e) j * r j at h2
  rw [h2]
  refine Finset.sum_le_sum fun j _ => ?_
  rw [satLevel_grad]
  unfold clipDir
  by_cases hb : s j * (d.Jᵀ *ᵥ d.e) j < 0
  · have h0 : r j = 0 := by
      rw [hr]
      exact solve_zero_col ho _ _ j fun i => if_pos hb
    rw [if_pos hb, h0]
    simp
  · rw [if_neg hb]
    by_cases hc : 0 < s j * r j
    · rw [if_pos hc, mul_zero]
      push Not at hb
      rcases hs.cases j with h | ⟨h, -⟩ | ⟨h, -⟩ <;> rw [h] at hb hc
      · rw [zero_mul] at hc
        exact absurd hc (lt_irrefl _)
      · rw [one_mul] at hb hc
        exact mul_nonneg hb hc.le
      · nlinarith
    · rw [if_neg hc]

theorem clip_inward {n : Nat} {entries : List (SatEntry α)} {q : Nat → α} {s : Fin n → α}
    (hs : BoxFlags entries q s) (r : Fin n → α) : Inward entries q (clipDir s r) := by
  intro e he hn
  constructor
  · intro h
    unfold clipDir
    rw [hs.lb e he hn h]
    split
    · exact le_rfl
    · rename_i h'; linarith
  · intro h
    unfold clipDir
    rw [hs.ub e he hn h]
    split
    · exact le_rfl
    · rename_i h'; linarith

/-- The direction is zero exactly at the points that are stationary within the bounds. -/
theorem zero_iff {o : SvdOps α} (ho : o.Exact) {n : Nat} {entries : List (SatEntry α)} {q : Nat → α} {s : Fin n → α}
    (hs : BoxFlags entries q s) (d : DLevel α n) :
    o.solve (satLevel s d).J (-d.e) = 0 ↔ BoxStationary entries q d := by
  have h1 := (solve_facts ho (satLevel s d)).2.2.2
  change (satLevel s d).Jᵀ *ᵥ d.e = 0 ↔ o.solve (satLevel s d).J (-d.e) = 0 at h1
  rw [← h1]
  constructor
  · intro h v hv
    rw [slope_grad]
    refine Finset.sum_nonneg fun j _ => ?_
    have hj := congrFun h j
    rw [satLevel_grad] at hj
    by_cases hb : s j * (d.Jᵀ *ᵥ d.e) j < 0
    · rcases hs.cases j with h | ⟨h, e, he, h2, h3⟩ | ⟨h, e, he, h2, h3⟩ <;> rw [h] at hb
      · rw [zero_mul] at hb
        exact absurd hb (lt_irrefl _)
      · have hn : e.iq < n := h2 ▸ j.2
        have hv' := (hv e he hn).2 h3
        have : (⟨e.iq, hn⟩ : Fin n) = j := Fin.ext h2
        rw [this] at hv'
        nlinarith
      · have hn : e.iq < n := h2 ▸ j.2
        have hv' := (hv e he hn).1 h3
        have : (⟨e.iq, hn⟩ : Fin n) = j := Fin.ext h2
        rw [this] at hv'
        nlinarith
    · rw [if_neg hb] at hj
      rw [hj]
      simp
  · intro h
    have hin : Inward entries q (-((satLevel s d).Jᵀ *ᵥ d.e)) := by
      intro e he hn
      rw [Pi.neg_apply, satLevel_grad]
      constructor
      · intro hl
        rw [hs.lb e he hn hl]
        split
        · simp
        · rename_i h'; linarith
      · intro hu
        rw [hs.ub e he hn hu]
        split
        · simp
        · rename_i h'; linarith
    have h2 := h _ hin
    rw [slope_grad] at h2
    have h3 : ∑ j, (d.Jᵀ *ᵥ d.e) j * (-((satLevel s d).Jᵀ *ᵥ d.e)) j =
        -(((satLevel s d).Jᵀ *ᵥ d.e) ⬝ᵥ ((satLevel s d).Jᵀ *ᵥ d.e)) := by
      rw [dotProduct, ← Finset.sum_neg_distrib]
      refine Finset.sum_congr rfl fun j _ => ?_
      rw [Pi.neg_apply, satLevel_grad]
      split
      · simp
      · ring
    rw [h3] at h2
    have h4 := dot_self_nonneg ((satLevel s d).Jᵀ *ᵥ d.e)
    exact dot_self_zero (le_antisymm (by linarith) h4)

/-! ## C108 -/

/-- C108. One level, a configuration within the bounds, any decomposition that is exact: the direction computed with the
saturation is zero exactly if no velocity that remains within the bounds decreases the error at first order.
A step along the direction, then saturated, leaves the configuration unchanged exactly in the same case. -/
theorem C108_stall (o : SvdOps α) (ho : o.Exact) (byLevel : Bool) (thr : α) {n : Nat}
    (entries : List (SatEntry α)) (h : BoxEntries n entries) (sat0 : Nat → Int)
    (h0 : ∀ i, (∀ e ∈ entries, e.iq ≠ i) → sat0 i = 0) (q : Nat → α) (hq : InBounds entries q) (d : DLevel α n)
    (dq : Fin n → α) {r : Fin n → α} (hr : descend o byLevel thr [computeSat entries sat0 q d] dq = some r) :
    (r = 0 ↔ BoxStationary entries q d) ∧
    ∀ t : α, 0 < t → (integrateSat plusVec entries q (t • r) = q ↔ BoxStationary entries q d) := by
  obtain ⟨s, hs, he⟩ := computeSat_flags h sat0 h0 q hq d
  rw [he] at hr
  have hr' : r = o.solve (satLevel s d).J (-d.e) := (Option.some.inj hr).symm
  have hz : r = 0 ↔ BoxStationary entries q d := by rw [hr']; exact zero_iff ho hs d
  refine ⟨hz, fun t ht => ?_⟩
  rw [← hz]
  obtain ⟨hc1, hc2⟩ := step_coord h.ok q (t • r)
  constructor
  · intro hst
    have hcl : clipDir s r = 0 := by
      funext j
      unfold clipDir
      rw [Pi.zero_apply]
      by_contra hne
      by_cases hp : 0 < s j * r j
      · exact hne (if_pos hp)
      · rw [if_neg hp] at hne
        by_cases hj : ∃ e ∈ entries, e.iq = j
        · obtain ⟨e, hee, hj⟩ := hj
          have hn : e.iq < n := hj ▸ j.2
          have hfin : (⟨e.iq, hn⟩ : Fin n) = j := Fin.ext hj
          have hc := hc1 e hee hn
          rw [hst, hfin, Pi.smul_apply, smul_eq_mul] at hc
          obtain ⟨hb1, hb2⟩ := hq e hee
          rcases lt_or_gt_of_ne hne with hneg | hpos
          · have htr := mul_neg_of_pos_of_neg ht hneg
            have hl : q e.iq = e.lb := by
              by_contra hl
              have hl' : e.lb < q e.iq := lt_of_le_of_ne hb1 (Ne.symm hl)
              have h1 : min (q e.iq + t * r j) e.ub < q e.iq := lt_of_le_of_lt (min_le_left _ _) (by linarith)
              exact absurd hc (ne_of_gt (max_lt hl' h1))
            have := hs.lb e hee hn hl
            rw [hfin] at this
            rw [this] at hp
            exact hp (by linarith)
          · have htr := mul_pos ht hpos
            have hu : q e.iq = e.ub := by
              by_contra hu
              have hu' : q e.iq < e.ub := lt_of_le_of_ne hb2 hu
              have h1 : q e.iq < min (q e.iq + t * r j) e.ub := lt_min (by linarith) hu'
              exact absurd hc (ne_of_lt (lt_of_lt_of_le h1 (le_max_right _ _)))
            have := hs.ub e hee hn hu
            rw [hfin] at this
            rw [this] at hp
            exact hp (by linarith)
        · have hc := hc2 j fun e hee h' => hj ⟨e, hee, h'⟩
          rw [hst] at hc
          simp only [plusVec, j.2, dif_pos, Pi.smul_apply, smul_eq_mul, Fin.eta] at hc
          have : t * r j = 0 := by linarith
          rcases mul_eq_zero.1 this with h1 | h1
          · exact ht.ne' h1
          · exact hne h1
    have hsl := clip_slope ho hs d r hr'
    rw [hcl, mulVec_zero, zero_dotProduct] at hsl
    have hnn := dot_self_nonneg ((satLevel s d).J *ᵥ r)
    have h1 : (satLevel s d).J *ᵥ r = 0 := dot_self_zero (le_antisymm (by linarith) hnn)
    rw [hr'] at h1 ⊢
    exact (solve_facts ho (satLevel s d)).2.2.1.1 h1
  · intro hr0
    subst hr0
    funext i
    by_cases hi : ∃ e ∈ entries, e.iq = i
    · obtain ⟨e, hee, rfl⟩ := hi
      rw [hc1 e hee (h.lt e hee), smul_zero, Pi.zero_apply, add_zero]
      obtain ⟨hb1, hb2⟩ := hq e hee
      rw [min_eq_left hb2, max_eq_right hb1]
    · rw [hc2 i fun e hee h' => hi ⟨e, hee, h'⟩]
      simp [plusVec]

theorem clip_small (lb ub x r s : α) (hb : lb < ub) (h1 : lb ≤ x) (h2 : x ≤ ub) (hl : x = lb → s = -1)
    (hu : x = ub → s = 1) (hs : s = 0 ∨ (s = 1 ∧ x = ub) ∨ (s = -1 ∧ x = lb)) :
    ∃ a, 0 < a ∧ ∀ t, 0 ≤ t → t ≤ a →
      max lb (min (x + t * r) ub) = x + t * (if 0 < s * r then 0 else r) := by
  rcases lt_trichotomy r 0 with hr | hr | hr
  · by_cases hx : x = lb
    · refine ⟨1, one_pos, fun t ht _ => ?_⟩
      rw [hl hx, if_pos (by linarith), mul_zero, add_zero, hx]
      have : t * r ≤ 0 := mul_nonpos_of_nonneg_of_nonpos ht hr.le
      rw [min_eq_left (by linarith), max_eq_left (by linarith)]
    · have hx' : lb < x := lt_of_le_of_ne h1 (Ne.symm hx)
      have hsr : ¬ 0 < s * r := by
        rcases hs with h | ⟨h, -⟩ | ⟨h, h'⟩
        · rw [h]; simp
        · rw [h]; linarith
        · exact absurd h' hx
      refine ⟨(x - lb) / -r, div_pos (by linarith) (by linarith), fun t ht hta => ?_⟩
      rw [le_div_iff₀ (by linarith)] at hta
      have : t * r ≤ 0 := mul_nonpos_of_nonneg_of_nonpos ht hr.le
      rw [if_neg hsr, min_eq_left (by linarith), max_eq_right (by linarith)]
  · refine ⟨1, one_pos, fun t ht _ => ?_⟩
    rw [hr]
    simp [min_eq_left h2, max_eq_right h1]
  · by_cases hx : x = ub
    · refine ⟨1, one_pos, fun t ht _ => ?_⟩
      rw [hu hx, if_pos (by linarith), mul_zero, add_zero, hx]
      have : 0 ≤ t * r := mul_nonneg ht hr.le
      rw [min_eq_right (by linarith), max_eq_right hb.le]
    · have hx' : x < ub := lt_of_le_of_ne h2 hx
      have hsr : ¬ 0 < s * r := by
        rcases hs with h | ⟨h, h'⟩ | ⟨h, -⟩
        · rw [h]; simp
        · exact absurd h' hx
        · rw [h]; linarith
      refine ⟨(ub - x) / r, div_pos (by linarith) hr, fun t ht hta => ?_⟩
      rw [le_div_iff₀ hr] at hta
      have : 0 ≤ t * r := mul_nonneg ht hr.le
      rw [if_neg hsr, min_eq_left (by linarith), max_eq_right (by linarith)]

theorem small_list {β : Type} (P : β → α → Prop) (l : List β)
    (h : ∀ b ∈ l, ∃ a, 0 < a ∧ ∀ t, 0 ≤ t → t ≤ a → P b t) :
    ∃ a, 0 < a ∧ ∀ t, 0 ≤ t → t ≤ a → ∀ b ∈ l, P b t := by
  induction l with
  | nil => exact ⟨1, one_pos, fun t _ _ b hb => by simp at hb⟩
  | cons b l ih =>
    obtain ⟨a1, h1, h2⟩ := h b (by simp)
    obtain ⟨a2, h3, h4⟩ := ih fun b' hb' => h b' (by simp [hb'])
    refine ⟨min a1 a2, lt_min h1 h3, fun t ht hta b' hb' => ?_⟩
    rcases List.mem_cons.1 hb' with rfl | hb'
    · exact h2 t ht (hta.trans (min_le_left _ _))
    · exact h4 t ht (hta.trans (min_le_right _ _)) b' hb'

/-- C108. For steps that are small enough, what `integrate` does is to follow a velocity that remains within the bounds at
first order, along which the error decreases at first order, unless the configuration is stationary within
the bounds: clipping the configuration never turns the direction computed into a direction of
ascent. -/
theorem C108_descent (o : SvdOps α) (ho : o.Exact) (byLevel : Bool) (thr : α) {n : Nat}
    (entries : List (SatEntry α)) (h : BoxEntries n entries) (sat0 : Nat → Int)
    (h0 : ∀ i, (∀ e ∈ entries, e.iq ≠ i) → sat0 i = 0) (q : Nat → α) (hq : InBounds entries q) (d : DLevel α n)
    (dq : Fin n → α) {r : Fin n → α} (hr : descend o byLevel thr [computeSat entries sat0 q d] dq = some r) :
    ∃ v : Fin n → α, Inward entries q v ∧
      (∃ a : α, 0 < a ∧ ∀ t, 0 ≤ t → t ≤ a → integrateSat plusVec entries q (t • r) = plusVec q (t • v)) ∧
      localSlope [d] v ≤ localSlope [computeSat entries sat0 q d] r ∧
      (localSlope [d] v < 0 ∨ BoxStationary entries q d) := by
  have hst := (C108_stall o ho byLevel thr entries h sat0 h0 q hq d dq hr).1
  obtain ⟨s, hs, he⟩ := computeSat_flags h sat0 h0 q hq d
  rw [he] at hr ⊢
  have hsl0 := (C90_one_level o ho byLevel thr (satLevel s d) dq hr).1
  have hr' : r = o.solve (satLevel s d).J (-d.e) := (Option.some.inj hr).symm
  have hsl := clip_slope ho hs d r hr'
  have hls : localSlope [d] (clipDir s r) = (d.J *ᵥ clipDir s r) ⬝ᵥ d.e := by
    rw [localSlope_sum]; simp
  refine ⟨clipDir s r, clip_inward hs r, ?_, ?_, ?_⟩
  · obtain ⟨a, ha, hta⟩ := small_list
      (fun (e : SatEntry α) t => ∀ hn : e.iq < n, max e.lb (min (q e.iq + t * r ⟨e.iq, hn⟩) e.ub) =
        q e.iq + t * clipDir s r ⟨e.iq, hn⟩) entries fun e hee => by
        obtain ⟨hb1, hb2⟩ := hq e hee
        have hn := h.lt e hee
        obtain ⟨a, ha, hta⟩ := clip_small e.lb e.ub (q e.iq) (r ⟨e.iq, hn⟩) (s ⟨e.iq, hn⟩) (h.bounds e hee) hb1 hb2
          (hs.lb e hee hn) (hs.ub e hee hn) (by
            have huniq : ∀ e' ∈ entries, e'.iq = e.iq → e' = e := fun e' he' heq =>
              List.inj_on_of_nodup_map h.nodup he' hee heq
            rcases hs.cases ⟨e.iq, hn⟩ with h1 | ⟨h1, e', he', h2, h3⟩ | ⟨h1, e', he', h2, h3⟩
            · exact Or.inl h1
            · rw [huniq e' he' h2] at h3; exact Or.inr (Or.inl ⟨h1, h3⟩)
            · rw [huniq e' he' h2] at h3; exact Or.inr (Or.inr ⟨h1, h3⟩))
        exact ⟨a, ha, fun t ht hta' _ => hta t ht hta'⟩
    refine ⟨a, ha, fun t ht hta' => ?_⟩
    obtain ⟨hc1, hc2⟩ := step_coord h.ok q (t • r)
    funext i
    by_cases hi : ∃ e ∈ entries, e.iq = i
    · obtain ⟨e, hee, rfl⟩ := hi
      have hn := h.lt e hee
      rw [hc1 e hee hn]
      simp only [plusVec, hn, dif_pos, Pi.smul_apply, smul_eq_mul]
      exact hta t ht hta' e hee hn
    · rw [hc2 i fun e hee h' => hi ⟨e, hee, h'⟩]
      unfold plusVec
      split
      · rename_i hn
        have h1 : s ⟨i, hn⟩ = 0 := by
          rcases hs.cases ⟨i, hn⟩ with h1 | ⟨h1, e', he', h2, h3⟩ | ⟨h1, e', he', h2, h3⟩
          · exact h1
          · exact absurd ⟨e', he', h2⟩ hi
          · exact absurd ⟨e', he', h2⟩ hi
        simp [clipDir, h1]
      · rfl
  · rw [hls, hsl0]
    exact hsl
  · rw [hls, ← hst]
    by_cases hz : (satLevel s d).J *ᵥ r = 0
    · right
      rw [hr'] at hz ⊢
      exact (solve_facts ho (satLevel s d)).2.2.1.1 hz
    · left
      have hnn := dot_self_nonneg ((satLevel s d).J *ᵥ r)
      have : 0 < ((satLevel s d).J *ᵥ r) ⬝ᵥ ((satLevel s d).J *ᵥ r) :=
        lt_of_le_of_ne hnn fun h' => hz (dot_self_zero h'.symm)
      linarith

/-- C108. Constraints that are affine: if the direction is zero, or if a step leaves the configuration unchanged, no
configuration within the bounds has a smaller error.  If moreover the constraints have a solution within the bounds the
configuration is a solution. -/
theorem C108_affine (o : SvdOps α) (ho : o.Exact) (byLevel : Bool) (thr : α) {n : Nat}
    (entries : List (SatEntry α)) (h : BoxEntries n entries) (sat0 : Nat → Int)
    (h0 : ∀ i, (∀ e ∈ entries, e.iq ≠ i) → sat0 i = 0) (l : NLevel (Nat → α) α n) (q : Nat → α)
    (haff : ∀ x : Fin n → α, l.err (plusVec q x) = l.J q *ᵥ x + l.err q) (hq : InBounds entries q)
    (dq : Fin n → α) {r : Fin n → α} (hr : descend o byLevel thr [computeSat entries sat0 q (l.at q)] dq = some r)
    (hst : r = 0 ∨ ∃ t : α, 0 < t ∧ integrateSat plusVec entries q (t • r) = q) :
    (∀ x : Fin n → α, InBounds entries (plusVec q x) →
      l.err q ⬝ᵥ l.err q ≤ l.err (plusVec q x) ⬝ᵥ l.err (plusVec q x)) ∧
    ((∃ x : Fin n → α, InBounds entries (plusVec q x) ∧ l.err (plusVec q x) = 0) → l.err q = 0) := by
  obtain ⟨h1, h2⟩ := C108_stall o ho byLevel thr entries h sat0 h0 q hq (l.at q) dq hr
  have hs : BoxStationary entries q (l.at q) := by
    rcases hst with hst | ⟨t, ht, hst⟩
    · exact h1.1 hst
    · exact (h2 t ht).1 hst
  have key : ∀ x : Fin n → α, InBounds entries (plusVec q x) →
      l.err q ⬝ᵥ l.err q ≤ l.err (plusVec q x) ⬝ᵥ l.err (plusVec q x) := by
    intro x hx
    have hin : Inward entries q x := by
      intro e he hn
      have := hx e he
      simp only [plusVec, hn, dif_pos] at this
      constructor
      · intro h'; linarith [this.1]
      · intro h'; linarith [this.2]
    have hsl := hs x hin
    change 0 ≤ (l.J q *ᵥ x) ⬝ᵥ l.err q at hsl
    rw [haff, add_dotProduct, dotProduct_add, dotProduct_add, dotProduct_comm (l.err q) (l.J q *ᵥ x)]
    have := dot_self_nonneg (l.J q *ᵥ x)
    linarith
  refine ⟨key, fun ⟨x, hx, hx0⟩ => ?_⟩
  have := key x hx
  rw [hx0, zero_dotProduct] at this
  exact dot_self_zero (le_antisymm this (dot_self_nonneg _))

end

/-- C108. Constraints that are differentiable: unless the configuration is stationary within the bounds, all the steps that are
small enough, once saturated, decrease the error. -/
theorem C108_decrease (o : SvdOps ℝ) (ho : o.Exact) (byLevel : Bool) (thr : ℝ) {n : Nat}
    (entries : List (SatEntry ℝ)) (h : BoxEntries n entries) (sat0 : Nat → Int)
    (h0 : ∀ i, (∀ e ∈ entries, e.iq ≠ i) → sat0 i = 0) (l : NLevel (Nat → ℝ) ℝ n) (q : Nat → ℝ)
    (hJ : ∀ (v : Fin n → ℝ) (i : Fin l.m),
      HasDerivAt (fun t : ℝ => l.err (plusVec q (t • v)) i) ((l.J q *ᵥ v) i) 0) (hq : InBounds entries q)
    (dq : Fin n → ℝ) {r : Fin n → ℝ} (hr : descend o byLevel thr [computeSat entries sat0 q (l.at q)] dq = some r)
    (hn : ¬ BoxStationary entries q (l.at q)) :
    ∃ a : ℝ, 0 < a ∧ ∀ t : ℝ, 0 < t → t < a →
      l.err (integrateSat plusVec entries q (t • r)) ⬝ᵥ l.err (integrateSat plusVec entries q (t • r)) <
        l.err q ⬝ᵥ l.err q := by
  obtain ⟨v, -, ⟨a, ha, hta⟩, -, hneg⟩ := C108_descent o ho byLevel thr entries h sat0 h0 q hq (l.at q) dq hr
  have hneg := hneg.resolve_right hn
  have hp0 : plusVec q (0 : Fin n → ℝ) = q := by
    funext i; simp [plusVec]
  have hd := C90_derivative [l] plusVec q hp0 v (by simpa using hJ v)
  have hlt : 2 * localSlope [l.at q] v < 0 := by linarith
  have hev := (hasDerivAt_iff_tendsto_slope.1 hd).eventually (gt_mem_nhds hlt)
  rw [eventually_nhdsWithin_iff, Metric.eventually_nhds_iff] at hev
  obtain ⟨b, hb, hev⟩ := hev
  refine ⟨min a b, lt_min ha hb, fun t ht htab => ?_⟩
  have := hev (y := t) (by
    rw [Real.dist_eq, sub_zero, abs_of_pos ht]; exact htab.trans_le (min_le_right _ _)) ht.ne'
  rw [slope_def_field, sub_zero, div_lt_iff₀ ht, zero_smul, hp0, zero_mul] at this
  simp only [sumSq, List.map_cons, List.map_nil, List.sum_cons, List.sum_nil, add_zero] at this
  rw [hta t ht.le (htab.le.trans (min_le_left _ _))]
  linarith

/-- Constraint `x + y = 4`, bounds `[0, 1]` and `[0, 2]`. -/
def boxL : NLevel (Nat → ℝ) ℝ 2 where
  m := 1
  J _ := !![1, 1]
  err q := ![q 0 + q 1 - 4]
  nc := 1
  blk := id

def boxE : List (SatEntry ℝ) := [⟨0, 0, 0, 1⟩, ⟨1, 1, 0, 2⟩]

/-- A case that meets the hypotheses of the theorems: at (1, 0), where a coordinate is at a bound and pushed out and the other
is at a bound and pushed in, the configuration is not stationary.  At (1, 2) it is, the error being
1. -/
example : BoxEntries 2 boxE ∧ InBounds boxE (fun i => if i = 0 then 1 else 0) ∧
    ¬ BoxStationary boxE (fun i => if i = 0 then 1 else 0) (boxL.at fun i => if i = 0 then 1 else 0) ∧
    InBounds boxE (fun i => if i = 0 then 1 else 2) ∧
    BoxStationary boxE (fun i => if i = 0 then 1 else 2) (boxL.at fun i => if i = 0 then 1 else 2) ∧
    (∀ (q : Nat → ℝ) (x : Fin 2 → ℝ), boxL.err (plusVec q x) = boxL.J q *ᵥ x + boxL.err q) ∧
    ∃ o : SvdOps ℝ, o.Exact := by
  refine ⟨⟨?_, ?_, ?_, ?_⟩, ?_, ?_, ?_, ?_, ?_, ?_⟩
  · simp [boxE]
  · simp [boxE]
  · simp [boxE]
  · simp [boxE]
  · simp [boxE, InBounds]
  · intro h
    have := h ![0, 1] (by
      intro e he hn
      simp only [boxE, List.mem_cons, List.not_mem_nil, or_false] at he
      rcases he with rfl | rfl <;> simp)
    change 0 ≤ (!![(1 : ℝ), 1] *ᵥ ![0, 1]) ⬝ᵥ ![(if (0 : Nat) = 0 then (1 : ℝ) else 0) + (if (1 : Nat) = 0 then 1 else 0) - 4] at this
    simp [dotProduct] at this
  · simp [boxE, InBounds]
  · intro v hv
    have h0 := (hv ⟨0, 0, 0, 1⟩ (by simp [boxE]) (by norm_num)).2 (by norm_num)
    have h1 := (hv ⟨1, 1, 0, 2⟩ (by simp [boxE]) (by norm_num)).2 (by norm_num)
    change v 0 ≤ 0 at h0
    change v 1 ≤ 0 at h1
    change 0 ≤ (!![(1 : ℝ), 1] *ᵥ v) ⬝ᵥ ![(if (0 : Nat) = 0 then (1 : ℝ) else 2) + (if (1 : Nat) = 0 then 1 else 2) - 4]
    simp [dotProduct, mulVec, vecHead, vecTail]
    nlinarith
  · intro q x
    funext i
    fin_cases i
    show q 0 + x 0 + (q 1 + x 1) - 4 = (!![(1 : ℝ), 1] *ᵥ x) 0 + (q 0 + q 1 - 4)
    simp [mulVec, dotProduct]
    ring
  · obtain ⟨o, ho, -⟩ := exists_exact_ortho
    exact ⟨o, ho⟩

/-- Constraints `x + y = 1` and `y = 0`, the first coordinate being fixed to 0 by its bounds. -/
def fixedL : NLevel (Nat → ℚ) ℚ 2 where
  m := 2
  J _ := !![1, 1; 0, 1]
  err q := ![q 0 + q 1 - 1, q 1]
  nc := 1
  blk := fun _ => 0

/-- C108 fails if the lower and upper bounds of a coordinate are equal: the flag always says that the lower bound is reached, so
that the column of the coordinate is not set to zero when the error pushes it up.  Constraints `x + y = 1`, `y = 0` with
`x` fixed to 0: for every exact decomposition and every step length the solver does not leave `y = 0`, although
`y = 1/2` halves the squared error. -/
theorem C108_fixed_refuted (o : SvdOps ℚ) (ho : o.Exact) (byLevel : Bool) (thr : ℚ) (dq : Fin 2 → ℚ) :
    let entries : List (SatEntry ℚ) := [⟨0, 0, 0, 0⟩, ⟨1, 1, -1, 1⟩]
    let q : Nat → ℚ := fun _ => 0
    InBounds entries q ∧
    (∃ r, descend o byLevel thr [computeSat entries (fun _ => 0) q (fixedL.at q)] dq = some r ∧
      ∀ t : ℚ, 0 < t → integrateSat plusVec entries q (t • r) = q) ∧
    ∃ x : Fin 2 → ℚ, InBounds entries (plusVec q x) ∧
      2 * (fixedL.err (plusVec q x) ⬝ᵥ fixedL.err (plusVec q x)) = fixedL.err q ⬝ᵥ fixedL.err q ∧
      fixedL.err q ≠ 0 := by
  intro entries q
  have hcs : computeSat entries (fun _ => 0) q (fixedL.at q) = fixedL.at q := by
    have h1 : (clampLoop q entries q fun _ => 0).ret = true := by decide
    have h2 : (clampLoop q entries q fun _ => 0).sat 0 = -1 := by decide
    have h3 : (clampLoop q entries q fun _ => 0).sat 1 = 0 := by decide
    unfold computeSat
    simp only [h1, if_true]
    unfold satLevel
    have : ∀ j : Fin 2, ¬ (((clampLoop q entries q fun _ => 0).sat j : Int) : ℚ) *
        ((fixedL.at q).Jᵀ *ᵥ (fixedL.at q).e) j < 0 := by
      intro j
      fin_cases j
      · show ¬ (((clampLoop q entries q fun _ => 0).sat 0 : Int) : ℚ) *
          ((!![1, 1; 0, 1] : Matrix (Fin 2) (Fin 2) ℚ)ᵀ *ᵥ ![(0 : ℚ) + 0 - 1, 0]) 0 < 0
        rw [h2]
        simp [mulVec, dotProduct, Fin.sum_univ_two]
      · show ¬ (((clampLoop q entries q fun _ => 0).sat 1 : Int) : ℚ) *
          ((!![1, 1; 0, 1] : Matrix (Fin 2) (Fin 2) ℚ)ᵀ *ᵥ ![(0 : ℚ) + 0 - 1, 0]) 1 < 0
        rw [h3]
        simp
    simp only [this, if_false]
  rw [hcs]
  refine ⟨?_, ⟨_, rfl, fun t ht => ?_⟩, ![0, 1 / 2], ?_, ?_, ?_⟩
  · simp [entries, InBounds, q]
  · have hls := ho.ls (fixedL.at q).J (-(fixedL.at q).e) ![1, 0]
    obtain ⟨r, hr⟩ : ∃ r, r = o.solve (fixedL.at q).J (-(fixedL.at q).e) := ⟨_, rfl⟩
    rw [← hr] at hls ⊢
    change (!![(1 : ℚ), 1; 0, 1] *ᵥ r - -![(0 : ℚ) + 0 - 1, 0]) ⬝ᵥ (!![(1 : ℚ), 1; 0, 1] *ᵥ r - -![(0 : ℚ) + 0 - 1, 0]) ≤
      (!![(1 : ℚ), 1; 0, 1] *ᵥ ![1, 0] - -![(0 : ℚ) + 0 - 1, 0]) ⬝ᵥ (!![(1 : ℚ), 1; 0, 1] *ᵥ ![1, 0] - -![(0 : ℚ) + 0 - 1, 0]) at hls
    have h2 : (r 0 + r 1 - 1) * (r 0 + r 1 - 1) + r 1 * r 1 ≤ 0 := by
      simpa [dotProduct, mulVec, Fin.sum_univ_two, vecHead, vecTail, ← sub_eq_add_neg] using hls
    have h3 : r 1 = 0 := by nlinarith [mul_self_nonneg (r 0 + r 1 - 1), mul_self_nonneg (r 1)]
    have h4 : r 0 = 1 := by
      rw [h3] at h2
      nlinarith [mul_self_nonneg (r 0 - 1)]
    obtain ⟨hc1, hc2⟩ := step_coord (n := 2) (entries := entries)
      ⟨by simp [entries], by intro e he; simp only [entries, List.mem_cons, List.not_mem_nil, or_false] at he; rcases he with rfl | rfl <;> norm_num⟩
      q (t • r)
    funext i
    by_cases hi0 : i = 0
    · subst hi0
      refine (hc1 ⟨0, 0, 0, 0⟩ (by simp [entries]) (by norm_num)).trans ?_
      show max 0 (min (0 + t * r 0) 0) = (0 : ℚ)
      rw [h4]
      simp [ht.le]
    · by_cases hi1 : i = 1
      · subst hi1
        refine (hc1 ⟨1, 1, -1, 1⟩ (by simp [entries]) (by norm_num)).trans ?_
        show max (-1) (min (0 + t * r 1) 1) = (0 : ℚ)
        rw [h3]
        simp
      · rw [hc2 i (by simp [entries, Ne.symm hi0, Ne.symm hi1])]
        have : ¬ i < 2 := by omega
        simp [plusVec, this]
  · intro e he
    simp only [entries, List.mem_cons, List.not_mem_nil, or_false] at he
    rcases he with rfl | rfl <;> simp [plusVec, q] <;> norm_num
  · show 2 * (![(0 : ℚ) + 0 + (0 + 1 / 2) - 1, 0 + 1 / 2] ⬝ᵥ ![(0 : ℚ) + 0 + (0 + 1 / 2) - 1, 0 + 1 / 2]) =
      ![(0 : ℚ) + 0 - 1, 0] ⬝ᵥ ![(0 : ℚ) + 0 - 1, 0]
    norm_num [dotProduct, Fin.sum_univ_two]
  · intro h
    have h1 : (![(0 : ℚ) + 0 - 1, 0] : Fin 2 → ℚ) = 0 := h
    have := congrFun h1 0
    simp at this

end Hpp
