import Verif.Solve.Descent
import Mathlib.LinearAlgebra.Matrix.DotProduct
import Mathlib.LinearAlgebra.Matrix.Rank
import Mathlib.LinearAlgebra.Dimension.Finite
import Mathlib.Tactic.Linarith
import Mathlib.Tactic.Abel

/-!
# Lemmas on least squares by levels
-/

namespace Hpp

open Matrix

variable {α : Type}

/-- Specification: squared residual of the linearised constraints of a level for a step. -/
def DLevel.cost [Field α] {n : Nat} (d : DLevel α n) (x : Fin n → α) : α :=
  (d.J *ᵥ x + d.e) ⬝ᵥ (d.J *ᵥ x + d.e)

/-- Specification: lexicographic minimisers: those of the last level among those of the previous level,
etc. -/
def lexOpt [Field α] [LinearOrder α] {n : Nat} : (S : Set (Fin n → α)) → List (DLevel α n) → Set (Fin n → α)
  | S, [] => S
  | S, d :: ds => lexOpt {x | x ∈ S ∧ ∀ y ∈ S, d.cost x ≤ d.cost y} ds

/-- What is assumed of the decomposition: `solve` gives a least squares solution, in the span of the
rows, `ker` a family of generators of the kernel. -/
structure SvdOps.Exact [Field α] [LinearOrder α] (o : SvdOps α) : Prop where
  ls : ∀ {m n : Nat} (M : Matrix (Fin m) (Fin n) α) (b : Fin m → α) (y : Fin n → α),
    (M *ᵥ o.solve M b - b) ⬝ᵥ (M *ᵥ o.solve M b - b) ≤ (M *ᵥ y - b) ⬝ᵥ (M *ᵥ y - b)
  range : ∀ {m n : Nat} (M : Matrix (Fin m) (Fin n) α) (b : Fin m → α), ∃ w, o.solve M b = Mᵀ *ᵥ w
  ker_sub : ∀ {m n : Nat} (M : Matrix (Fin m) (Fin n) α), M * (o.ker M).2 = 0
  ker_sup : ∀ {m n : Nat} (M : Matrix (Fin m) (Fin n) α) (x : Fin n → α), M *ᵥ x = 0 →
    ∃ y, x = (o.ker M).2 *ᵥ y

section
variable [Field α] [LinearOrder α] [IsStrictOrderedRing α]

theorem dot_self_nonneg {m : Nat} (u : Fin m → α) : 0 ≤ u ⬝ᵥ u :=
  Finset.sum_nonneg fun i _ => mul_self_nonneg (u i)

theorem dot_self_zero {m : Nat} {u : Fin m → α} (h : u ⬝ᵥ u = 0) : u = 0 := by
  have := (Finset.sum_eq_zero_iff_of_nonneg fun i _ => mul_self_nonneg (u i)).1 h
  funext i
  exact mul_self_eq_zero.1 (this i (Finset.mem_univ i))

/-- Two minimisers of a least squares problem have the same image. -/
theorem ls_unique {m n : Nat} (M : Matrix (Fin m) (Fin n) α) (b : Fin m → α) (x y : Fin n → α)
    (hx : ∀ z, (M *ᵥ x - b) ⬝ᵥ (M *ᵥ x - b) ≤ (M *ᵥ z - b) ⬝ᵥ (M *ᵥ z - b))
    (hy : (M *ᵥ y - b) ⬝ᵥ (M *ᵥ y - b) ≤ (M *ᵥ x - b) ⬝ᵥ (M *ᵥ x - b)) : M *ᵥ y = M *ᵥ x := by
  set u := M *ᵥ x - b with hu
  set v := M *ᵥ y - b with hv
  have hz := hx ((1 / 2 : α) • (x + y))
  have hw : M *ᵥ ((1 / 2 : α) • (x + y)) - b = (1 / 2 : α) • (u + v) := by
    rw [mulVec_smul, mulVec_add, hu, hv]
    funext i
    simp only [Pi.sub_apply, Pi.smul_apply, Pi.add_apply, smul_eq_mul]
    ring
  rw [hw] at hz
  simp only [smul_dotProduct, dotProduct_smul, smul_eq_mul, add_dotProduct, dotProduct_add] at hz
  have hc : v ⬝ᵥ u = u ⬝ᵥ v := dotProduct_comm _ _
  have hd : (v - u) ⬝ᵥ (v - u) = v ⬝ᵥ v - v ⬝ᵥ u - (u ⬝ᵥ v - u ⬝ᵥ u) := by
    simp only [sub_dotProduct, dotProduct_sub]
    ring
  have h0 := dot_self_nonneg (v - u)
  have : (v - u) ⬝ᵥ (v - u) = 0 := by
    rw [hd] at h0 ⊢
    rw [hc] at hz h0 ⊢
    linarith
  have := dot_self_zero this
  rw [hu, hv] at this
  have h2 : M *ᵥ y - M *ᵥ x = 0 := by rw [← this]; abel
  exact sub_eq_zero.1 h2

/-- Specification of a projector: the set of the steps that remain. -/
def Reach {n : Nat} (proj : Proj α n) (dq : Fin n → α) : Set (Fin n → α) :=
  match proj with
  | none => Set.univ
  | some ⟨_, P⟩ => {x | ∃ y, x = dq + P *ᵥ y}

/-- One level: the new step is a minimiser on the set of the remaining steps, and the minimisers are the
new remaining steps. -/
theorem level_none {o : SvdOps α} (ho : o.Exact) {n : Nat} (d : DLevel α n) (dq dq' : Fin n → α)
    (h : dq' = dq + o.solve d.J (-d.e - d.J *ᵥ dq)) :
    {x | x ∈ (Set.univ : Set (Fin n → α)) ∧ ∀ y ∈ (Set.univ : Set (Fin n → α)), d.cost x ≤ d.cost y} =
      Reach (some (o.ker d.J)) dq' := by
  have key : ∀ x, d.cost x = (d.J *ᵥ (x - dq) - (-d.e - d.J *ᵥ dq)) ⬝ᵥ
      (d.J *ᵥ (x - dq) - (-d.e - d.J *ᵥ dq)) := by
    intro x
    unfold DLevel.cost
    rw [mulVec_sub]
    congr 1 <;> abel
  have hmin : ∀ x, d.cost dq' ≤ d.cost x := by
    intro x
    rw [key, key, h]
    have : dq + o.solve d.J (-d.e - d.J *ᵥ dq) - dq = o.solve d.J (-d.e - d.J *ᵥ dq) := by abel
    rw [this]
    exact ho.ls _ _ _
  ext x
  constructor
  · rintro ⟨_, hx⟩
    have h1 : d.J *ᵥ x = d.J *ᵥ dq' := by
      refine ls_unique d.J (-d.e) dq' x (fun z => ?_) ?_
      · have := hmin z
        unfold DLevel.cost at this
        simpa [sub_neg_eq_add] using this
      · have := hx dq' trivial
        unfold DLevel.cost at this
        simpa [sub_neg_eq_add] using this
    obtain ⟨y, hy⟩ := ho.ker_sup d.J (x - dq') (by rw [mulVec_sub, h1, sub_self])
    exact ⟨y, by rw [← hy]; abel⟩
  · rintro ⟨y, hy⟩
    refine ⟨trivial, fun z _ => ?_⟩
    have : d.cost x = d.cost dq' := by
      unfold DLevel.cost
      rw [hy, mulVec_add, mulVec_mulVec, ho.ker_sub, zero_mulVec, add_zero]
    rw [this]
    exact hmin z

theorem level_some {o : SvdOps α} (ho : o.Exact) {n k : Nat} (P : Matrix (Fin n) (Fin k) α) (d : DLevel α n)
    (dq dq' : Fin n → α) (h : dq' = dq + P *ᵥ o.solve (d.J * P) (-d.e - d.J *ᵥ dq)) :
    {x | x ∈ Reach (some ⟨k, P⟩) dq ∧ ∀ y ∈ Reach (some ⟨k, P⟩) dq, d.cost x ≤ d.cost y} =
      Reach (some ⟨_, P * (o.ker (d.J * P)).2⟩) dq' := by
  set b := -d.e - d.J *ᵥ dq with hb
  set M := d.J * P with hM
  have key : ∀ y, d.cost (dq + P *ᵥ y) = (M *ᵥ y - b) ⬝ᵥ (M *ᵥ y - b) := by
    intro y
    unfold DLevel.cost
    rw [mulVec_add, mulVec_mulVec, hb]
    congr 1 <;> abel
  have hmin : ∀ x ∈ Reach (some ⟨k, P⟩) dq, d.cost dq' ≤ d.cost x := by
    rintro x ⟨y, rfl⟩
    rw [h, key, key]
    exact ho.ls _ _ _
  have hin : dq' ∈ Reach (some ⟨k, P⟩) dq := ⟨_, h⟩
  ext x
  constructor
  · rintro ⟨⟨y, rfl⟩, hx⟩
    have h1 : M *ᵥ y = M *ᵥ o.solve M b := by
      refine ls_unique M b _ y (fun z => ho.ls _ _ _) ?_
      rw [← key, ← key, ← h]
      exact hx dq' hin
    obtain ⟨z, hz⟩ := ho.ker_sup M (y - o.solve M b) (by rw [mulVec_sub, h1, sub_self])
    refine ⟨z, ?_⟩
    rw [h, ← mulVec_mulVec, ← hz, mulVec_sub]
    abel
  · rintro ⟨z, hz⟩
    have hx : x = dq + P *ᵥ (o.solve M b + (o.ker M).2 *ᵥ z) := by
      rw [hz, h, mulVec_add, ← mulVec_mulVec]
      abel
    refine ⟨⟨_, hx⟩, fun w hw => ?_⟩
    have : d.cost x = d.cost dq' := by
      rw [hx, h, key, key, mulVec_add, mulVec_mulVec, ho.ker_sub, zero_mulVec, add_zero]
    rw [this]
    exact hmin w hw

omit [LinearOrder α] [IsStrictOrderedRing α] in
theorem cost_empty {n : Nat} (d : DLevel α n) (h : d.m = 0) (x y : Fin n → α) : d.cost x = d.cost y := by
  obtain ⟨m, J, e⟩ := d
  simp only at h
  subst h
  simp [DLevel.cost]

omit [IsStrictOrderedRing α] in
theorem level_empty {n : Nat} (d : DLevel α n) (h : d.m = 0) (S : Set (Fin n → α)) :
    {x | x ∈ S ∧ ∀ y ∈ S, d.cost x ≤ d.cost y} = S := by
  ext x
  constructor
  · exact fun hx => hx.1
  · exact fun hx => ⟨hx, fun y _ => (cost_empty d h x y).le⟩

omit [IsStrictOrderedRing α] in
theorem lexOpt_singleton {n : Nat} (x : Fin n → α) (ds : List (DLevel α n)) : lexOpt {x} ds = {x} := by
  induction ds with
  | nil => rfl
  | cons d ds ih =>
    have : {y | y ∈ ({x} : Set (Fin n → α)) ∧ ∀ z ∈ ({x} : Set (Fin n → α)), d.cost y ≤ d.cost z} = {x} := by
      ext y
      simp only [Set.mem_singleton_iff, Set.mem_ofPred_eq]
      constructor
      · exact fun h => h.1
      · rintro rfl
        exact ⟨rfl, fun z hz => by rw [hz]⟩
    show lexOpt _ ds = _
    rw [this, ih]

omit [LinearOrder α] [IsStrictOrderedRing α] in
theorem reach_mem {n : Nat} (proj : Proj α n) (dq : Fin n → α) : dq ∈ Reach proj dq := by
  match proj with
  | none => trivial
  | some ⟨k, P⟩ => exact ⟨0, by rw [mulVec_zero, add_zero]⟩

omit [LinearOrder α] [IsStrictOrderedRing α] in
theorem reach_zero {n : Nat} (K : Σ r : Nat, Matrix (Fin n) (Fin r) α) (h : K.1 = 0) (dq : Fin n → α) :
    Reach (some K) dq = {dq} := by
  obtain ⟨r, K⟩ := K
  simp only at h
  subst h
  ext x
  constructor
  · rintro ⟨y, rfl⟩
    have : K *ᵥ y = 0 := by funext i; simp [mulVec, dotProduct]
    rw [this, add_zero]
    rfl
  · rintro rfl
    exact reach_mem _ _

/-- The loop computes lexicographic minimisers, up to a level where `solveLevelByLevel` stops it. -/
theorem descendLoop_lex {o : SvdOps α} (ho : o.Exact) (byLevel : Bool) (thr : α) {n : Nat}
    (ds : List (DLevel α n)) : ∀ (first : Bool) (proj : Proj α n) (dq : Fin n → α),
    (first = true → proj = none) →
    ∃ k, descendLoop o byLevel thr first ds proj dq ∈ lexOpt (Reach proj dq) (ds.take k) ∧
      (byLevel = false → k = ds.length) ∧ (k < ds.length → 0 < k ∧ ∃ d, ds[k - 1]? = some d ∧ ¬ d.m = 0) := by
  induction ds with
  | nil =>
    intro first proj dq _
    exact ⟨0, reach_mem _ _, fun _ => rfl, fun h => by simp at h⟩
  | cons d ds ih =>
    intro first proj dq hf
    unfold descendLoop
    by_cases hm : d.m = 0
    · rw [if_pos hm]
      obtain ⟨k, h1, h2, h3⟩ := ih false proj dq (by simp)
      refine ⟨k + 1, ?_, fun h => by rw [h2 h]; rfl, fun h => ?_⟩
      · show _ ∈ lexOpt _ (ds.take k)
        rw [level_empty d hm]
        exact h1
      · obtain ⟨g1, d', g2, g3⟩ := h3 (by simpa using h)
        refine ⟨by omega, d', ?_, g3⟩
        rw [show k + 1 - 1 = (k - 1) + 1 by omega, List.getElem?_cons_succ]
        exact g2
    · rw [if_neg hm]
      -- the step and the set of minimisers
      have stop : ∀ (x : Fin n → α) (S : Set (Fin n → α)),
          x ∈ {x | x ∈ S ∧ ∀ y ∈ S, d.cost x ≤ d.cost y} → byLevel = true →
          ∃ k, x ∈ lexOpt S ((d :: ds).take k) ∧ (byLevel = false → k = (d :: ds).length) ∧
            (k < (d :: ds).length → 0 < k ∧ ∃ d', (d :: ds)[k - 1]? = some d' ∧ ¬ d'.m = 0) := by
        intro x S hx hb
        exact ⟨1, hx, fun h => (by rw [hb] at h; cases h), fun _ => ⟨by omega, d, rfl, hm⟩⟩
      have stop2 : ∀ (x : Fin n → α) (S : Set (Fin n → α)),
          x ∈ lexOpt {x | x ∈ S ∧ ∀ y ∈ S, d.cost x ≤ d.cost y} ds →
          ∃ k, x ∈ lexOpt S ((d :: ds).take k) ∧ (byLevel = false → k = (d :: ds).length) ∧
            (k < (d :: ds).length → 0 < k ∧ ∃ d', (d :: ds)[k - 1]? = some d' ∧ ¬ d'.m = 0) := by
        intro x S hx
        refine ⟨(d :: ds).length, by rw [List.take_length]; exact hx, fun _ => rfl, fun h => ?_⟩
        exact absurd h (Nat.lt_irrefl _)
      have next : ∀ (S : Set (Fin n → α)) (proj' : Proj α n) (dq' : Fin n → α),
          {x | x ∈ S ∧ ∀ y ∈ S, d.cost x ≤ d.cost y} = Reach proj' dq' →
          ∃ k, descendLoop o byLevel thr false ds proj' dq' ∈ lexOpt S ((d :: ds).take k) ∧
            (byLevel = false → k = (d :: ds).length) ∧
            (k < (d :: ds).length → 0 < k ∧ ∃ d', (d :: ds)[k - 1]? = some d' ∧ ¬ d'.m = 0) := by
        intro S proj' dq' hS
        obtain ⟨k, h1, h2, h3⟩ := ih false proj' dq' (by simp)
        refine ⟨k + 1, ?_, fun h => by rw [h2 h]; rfl, fun h => ?_⟩
        · show _ ∈ lexOpt _ (ds.take k)
          rw [hS]
          exact h1
        · obtain ⟨g1, d', g2, g3⟩ := h3 (by simpa using h)
          refine ⟨by omega, d', ?_, g3⟩
          rw [show k + 1 - 1 = (k - 1) + 1 by omega, List.getElem?_cons_succ]
          exact g2
      match proj, hf with
      | some ⟨k, P⟩, hf =>
        have hff : first = false := by
          cases first with
          | false => rfl
          | true => cases hf rfl
        subst hff
        simp only [Bool.false_eq_true, if_false]
        have hS := level_some ho P d dq _ rfl
        split
        · rename_i hb
          refine stop _ _ ?_ (by simp at hb; exact hb.1)
          rw [hS]; exact reach_mem _ _
        · split
          · rename_i he
            refine stop2 _ _ ?_
            rw [List.isEmpty_iff.1 he, hS]; exact reach_mem _ _
          · split
            · rename_i h0
              refine stop2 _ _ ?_
              rw [hS, reach_zero ⟨_, P * (o.ker (d.J * P)).2⟩ h0, lexOpt_singleton]
              rfl
            · exact next _ _ _ hS
      | none, _ =>
        have hstep : ∃ dq₀ : Fin n → α, (if first = true then -d.e else -d.e - d.J *ᵥ dq) =
              -d.e - d.J *ᵥ dq₀ ∧
            (if first = true then o.solve d.J (if first = true then -d.e else -d.e - d.J *ᵥ dq)
              else dq + o.solve d.J (if first = true then -d.e else -d.e - d.J *ᵥ dq)) =
              dq₀ + o.solve d.J (-d.e - d.J *ᵥ dq₀) := by
          cases first with
          | false => exact ⟨dq, by simp, by simp⟩
          | true => exact ⟨0, by simp, by simp⟩
        obtain ⟨dq₀, e1, e2⟩ := hstep
        simp only
        rw [e2, e1]
        have hS := level_none ho d dq₀ _ rfl
        split
        · rename_i hb
          refine stop _ _ ?_ (by simp at hb; exact hb.1)
          show _ ∈ {x | x ∈ (Set.univ : Set (Fin n → α)) ∧ ∀ y ∈ (Set.univ : Set (Fin n → α)), _}
          rw [hS]; exact reach_mem _ _
        · split
          · rename_i he
            refine stop2 _ _ ?_
            show _ ∈ lexOpt {x | x ∈ (Set.univ : Set (Fin n → α)) ∧ ∀ y ∈ (Set.univ : Set (Fin n → α)), _} _
            rw [List.isEmpty_iff.1 he, hS]; exact reach_mem _ _
          · split
            · rename_i h0
              refine stop2 _ _ ?_
              show _ ∈ lexOpt {x | x ∈ (Set.univ : Set (Fin n → α)) ∧ ∀ y ∈ (Set.univ : Set (Fin n → α)), _} _
              rw [hS, reach_zero _ h0, lexOpt_singleton]
              rfl
            · exact next _ _ _ hS

end

end Hpp
