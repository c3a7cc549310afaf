import Verif.Solve.Sigma
import Mathlib.LinearAlgebra.Matrix.Rank

/-!
# The smallest singular value reported by the solver (C119)
-/

namespace Hpp

open Matrix Module

/-! ## Decompositions -/

/-- What is assumed of the decomposition: exact, full matrix `V`, singular values in decreasing order. -/
def SvdSorted (D : ∀ {m n : Nat}, Matrix (Fin m) (Fin n) ℝ → Svd ℝ m n) : Prop :=
  ∀ {m n : Nat} (M : Matrix (Fin m) (Fin n) ℝ), (D M).Exact M ∧ (D M).V * (D M).Vᵀ = 1 ∧ (D M).Sorted

theorem orth_card_le {p c : Nat} {V : Matrix (Fin p) (Fin c) ℝ} (h : Vᵀ * V = 1) : c ≤ p := by
  have h1 : (Vᵀ * V).rank ≤ V.rank := rank_mul_le_right _ _
  rw [h, rank_one, Fintype.card_fin] at h1
  exact h1.trans (by simpa using V.rank_le_height)

theorem Svd.Exact.rank_le {m n : Nat} {s : Svd ℝ m n} {A : Matrix (Fin m) (Fin n) ℝ} (h : s.Exact A) :
    s.rank ≤ m ∧ s.rank ≤ n :=
  ⟨orth_card_le h.u1, orth_card_le h.v1⟩

theorem Svd.full {m n : Nat} {s : Svd ℝ m n} (h : s.Vᵀ * s.V = 1) (h' : s.V * s.Vᵀ = 1) : s.l = n :=
  le_antisymm (orth_card_le h) (orth_card_le (V := s.Vᵀ) (by rw [transpose_transpose]; exact h'))

theorem Svd.Exact.rank_eq {m n : Nat} {s : Svd ℝ m n} {A : Matrix (Fin m) (Fin n) ℝ} (h : s.Exact A) : s.rank = A.rank := by
  apply le_antisymm
  · have h1 : (s.U1ᵀ * A * (s.V1 * diagonal (fun i : Fin s.rank => (s.σ i)⁻¹))) = 1 := by
      conv_lhs => rw [h.eq]
      calc _ = (s.U1ᵀ * s.U1) * diagonal (fun i : Fin s.rank => s.σ i) * (s.V1ᵀ * s.V1)
            * diagonal (fun i : Fin s.rank => (s.σ i)⁻¹) := by simp only [Matrix.mul_assoc]
        _ = 1 := by rw [h.u1, h.v1, Matrix.one_mul, Matrix.mul_one, h.dd]
    have h2 := congrArg Matrix.rank h1
    rw [rank_one, Fintype.card_fin] at h2
    rw [← h2]
    exact (rank_mul_le_left _ _).trans (rank_mul_le_right _ _)
  · conv_lhs => rw [h.eq]
    refine (rank_mul_le_right _ _).trans ?_
    simpa using (s.V1ᵀ).rank_le_height

/-- One step: defined iff the recorded rank fits the matrix; `sigma_` vanishes iff the rank has dropped. -/
theorem sigmaStep_spec {m n : Nat} {s : Svd ℝ m n} {A : Matrix (Fin m) (Fin n) ℝ} (h : s.Exact A) (hs : s.Sorted) (mx : Nat)
    (sg : WithTop ℝ) :
    (mx ≤ min m n → ∃ sg', sigmaStep s mx sg = some (max mx s.rank, sg') ∧ (sg' ≤ 0 ↔ sg ≤ 0 ∨ s.rank < mx) ∧
      (0 ≤ sg → 0 ≤ sg')) ∧
    (¬ mx ≤ min m n → sigmaStep s mx sg = none) := by
  have hr := h.rank_le
  constructor
  · intro hm
    unfold sigmaStep
    by_cases h0 : max mx s.rank = 0
    · simp only [h0, ↓reduceIte]
      refine ⟨sg, rfl, ⟨Or.inl, fun hx => hx.resolve_right (by omega)⟩, id⟩
    · simp only [h0, ↓reduceIte]
      rw [if_pos (by omega)]
      refine ⟨_, rfl, ?_, fun h0 => le_min h0 (by exact_mod_cast hs.nonneg _)⟩
      rw [min_le_iff]
      refine or_congr Iff.rfl ?_
      by_cases hd : s.rank < mx
      · have : s.σ (max mx s.rank - 1) = 0 := hs.zero _ (by omega)
        rw [this]
        exact ⟨fun _ => hd, fun _ => le_rfl⟩
      · have h1 : s.σ (max mx s.rank - 1) ≠ 0 := h.pos _ (by omega)
        have h2 : 0 < s.σ (max mx s.rank - 1) := lt_of_le_of_ne (hs.nonneg _) (Ne.symm h1)
        refine ⟨fun hx => absurd hx (not_le.2 ?_), fun hx => absurd hx hd⟩
        exact_mod_cast h2
  · intro hm
    unfold sigmaStep
    simp only
    rw [if_neg (by omega), if_neg (by omega)]

/-! ## Specification: levels and nested kernels -/

/-- Kernel of the Jacobian of a level -/
def DLevel.kernel {n : Nat} (d : DLevel ℝ n) : Submodule ℝ (Fin n → ℝ) := LinearMap.ker d.J.mulVecLin

/-- Rank of a level on the motions `K` left by the previous ones -/
noncomputable def rankOn {n : Nat} (K : Submodule ℝ (Fin n → ℝ)) (d : DLevel ℝ n) : Nat :=
  finrank ℝ K - finrank ℝ ↥(K ⊓ d.kernel)

/-- Each level considered has a recorded rank that fits: at most the number of its rows, and at most the dimension of the motions left
by the previous levels.  Levels without row are skipped; levels after which nothing is left are the last ones considered. -/
def Fits {n : Nat} : Submodule ℝ (Fin n → ℝ) → List (DLevel ℝ n × Nat) → Prop
  | _, [] => True
  | K, (d, mx) :: ds =>
    if d.m = 0 then Fits K ds else mx ≤ d.m ∧ mx ≤ finrank ℝ K ∧ (K ⊓ d.kernel ≠ ⊥ → Fits (K ⊓ d.kernel) ds)

/-- Some level considered has a rank smaller than the recorded one. -/
def Dropped {n : Nat} : Submodule ℝ (Fin n → ℝ) → List (DLevel ℝ n × Nat) → Prop
  | _, [] => False
  | K, (d, mx) :: ds =>
    if d.m = 0 then Dropped K ds else rankOn K d < mx ∨ (K ⊓ d.kernel ≠ ⊥ ∧ Dropped (K ⊓ d.kernel) ds)

open Classical in
/-- Greatest ranks after a call -/
noncomputable def newRanks {n : Nat} : Submodule ℝ (Fin n → ℝ) → List (DLevel ℝ n × Nat) → List Nat
  | _, [] => []
  | K, (d, mx) :: ds =>
    if d.m = 0 then mx :: newRanks K ds
    else max mx (rankOn K d) :: (if K ⊓ d.kernel = ⊥ then ds.map (·.2) else newRanks (K ⊓ d.kernel) ds)

theorem mulVec_inj {n k : Nat} {P : Matrix (Fin n) (Fin k) ℝ} (h : Pᵀ * P = 1) : Function.Injective P.mulVecLin := by
  intro x y hxy
  have := congrArg (Pᵀ *ᵥ ·) (show P *ᵥ x = P *ᵥ y from hxy)
  simpa [mulVec_mulVec, h] using this

theorem range_dim {n k : Nat} {P : Matrix (Fin n) (Fin k) ℝ} (h : Pᵀ * P = 1) : finrank ℝ (LinearMap.range P.mulVecLin) = k := by
  rw [LinearMap.finrank_range_of_inj (mulVec_inj h)]
  simp

/-- The decomposition of `J P`, where the columns of `P` are an orthonormal basis of `K` -/
theorem level_facts {D : ∀ {m n : Nat}, Matrix (Fin m) (Fin n) ℝ → Svd ℝ m n} (hD : SvdSorted D) {n k : Nat}
    {P : Matrix (Fin n) (Fin k) ℝ} (h : Pᵀ * P = 1) (d : DLevel ℝ n) :
    (D (d.J * P)).rank = rankOn (LinearMap.range P.mulVecLin) d ∧
    ((D (d.J * P)).l - (D (d.J * P)).rank = 0 ↔ LinearMap.range P.mulVecLin ⊓ d.kernel = ⊥) ∧
    (P * (D (d.J * P)).V2)ᵀ * (P * (D (d.J * P)).V2) = 1 ∧
    LinearMap.range (P * (D (d.J * P)).V2).mulVecLin = LinearMap.range P.mulVecLin ⊓ d.kernel := by
  obtain ⟨he, hf, -⟩ := hD (d.J * P)
  obtain ⟨ho, hor⟩ := C93_decomposition D fun M => ⟨(hD M).1, (hD M).2.1⟩
  have hl : (D (d.J * P)).l = k := Svd.full he.orthV hf
  have h2 : (P * (D (d.J * P)).V2)ᵀ * (P * (D (d.J * P)).V2) = 1 := by
    have h3 : (D (d.J * P)).V2ᵀ * (D (d.J * P)).V2 = 1 := hor (d.J * P)
    rw [transpose_mul, Matrix.mul_assoc, ← Matrix.mul_assoc Pᵀ, h, Matrix.one_mul, h3]
  have h4 : LinearMap.range (P * (D (d.J * P)).V2).mulVecLin = LinearMap.range P.mulVecLin ⊓ d.kernel := by
    ext x
    constructor
    · rintro ⟨y, rfl⟩
      refine ⟨⟨(D (d.J * P)).V2 *ᵥ y, by simp [mulVec_mulVec]⟩, ?_⟩
      have h5 : d.J * P * (D (d.J * P)).V2 = 0 := ho.ker_sub (d.J * P)
      show d.J *ᵥ ((P * (D (d.J * P)).V2) *ᵥ y) = 0
      rw [mulVec_mulVec, ← Matrix.mul_assoc, h5, zero_mulVec]
    · rintro ⟨⟨y, rfl⟩, hx⟩
      have hx' : d.J *ᵥ (P *ᵥ y) = 0 := hx
      rw [mulVec_mulVec] at hx'
      obtain ⟨z, hz⟩ : ∃ z, y = (D (d.J * P)).V2 *ᵥ z := ho.ker_sup (d.J * P) y hx'
      refine ⟨z, ?_⟩
      show (P * (D (d.J * P)).V2) *ᵥ z = P *ᵥ y
      rw [hz, mulVec_mulVec]
  have h6 : finrank ℝ ↥(LinearMap.range P.mulVecLin ⊓ d.kernel) = (D (d.J * P)).l - (D (d.J * P)).rank := by
    rw [← h4, range_dim h2]
  refine ⟨?_, ?_, h2, h4⟩
  · unfold rankOn
    rw [h6, range_dim h]
    have := (D (d.J * P)).hl
    omega
  · rw [← h6, Submodule.finrank_eq_zero]

/-- A projector of the loop and the motions that it represents -/
def Spans {n : Nat} : Proj ℝ n → Submodule ℝ (Fin n → ℝ) → Prop
  | none, K => K = ⊤
  | some ⟨_, P⟩, K => Pᵀ * P = 1 ∧ LinearMap.range P.mulVecLin = K

theorem loop_spec {D : ∀ {m n : Nat}, Matrix (Fin m) (Fin n) ℝ → Svd ℝ m n} (hD : SvdSorted D) (thr : ℝ) {n : Nat} :
    ∀ (l : List (DLevel ℝ n × Nat)) (first : Bool) (proj : Proj ℝ n) (K : Submodule ℝ (Fin n → ℝ)) (dq : Fin n → ℝ)
      (sg : WithTop ℝ), Spans proj K →
    (Fits K l → ∃ dq' sg', sigmaLoop D false thr first l proj dq sg = some (dq', newRanks K l, sg') ∧
      (sg' ≤ 0 ↔ sg ≤ 0 ∨ Dropped K l) ∧ (0 ≤ sg → 0 ≤ sg')) ∧
    (¬ Fits K l → sigmaLoop D false thr first l proj dq sg = none) := by
  intro l
  induction l with
  | nil =>
    intro first proj K dq sg _
    refine ⟨fun _ => ⟨dq, sg, rfl, ⟨Or.inl, fun h => h.resolve_right (by simp [Dropped])⟩, id⟩, fun h => absurd trivial h⟩
  | cons x ds ih =>
    obtain ⟨d, mx⟩ := x
    intro first proj K dq sg hK
    by_cases hm : d.m = 0
    · obtain ⟨i1, i2⟩ := ih false proj K dq sg hK
      unfold Fits Dropped newRanks sigmaLoop
      simp only [hm, ↓reduceIte]
      constructor
      · intro hf
        obtain ⟨dq', sg', e, hs⟩ := i1 hf
        exact ⟨dq', sg', by rw [e]; rfl, hs⟩
      · intro hf
        rw [i2 hf]; rfl
    · have tail : ∀ (L r : Nat) (dq' : Fin n → ℝ) (proj' : Proj ℝ n) (sg' : WithTop ℝ), (L = 0 ↔ K ⊓ d.kernel = ⊥) →
          Spans proj' (K ⊓ d.kernel) → ((sg' ≤ 0 ↔ sg ≤ 0 ∨ rankOn K d < mx) ∧ (0 ≤ sg → 0 ≤ sg')) →
          ((K ⊓ d.kernel ≠ ⊥ → Fits (K ⊓ d.kernel) ds) → ∃ dq'' sg'',
            (if ds.isEmpty then some (dq', [r], sg') else if L = 0 then some (dq', r :: ds.map (·.2), sg')
              else (sigmaLoop D false thr false ds proj' dq' sg').map fun x => (x.1, r :: x.2.1, x.2.2))
              = some (dq'', r :: (if K ⊓ d.kernel = ⊥ then ds.map (·.2) else newRanks (K ⊓ d.kernel) ds), sg'') ∧
            (sg'' ≤ 0 ↔ sg ≤ 0 ∨ (rankOn K d < mx ∨ (K ⊓ d.kernel ≠ ⊥ ∧ Dropped (K ⊓ d.kernel) ds))) ∧ (0 ≤ sg → 0 ≤ sg'')) ∧
          (¬ (K ⊓ d.kernel ≠ ⊥ → Fits (K ⊓ d.kernel) ds) →
            (if ds.isEmpty then some (dq', [r], sg') else if L = 0 then some (dq', r :: ds.map (·.2), sg')
              else (sigmaLoop D false thr false ds proj' dq' sg').map fun x => (x.1, r :: x.2.1, x.2.2)) = none) := by
        intro L r dq' proj' sg' hL hp hs
        cases hds : ds with
        | nil =>
          refine ⟨fun _ => ⟨dq', sg', ?_, ?_, hs.2⟩, fun h => absurd (fun _ => trivial) h⟩
          · simp [newRanks]
          · rw [hs.1]; simp [Dropped]
        | cons y ys =>
          rw [← hds]
          have hne : ds.isEmpty = false := by rw [hds]; rfl
          simp only [hne, Bool.false_eq_true, ↓reduceIte]
          by_cases h0 : K ⊓ d.kernel = ⊥
          · rw [if_pos (hL.2 h0), if_pos h0]
            refine ⟨fun _ => ⟨dq', sg', rfl, ?_, hs.2⟩, fun h => absurd (fun h' => absurd h0 h') h⟩
            rw [hs.1]
            simp [h0]
          · rw [if_neg (fun h => h0 (hL.1 h)), if_neg h0]
            obtain ⟨i1, i2⟩ := ih false proj' _ dq' sg' hp
            refine ⟨fun h => ?_, fun h => ?_⟩
            · obtain ⟨a, b, e, hb⟩ := i1 (h h0)
              refine ⟨a, b, by rw [e]; rfl, ?_, fun h => hb.2 (hs.2 h)⟩
              rw [hb.1, hs.1]
              rw [and_iff_right h0]
              exact or_assoc
            · rw [i2 (fun h' => h fun _ => h')]; rfl
      cases proj with
      | none =>
        have hK' : K = ⊤ := hK
        have hr1 : LinearMap.range (1 : Matrix (Fin n) (Fin n) ℝ).mulVecLin = K := by
          rw [hK', LinearMap.range_eq_top]
          intro x; exact ⟨x, by simp⟩
        obtain ⟨f1, f2, f3, f4⟩ := level_facts hD (P := (1 : Matrix (Fin n) (Fin n) ℝ)) (by simp) d
        rw [hr1] at f1 f2 f4
        rw [Matrix.mul_one] at f1 f2
        rw [Matrix.mul_one, Matrix.one_mul] at f3 f4
        have hfin : finrank ℝ K = n := by rw [hK']; simp
        obtain ⟨s1, s2⟩ := sigmaStep_spec (hD d.J).1 (hD d.J).2.2 mx sg
        by_cases hfit : mx ≤ min d.m n
        · obtain ⟨sg', e, hs⟩ := s1 hfit
          rw [f1] at e hs
          obtain ⟨t1, t2⟩ := tail _ (max mx (rankOn K d))
            (if first then (D d.J).pinv *ᵥ (if first then -d.e else -d.e - d.J *ᵥ dq)
              else dq + (D d.J).pinv *ᵥ (if first then -d.e else -d.e - d.J *ᵥ dq)) (some ⟨_, (D d.J).V2⟩) sg' f2 ⟨f3, f4⟩ hs
          unfold Fits Dropped newRanks sigmaLoop
          simp only [hm, ↓reduceIte, e, Bool.false_and, Bool.false_eq_true]
          rw [le_min_iff] at hfit
          refine ⟨fun h => t1 h.2.2, fun h => t2 fun h' => h ⟨hfit.1, by rw [hfin]; exact hfit.2, h'⟩⟩
        · have e := s2 hfit
          unfold Fits sigmaLoop
          simp only [hm, ↓reduceIte, e]
          refine ⟨fun h => absurd (le_min h.1 (by rw [← hfin]; exact h.2.1)) hfit, fun _ => trivial⟩
      | some q =>
        obtain ⟨k, P⟩ := q
        obtain ⟨hP, rfl⟩ := hK
        obtain ⟨f1, f2, f3, f4⟩ := level_facts hD hP d
        have hfin : finrank ℝ ↥(LinearMap.range P.mulVecLin) = k := range_dim hP
        obtain ⟨s1, s2⟩ := sigmaStep_spec (hD (d.J * P)).1 (hD (d.J * P)).2.2 mx sg
        by_cases hfit : mx ≤ min d.m k
        · obtain ⟨sg', e, hs⟩ := s1 hfit
          rw [f1] at e hs
          obtain ⟨t1, t2⟩ := tail _ (max mx (rankOn (LinearMap.range P.mulVecLin) d))
            (if first then (D d.J).pinv *ᵥ (if first then -d.e else -d.e - d.J *ᵥ dq)
              else dq + P *ᵥ ((D (d.J * P)).pinv *ᵥ (if first then -d.e else -d.e - d.J *ᵥ dq)))
              (some ⟨_, P * (D (d.J * P)).V2⟩) sg' f2 ⟨f3, f4⟩ hs
          unfold Fits Dropped newRanks sigmaLoop
          simp only [hm, ↓reduceIte, e, Bool.false_and, Bool.false_eq_true]
          rw [le_min_iff] at hfit
          refine ⟨fun h => t1 h.2.2, fun h => t2 fun h' => h ⟨hfit.1, by rw [hfin]; exact hfit.2, h'⟩⟩
        · have e := s2 hfit
          unfold Fits sigmaLoop
          simp only [hm, ↓reduceIte, e]
          refine ⟨fun h => absurd (le_min h.1 (by rw [← hfin]; exact h.2.1)) hfit, fun _ => trivial⟩

/-- The direction is that of `Solve/Descent.lean`. -/
theorem loop_direction (D : ∀ {m n : Nat}, Matrix (Fin m) (Fin n) ℝ → Svd ℝ m n) (byLevel : Bool) (thr : ℝ) {n : Nat} :
    ∀ (l : List (DLevel ℝ n × Nat)) (first : Bool) (proj : Proj ℝ n) (dq : Fin n → ℝ) (sg : WithTop ℝ) (dq' : Fin n → ℝ)
      (mx' : List Nat) (sg' : WithTop ℝ), sigmaLoop D byLevel thr first l proj dq sg = some (dq', mx', sg') →
      descendLoop (svdOps D) byLevel thr first (l.map (·.1)) proj dq = dq' ∧ mx'.length = l.length := by
  intro l
  induction l with
  | nil =>
    intro first proj dq sg dq' mx' sg' h
    unfold sigmaLoop at h
    cases h
    exact ⟨rfl, rfl⟩
  | cons x ds ih =>
    obtain ⟨d, mx⟩ := x
    intro first proj dq sg dq' mx' sg' h
    have hemp : (ds.map (·.1)).isEmpty = ds.isEmpty := by cases ds <;> rfl
    unfold sigmaLoop at h
    simp only [List.map_cons]
    unfold descendLoop
    by_cases hm : d.m = 0
    · simp only [hm, ↓reduceIte] at h ⊢
      obtain ⟨⟨a, b, c⟩, e, h'⟩ := Option.map_eq_some_iff.1 h
      cases h'
      obtain ⟨i1, i2⟩ := ih false proj dq sg a b c e
      exact ⟨i1, by simp [i2]⟩
    · simp only [hm, ↓reduceIte, hemp] at h ⊢
      have tail : ∀ (L r : Nat) (dq1 : Fin n → ℝ) (proj' : Proj ℝ n) (sr : WithTop ℝ) (b : Bool),
          (if b = true then some (dq1, r :: ds.map (·.2), sr) else
            if ds.isEmpty = true then some (dq1, [r], sr) else if L = 0 then some (dq1, r :: ds.map (·.2), sr)
              else (sigmaLoop D byLevel thr false ds proj' dq1 sr).map fun x => (x.1, r :: x.2.1, x.2.2))
              = some (dq', mx', sg') →
          (if b = true then dq1 else if ds.isEmpty = true then dq1 else if L = 0 then dq1
            else descendLoop (svdOps D) byLevel thr false (ds.map (·.1)) proj' dq1) = dq' ∧
          mx'.length = ((d, mx) :: ds).length := by
        intro L r dq1 proj' sr b h
        cases b with
        | true => cases h; exact ⟨rfl, by simp⟩
        | false =>
          simp only [Bool.false_eq_true, ↓reduceIte] at h ⊢
          by_cases he : ds.isEmpty = true
          · rw [if_pos he] at h ⊢
            cases h
            exact ⟨rfl, by simp [List.isEmpty_iff.1 he]⟩
          · rw [if_neg he] at h ⊢
            by_cases hL : L = 0
            · rw [if_pos hL] at h ⊢
              cases h
              exact ⟨rfl, by simp⟩
            · rw [if_neg hL] at h ⊢
              obtain ⟨⟨a, b, c⟩, e, h'⟩ := Option.map_eq_some_iff.1 h
              cases h'
              obtain ⟨i1, i2⟩ := ih _ _ _ _ a b c e
              exact ⟨i1, by simp [i2]⟩
      cases proj with
      | none =>
        simp only at h ⊢
        cases hs : sigmaStep (D d.J) mx sg with
        | none => rw [hs] at h; cases h
        | some y =>
          obtain ⟨r, sr⟩ := y
          rw [hs] at h
          exact tail _ _ _ _ _ _ h
      | some q =>
        obtain ⟨k, P⟩ := q
        simp only at h ⊢
        cases hs : sigmaStep (D (d.J * P)) mx sg with
        | none => rw [hs] at h; cases h
        | some y =>
          obtain ⟨r, sr⟩ := y
          rw [hs] at h
          exact tail _ _ _ _ _ _ h

/-- If the levels have altogether no more rows than what is left, the loop is defined and the recorded ranks are at most the
numbers of rows. -/
theorem loop_rows {D : ∀ {m n : Nat}, Matrix (Fin m) (Fin n) ℝ → Svd ℝ m n} (hD : SvdSorted D) (byLevel : Bool) (thr : ℝ) {n : Nat} :
    ∀ (l : List (DLevel ℝ n × Nat)) (first : Bool) (proj : Proj ℝ n) (K : Submodule ℝ (Fin n → ℝ)) (dq : Fin n → ℝ)
      (sg : WithTop ℝ), Spans proj K → (∀ x ∈ l, x.2 ≤ x.1.m) → (l.map (·.1.m)).sum ≤ finrank ℝ K →
    ∃ dq' mx' sg', sigmaLoop D byLevel thr first l proj dq sg = some (dq', mx', sg') ∧
      List.Forall₂ (fun x r => r ≤ x.1.m) l mx' := by
  intro l
  induction l with
  | nil => intro first proj K dq sg _ _ _; exact ⟨dq, [], sg, rfl, .nil⟩
  | cons x ds ih =>
    obtain ⟨d, mx⟩ := x
    intro first proj K dq sg hK hx hsum
    have hx0 : mx ≤ d.m := hx (d, mx) (List.mem_cons_self ..)
    have hx1 : ∀ x ∈ ds, x.2 ≤ x.1.m := fun x h => hx x (List.mem_cons_of_mem _ h)
    have hrest : List.Forall₂ (fun (x : DLevel ℝ n × Nat) r => r ≤ x.1.m) ds (ds.map (·.2)) := by
      rw [List.forall₂_map_right_iff]
      exact List.forall₂_same.2 hx1
    simp only [List.map_cons, List.sum_cons] at hsum
    unfold sigmaLoop
    by_cases hm : d.m = 0
    · obtain ⟨a, b, c, e, hf⟩ := ih false proj K dq sg hK hx1 (by omega)
      simp only [hm, ↓reduceIte, e, Option.map_some]
      exact ⟨_, _, _, rfl, .cons hx0 hf⟩
    · have hdim : finrank ℝ K ≤ d.m + finrank ℝ ↥(K ⊓ d.kernel) := by
        have h1 := LinearMap.finrank_range_add_finrank_ker (d.J.mulVecLin.domRestrict K)
        have h2 : finrank ℝ (LinearMap.range (d.J.mulVecLin.domRestrict K)) ≤ d.m := by
          have := Submodule.finrank_le (LinearMap.range (d.J.mulVecLin.domRestrict K))
          simpa using this
        have h3 : finrank ℝ (LinearMap.ker (d.J.mulVecLin.domRestrict K)) ≤ finrank ℝ ↥(K ⊓ d.kernel) := by
          rw [← Submodule.finrank_map_subtype_eq]
          refine Submodule.finrank_mono ?_
          rintro _ ⟨y, hy, rfl⟩
          exact ⟨y.2, hy⟩
        omega
      have tail : ∀ (L r : Nat) (dq' : Fin n → ℝ) (proj' : Proj ℝ n) (sg' : WithTop ℝ) (b : Bool), r ≤ d.m →
          Spans proj' (K ⊓ d.kernel) → ∃ dq'' mx'' sg'',
            (if b = true then some (dq', r :: ds.map (·.2), sg') else
            if ds.isEmpty = true then some (dq', [r], sg') else if L = 0 then some (dq', r :: ds.map (·.2), sg')
              else (sigmaLoop D byLevel thr false ds proj' dq' sg').map fun x => (x.1, r :: x.2.1, x.2.2))
              = some (dq'', mx'', sg'') ∧ List.Forall₂ (fun x r => r ≤ x.1.m) ((d, mx) :: ds) mx'' := by
        intro L r dq' proj' sg' b hr hp
        cases b with
        | true => exact ⟨_, _, _, rfl, .cons hr hrest⟩
        | false =>
          simp only [Bool.false_eq_true, ↓reduceIte]
          by_cases he : ds.isEmpty = true
          · rw [if_pos he]
            have : ds = [] := List.isEmpty_iff.1 he
            subst this
            exact ⟨_, _, _, rfl, .cons hr .nil⟩
          · rw [if_neg he]
            by_cases hL : L = 0
            · rw [if_pos hL]
              exact ⟨_, _, _, rfl, .cons hr hrest⟩
            · rw [if_neg hL]
              obtain ⟨a, b, c, e, hf⟩ := ih false proj' _ dq' sg' hp hx1 (by omega)
              rw [e]
              exact ⟨_, _, _, rfl, .cons hr hf⟩
      cases proj with
      | none =>
        have hK' : K = ⊤ := hK
        have hr1 : LinearMap.range (1 : Matrix (Fin n) (Fin n) ℝ).mulVecLin = K := by
          rw [hK', LinearMap.range_eq_top]
          intro x; exact ⟨x, by simp⟩
        obtain ⟨-, -, f3, f4⟩ := level_facts hD (P := (1 : Matrix (Fin n) (Fin n) ℝ)) (by simp) d
        rw [hr1] at f4
        rw [Matrix.mul_one, Matrix.one_mul] at f3 f4
        have hfin : finrank ℝ K = n := by rw [hK']; simp
        obtain ⟨sg', e, -⟩ := (sigmaStep_spec (hD d.J).1 (hD d.J).2.2 mx sg).1 (le_min hx0 (by omega))
        simp only [hm, ↓reduceIte, e]
        exact tail _ _ _ (some ⟨_, (D d.J).V2⟩) sg' _ (max_le hx0 (hD d.J).1.rank_le.1) ⟨f3, f4⟩
      | some q =>
        obtain ⟨k, P⟩ := q
        obtain ⟨hP, rfl⟩ := hK
        obtain ⟨-, -, f3, f4⟩ := level_facts hD hP d
        have hfin : finrank ℝ ↥(LinearMap.range P.mulVecLin) = k := range_dim hP
        obtain ⟨sg', e, -⟩ := (sigmaStep_spec (hD (d.J * P)).1 (hD (d.J * P)).2.2 mx sg).1 (le_min hx0 (by omega))
        simp only [hm, ↓reduceIte, e]
        exact tail _ _ _ (some ⟨_, P * (D (d.J * P)).V2⟩) sg' _ (max_le hx0 (hD (d.J * P)).1.rank_le.1) ⟨f3, f4⟩

/-! ## The properties -/

/-- `x` is the smallest factor by which `J` stretches a motion orthogonal to its kernel. -/
def LeastGain {m n : Nat} (J : Matrix (Fin m) (Fin n) ℝ) (x : ℝ) : Prop :=
  (∀ w, x ^ 2 * ((Jᵀ *ᵥ w) ⬝ᵥ (Jᵀ *ᵥ w)) ≤ (J *ᵥ (Jᵀ *ᵥ w)) ⬝ᵥ (J *ᵥ (Jᵀ *ᵥ w))) ∧
  ∃ w, Jᵀ *ᵥ w ≠ 0 ∧ x ^ 2 * ((Jᵀ *ᵥ w) ⬝ᵥ (Jᵀ *ᵥ w)) = (J *ᵥ (Jᵀ *ᵥ w)) ⬝ᵥ (J *ᵥ (Jᵀ *ᵥ w))

theorem iso_dot {n k : Nat} {P : Matrix (Fin n) (Fin k) ℝ} (h : Pᵀ * P = 1) (x : Fin k → ℝ) :
    (P *ᵥ x) ⬝ᵥ (P *ᵥ x) = x ⬝ᵥ x := by
  rw [dotProduct_mulVec, vecMul_mulVec, h, vecMul_one]

theorem Svd.Exact.gain {m n : Nat} {s : Svd ℝ m n} {A : Matrix (Fin m) (Fin n) ℝ} (h : s.Exact A) (hs : s.Sorted)
    (hr : 0 < s.rank) : LeastGain A (s.σ (s.rank - 1)) := by
  set S : Matrix (Fin s.rank) (Fin s.rank) ℝ := diagonal (fun i : Fin s.rank => s.σ i) with hS
  have hA : ∀ v, A *ᵥ (s.V1 *ᵥ v) = s.U1 *ᵥ (S *ᵥ v) := by
    intro v
    conv_lhs => rw [h.eq]
    rw [mulVec_mulVec, mulVec_mulVec, Matrix.mul_assoc, h.v1, Matrix.mul_one]
  have hAt : ∀ w, Aᵀ *ᵥ w = s.V1 *ᵥ (S *ᵥ (s.U1ᵀ *ᵥ w)) := by
    intro w
    conv_lhs => rw [h.eq]
    rw [transpose_mul, transpose_mul, transpose_transpose, hS, diagonal_transpose, mulVec_mulVec, mulVec_mulVec,
      Matrix.mul_assoc]
  have hSd : ∀ v : Fin s.rank → ℝ, (S *ᵥ v) ⬝ᵥ (S *ᵥ v) = ∑ i : Fin s.rank, (s.σ i) ^ 2 * (v i * v i) := by
    intro v
    simp only [hS, dotProduct, mulVec_diagonal]
    exact Finset.sum_congr rfl fun i _ => by ring
  constructor
  · intro w
    rw [hAt, hA, iso_dot h.u1, iso_dot h.v1]
    set c := S *ᵥ (s.U1ᵀ *ᵥ w)
    rw [hSd c, dotProduct, Finset.mul_sum]
    refine Finset.sum_le_sum fun i _ => ?_
    refine mul_le_mul_of_nonneg_right ?_ (mul_self_nonneg (c i))
    exact pow_le_pow_left₀ (hs.nonneg _) (hs.anti (by have := i.2; omega)) 2
  · set i0 : Fin s.rank := ⟨s.rank - 1, by omega⟩ with hi0
    have hne : s.σ (s.rank - 1) ≠ 0 := h.pos _ (by omega)
    have hc : S *ᵥ (s.U1ᵀ *ᵥ (s.U1 *ᵥ (Pi.single i0 (s.σ (s.rank - 1))⁻¹))) = Pi.single i0 1 := by
      rw [mulVec_mulVec _ s.U1ᵀ, h.u1, Matrix.one_mulVec, hS]
      funext j
      rw [mulVec_diagonal]
      by_cases hj : j = i0
      · rw [hj, Pi.single_eq_same, Pi.single_eq_same]
        exact mul_inv_cancel₀ hne
      · simp [hj]
    refine ⟨s.U1 *ᵥ (Pi.single i0 (s.σ (s.rank - 1))⁻¹), ?_, ?_⟩
    · rw [hAt, hc]
      intro h0
      have h1 := mulVec_inj h.v1 (a₁ := Pi.single i0 1) (a₂ := 0) (by simpa using h0)
      have := congrFun h1 i0
      simp at this
    · rw [hAt, hc, hA, iso_dot h.u1, iso_dot h.v1, hSd]
      rw [Finset.sum_eq_single i0]
      · simp [hi0]
      · intro j _ hj; simp [hj]
      · simp

/-- Reporting the singular value does not change the direction: `sigmaDescend` refines `descend` (C36, C93). -/
theorem C119_direction (D : ∀ {m n : Nat}, Matrix (Fin m) (Fin n) ℝ → Svd ℝ m n) (byLevel : Bool) (thr : ℝ) {n : Nat}
    (levels : List (DLevel ℝ n × Nat)) (dq : Fin n → ℝ) {r : Option (Fin n → ℝ)} {mx : List Nat} {sg : WithTop ℝ}
    (h : sigmaDescend D byLevel thr levels dq = some (r, mx, sg)) :
    r = descend (svdOps D) byLevel thr (levels.map (·.1)) dq ∧ mx.length = levels.length := by
  match levels, h with
  | [], h => cases h; exact ⟨rfl, rfl⟩
  | [(d, mx0)], h =>
    obtain ⟨a, e, h'⟩ := Option.map_eq_some_iff.1 h
    cases h'
    exact ⟨rfl, rfl⟩
  | (d, mx0) :: x :: l, h =>
    obtain ⟨⟨a, b, c⟩, e, h'⟩ := Option.map_eq_some_iff.1 h
    cases h'
    obtain ⟨h1, h2⟩ := loop_direction D byLevel thr _ _ _ _ _ _ _ _ e
    exact ⟨congrArg some h1.symm, h2⟩

theorem one_level_calls {D : ∀ {m n : Nat}, Matrix (Fin m) (Fin n) ℝ → Svd ℝ m n} (hD : SvdSorted D) (byLevel : Bool) (thr : ℝ)
    {m n : Nat} (j : Matrix (Fin m) (Fin n) ℝ × (Fin m → ℝ)) :
    ∀ (pre : List (Matrix (Fin m) (Fin n) ℝ × (Fin m → ℝ))) (mx : Nat) (dq : Fin n → ℝ) (sg0 : WithTop ℝ), mx ≤ min m n →
    ∃ (R : Nat) (sg : WithTop ℝ),
      sigmaCalls D byLevel thr ((pre ++ [j]).map fun k => [⟨m, k.1, k.2⟩]) [mx] dq sg0 = some ([R], sg) ∧
      mx ≤ R ∧ (∀ k ∈ pre ++ [j], k.1.rank ≤ R) ∧ (R = mx ∨ ∃ k ∈ pre ++ [j], k.1.rank = R) ∧
      (R = 0 → sg = ⊤) ∧ (0 < R → ∃ x : ℝ, sg = x ∧ 0 ≤ x ∧ (x = 0 ↔ j.1.rank < R) ∧ (j.1.rank = R → LeastGain j.1 x)) := by
  intro pre
  induction pre with
  | nil =>
    intro mx dq sg0 hm
    have hex := (hD j.1).1
    have hso := (hD j.1).2.2
    have hrk := hex.rank_le
    have hreq : (D j.1).rank = j.1.rank := hex.rank_eq
    rw [hreq] at hrk
    have hstep : sigmaStep (D j.1) mx ⊤ = some (max mx j.1.rank,
        if max mx j.1.rank = 0 then (⊤ : WithTop ℝ) else (((D j.1).σ (max mx j.1.rank - 1) : ℝ) : WithTop ℝ)) := by
      unfold sigmaStep
      rw [hreq]
      by_cases h0 : max mx j.1.rank = 0
      · simp [h0]
      · simp only [h0, ↓reduceIte]
        rw [if_pos (by omega), min_eq_right le_top]
    refine ⟨max mx j.1.rank, if max mx j.1.rank = 0 then (⊤ : WithTop ℝ) else (((D j.1).σ (max mx j.1.rank - 1) : ℝ) : WithTop ℝ), ?_, le_max_left _ _, ?_,
      ?_, fun h => by simp [h], ?_⟩
    · simp [sigmaCalls, sigmaDescend, hstep]
    · intro k hk
      simp only [List.nil_append, List.mem_singleton] at hk
      subst hk; exact le_max_right _ _
    · rcases max_choice mx j.1.rank with h | h
      · exact Or.inl h
      · exact Or.inr ⟨j, by simp, h.symm⟩
    · intro hR
      rw [if_neg (by omega)]
      refine ⟨_, rfl, hso.nonneg _, ?_, ?_⟩
      · constructor
        · intro h0
          by_contra hc
          exact hex.pos (max mx j.1.rank - 1) (by rw [hreq]; omega) h0
        · intro hc
          exact hso.zero _ (by rw [hreq]; omega)
      · intro he
        have := hex.gain hso (by rw [hreq]; omega)
        rw [hreq] at this
        rw [← he]
        exact this
  | cons a pre ih =>
    intro mx dq sg0 hm
    have hex := (hD a.1).1
    have hrk := hex.rank_le
    have hreq : (D a.1).rank = a.1.rank := hex.rank_eq
    obtain ⟨sg', e, -⟩ := (sigmaStep_spec hex (hD a.1).2.2 mx ⊤).1 hm
    rw [hreq] at e hrk
    obtain ⟨R, sg, h1, h2, h3, h4, h5, h6⟩ := ih (max mx a.1.rank) ((D a.1).pinv *ᵥ (-a.2)) sg' (by omega)
    refine ⟨R, sg, ?_, (le_max_left _ _).trans h2, ?_, ?_, h5, h6⟩
    · rw [← h1]
      simp [sigmaCalls, sigmaDescend, e]
    · intro k hk
      rcases List.mem_cons.1 hk with rfl | hk
      · exact (le_max_right _ _).trans h2
      · exact h3 k hk
    · rcases h4 with h4 | ⟨k, hk, h4⟩
      · rcases max_choice mx a.1.rank with h | h
        · exact Or.inl (h4.trans h)
        · exact Or.inr ⟨a, by simp, (h4.trans h).symm⟩
      · exact Or.inr ⟨k, List.mem_cons_of_mem _ hk, h4⟩

/-- **One level.**  After any sequence of calls, `sigma_` is well defined; it is the maximal double if all the Jacobians met were
zero; otherwise it vanishes iff the rank of the last Jacobian is smaller than the greatest rank met since `update`, and when it
does not vanish it is the smallest nonzero singular value of the last Jacobian. -/
theorem C119_one_level {D : ∀ {m n : Nat}, Matrix (Fin m) (Fin n) ℝ → Svd ℝ m n} (hD : SvdSorted D) (byLevel : Bool) (thr : ℝ)
    {m n : Nat} (pre : List (Matrix (Fin m) (Fin n) ℝ × (Fin m → ℝ))) (j : Matrix (Fin m) (Fin n) ℝ × (Fin m → ℝ))
    (dq : Fin n → ℝ) (sg0 : WithTop ℝ) :
    ∃ (R : Nat) (sg : WithTop ℝ),
      sigmaCalls D byLevel thr ((pre ++ [j]).map fun k => [⟨m, k.1, k.2⟩]) [0] dq sg0 = some ([R], sg) ∧
      (∀ k ∈ pre ++ [j], k.1.rank ≤ R) ∧ (∃ k ∈ pre ++ [j], k.1.rank = R) ∧
      (R = 0 → sg = ⊤) ∧ (0 < R → ∃ x : ℝ, sg = x ∧ 0 ≤ x ∧ (x = 0 ↔ j.1.rank < R) ∧ (j.1.rank = R → LeastGain j.1 x)) := by
  obtain ⟨R, sg, h1, -, h3, h4, h5, h6⟩ := one_level_calls hD byLevel thr j pre 0 dq sg0 (Nat.zero_le _)
  refine ⟨R, sg, h1, h3, ?_, h5, h6⟩
  rcases h4 with h4 | h4
  · exact ⟨j, by simp, by have := h3 j (by simp); omega⟩
  · exact h4

/-- **Several levels.**  A call is well defined iff the recorded ranks fit; then the recorded ranks become the greatest ranks of the
levels on what the previous ones leave, and `sigma_` is non negative, zero iff some level considered has lost rank. -/
theorem C119_levels {D : ∀ {m n : Nat}, Matrix (Fin m) (Fin n) ℝ → Svd ℝ m n} (hD : SvdSorted D) (thr : ℝ) {n : Nat}
    (levels : List (DLevel ℝ n × Nat)) (h2 : 2 ≤ levels.length) (dq : Fin n → ℝ) :
    (Fits ⊤ levels → ∃ dq' sg, sigmaDescend D false thr levels dq = some (some dq', newRanks ⊤ levels, sg) ∧
      0 ≤ sg ∧ (sg = 0 ↔ Dropped ⊤ levels)) ∧
    (¬ Fits ⊤ levels → sigmaDescend D false thr levels dq = none) := by
  match levels, h2 with
  | a :: b :: l, _ =>
    obtain ⟨h1, h0⟩ := loop_spec hD thr (a :: b :: l) true none ⊤ dq ⊤ rfl
    constructor
    · intro hF
      obtain ⟨dq', sg, e, h, hn⟩ := h1 hF
      have hn := hn le_top
      refine ⟨dq', sg, ?_, hn, ?_⟩
      · simp only [sigmaDescend, e, Option.map_some]
      · exact ⟨fun h0 => (h.1 h0.le).resolve_left (by simp), fun h0 => le_antisymm (h.2 (Or.inr h0)) hn⟩
    · intro hF
      simp only [sigmaDescend, h0 hF, Option.map_none]

theorem calls_rows {D : ∀ {m n : Nat}, Matrix (Fin m) (Fin n) ℝ → Svd ℝ m n} (hD : SvdSorted D) (byLevel : Bool) (thr : ℝ)
    {n : Nat} (ms : List Nat) (hs : ms.sum ≤ n) :
    ∀ (calls : List (List (DLevel ℝ n))), (∀ c ∈ calls, c.map (·.m) = ms) → ∀ (mx : List Nat) (dq : Fin n → ℝ) (sg : WithTop ℝ),
      List.Forall₂ (· ≤ ·) mx ms → ∃ mx' sg', sigmaCalls D byLevel thr calls mx dq sg = some (mx', sg') ∧
        List.Forall₂ (· ≤ ·) mx' ms := by
  intro calls
  induction calls with
  | nil => intro _ mx dq sg h; exact ⟨mx, sg, rfl, h⟩
  | cons c cs ih =>
    intro hc mx dq sg hmx
    have hc0 : c.map (·.m) = ms := hc c (List.mem_cons_self ..)
    have hcs := fun x hx => hc x (List.mem_cons_of_mem _ hx)
    have hlen : c.length = mx.length := by rw [hmx.length_eq, ← hc0, List.length_map]
    have hz : (c.zip mx).map (·.1.m) = ms := by
      rw [← hc0, show (fun x : DLevel ℝ n × Nat => x.1.m) = (·.m) ∘ Prod.fst from rfl, ← List.map_map,
        List.map_fst_zip hlen.le]
    have hx : ∀ x ∈ c.zip mx, x.2 ≤ x.1.m := by
      have : List.Forall₂ (fun (r : Nat) (d : DLevel ℝ n) => r ≤ d.m) mx c := by
        rw [← hc0] at hmx
        simpa [List.forall₂_map_right_iff] using hmx
      clear hz hlen hmx ih hcs hc0 hc hs
      induction this with
      | nil => intro x hx; simp at hx
      | cons h1 h2 ih =>
        intro x hx
        rw [List.zip_cons_cons] at hx
        rcases List.mem_cons.1 hx with rfl | hx
        · exact h1
        · exact ih x hx
    have key : ∃ r mx' sg', sigmaDescend D byLevel thr (c.zip mx) dq = some (r, mx', sg') ∧
        List.Forall₂ (fun (x : DLevel ℝ n × Nat) r => r ≤ x.1.m) (c.zip mx) mx' := by
      rw [← hz] at hs
      generalize c.zip mx = l at hs hx
      match l, hs, hx with
      | [], _, _ => exact ⟨none, [], ⊤, rfl, .nil⟩
      | [(d, r)], hs, hx =>
        have hr : r ≤ d.m := hx _ (List.mem_cons_self ..)
        simp only [List.map_cons, List.map_nil, List.sum_cons, List.sum_nil] at hs
        obtain ⟨sg', e, -⟩ := (sigmaStep_spec (hD d.J).1 (hD d.J).2.2 r ⊤).1 (le_min hr (by omega))
        exact ⟨some ((D d.J).pinv *ᵥ (-d.e)), [max r (D d.J).rank], sg', by simp only [sigmaDescend, e, Option.map_some],
          .cons (max_le hr (hD d.J).1.rank_le.1) .nil⟩
      | a :: b :: l, hs, hx =>
        obtain ⟨dq', mx', sg', e, hf⟩ := loop_rows hD byLevel thr (a :: b :: l) true none ⊤ dq ⊤ rfl hx (by simpa using hs)
        exact ⟨some dq', mx', sg', by simp only [sigmaDescend, e, Option.map_some], hf⟩
    obtain ⟨r, mx', sg', e, hf⟩ := key
    have hf' : List.Forall₂ (· ≤ ·) mx' ms := by
      rw [← hz, List.forall₂_map_right_iff]
      exact hf.flip
    obtain ⟨a, b, e', h'⟩ := ih hcs mx' (r.getD dq) sg' hf'
    exact ⟨a, b, by simp only [sigmaCalls, e]; exact e', h'⟩

/-- **No access out of bounds** when the levels have altogether no more rows than there are free variables.
Missing: without this hypothesis, see `C119_bounds_refuted`. -/
theorem C119_bounds_partial {D : ∀ {m n : Nat}, Matrix (Fin m) (Fin n) ℝ → Svd ℝ m n} (hD : SvdSorted D) (byLevel : Bool)
    (thr : ℝ) {n : Nat} (ms : List Nat) (hs : ms.sum ≤ n) (calls : List (List (DLevel ℝ n)))
    (hc : ∀ c ∈ calls, c.map (·.m) = ms) (dq : Fin n → ℝ) (sg : WithTop ℝ) :
    sigmaCalls D byLevel thr calls (ms.map fun _ => 0) dq sg ≠ none := by
  obtain ⟨a, b, e, -⟩ := calls_rows hD byLevel thr ms hs calls hc (ms.map fun _ => 0) dq sg (by
    rw [List.forall₂_map_left_iff]; exact List.forall₂_same.2 fun _ _ => Nat.zero_le _)
  rw [e]
  simp

/-! ## Refutations -/

/-- Two levels on two variables: `(x² - 1) / 2` first, then `(x - 2, y)`. -/
noncomputable def sgLevels (q : Fin 2 → ℝ) : List (DLevel ℝ 2) :=
  [⟨1, !![q 0, 0], ![(q 0 ^ 2 - 1) / 2]⟩, ⟨2, 1, ![q 0 - 2, q 1]⟩]

theorem ker_zero : (⟨1, !![0, 0], ![-1 / 2]⟩ : DLevel ℝ 2).kernel = ⊤ := by
  rw [DLevel.kernel, LinearMap.ker_eq_top]
  ext i j
  fin_cases j; all_goals simp [mulVec, dotProduct]

theorem rankOn_val {n : Nat} {K K' : Submodule ℝ (Fin n → ℝ)} {d : DLevel ℝ n} (h : K ⊓ d.kernel = K') :
    rankOn K d = finrank ℝ K - finrank ℝ K' := by
  subst h; rfl

theorem ker_one (e : Fin 2 → ℝ) : (⟨2, 1, e⟩ : DLevel ℝ 2).kernel = ⊥ := by
  rw [DLevel.kernel]; simp

/-- The recorded rank of the second level is two after a first call at `(0, 1)`, where the first level has rank zero.  The step leads
to `(2, 0)`, where the first level has rank one: one variable is left to the second level, and `singularValues()[1]` is out of
bounds. -/
theorem C119_bounds_refuted {D : ∀ {m n : Nat}, Matrix (Fin m) (Fin n) ℝ → Svd ℝ m n} (hD : SvdSorted D) (thr : ℝ) :
    ∃ (levels : (Fin 2 → ℝ) → List (DLevel ℝ 2)) (q q' dq : Fin 2 → ℝ) (sg : WithTop ℝ),
      sigmaDescend D false thr ((levels q).zip [0, 0]) 0 = some (some dq, [0, 2], sg) ∧ q' = q + dq ∧
      sigmaDescend D false thr ((levels q').zip [0, 2]) dq = none ∧
      sigmaCalls D false thr [levels q, levels q'] [0, 0] 0 ⊤ = none := by
  have hl0 : (sgLevels ![0, 1]).zip [0, 0] = [((⟨1, !![0, 0], ![-1 / 2]⟩ : DLevel ℝ 2), 0), (⟨2, 1, ![-2, 1]⟩, 0)] := by
    simp [sgLevels]
  have hF : Fits ⊤ ((sgLevels ![0, 1]).zip [0, 0]) := by
    rw [hl0]
    simp [Fits]
  obtain ⟨dq, sg, e, -, -⟩ := (C119_levels hD thr _ (by rw [hl0]; simp) 0).1 hF
  have hn : newRanks ⊤ ((sgLevels ![0, 1]).zip [0, 0]) = [0, 2] := by
    rw [hl0]
    simp only [newRanks]
    have r1 : rankOn ⊤ (⟨1, !![0, 0], ![-1 / 2]⟩ : DLevel ℝ 2) = 0 := by
      rw [rankOn_val (K' := ⊤) (by rw [ker_zero, top_inf_eq])]; simp
    have r2 : rankOn ⊤ (⟨2, 1, ![-2, 1]⟩ : DLevel ℝ 2) = 2 := by
      rw [rankOn_val (K' := ⊥) (by rw [ker_one, inf_bot_eq])]; simp
    rw [r1, ker_zero, top_inf_eq]
    simp
    exact r2
  rw [hn] at e
  obtain ⟨hdir, -⟩ := C119_direction D false thr _ 0 e
  have hm : ((sgLevels ![0, 1]).zip [0, 0]).map (·.1) = [(⟨1, !![0, 0], ![-1 / 2]⟩ : DLevel ℝ 2), ⟨2, 1, ![-2, 1]⟩] := by
    rw [hl0]; rfl
  rw [hm] at hdir
  have hE := C93_decomposition D fun M => ⟨(hD M).1, (hD M).2.1⟩
  have hlex := C36_lexicographic (svdOps D) hE.1 thr _ 0 hdir.symm
  have hdq : dq = ![2, -1] := by
    have hcost := hlex.2 ![2, -1] ⟨trivial, fun y _ => by simp [DLevel.cost, dotProduct]⟩
    simp only [DLevel.cost, dotProduct, Fin.sum_univ_two, one_mulVec, Pi.add_apply, Matrix.cons_val_zero, Matrix.cons_val_one] at hcost
    have h0 : dq 0 = 2 := by nlinarith [mul_self_nonneg (dq 0 - 2), mul_self_nonneg (dq 1 + 1)]
    have h1 : dq 1 = -1 := by nlinarith [mul_self_nonneg (dq 0 - 2), mul_self_nonneg (dq 1 + 1)]
    funext i; fin_cases i <;> simp [h0, h1]
  have hq : (![0, 1] + dq : Fin 2 → ℝ) = ![2, 0] := by
    rw [hdq]; funext i; fin_cases i <;> simp
  have hnone : sigmaDescend D false thr ((sgLevels ![2, 0]).zip [0, 2]) dq = none := by
    refine (C119_levels hD thr _ (by simp [sgLevels]) dq).2 ?_
    have hk : (⟨1, !![2, 0], ![(2 ^ 2 - 1) / 2]⟩ : DLevel ℝ 2).kernel = Submodule.span ℝ {![0, 1]} := by
      ext v
      rw [Submodule.mem_span_singleton, DLevel.kernel, LinearMap.mem_ker]
      constructor
      · intro h
        have := congrFun h 0
        simp [mulVec, dotProduct, Fin.sum_univ_two] at this
        exact ⟨v 1, by funext i; fin_cases i <;> simp [this]⟩
      · rintro ⟨a, rfl⟩
        funext i; fin_cases i; simp [mulVec, dotProduct, Fin.sum_univ_two]
    have hv : (![0, 1] : Fin 2 → ℝ) ≠ 0 := fun h => by simpa using congrFun h 1
    have hK : (⊤ : Submodule ℝ (Fin 2 → ℝ)) ⊓ (⟨1, !![2, 0], ![(2 ^ 2 - 1) / 2]⟩ : DLevel ℝ 2).kernel = Submodule.span ℝ {![0, 1]} := by
      rw [hk, top_inf_eq]
    intro hF2
    obtain ⟨-, -, h4⟩ : _ ∧ _ ∧ ((⊤ : Submodule ℝ (Fin 2 → ℝ)) ⊓ (⟨1, !![2, 0], ![(2 ^ 2 - 1) / 2]⟩ : DLevel ℝ 2).kernel ≠ ⊥ →
        Fits (⊤ ⊓ (⟨1, !![2, 0], ![(2 ^ 2 - 1) / 2]⟩ : DLevel ℝ 2).kernel) [(⟨2, 1, ![2 - 2, 0]⟩, 2)]) := hF2
    obtain ⟨-, h5, -⟩ : _ ∧ 2 ≤ finrank ℝ ↥((⊤ : Submodule ℝ (Fin 2 → ℝ)) ⊓ (⟨1, !![2, 0], ![(2 ^ 2 - 1) / 2]⟩ : DLevel ℝ 2).kernel) ∧ _ :=
      h4 (by rw [hK]; simp)
    have h6 := h5.trans (Submodule.finrank_mono hK.le)
    rw [finrank_span_singleton hv] at h6
    omega
  refine ⟨sgLevels, ![0, 1], ![2, 0], dq, sg, e, hq.symm, hnone, ?_⟩
  simp only [sigmaCalls, e, Option.getD_some, hnone]

/-- The documentation says that `sigma` vanishes where the Jacobian is singular; on the first call (and as long as the rank has not
been greater) it does not. -/
theorem C119_singular_refuted {D : ∀ {m n : Nat}, Matrix (Fin m) (Fin n) ℝ → Svd ℝ m n} (hD : SvdSorted D) (byLevel : Bool)
    (thr : ℝ) (e : Fin 2 → ℝ) (dq : Fin 2 → ℝ) :
    ∃ J : Matrix (Fin 2) (Fin 2) ℝ, J.det = 0 ∧
      sigmaCalls D byLevel thr [[⟨2, J, e⟩]] [0] dq ⊤ = some ([1], ((1 : ℝ) : WithTop ℝ)) := by
  refine ⟨!![1, 0; 0, 0], by simp, ?_⟩
  set J : Matrix (Fin 2) (Fin 2) ℝ := !![1, 0; 0, 0] with hJ
  have hrk : J.rank = 1 := by
    have : J = diagonal ![1, 0] := by
      ext i k; fin_cases i <;> fin_cases k <;> simp [hJ]
    rw [this, rank_diagonal]
    rw [Fintype.card_eq_one_iff]
    refine ⟨⟨0, by simp⟩, ?_⟩
    rintro ⟨i, hi⟩
    fin_cases i
    · rfl
    · simp at hi
  obtain ⟨R, sg, h1, h2, ⟨k, hk, h3⟩, -, h5⟩ := C119_one_level hD byLevel thr [] (J, e) dq ⊤
  simp only [List.nil_append, List.mem_singleton] at hk
  subst hk
  have hR : R = 1 := h3.symm.trans hrk
  subst hR
  obtain ⟨x, rfl, hx, -, hg⟩ := h5 one_pos
  obtain ⟨-, w, hw, hg⟩ := hg hrk
  have hx1 : x = 1 := by
    have e1 : Jᵀ *ᵥ w = ![w 0, 0] := by
      funext i; fin_cases i <;> simp [hJ, mulVec, dotProduct, Fin.sum_univ_two]
    have e2 : J *ᵥ ![w 0, 0] = ![w 0, 0] := by
      funext i; fin_cases i <;> simp [hJ, mulVec, dotProduct, Fin.sum_univ_two]
    rw [e1] at hw
    rw [e1, e2] at hg
    have hw0 : w 0 ≠ 0 := fun h => hw (by funext i; fin_cases i <;> simp [h])
    simp only [dotProduct, Fin.sum_univ_two, Matrix.cons_val_zero, Matrix.cons_val_one, mul_zero, add_zero] at hg
    have : x ^ 2 = 1 := mul_right_cancel₀ (mul_ne_zero hw0 hw0) (by linarith)
    nlinarith
  subst hx1
  exact h1

/-- Decompositions as assumed exist. -/
theorem exists_svdSorted : ∃ D : ∀ {m n : Nat}, Matrix (Fin m) (Fin n) ℝ → Svd ℝ m n, SvdSorted D := by
  choose D hD using fun (m n : Nat) (M : Matrix (Fin m) (Fin n) ℝ) => exists_svd_sorted M
  exact ⟨fun {m n} M => D m n M, fun {m n} M => ⟨(hD m n M).1, (hD m n M).2.2⟩⟩

/-- Two calls with one level, the second one at a configuration where the rank has dropped: `sigma_` is zero. -/
example : ∃ D : ∀ {m n : Nat}, Matrix (Fin m) (Fin n) ℝ → Svd ℝ m n, SvdSorted D ∧
    sigmaCalls D false 0 [[⟨1, !![1], ![1]⟩], [⟨1, !![0], ![1]⟩]] [0] (0 : Fin 1 → ℝ) ⊤ = some ([1], 0) := by
  obtain ⟨D, hD⟩ := exists_svdSorted
  refine ⟨D, hD, ?_⟩
  have r1 : (!![1] : Matrix (Fin 1) (Fin 1) ℝ).rank = 1 := by
    rw [show (!![1] : Matrix (Fin 1) (Fin 1) ℝ) = 1 by ext i j; fin_cases i; fin_cases j; simp, rank_one]; simp
  have r0 : (!![0] : Matrix (Fin 1) (Fin 1) ℝ).rank = 0 := by
    rw [show (!![0] : Matrix (Fin 1) (Fin 1) ℝ) = 0 by ext i j; fin_cases i; fin_cases j; simp, rank_zero]
  obtain ⟨R, sg, h1, h2, ⟨k, hk, h3⟩, -, h5⟩ := C119_one_level hD false 0 [(!![1], ![1])] (!![0], ![1]) (0 : Fin 1 → ℝ) ⊤
  have hR : R = 1 := by
    have := h2 (!![1], ![1]) (by simp)
    rw [r1] at this
    simp only [List.cons_append, List.nil_append, List.mem_cons, List.not_mem_nil, or_false] at hk
    rcases hk with rfl | rfl
    · exact h3.symm.trans r1
    · rw [r0] at h3; omega
  subst hR
  obtain ⟨x, rfl, -, hx, -⟩ := h5 one_pos
  have : x = 0 := hx.2 (by rw [r0]; exact one_pos)
  subst this
  exact h1

end Hpp
