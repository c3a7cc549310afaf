import Verif.Solve.LocalSat

/-!
# Linear equations and bounds: C110

Source: `/repo/include/hpp/constraints/solver/impl/hierarchical-iterative.hh`, lines 128-181 (`solve`), and
`/repo/src/solver/hierarchical-iterative.cc`, lines 653-672 (`computeSaturation`), 712-719 (`integrate`), 744-774
(`computeDescentDirection`, one level).
-/

namespace Hpp

open Matrix

variable {S : Type}

/-- The equation `a ⬝ q = c` as a constraint of the solver. -/
def eqLevel {n : Nat} (a : Fin n → ℝ) (c : ℝ) : NLevel (Fin n → ℝ) ℝ n where
  m := 1
  J _ := fun _ j => a j
  err q := fun _ => a ⬝ᵥ q - c
  nc := 1
  blk := fun _ => 0

theorem eqLevel_sqNorm {n : Nat} (entries : List (SatEntry ℝ)) (sat0 : Nat → Int) (a : Fin n → ℝ) (c : ℝ) (q : Fin n → ℝ) :
    nSqNorm false [satNLevel entries sat0 (eqLevel a c)] q = (a ⬝ᵥ q - c) ^ 2 := by
  have : (satNLevel entries sat0 (eqLevel a c)).norms q = [(a ⬝ᵥ q - c) * (a ⬝ᵥ q - c)] := by
    unfold NLevel.norms
    show (List.finRange 1).map (fun k => ∑ i : Fin 1, if (0 : Fin 1) = k then (a ⬝ᵥ q - c) * (a ⬝ᵥ q - c) else 0) = _
    simp [List.finRange_succ]
  unfold nSqNorm
  simp only [Bool.false_eq_true, if_false, List.flatMap_cons, List.flatMap_nil, List.append_nil, this, List.foldl_cons,
    List.foldl_nil]
  rw [max_eq_right (mul_self_nonneg _), sq]

/-- What clipping does to a step. -/
theorem clip_tau (lb ub x r b : ℝ) (hlu : lb < ub) (h1 : lb ≤ x) (h2 : x ≤ ub) (hb : 0 ≤ b) :
    ∃ t : ℝ, 0 ≤ t ∧ t ≤ b ∧ max lb (min (x + b * r) ub) = x + t * r ∧
      (t = b ∨ (max lb (min (x + b * r) ub) = ub ∧ 0 < r) ∨ (max lb (min (x + b * r) ub) = lb ∧ r < 0)) := by
  rcases lt_or_ge ub (x + b * r) with h | h
  · have hr : 0 < r := by
      by_contra hr
      have := mul_nonneg hb (neg_nonneg.2 (not_lt.1 hr))
      linarith
    have e : max lb (min (x + b * r) ub) = ub := by rw [min_eq_right h.le, max_eq_right hlu.le]
    refine ⟨(ub - x) / r, div_nonneg (by linarith) hr.le, ?_, ?_, Or.inr (Or.inl ⟨e, hr⟩)⟩
    · rw [div_le_iff₀ hr]; linarith
    · rw [e, div_mul_cancel₀ _ hr.ne']; ring
  · rcases lt_or_ge (x + b * r) lb with h' | h'
    · have hr : r < 0 := by
        by_contra hr
        have := mul_nonneg hb (not_lt.1 hr)
        linarith
      have e : max lb (min (x + b * r) ub) = lb := by rw [min_eq_left h, max_eq_left h'.le]
      refine ⟨(lb - x) / r, div_nonneg_of_nonpos (by linarith) hr.le, ?_, ?_, Or.inr (Or.inr ⟨e, hr⟩)⟩
      · rw [div_le_iff_of_neg hr]; linarith
      · rw [e, div_mul_cancel₀ _ hr.ne]; ring
    · exact ⟨b, hb, le_refl _, by rw [min_eq_left h, max_eq_right h'], Or.inl rfl⟩

/-- Coordinates at the bound towards which an error `e` pushes them. -/
def Exhausted {n : Nat} (entries : List (SatEntry ℝ)) (a q : Fin n → ℝ) (e : ℝ) (j : Fin n) : Prop :=
  ∃ b ∈ entries, b.iq = j ∧ ((q j = b.lb ∧ 0 < a j * e) ∨ (q j = b.ub ∧ a j * e < 0))

section
variable {n : Nat} {entries : List (SatEntry ℝ)}

theorem blocked_iff (h : BoxEntries n entries) {a q s : Fin n → ℝ} {c : ℝ} (hs : BoxFlags entries (coords q) s) (j : Fin n) :
    s j * (((eqLevel a c).at q).Jᵀ *ᵥ ((eqLevel a c).at q).e) j < 0 ↔ Exhausted entries a q (a ⬝ᵥ q - c) j := by
  have hg : (((eqLevel a c).at q).Jᵀ *ᵥ ((eqLevel a c).at q).e) j = a j * (a ⬝ᵥ q - c) := by
    show ∑ i : Fin 1, a j * (a ⬝ᵥ q - c) = _
    simp
  rw [hg]
  have hc : coords q j = q j := by simp [coords]
  constructor
  · intro hneg
    rcases hs.cases j with h0 | ⟨h1, e, he, hej, hq⟩ | ⟨h1, e, he, hej, hq⟩
    · rw [h0] at hneg; simp at hneg
    · refine ⟨e, he, hej, Or.inr ⟨?_, ?_⟩⟩
      · rw [hej, hc] at hq; exact hq
      · rw [h1] at hneg; linarith
    · refine ⟨e, he, hej, Or.inl ⟨?_, ?_⟩⟩
      · rw [hej, hc] at hq; exact hq
      · rw [h1] at hneg; linarith
  · rintro ⟨e, he, hej, hx⟩
    have hn := h.lt e he
    have hfin : (⟨e.iq, hn⟩ : Fin n) = j := Fin.ext hej
    rcases hx with ⟨hq, hx⟩ | ⟨hq, hx⟩
    · have := hs.lb e he hn (by rw [hej, hc]; exact hq)
      rw [hfin] at this
      rw [this]; linarith
    · have := hs.ub e he hn (by rw [hej, hc]; exact hq)
      rw [hfin] at this
      rw [this]; linarith

/-- One iteration.  `a'` is the row once columns have been set to zero. -/
theorem eq_step (h : BoxEntries n entries) (a a' q r : Fin n → ℝ) (e w N b : ℝ) (hq : InBounds entries (coords q))
    (ha1 : ∀ j, Exhausted entries a q e j → a' j = 0) (ha2 : ∀ j, ¬ Exhausted entries a q e j → a' j = a j)
    (hr : ∀ j, r j = w * a' j) (hN : ∑ j, a' j ^ 2 = N) (hN0 : 0 < N) (hw : w * N = -e) (hb0 : 0 ≤ b) (hb1 : b ≤ 1)
    (e' : ℝ) (he' : e' - e = ∑ j, a j * (plusSat entries q (b • r) j - q j)) :
    InBounds entries (coords (plusSat entries q (b • r))) ∧
    (∃ κ : ℝ, 0 ≤ κ ∧ κ ≤ 1 ∧ e' = (1 - κ) * e ∧ (0 < b → 0 < κ)) ∧
    (e' ≠ 0 → ∀ j, Exhausted entries a q e j → Exhausted entries a (plusSat entries q (b • r)) e' j) ∧
    (e' = (1 - b) * e ∨
      (e' ≠ 0 → ∃ j, ¬ Exhausted entries a q e j ∧ Exhausted entries a (plusSat entries q (b • r)) e' j)) := by
  have htau : ∀ j : Fin n, ∃ t : ℝ, 0 ≤ t ∧ t ≤ b ∧ plusSat entries q (b • r) j = q j + t * r j ∧
      (t = b ∨ ∃ m ∈ entries, m.iq = j ∧ ((plusSat entries q (b • r) j = m.ub ∧ 0 < r j) ∨
        (plusSat entries q (b • r) j = m.lb ∧ r j < 0))) := by
    intro j
    rcases plusSat_coord h q (b • r) j with ⟨m, hm, hmj, hv⟩ | ⟨-, hv⟩
    · have hin := hq m hm
      have hc : coords q m.iq = q j := by rw [hmj]; simp [coords]
      rw [hc] at hin
      obtain ⟨t, h0, h1, h2, h3⟩ := clip_tau m.lb m.ub (q j) (r j) b (h.bounds m hm) hin.1 hin.2 hb0
      have hv' : plusSat entries q (b • r) j = max m.lb (min (q j + b * r j) m.ub) := hv
      refine ⟨t, h0, h1, hv'.trans h2, ?_⟩
      rcases h3 with h3 | h3
      · exact Or.inl h3
      · right; refine ⟨m, hm, hmj, ?_⟩; rw [hv']; exact h3
    · exact ⟨b, hb0, le_refl _, hv, Or.inl rfl⟩
  choose t ht0 ht1 htq htc using htau
  have haa : ∀ j, a j * a' j = a' j ^ 2 := by
    intro j
    by_cases hx : Exhausted entries a q e j
    · rw [ha1 j hx]; ring
    · rw [ha2 j hx]; ring
  have hsum : N * e' = (N - ∑ j, t j * a' j ^ 2) * e := by
    have h1 : e' = e + w * ∑ j, t j * a' j ^ 2 := by
      rw [Finset.mul_sum]
      have : ∑ j, a j * (plusSat entries q (b • r) j - q j) = ∑ j, w * (t j * a' j ^ 2) := by
        refine Finset.sum_congr rfl fun j _ => ?_
        rw [htq, hr, ← haa]; ring
      linarith
    rw [h1]
    linear_combination (∑ j, t j * a' j ^ 2) * hw
  have hs0 : 0 ≤ ∑ j, t j * a' j ^ 2 := Finset.sum_nonneg fun j _ => mul_nonneg (ht0 j) (sq_nonneg _)
  have hs1 : ∑ j, t j * a' j ^ 2 ≤ N := by
    rw [← hN]
    refine Finset.sum_le_sum fun j _ => ?_
    have := mul_le_mul_of_nonneg_right ((ht1 j).trans hb1) (sq_nonneg (a' j))
    linarith
  have hpos : 0 < b → 0 < ∑ j, t j * a' j ^ 2 := by
    intro hb
    have hex : ∃ j, a' j ≠ 0 := by
      by_contra hc
      push Not at hc
      rw [← hN] at hN0
      simp [hc] at hN0
    obtain ⟨j, hj⟩ := hex
    have htj : 0 < t j := by
      rcases htc j with h' | ⟨m, hm, hmj, h'⟩
      · rw [h']; exact hb
      · refine lt_of_le_of_ne (ht0 j) fun h0 => ?_
        have hnot : ¬ Exhausted entries a q e j := fun hx => hj (ha1 j hx)
        have haj := ha2 j hnot
        have hre : N * r j = -(a j * e) := by
          rw [hr, haj]; linear_combination (a j) * hw
        have hqj : plusSat entries q (b • r) j = q j := by rw [htq, ← h0]; ring
        rw [hqj] at h'
        apply hnot
        refine ⟨m, hm, hmj, ?_⟩
        rcases h' with ⟨h1, h2⟩ | ⟨h1, h2⟩
        · exact Or.inr ⟨h1, by nlinarith⟩
        · exact Or.inl ⟨h1, by nlinarith⟩
    exact Finset.sum_pos' (fun j _ => mul_nonneg (ht0 j) (sq_nonneg _))
      ⟨j, Finset.mem_univ _, mul_pos htj (by positivity)⟩
  have hκ : e' = (1 - (∑ j, t j * a' j ^ 2) / N) * e := by
    have : N * e' = N * ((1 - (∑ j, t j * a' j ^ 2) / N) * e) := by
      rw [hsum]; field_simp
    exact mul_left_cancel₀ hN0.ne' this
  have hκ0 := div_nonneg hs0 hN0.le
  have hκ1 := (div_le_one hN0).2 hs1
  have hsign : ∀ x : ℝ, e' ≠ 0 → (0 < x * e → 0 < x * e') ∧ (x * e < 0 → x * e' < 0) := by
    intro x hne
    have hlt : 0 < 1 - (∑ j, t j * a' j ^ 2) / N := by
      rcases eq_or_lt_of_le (sub_nonneg.2 hκ1) with h' | h'
      · rw [← h', zero_mul] at hκ; exact absurd hκ hne
      · exact h'
    rw [hκ]
    constructor <;> intro hx <;> nlinarith
  refine ⟨?_, ⟨_, hκ0, hκ1, hκ, fun hb => div_pos (hpos hb) hN0⟩, ?_, ?_⟩
  · intro m hm
    have hn := h.lt m hm
    have hc : coords (plusSat entries q (b • r)) m.iq = integrateSat plusVec entries (coords q) (b • r) m.iq := by
      simp [coords, hn, plusSat]
    rw [hc, (step_coord h.ok (coords q) (b • r)).1 m hm hn]
    exact ⟨le_max_left _ _, max_le (h.bounds m hm).le (min_le_right _ _)⟩
  · rintro hne j hj
    have hz : r j = 0 := by rw [hr, ha1 j hj, mul_zero]
    have hqj : plusSat entries q (b • r) j = q j := by rw [htq, hz]; ring
    obtain ⟨m, hm, hmj, hx⟩ := hj
    refine ⟨m, hm, hmj, ?_⟩
    rw [hqj]
    rcases hx with ⟨h1, h2⟩ | ⟨h1, h2⟩
    · exact Or.inl ⟨h1, (hsign _ hne).1 h2⟩
    · exact Or.inr ⟨h1, (hsign _ hne).2 h2⟩
  · by_cases hall : ∀ j, a' j = 0 ∨ t j = b
    · left
      have : ∑ j, t j * a' j ^ 2 = b * N := by
        rw [← hN, Finset.mul_sum]
        refine Finset.sum_congr rfl fun j _ => ?_
        rcases hall j with h' | h'
        · rw [h']; ring
        · rw [h']
      rw [hκ, this, mul_div_cancel_right₀ _ hN0.ne']
    · right
      intro hne
      push Not at hall
      obtain ⟨j, hj1, hj2⟩ := hall
      have hnot : ¬ Exhausted entries a q e j := fun hx => hj1 (ha1 j hx)
      refine ⟨j, hnot, ?_⟩
      rcases htc j with h' | ⟨m, hm, hmj, h'⟩
      · exact absurd h' hj2
      · refine ⟨m, hm, hmj, ?_⟩
        have haj := ha2 j hnot
        have hre : N * r j = -(a j * e) := by
          rw [hr, haj]; linear_combination (a j) * hw
        rcases h' with ⟨h1, h2⟩ | ⟨h1, h2⟩
        · exact Or.inr ⟨h1, (hsign _ hne).2 (by nlinarith)⟩
        · exact Or.inl ⟨h1, (hsign _ hne).1 (by nlinarith)⟩

/-- Direction computed for one equation. -/
theorem eq_dir {o : SvdOps ℝ} (ho : o.Exact) (byLevel : Bool) (thr : ℝ) (h : BoxEntries n entries) (sat0 : Nat → Int)
    (h0 : ∀ i, (∀ e ∈ entries, e.iq ≠ i) → sat0 i = 0) (a : Fin n → ℝ) (c : ℝ) (q : Fin n → ℝ)
    (hq : InBounds entries (coords q)) (hx : ∃ x : Fin n → ℝ, InBounds entries (coords x) ∧ a ⬝ᵥ x = c)
    (hne : a ⬝ᵥ q - c ≠ 0) (dq : Fin n → ℝ) :
    ∃ (a' r : Fin n → ℝ) (w N : ℝ),
      descend o byLevel thr [(satNLevel entries sat0 (eqLevel a c)).at q] dq = some r ∧
      (∀ j, Exhausted entries a q (a ⬝ᵥ q - c) j → a' j = 0) ∧ (∀ j, ¬ Exhausted entries a q (a ⬝ᵥ q - c) j → a' j = a j) ∧
      (∀ j, r j = w * a' j) ∧ ∑ j, a' j ^ 2 = N ∧ 0 < N ∧ w * N = -(a ⬝ᵥ q - c) := by
  classical
  obtain ⟨s, hs, he⟩ := computeSat_flags h sat0 h0 (coords q) hq ((eqLevel a c).at q)
  rw [satNLevel_at, he]
  set e := a ⬝ᵥ q - c with hedef
  set a' : Fin n → ℝ := fun j => if Exhausted entries a q e j then 0 else a j with ha'
  have hJ : ∀ i j, (satLevel s ((eqLevel a c).at q)).J i j = a' j := by
    intro i j
    show (if s j * (((eqLevel a c).at q).Jᵀ *ᵥ ((eqLevel a c).at q).e) j < 0 then 0 else a j) = _
    rw [if_congr (blocked_iff h hs j) rfl rfl]
  have ha1 : ∀ j, Exhausted entries a q e j → a' j = 0 := fun j hj => by simp [ha', hj]
  have ha2 : ∀ j, ¬ Exhausted entries a q e j → a' j = a j := fun j hj => by simp [ha', hj]
  have hN0 : 0 < ∑ j, a' j ^ 2 := by
    have hnn : 0 ≤ ∑ j, a' j ^ 2 := Finset.sum_nonneg fun j _ => sq_nonneg _
    refine lt_of_le_of_ne hnn fun hz => ?_
    have hz' : ∀ j, a' j = 0 := by
      intro j
      have := (Finset.sum_eq_zero_iff_of_nonneg fun j _ => sq_nonneg (a' j)).1 hz.symm j (Finset.mem_univ _)
      exact pow_eq_zero_iff two_ne_zero |>.1 this
    obtain ⟨x, hx1, hx2⟩ := hx
    have hsum : e * e = ∑ j, a j * e * (q j - x j) := by
      have : e = ∑ j, a j * (q j - x j) := by
        rw [hedef, ← hx2]
        simp only [dotProduct, mul_sub, Finset.sum_sub_distrib]
      calc e * e = (∑ j, a j * (q j - x j)) * e := by rw [← this]
        _ = _ := by rw [Finset.sum_mul]; exact Finset.sum_congr rfl fun j _ => by ring
    have hle : ∑ j, a j * e * (q j - x j) ≤ 0 := by
      refine Finset.sum_nonpos fun j _ => ?_
      by_cases hj : Exhausted entries a q e j
      · obtain ⟨m, hm, hmj, hb⟩ := hj
        have hin := hx1 m hm
        have hc : coords x m.iq = x j := by rw [hmj]; simp [coords]
        rw [hc] at hin
        rcases hb with ⟨h1, h2⟩ | ⟨h1, h2⟩
        · rw [h1]; nlinarith [hin.1]
        · rw [h1]; nlinarith [hin.2]
      · have := hz' j
        rw [ha2 j hj] at this
        rw [this]; simp
    have : e = 0 := by nlinarith
    exact hne this
  have hJ0 : ∀ j, (satLevel s ((eqLevel a c).at q)).J (0 : Fin 1) j = a' j := fun j => hJ _ j
  obtain ⟨w, hw⟩ : ∃ w : Fin 1 → ℝ, o.solve (satLevel s ((eqLevel a c).at q)).J (-(satLevel s ((eqLevel a c).at q)).e) =
      (satLevel s ((eqLevel a c).at q)).Jᵀ *ᵥ w :=
    ho.range (satLevel s ((eqLevel a c).at q)).J (-(satLevel s ((eqLevel a c).at q)).e)
  have hf := (solve_facts ho (satLevel s ((eqLevel a c).at q))).1
  set r := o.solve (satLevel s ((eqLevel a c).at q)).J (-(satLevel s ((eqLevel a c).at q)).e) with hrdef
  have hr : ∀ j, r j = w 0 * a' j := by
    intro j
    rw [hw]
    show ∑ i : Fin 1, (satLevel s ((eqLevel a c).at q)).J i j * w i = _
    rw [Fin.sum_univ_one, hJ0]
    ring
  refine ⟨a', r, w 0, _, rfl, ha1, ha2, hr, rfl, hN0, ?_⟩
  have hex : ∃ j, a' j ≠ 0 := by
    by_contra hc
    push Not at hc
    simp [hc] at hN0
  obtain ⟨j, hj⟩ := hex
  have h1 := congrFun hf j
  have h2 : a' j * (∑ i, a' i * r i + e) = 0 := by
    refine Eq.trans ?_ h1
    show _ = ∑ i : Fin 1, (satLevel s ((eqLevel a c).at q)).J i j *
      ((∑ k, (satLevel s ((eqLevel a c).at q)).J i k * r k) + e)
    rw [Fin.sum_univ_one, hJ0]
    simp only [hJ0]
  have h3 : ∑ i, a' i * r i + e = 0 := (mul_eq_zero.1 h2).resolve_left hj
  have h4 : ∑ i, a' i * r i = w 0 * ∑ i, a' i ^ 2 := by
    rw [Finset.mul_sum]
    exact Finset.sum_congr rfl fun i _ => by rw [hr]; ring
  linarith

end

/-- Specification: what is known after `k` iterations. -/
structure EqState {n : Nat} (entries : List (SatEntry ℝ)) (a : Fin n → ℝ) (c bmin e0 : ℝ) (k : Nat) (q : Fin n → ℝ) : Prop where
  bounds : InBounds entries (coords q)
  rate : ∃ C : Finset (Fin n), (∀ j ∈ C, Exhausted entries a q (a ⬝ᵥ q - c) j) ∧ C.card ≤ k ∧
    |a ⬝ᵥ q - c| ≤ (1 - bmin) ^ (k - C.card) * e0

section
variable {n : Nat} {entries : List (SatEntry ℝ)}

theorem eq_next {o : SvdOps ℝ} (ho : o.Exact) (byLevel : Bool) (thr : ℝ) (h : BoxEntries n entries) (sat0 : Nat → Int)
    (h0 : ∀ i, (∀ e ∈ entries, e.iq ≠ i) → sat0 i = 0) (a : Fin n → ℝ) (c : ℝ)
    (hx : ∃ x : Fin n → ℝ, InBounds entries (coords x) ∧ a ⬝ᵥ x = c) (bmin e0 b : ℝ) (hbm : 0 < bmin) (hb : bmin ≤ b)
    (hb1 : b ≤ 1) (he0 : 0 ≤ e0) (k : Nat) (q : Fin n → ℝ) (hq : EqState entries a c bmin e0 k q)
    (hne : a ⬝ᵥ q - c ≠ 0) (dq : Fin n → ℝ) {r : Fin n → ℝ}
    (hr : descend o byLevel thr [(satNLevel entries sat0 (eqLevel a c)).at q] dq = some r) :
    EqState entries a c bmin e0 (k + 1) (plusSat entries q (b • r)) ∧
    |a ⬝ᵥ plusSat entries q (b • r) - c| < |a ⬝ᵥ q - c| ∧ a ⬝ᵥ (q + r) = c := by
  classical
  obtain ⟨a', r', w, N, hr', ha1, ha2, hrw, hN, hN0, hw⟩ := eq_dir ho byLevel thr h sat0 h0 a c q hq.bounds hx hne dq
  obtain rfl : r = r' := Option.some.inj (hr.symm.trans hr')
  have hdiff : (a ⬝ᵥ plusSat entries q (b • r) - c) - (a ⬝ᵥ q - c) =
      ∑ j, a j * (plusSat entries q (b • r) j - q j) := by
    simp only [dotProduct, mul_sub, Finset.sum_sub_distrib]
    ring
  obtain ⟨g1, ⟨κ, hκ0, hκ1, hκ, hκp⟩, g3, g4⟩ := eq_step h a a' q r (a ⬝ᵥ q - c) w N b hq.bounds ha1 ha2 hrw hN hN0 hw
    (hbm.le.trans hb) hb1 _ hdiff
  have hκpos := hκp (hbm.trans_le hb)
  obtain ⟨C, hC1, hC2, hC3⟩ := hq.rate
  set e := a ⬝ᵥ q - c with he
  set e' := a ⬝ᵥ plusSat entries q (b • r) - c with he'
  have habs : |e'| = (1 - κ) * |e| := by
    rw [hκ, abs_mul, abs_of_nonneg (sub_nonneg.2 hκ1)]
  have hpos : 0 < |e| := abs_pos.2 hne
  refine ⟨⟨g1, ?_⟩, by rw [habs]; nlinarith, ?_⟩
  · by_cases hz : e' = 0
    · refine ⟨∅, by simp, by simp, ?_⟩
      rw [← he', hz, abs_zero]
      exact mul_nonneg (pow_nonneg (by linarith) _) he0
    rcases g4 with g4 | g4
    · refine ⟨C, fun j hj => g3 hz j (hC1 j hj), by omega, ?_⟩
      rw [show k + 1 - C.card = k - C.card + 1 by omega, pow_succ, ← he', g4, abs_mul, abs_of_nonneg (by linarith)]
      calc (1 - b) * |e| ≤ (1 - bmin) * |e| := mul_le_mul_of_nonneg_right (by linarith) (abs_nonneg _)
        _ ≤ (1 - bmin) * ((1 - bmin) ^ (k - C.card) * e0) := mul_le_mul_of_nonneg_left hC3 (by linarith)
        _ = _ := by ring
    · obtain ⟨j, hj1, hj2⟩ := g4 hz
      have hjC : j ∉ C := fun hj => hj1 (hC1 j hj)
      refine ⟨insert j C, ?_, ?_, ?_⟩
      · intro i hi
        rcases Finset.mem_insert.1 hi with rfl | hi
        · exact hj2
        · exact g3 hz i (hC1 i hi)
      · rw [Finset.card_insert_of_notMem hjC]; omega
      · rw [Finset.card_insert_of_notMem hjC, show k + 1 - (C.card + 1) = k - C.card by omega, ← he', habs]
        refine le_trans ?_ hC3
        nlinarith
  · have haa : ∀ j, a j * r j = w * a' j ^ 2 := by
      intro j
      rw [hrw]
      by_cases hx : Exhausted entries a q e j
      · rw [ha1 j hx]; ring
      · rw [ha2 j hx]; ring
    have : a ⬝ᵥ r = -e := by
      rw [← hw, ← hN, Finset.mul_sum]
      exact Finset.sum_congr rfl fun j _ => haa j
    rw [dotProduct_add, this, he]
    ring

/-- The rate, as long as the error is not zero. -/
theorem EqState.err {o : SvdOps ℝ} (ho : o.Exact) (h : BoxEntries n entries) {a : Fin n → ℝ} {c bmin e0 : ℝ}
    (hx : ∃ x : Fin n → ℝ, InBounds entries (coords x) ∧ a ⬝ᵥ x = c) (h1 : bmin ≤ 1) (hb : 0 < bmin) (he0 : 0 ≤ e0) {k : Nat} {q : Fin n → ℝ}
    (hq : EqState entries a c bmin e0 k q) : |a ⬝ᵥ q - c| ≤ (1 - bmin) ^ (k + 1 - n) * e0 := by
  by_cases hz : a ⬝ᵥ q - c = 0
  · rw [hz, abs_zero]
    exact mul_nonneg (pow_nonneg (by linarith) _) he0
  obtain ⟨a', r, w, N, -, ha1, -, -, hN, hN0, -⟩ := eq_dir ho false 0 h (fun _ => 0) (fun _ _ => rfl) a c q hq.bounds hx hz 0
  obtain ⟨C, hC1, hC2, hC3⟩ := hq.rate
  have hlt : C.card < n := by
    have hle := Finset.card_le_univ C
    rw [Fintype.card_fin] at hle
    refine lt_of_le_of_ne hle fun h' => ?_
    have huniv : C = Finset.univ := (Finset.card_eq_iff_eq_univ C).1 (by rw [h', Fintype.card_fin])
    have : ∑ j, a' j ^ 2 = 0 := Finset.sum_eq_zero fun j hj => by
      rw [ha1 j (hC1 j (by rw [huniv]; exact hj))]; ring
    linarith
  refine hC3.trans (mul_le_mul_of_nonneg_right (pow_le_pow_of_le_one (by linarith) (by linarith) (by omega)) he0)

/-- C110. One linear equation that has a solution within the bounds, configurations within the bounds, any line search of the
library (steps in `[bmin, 1]`): the solver that blocks variables at a bound and saturates after each integration decreases the error
at each iteration, stays within the bounds, and converges; each variable costs at most one iteration in which the rate
`1 - bmin` is not reached.  INFEASIBLE is returned only if the equation has a solution closer than the
smallest step accepted. -/
theorem C110_one_equation (o : SvdOps ℝ) (ho : o.Exact) (byLevel : Bool) (thr dqMin : ℝ) (ht : 0 ≤ thr)
    (entries : List (SatEntry ℝ)) (h : BoxEntries n entries) (sat0 : Nat → Int)
    (h0 : ∀ i, (∀ e ∈ entries, e.iq ≠ i) → sat0 i = 0) (a : Fin n → ℝ) (c : ℝ) (q : Fin n → ℝ)
    (hq : InBounds entries (coords q)) (hx : ∃ x : Fin n → ℝ, InBounds entries (coords x) ∧ a ⬝ᵥ x = c)
    (I : S → Prop) (bmin : ℝ) (hbm : 0 < bmin) (hbm1 : bmin ≤ 1)
    (ls : S → (Fin n → ℝ) → (Fin n → ℝ) → S × LsOut (Fin n → ℝ) (Fin n → ℝ))
    (hls : StepsIn (plusSat entries) I bmin ls) (maxIter : Nat) (dq : Fin n → ℝ) (s : S) (hs : I s) :
    let r := solve (newtonOps o byLevel false thr [satNLevel entries sat0 (eqLevel a c)] ls) thr dqMin maxIter n q (dq, s)
    InBounds entries (coords r.arg) ∧
    |a ⬝ᵥ r.arg - c| ≤ (1 - bmin) ^ (r.iter + 1 - n) * |a ⬝ᵥ q - c| ∧
    (r.status = some .success ∨
      (r.status = some .maxIterationReached ∧ thr < ((1 - bmin) ^ (maxIter + 1 - n) * |a ⬝ᵥ q - c|) ^ 2) ∨
      (r.status = some .infeasible ∧ ∃ v : Fin n → ℝ, a ⬝ᵥ (r.arg + v) = c ∧ v ⬝ᵥ v < dqMin)) := by
  intro r
  set O := newtonOps o byLevel false thr [satNLevel entries sat0 (eqLevel a c)] ls with hO
  have hnorm : ∀ q, O.norm q = (a ⬝ᵥ q - c) ^ 2 := fun q => eqLevel_sqNorm entries sat0 a c q
  have hdir : ∀ q (m : (Fin n → ℝ) × S), ∃ u : Fin n → ℝ,
      descend o byLevel thr [(satNLevel entries sat0 (eqLevel a c)).at q] m.1 = some u ∧
      O.dir q m = ((u, m.2), u ⬝ᵥ u) := fun q m => ⟨_, rfl, rfl⟩
  obtain ⟨h1, h2, h3, h4, h5, h6, h7⟩ := C29_statuses O thr dqMin maxIter n q (dq, s)
  have hr : r = solve O thr dqMin maxIter n q (dq, s) := rfl
  rw [← hr] at h1 h2 h3 h4 h5 h6 h7
  have hnz : ∀ x : Fin n → ℝ, thr < O.norm x → a ⬝ᵥ x - c ≠ 0 := by
    intro x hlt hz
    rw [hnorm, hz] at hlt
    norm_num at hlt
    linarith
  have hstep : ∀ k, EqState entries a c bmin |a ⬝ᵥ q - c| k (traj O q (dq, s) k).1 → I (traj O q (dq, s) k).2.2 →
      a ⬝ᵥ (traj O q (dq, s) k).1 - c ≠ 0 →
      EqState entries a c bmin |a ⬝ᵥ q - c| (k + 1) (traj O q (dq, s) (k + 1)).1 ∧ I (traj O q (dq, s) (k + 1)).2.2 ∧
      |a ⬝ᵥ (traj O q (dq, s) (k + 1)).1 - c| < |a ⬝ᵥ (traj O q (dq, s) k).1 - c| ∧
      ∃ u : Fin n → ℝ, (O.dir (traj O q (dq, s) k).1 (traj O q (dq, s) k).2).2 = u ⬝ᵥ u ∧
        a ⬝ᵥ ((traj O q (dq, s) k).1 + u) = c := by
    intro k hk hI hne
    obtain ⟨u, hu, hd⟩ := hdir (traj O q (dq, s) k).1 (traj O q (dq, s) k).2
    obtain ⟨hI', b, hb, hb1, harg⟩ := hls (traj O q (dq, s) k).2.2 (traj O q (dq, s) k).1 u hI
    obtain ⟨g1, g2, g3⟩ := eq_next ho byLevel thr h sat0 h0 a c hx bmin _ b hbm hb hb1 (abs_nonneg _) k _ hk hne _ hu
    have ht1 : (traj O q (dq, s) (k + 1)).1 = plusSat entries (traj O q (dq, s) k).1 (b • u) := by
      show (O.search (traj O q (dq, s) k).1 (O.dir (traj O q (dq, s) k).1 (traj O q (dq, s) k).2).1).1 = _
      rw [hd]
      exact harg
    have ht2 : (traj O q (dq, s) (k + 1)).2.2 = (ls (traj O q (dq, s) k).2.2 (traj O q (dq, s) k).1 u).1 := by
      show (O.search (traj O q (dq, s) k).1 (O.dir (traj O q (dq, s) k).1 (traj O q (dq, s) k).2).1).2.2 = _
      rw [hd]
      rfl
    rw [ht1, ht2]
    exact ⟨g1, hI', g2, u, by rw [hd], g3⟩
  have hall : ∀ k, k ≤ r.iter → EqState entries a c bmin |a ⬝ᵥ q - c| k (traj O q (dq, s) k).1 ∧ I (traj O q (dq, s) k).2.2 := by
    intro k
    induction k with
    | zero => exact fun _ => ⟨⟨hq, ∅, by simp, by simp, by simp [traj]⟩, hs⟩
    | succ k ih =>
      intro hk
      obtain ⟨i1, i2⟩ := ih (by omega)
      obtain ⟨g1, g2, -⟩ := hstep k i1 i2 (hnz _ (h7 k (by omega)).1)
      exact ⟨g1, g2⟩
  obtain ⟨e1, e2⟩ := hall r.iter (le_refl _)
  have herr := e1.err ho h hx hbm1 hbm (abs_nonneg _)
  rw [← h1] at herr
  refine ⟨by rw [h1]; exact e1.bounds, herr, ?_⟩
  cases hst : r.status with
  | none => exact absurd hst h6
  | some st =>
    cases st with
    | success => exact Or.inl rfl
    | maxIterationReached =>
      obtain ⟨g1, g2, -⟩ := h3.1 hst
      refine Or.inr (Or.inl ⟨rfl, lt_of_lt_of_le g1 ?_⟩)
      show O.norm (traj O q (dq, s) r.iter).1 ≤ _
      rw [← h1, hnorm, ← g2, ← sq_abs (a ⬝ᵥ r.arg - c)]
      exact pow_le_pow_left₀ (abs_nonneg _) herr 2
    | errorIncreased =>
      exfalso
      obtain ⟨g1, g2, -, g3, -, -, g4⟩ := h4.1 hst
      obtain ⟨i1, i2⟩ := hall (r.iter - 1) (by omega)
      obtain ⟨-, -, hlt, -⟩ := hstep (r.iter - 1) i1 i2 (hnz _ (h7 (r.iter - 1) (by omega)).1)
      rw [show r.iter - 1 + 1 = r.iter by omega] at hlt
      have g4' : O.norm (traj O q (dq, s) (r.iter - 1)).1 ≤ O.norm (traj O q (dq, s) r.iter).1 := g4
      rw [hnorm, hnorm] at g4'
      exact absurd (sq_le_sq.1 g4') (not_le.2 hlt)
    | infeasible =>
      right; right
      refine ⟨rfl, ?_⟩
      obtain ⟨g1, g2⟩ := h5.1 hst
      obtain ⟨-, -, -, u, hu1, hu2⟩ := hstep r.iter e1 e2 (hnz _ g1)
      rw [← h1] at hu2
      rcases g2 with ⟨g2, g3⟩ | ⟨-, g3, -⟩
      · exfalso
        subst g2
        obtain ⟨x, -, hx2⟩ := hx
        apply hnz _ g1
        rw [← hx2]
        simp [dotProduct]
      · have g3' : (O.dir (traj O q (dq, s) r.iter).1 (traj O q (dq, s) r.iter).2).2 < dqMin := g3
        rw [hu1] at g3'
        exact ⟨u, hu2, g3'⟩

/-- C110. With constant steps one equation is solved in at most `n` iterations. -/
theorem C110_constant (o : SvdOps ℝ) (ho : o.Exact) (byLevel : Bool) (thr : ℝ) (ht : 0 ≤ thr)
    (entries : List (SatEntry ℝ)) (h : BoxEntries n entries) (sat0 : Nat → Int)
    (h0 : ∀ i, (∀ e ∈ entries, e.iq ≠ i) → sat0 i = 0) (a : Fin n → ℝ) (c : ℝ) (q : Fin n → ℝ)
    (hq : InBounds entries (coords q)) (hx : ∃ x : Fin n → ℝ, InBounds entries (coords x) ∧ a ⬝ᵥ x = c)
    (maxIter : Nat) (hm : n ≤ maxIter) (dq : Fin n → ℝ) :
    let lv := [satNLevel entries sat0 (eqLevel a c)]
    let r := solve (newtonOps o byLevel false thr lv (lsC false lv (plusSat entries))) thr 0 maxIter n q (dq, ())
    r.status = some .success ∧ r.iter ≤ n ∧ InBounds entries (coords r.arg) ∧ (a ⬝ᵥ r.arg - c) ^ 2 ≤ thr := by
  intro lv r
  have hls : StepsIn (plusSat entries) (fun _ : Unit => True) 1 (lsC false lv (plusSat entries)) := fun s q u _ =>
    ⟨trivial, 1, le_refl _, le_refl _, by rw [one_smul]; rfl⟩
  have hsucc : ∀ M, n ≤ M → (solve (newtonOps o byLevel false thr lv (lsC false lv (plusSat entries))) thr 0 M n q
      (dq, ())).status = some .success := by
    intro M hM
    obtain ⟨-, -, g3⟩ := C110_one_equation o ho byLevel thr 0 ht entries h sat0 h0 a c q hq hx (fun _ => True) 1 one_pos
      (le_refl _) _ hls M dq () trivial
    rcases g3 with g3 | ⟨-, g4⟩ | ⟨-, v, -, g4⟩
    · exact g3
    · rw [sub_self, zero_pow (by omega)] at g4
      norm_num at g4
      linarith
    · exact absurd (dot_self_nonneg v) (not_le.2 g4)
  obtain ⟨g1, -, -⟩ := C110_one_equation o ho byLevel thr 0 ht entries h sat0 h0 a c q hq hx (fun _ => True) 1 one_pos
    (le_refl _) _ hls maxIter dq () trivial
  obtain ⟨h1, h2, -, -, -, -, h7⟩ := C29_statuses (newtonOps o byLevel false thr lv (lsC false lv (plusSat entries))) thr 0
    maxIter n q (dq, ())
  obtain ⟨-, k2, -⟩ := C29_statuses (newtonOps o byLevel false thr lv (lsC false lv (plusSat entries))) thr 0
    n n q (dq, ())
  have hle := h2.1 (hsucc maxIter hm)
  have h1' : r.arg = (traj (newtonOps o byLevel false thr lv (lsC false lv (plusSat entries))) q (dq, ()) r.iter).1 := h1
  have hnorm : nSqNorm false lv r.arg ≤ thr := by rw [h1']; exact hle
  rw [show lv = [satNLevel entries sat0 (eqLevel a c)] from rfl, eqLevel_sqNorm] at hnorm
  refine ⟨hsucc maxIter hm, ?_, g1, hnorm⟩
  have hk := k2.1 (hsucc n (le_refl _))
  have hkn : (solve (newtonOps o byLevel false thr lv (lsC false lv (plusSat entries))) thr 0 n n q (dq, ())).iter ≤ n := by
    by_cases hc : thr < (newtonOps o byLevel false thr lv (lsC false lv (plusSat entries))).norm q ∧ n = 0
    · have := hsucc n (le_refl _)
      unfold solve at this
      simp [hc] at this
    · exact (solve_spec _ thr 0 n n q (dq, ()) hc).iter
  by_contra hc
  exact absurd hk (not_le.2 (h7 _ (lt_of_le_of_lt hkn (not_le.1 hc))).1)

end

/-! ## Several equations -/

/-- Least squares solution of smallest norm. -/
theorem exact_solve {o : SvdOps ℝ} (ho : o.Exact) {n : Nat} (d : DLevel ℝ n) (x : Fin n → ℝ) (w : Fin d.m → ℝ)
    (hx : d.Jᵀ *ᵥ (d.J *ᵥ x + d.e) = 0) (hw : x = d.Jᵀ *ᵥ w) : o.solve d.J (-d.e) = x := by
  have h1 := (solve_facts ho d).1
  obtain ⟨w', hw'⟩ := ho.range d.J (-d.e)
  have h2 : d.Jᵀ *ᵥ (d.J *ᵥ (o.solve d.J (-d.e) - x)) = 0 := by
    have : d.J *ᵥ (o.solve d.J (-d.e) - x) = (d.J *ᵥ o.solve d.J (-d.e) + d.e) - (d.J *ᵥ x + d.e) := by
      rw [mulVec_sub]; abel
    rw [this, mulVec_sub, h1, hx, sub_zero]
  have h3 : o.solve d.J (-d.e) - x = d.Jᵀ *ᵥ (w' - w) := by rw [mulVec_sub, ← hw', ← hw]
  set y := o.solve d.J (-d.e) - x with hy
  have h4 : d.J *ᵥ y = 0 := by
    apply dot_self_zero
    rw [dotProduct_mulVec, ← mulVec_transpose, h2, zero_dotProduct]
  have h5 : y = 0 := by
    apply dot_self_zero
    nth_rewrite 1 [h3]
    rw [mulVec_transpose, ← dotProduct_mulVec, h4, dotProduct_zero]
  exact sub_eq_zero.1 h5

/-- Equations `-2x + y + 2z + t = 3`, `y = x`, `x + z + t = 3`. -/
def cycL : NLevel (Fin 4 → ℝ) ℝ 4 where
  m := 3
  J _ := !![-2, 1, 2, 1; -1, 1, 0, 0; 1, 0, 1, 1]
  err q := ![-2 * q 0 + q 1 + 2 * q 2 + q 3 - 3, -q 0 + q 1, q 0 + q 2 + q 3 - 3]
  nc := 1
  blk := fun _ => 0

/-- Bounds `[0, 1]` for the first variable, `[0, 2]` for the others. -/
def cycE : List (SatEntry ℝ) := [⟨0, 0, 0, 1⟩, ⟨1, 1, 0, 2⟩, ⟨2, 2, 0, 2⟩, ⟨3, 3, 0, 2⟩]

theorem cycE_box : BoxEntries 4 cycE := by
  refine ⟨?_, ?_, ?_, ?_⟩
  · simp [cycE]
  · simp [cycE]
  · simp [cycE]
  · intro e he
    simp only [cycE, List.mem_cons, List.not_mem_nil, or_false] at he
    rcases he with rfl | rfl | rfl | rfl <;> norm_num

theorem cyc_flags (q : Fin 4 → ℝ) (s : Fin 4 → ℝ) (hs : BoxFlags cycE (coords q) s) :
    (q 0 = 0 → s 0 = -1) ∧ (q 1 = 0 → s 1 = -1) ∧ (q 2 = 0 → s 2 = -1) ∧ (0 < q 2 → q 2 < 2 → s 2 = 0) ∧
    (q 3 = 2 → s 3 = 1) := by
  have e0 : (⟨0, 0, 0, 1⟩ : SatEntry ℝ) ∈ cycE := by simp [cycE]
  have e1 : (⟨1, 1, 0, 2⟩ : SatEntry ℝ) ∈ cycE := by simp [cycE]
  have e2 : (⟨2, 2, 0, 2⟩ : SatEntry ℝ) ∈ cycE := by simp [cycE]
  have e3 : (⟨3, 3, 0, 2⟩ : SatEntry ℝ) ∈ cycE := by simp [cycE]
  have c0 : coords q 0 = q 0 := by simp [coords]
  have c1 : coords q 1 = q 1 := by simp [coords]
  have c2 : coords q 2 = q 2 := by simp [coords]
  have c3 : coords q 3 = q 3 := by simp [coords]
  refine ⟨fun h => hs.lb _ e0 (by norm_num) (c0.trans h), fun h => hs.lb _ e1 (by norm_num) (c1.trans h),
    fun h => hs.lb _ e2 (by norm_num) (c2.trans h), fun h h' => ?_, fun h => hs.ub _ e3 (by norm_num) (c3.trans h)⟩
  rcases hs.cases 2 with h1 | ⟨-, e, he, hej, hq⟩ | ⟨-, e, he, hej, hq⟩
  · exact h1
  · exfalso
    simp only [cycE, List.mem_cons, List.not_mem_nil, or_false] at he
    rcases he with rfl | rfl | rfl | rfl <;> simp at hej
    simp only [c2] at hq
    linarith
  · exfalso
    simp only [cycE, List.mem_cons, List.not_mem_nil, or_false] at he
    rcases he with rfl | rfl | rfl | rfl <;> simp at hej
    simp only [c2] at hq
    linarith

theorem cyc_in (z : ℝ) (h0 : 0 ≤ z) (h2 : z ≤ 2) : InBounds cycE (coords ![0, 0, z, 2]) := by
  intro e he
  simp only [cycE, List.mem_cons, List.not_mem_nil, or_false] at he
  rcases he with rfl | rfl | rfl | rfl <;> simp [coords, h0, h2]

theorem cyc_dirA {o : SvdOps ℝ} (ho : o.Exact) :
    o.solve ((satNLevel cycE (fun _ => 0) cycL).at ![0, 0, 0, 2]).J (-((satNLevel cycE (fun _ => 0) cycL).at ![0, 0, 0, 2]).e) =
      ![0, -1 / 6, 2 / 3, 0] := by
  obtain ⟨s, hs, he⟩ := computeSat_flags cycE_box (fun _ => 0) (fun _ _ => rfl) _ (cyc_in 0 (le_refl _) (by norm_num))
    (cycL.at ![0, 0, 0, 2])
  rw [satNLevel_at, he]
  obtain ⟨s0, s1, s2, -, s3⟩ := cyc_flags _ s hs
  replace s0 := s0 rfl
  replace s1 := s1 rfl
  replace s2 := s2 rfl
  replace s3 := s3 rfl
  have hJ : satLevel s (cycL.at ![0, 0, 0, 2]) = ⟨3, !![0, 1, 2, 0; 0, 1, 0, 0; 0, 0, 1, 0], ![-1, 0, -1]⟩ := by
    have hE : (cycL.at ![0, 0, 0, 2]) = ⟨3, !![-2, 1, 2, 1; -1, 1, 0, 0; 1, 0, 1, 1], ![-1, 0, -1]⟩ := by
      have : cycL.err ![0, 0, 0, 2] = ![-2 * 0 + 0 + 2 * (0) + 2 - 3, -0 + 0, 0 + 0 + 2 - 3] := rfl
      unfold NLevel.at
      rw [this]
      unfold cycL
      norm_num
    rw [hE]
    unfold satLevel
    congr 1
    ext i j
    fin_cases j <;> fin_cases i <;> simp [s0, s1, s2, s3, mulVec, dotProduct, Fin.sum_univ_three] <;> norm_num
  rw [hJ]
  refine exact_solve ho ⟨3, !![0, 1, 2, 0; 0, 1, 0, 0; 0, 0, 1, 0], ![-1, 0, -1]⟩ _ ![0, -1 / 6, 2 / 3] ?_ ?_
  · ext j
    fin_cases j <;> simp [mulVec, dotProduct, Fin.sum_univ_three, Fin.sum_univ_four] <;> norm_num
  · ext j
    fin_cases j <;> simp [mulVec, dotProduct, Fin.sum_univ_three] <;> norm_num

theorem cyc_dirB {o : SvdOps ℝ} (ho : o.Exact) :
    o.solve ((satNLevel cycE (fun _ => 0) cycL).at ![0, 0, 2 / 3, 2]).J
      (-((satNLevel cycE (fun _ => 0) cycL).at ![0, 0, 2 / 3, 2]).e) = ![0, 0, -2 / 3, 1] := by
  obtain ⟨s, hs, he⟩ := computeSat_flags cycE_box (fun _ => 0) (fun _ _ => rfl) _ (cyc_in (2 / 3) (by norm_num) (by norm_num))
    (cycL.at ![0, 0, 2 / 3, 2])
  rw [satNLevel_at, he]
  obtain ⟨s0, s1, -, s2, s3⟩ := cyc_flags _ s hs
  replace s0 := s0 rfl
  replace s1 := s1 rfl
  replace s2 := s2 (by simp) (by simp; norm_num)
  replace s3 := s3 rfl
  have hJ : satLevel s (cycL.at ![0, 0, 2 / 3, 2]) = ⟨3, !![-2, 0, 2, 1; -1, 0, 0, 0; 1, 0, 1, 1], ![1 / 3, 0, -1 / 3]⟩ := by
    have hE : (cycL.at ![0, 0, 2 / 3, 2]) = ⟨3, !![-2, 1, 2, 1; -1, 1, 0, 0; 1, 0, 1, 1], ![1 / 3, 0, -1 / 3]⟩ := by
      have : cycL.err ![0, 0, 2 / 3, 2] = ![-2 * 0 + 0 + 2 * (2 / 3) + 2 - 3, -0 + 0, 0 + 2 / 3 + 2 - 3] := rfl
      unfold NLevel.at
      rw [this]
      unfold cycL
      norm_num
    rw [hE]
    unfold satLevel
    congr 1
    ext i j
    fin_cases j <;> fin_cases i <;> simp [s0, s1, s2, s3, mulVec, dotProduct, Fin.sum_univ_three] <;> norm_num
  rw [hJ]
  refine exact_solve ho ⟨3, !![-2, 0, 2, 1; -1, 0, 0, 0; 1, 0, 1, 1], ![1 / 3, 0, -1 / 3]⟩ _ ![-5 / 3, 6, 8 / 3] ?_ ?_
  · ext j
    fin_cases j <;> simp [mulVec, dotProduct, Fin.sum_univ_three, Fin.sum_univ_four] <;> norm_num
  · ext j
    fin_cases j <;> simp [mulVec, dotProduct, Fin.sum_univ_three] <;> norm_num

theorem cyc_plus (q v : Fin 4 → ℝ) : plusSat cycE q v =
    ![max 0 (min (q 0 + v 0) 1), max 0 (min (q 1 + v 1) 2), max 0 (min (q 2 + v 2) 2), max 0 (min (q 3 + v 3) 2)] := by
  funext i
  rcases plusSat_coord cycE_box q v i with ⟨e, he, hei, hv⟩ | ⟨hn, -⟩
  · rw [hv]
    simp only [cycE, List.mem_cons, List.not_mem_nil, or_false] at he
    fin_cases i <;> rcases he with rfl | rfl | rfl | rfl <;> simp at hei <;> rfl
  · exfalso
    fin_cases i
    · exact hn ⟨0, 0, 0, 1⟩ (by simp [cycE]) rfl
    · exact hn ⟨1, 1, 0, 2⟩ (by simp [cycE]) rfl
    · exact hn ⟨2, 2, 0, 2⟩ (by simp [cycE]) rfl
    · exact hn ⟨3, 3, 0, 2⟩ (by simp [cycE]) rfl

theorem cyc_norm (q : Fin 4 → ℝ) : nSqNorm false [satNLevel cycE (fun _ => 0) cycL] q =
    (-2 * q 0 + q 1 + 2 * q 2 + q 3 - 3) ^ 2 + (-q 0 + q 1) ^ 2 + (q 0 + q 2 + q 3 - 3) ^ 2 := by
  have hn : (satNLevel cycE (fun _ => 0) cycL).norms q = [(-2 * q 0 + q 1 + 2 * q 2 + q 3 - 3) ^ 2 + (-q 0 + q 1) ^ 2 +
      (q 0 + q 2 + q 3 - 3) ^ 2] := by
    unfold NLevel.norms
    show (List.finRange 1).map (fun k => ∑ i : Fin 3, if (0 : Fin 1) = k then
      ![-2 * q 0 + q 1 + 2 * q 2 + q 3 - 3, -q 0 + q 1, q 0 + q 2 + q 3 - 3] i *
        ![-2 * q 0 + q 1 + 2 * q 2 + q 3 - 3, -q 0 + q 1, q 0 + q 2 + q 3 - 3] i else 0) = _
    simp [List.finRange_succ, Fin.sum_univ_three, sq]
  unfold nSqNorm
  simp only [Bool.false_eq_true, if_false, List.flatMap_cons, List.flatMap_nil, List.append_nil, hn, List.foldl_cons,
    List.foldl_nil]
  exact max_eq_right (by positivity)

/-- C110 fails with several equations: three linear equations in four variables that have a solution inside the bounds, an initial
configuration within the bounds, constant steps.  The variables that are blocked change at each iteration; the
solver goes from one configuration to another and back for ever, for every exact decomposition. -/
theorem C110_cycle_refuted (o : SvdOps ℝ) (ho : o.Exact) (byLevel : Bool) (thr dqMin : ℝ) (h1 : thr < 2 / 9)
    (h2 : dqMin ≤ 17 / 36) (maxIter : Nat) (dq : Fin 4 → ℝ) :
    let lv := [satNLevel cycE (fun _ => 0) cycL]
    let r := solve (newtonOps o byLevel false thr lv (lsC false lv (plusSat cycE))) thr dqMin maxIter 4 ![0, 0, 0, 2] (dq, ())
    InBounds cycE (coords ![(0 : ℝ), 0, 0, 2]) ∧
    (∀ e ∈ cycE, e.lb < coords ![(1 : ℝ) / 2, 1 / 2, 1, 3 / 2] e.iq ∧ coords ![(1 : ℝ) / 2, 1 / 2, 1, 3 / 2] e.iq < e.ub) ∧
    cycL.err ![1 / 2, 1 / 2, 1, 3 / 2] = 0 ∧
    r.status = some .maxIterationReached ∧ r.iter = maxIter := by
  intro lv r
  refine ⟨cyc_in 0 (le_refl _) (by norm_num), ?_, ?_, ?_⟩
  · intro e he
    simp only [cycE, List.mem_cons, List.not_mem_nil, or_false] at he
    rcases he with rfl | rfl | rfl | rfl <;> simp [coords] <;> norm_num
  · show ![-2 * ((1 : ℝ) / 2) + 1 / 2 + 2 * 1 + 3 / 2 - 3, -(1 / 2) + 1 / 2, 1 / 2 + 1 + 3 / 2 - 3] = 0
    ext j; fin_cases j <;> norm_num
  set O := newtonOps o byLevel false thr lv (lsC false lv (plusSat cycE)) with hO
  have hdir : ∀ q m, O.dir q m = ((o.solve ((satNLevel cycE (fun _ => 0) cycL).at q).J
      (-((satNLevel cycE (fun _ => 0) cycL).at q).e), m.2), o.solve ((satNLevel cycE (fun _ => 0) cycL).at q).J
      (-((satNLevel cycE (fun _ => 0) cycL).at q).e) ⬝ᵥ o.solve ((satNLevel cycE (fun _ => 0) cycL).at q).J
      (-((satNLevel cycE (fun _ => 0) cycL).at q).e)) := fun q m => rfl
  have hsearch : ∀ q m, (O.search q m).1 = plusSat cycE q m.1 := fun q m => rfl
  have htraj : ∀ k, (traj O ![0, 0, 0, 2] (dq, ()) (2 * k)).1 = ![0, 0, 0, 2] ∧
      (traj O ![0, 0, 0, 2] (dq, ()) (2 * k + 1)).1 = ![0, 0, 2 / 3, 2] := by
    have hA : ∀ k, (traj O ![0, 0, 0, 2] (dq, ()) k).1 = ![0, 0, 0, 2] →
        (traj O ![0, 0, 0, 2] (dq, ()) (k + 1)).1 = ![0, 0, 2 / 3, 2] := by
      intro k hk
      show (O.search (traj O ![0, 0, 0, 2] (dq, ()) k).1 (O.dir (traj O ![0, 0, 0, 2] (dq, ()) k).1 _).1).1 = _
      rw [hsearch, hk, hdir]
      dsimp only
      rw [cyc_dirA ho, cyc_plus]
      ext j; fin_cases j <;> simp <;> norm_num
    have hB : ∀ k, (traj O ![0, 0, 0, 2] (dq, ()) k).1 = ![0, 0, 2 / 3, 2] →
        (traj O ![0, 0, 0, 2] (dq, ()) (k + 1)).1 = ![0, 0, 0, 2] := by
      intro k hk
      show (O.search (traj O ![0, 0, 0, 2] (dq, ()) k).1 (O.dir (traj O ![0, 0, 0, 2] (dq, ()) k).1 _).1).1 = _
      rw [hsearch, hk, hdir]
      dsimp only
      rw [cyc_dirB ho, cyc_plus]
      ext j; fin_cases j <;> simp <;> norm_num
    intro k
    induction k with
    | zero => exact ⟨rfl, hA 0 rfl⟩
    | succ k ih =>
      have := hB _ ih.2
      exact ⟨this, hA _ this⟩
  have hnorm : ∀ q, O.norm q = (-2 * q 0 + q 1 + 2 * q 2 + q 3 - 3) ^ 2 + (-q 0 + q 1) ^ 2 + (q 0 + q 2 + q 3 - 3) ^ 2 :=
    fun q => cyc_norm q
  have hcase : ∀ k, ((traj O ![0, 0, 0, 2] (dq, ()) k).1 = ![0, 0, 0, 2] ∧ trajErr O ![0, 0, 0, 2] (dq, ()) k = 2 ∧
      trajErr O ![0, 0, 0, 2] (dq, ()) (k + 1) = 2 / 9 ∧ trajStep O ![0, 0, 0, 2] (dq, ()) k = 17 / 36) ∨
      ((traj O ![0, 0, 0, 2] (dq, ()) k).1 = ![0, 0, 2 / 3, 2] ∧ trajErr O ![0, 0, 0, 2] (dq, ()) k = 2 / 9 ∧
      trajErr O ![0, 0, 0, 2] (dq, ()) (k + 1) = 2 ∧ trajStep O ![0, 0, 0, 2] (dq, ()) k = 13 / 9) := by
    have eA : O.norm ![0, 0, 0, 2] = 2 := by
      rw [hnorm]; show (-2 * 0 + 0 + 2 * 0 + 2 - 3) ^ 2 + (-0 + 0) ^ 2 + (0 + 0 + 2 - 3) ^ 2 = (2 : ℝ); norm_num
    have eB : O.norm ![0, 0, 2 / 3, 2] = 2 / 9 := by
      rw [hnorm]
      show (-2 * 0 + 0 + 2 * (2 / 3) + 2 - 3) ^ 2 + (-0 + 0) ^ 2 + (0 + 2 / 3 + 2 - 3) ^ 2 = (2 / 9 : ℝ); norm_num
    intro k
    rcases Nat.even_or_odd' k with ⟨j, rfl | rfl⟩
    · left
      refine ⟨(htraj j).1, ?_, ?_, ?_⟩
      · unfold trajErr; rw [(htraj j).1, eA]
      · unfold trajErr; rw [(htraj j).2, eB]
      · unfold trajStep
        rw [(htraj j).1, hdir]
        dsimp only
        rw [cyc_dirA ho]
        simp [dotProduct, Fin.sum_univ_four]; norm_num
    · right
      refine ⟨(htraj j).2, ?_, ?_, ?_⟩
      · unfold trajErr; rw [(htraj j).2, eB]
      · unfold trajErr; rw [show 2 * j + 1 + 1 = 2 * (j + 1) by ring, (htraj (j + 1)).1, eA]
      · unfold trajStep
        rw [(htraj j).2, hdir]
        dsimp only
        rw [cyc_dirB ho]
        simp [dotProduct, Fin.sum_univ_four]; norm_num
  have herr : ∀ k, thr < trajErr O ![0, 0, 0, 2] (dq, ()) k := by
    intro k
    rcases hcase k with ⟨-, h, -⟩ | ⟨-, h, -⟩ <;> rw [h] <;> linarith
  have hst : ∀ k, ¬ trajStep O ![0, 0, 0, 2] (dq, ()) k < dqMin := by
    intro k
    rcases hcase k with ⟨-, -, -, h⟩ | ⟨-, -, -, h⟩ <;> rw [h] <;> linarith
  obtain ⟨g1, g2, g3, g4, g5, g6, g7⟩ := C29_statuses O thr dqMin maxIter 4 ![0, 0, 0, 2] (dq, ())
  have hr : r = solve O thr dqMin maxIter 4 ![0, 0, 0, 2] (dq, ()) := rfl
  rw [← hr] at g1 g2 g3 g4 g5 g6 g7
  have hmax : r.status = some .maxIterationReached := by
    cases hs : r.status with
    | none => exact absurd hs g6
    | some st =>
      cases st with
      | success => exact absurd (g2.1 hs) (not_le.2 (herr _))
      | maxIterationReached => rfl
      | errorIncreased =>
        exfalso
        obtain ⟨-, -, -, k4, -, k5, k6⟩ := g4.1 hs
        have k5' : trajErr O ![0, 0, 0, 2] (dq, ()) (r.iter - 2) ≤ trajErr O ![0, 0, 0, 2] (dq, ()) (r.iter - 2 + 1) := by
          rw [show r.iter - 2 + 1 = r.iter - 1 by omega]; exact k5
        have k6' : trajErr O ![0, 0, 0, 2] (dq, ()) (r.iter - 2 + 1) ≤ trajErr O ![0, 0, 0, 2] (dq, ()) (r.iter - 2 + 1 + 1) := by
          rw [show r.iter - 2 + 1 + 1 = r.iter by omega, show r.iter - 2 + 1 = r.iter - 1 by omega]; exact k6
        rcases hcase (r.iter - 2) with ⟨-, a1, a2, -⟩ | ⟨-, a1, a2, -⟩
        · rw [a1, a2] at k5'; norm_num at k5'
        · rcases hcase (r.iter - 2 + 1) with ⟨-, b1, b2, -⟩ | ⟨-, b1, b2, -⟩
          · rw [b1, b2] at k6'; norm_num at k6'
          · rw [b1] at a2; norm_num at a2
      | infeasible =>
        exfalso
        obtain ⟨-, k | ⟨-, k, -⟩⟩ := g5.1 hs
        · exact absurd k.1 (by norm_num)
        · exact hst _ k
  exact ⟨hmax, (g3.1 hmax).2.1⟩

/-- A case that meets the hypotheses of `C110_one_equation`: `x + y + z = 5/2`, bounds `[0, 1]`, constant steps. -/
example : ∃ (o : SvdOps ℝ), o.Exact ∧ BoxEntries 3 [(⟨0, 0, 0, 1⟩ : SatEntry ℝ), ⟨1, 1, 0, 1⟩, ⟨2, 2, 0, 1⟩] ∧
    InBounds [(⟨0, 0, 0, 1⟩ : SatEntry ℝ), ⟨1, 1, 0, 1⟩, ⟨2, 2, 0, 1⟩] (coords ![(9 : ℝ) / 10, 1 / 2, 0]) ∧
    ∃ x : Fin 3 → ℝ, InBounds [(⟨0, 0, 0, 1⟩ : SatEntry ℝ), ⟨1, 1, 0, 1⟩, ⟨2, 2, 0, 1⟩] (coords x) ∧
      ![1, 1, 1] ⬝ᵥ x = 5 / 2 := by
  obtain ⟨o, ho, -⟩ := exists_exact_ortho
  refine ⟨o, ho, ⟨by simp, by simp, by simp, by simp⟩, ?_, ![1, 1, 1 / 2], ?_, ?_⟩
  · intro e he
    simp only [List.mem_cons, List.not_mem_nil, or_false] at he
    rcases he with rfl | rfl | rfl <;> simp [coords] <;> norm_num
  · intro e he
    simp only [List.mem_cons, List.not_mem_nil, or_false] at he
    rcases he with rfl | rfl | rfl <;> simp [coords] <;> norm_num
  · simp [dotProduct, Fin.sum_univ_three]; norm_num

end Hpp
