import Verif.Solve.LocalProps
import Verif.Solve.BoxProps

/-!
# Local convergence when configurations are saturated: C94

Source: `/repo/src/solver/hierarchical-iterative.cc`, lines 653-672 (`computeSaturation`) and 712-719 (`integrate`).
-/

namespace Hpp

open Matrix

variable {S : Type}

/-- Coordinates of a configuration, as the loops of `saturate` see it. -/
def coords {n : Nat} (q : Fin n → ℝ) : Nat → ℝ := fun i => if h : i < n then q ⟨i, h⟩ else 0

/-- `integrate` (hierarchical-iterative.cc:712-719) in a vector space. -/
noncomputable def plusSat {n : Nat} (entries : List (SatEntry ℝ)) (q v : Fin n → ℝ) : Fin n → ℝ :=
  fun i => integrateSat plusVec entries (coords q) v i

/-- A level, `computeSaturation` (hierarchical-iterative.cc:653-672) being called after `computeValue`. -/
noncomputable def satNLevel {n : Nat} (entries : List (SatEntry ℝ)) (sat0 : Nat → Int) (l : NLevel (Fin n → ℝ) ℝ n) :
    NLevel (Fin n → ℝ) ℝ n where
  m := l.m
  J q := fun i j =>
    if (clampLoop (coords q) entries (coords q) sat0).ret ∧
      (((clampLoop (coords q) entries (coords q) sat0).sat j : Int) : ℝ) * ((l.J q)ᵀ *ᵥ l.err q) j < 0 then 0 else l.J q i j
  err := l.err
  nc := l.nc
  blk := l.blk

/-- What the descent reads is what `computeSat` computes. -/
theorem satNLevel_at {n : Nat} (entries : List (SatEntry ℝ)) (sat0 : Nat → Int) (l : NLevel (Fin n → ℝ) ℝ n)
    (q : Fin n → ℝ) : (satNLevel entries sat0 l).at q = computeSat entries sat0 (coords q) (l.at q) := by
  unfold computeSat satNLevel NLevel.at satLevel
  simp only
  by_cases h : (clampLoop (coords q) entries (coords q) sat0).ret = true
  · simp [h]
  · simp [h]

/-- Specification: the ball is inside the bounds. -/
def BallInside {n : Nat} (entries : List (SatEntry ℝ)) (q0 : Fin n → ℝ) (ρ : ℝ) : Prop :=
  ∀ q : Fin n → ℝ, dist q q0 ≤ ρ → ∀ e ∈ entries, ∀ h : e.iq < n, e.lb < q ⟨e.iq, h⟩ ∧ q ⟨e.iq, h⟩ < e.ub

theorem nErr_sat {n : Nat} (entries : List (SatEntry ℝ)) (sat0 : Nat → Int) (lv : List (NLevel (Fin n → ℝ) ℝ n))
    (q : Fin n → ℝ) : nErr (lv.map (satNLevel entries sat0)) q = nErr lv q := by
  unfold nErr nSqNorm
  simp only [Bool.false_eq_true, if_false]
  congr 2
  rw [List.flatMap_map]
  rfl

theorem inside_ret {n : Nat} {entries : List (SatEntry ℝ)} (h : BoxEntries n entries) (sat0 : Nat → Int) {q0 : Fin n → ℝ} {ρ : ℝ}
    (hb : BallInside entries q0 ρ) {q : Fin n → ℝ} (hq : dist q q0 ≤ ρ) :
    (clampLoop (coords q) entries (coords q) sat0).ret = false := by
  obtain ⟨-, -, hret⟩ := C31_within_bounds entries h.ok (coords q) (coords q) sat0
  by_contra hc
  rw [Bool.not_eq_false] at hc
  obtain ⟨e, he, h'⟩ := hret.1 hc
  have hn := h.lt e he
  obtain ⟨h1, h2⟩ := hb q hq e he hn
  simp only [coords, hn, dif_pos] at h'
  rcases h' with h' | h' <;> linarith

theorem plusSat_coord {n : Nat} {entries : List (SatEntry ℝ)} (h : BoxEntries n entries) (q v : Fin n → ℝ) (i : Fin n) :
    (∃ e ∈ entries, e.iq = i ∧ plusSat entries q v i = max e.lb (min (q i + v i) e.ub)) ∨
      ((∀ e ∈ entries, e.iq ≠ i) ∧ plusSat entries q v i = q i + v i) := by
  obtain ⟨hc1, hc2⟩ := step_coord h.ok (coords q) v
  by_cases hi : ∃ e ∈ entries, e.iq = i
  · obtain ⟨e, he, hei⟩ := hi
    left
    refine ⟨e, he, hei, ?_⟩
    have hn := h.lt e he
    have hfin : (⟨e.iq, hn⟩ : Fin n) = i := Fin.ext hei
    have := hc1 e he hn
    simp only [coords, hn, dif_pos, hfin] at this
    rw [hei] at this
    exact this
  · right
    refine ⟨fun e he h' => hi ⟨e, he, h'⟩, ?_⟩
    refine (hc2 i fun e he h' => hi ⟨e, he, h'⟩).trans ?_
    simp [plusVec, coords]

/-- C94. Saturation does not change what local convergence requires, as long as the ball is inside the bounds.  Steps may go
out of the bounds, and be saturated. -/
theorem C94_saturated_regular {n : Nat} (entries : List (SatEntry ℝ)) (h : BoxEntries n entries) (sat0 : Nat → Int)
    (lv : List (NLevel (Fin n → ℝ) ℝ n)) (q0 : Fin n → ℝ) (ρ L β : ℝ) (hR : Regular (· + ·) lv q0 ρ L β)
    (hb : BallInside entries q0 ρ) :
    Regular (plusSat entries) (lv.map (satNLevel entries sat0)) q0 ρ L β := by
  have hJ : ∀ l ∈ lv, ∀ q, dist q q0 ≤ ρ → (satNLevel entries sat0 l).J q = l.J q := by
    intro l _ q hq
    funext i j
    simp [satNLevel, inside_ret h sat0 hb hq]
  refine ⟨fun q v hq => ?_, fun l' hl' q v hq hqv => ?_, fun q hq => ?_⟩
  · refine le_trans ?_ (hR.move q v hq)
    rw [dist_pi_le_iff dist_nonneg]
    intro i
    refine le_trans ?_ (dist_le_pi_dist (q + v) q i)
    rcases plusSat_coord h q v i with ⟨e, he, hei, hv⟩ | ⟨-, hv⟩
    · have hn := h.lt e he
      have hfin : (⟨e.iq, hn⟩ : Fin n) = i := Fin.ext hei
      have hin := hb q hq e he hn
      rw [hfin] at hin
      rw [hv, Real.dist_eq, Real.dist_eq, Pi.add_apply, add_sub_cancel_left]
      rcases le_total (v i) 0 with hv0 | hv0
      · rw [abs_of_nonpos hv0, min_eq_left (by linarith)]
        rw [abs_of_nonpos (by rw [sub_nonpos]; exact max_le hin.1.le (by linarith))]
        have := le_max_right e.lb (q i + v i)
        linarith
      · rw [abs_of_nonneg hv0, max_eq_right (le_min (by linarith) (h.bounds e he).le)]
        rw [abs_of_nonneg (by rw [sub_nonneg]; exact le_min (by linarith) hin.2.le)]
        have := min_le_left (q i + v i) e.ub
        linarith
    · rw [hv]; rfl
  · obtain ⟨l, hl, rfl⟩ := List.mem_map.1 hl'
    have heq : plusSat entries q v = q + v := by
      funext i
      rcases plusSat_coord h q v i with ⟨e, he, hei, hv⟩ | ⟨-, hv⟩
      · have hn := h.lt e he
        have hfin : (⟨e.iq, hn⟩ : Fin n) = i := Fin.ext hei
        have hin := hb _ hqv e he hn
        rw [hfin, hv] at hin
        rw [hv, Pi.add_apply]
        have h1 : e.lb < min (q i + v i) e.ub := by
          rcases lt_max_iff.1 hin.1 with h' | h'
          · exact absurd h' (lt_irrefl _)
          · exact h'
        rw [max_eq_right h1.le] at hin ⊢
        rcases min_lt_iff.1 hin.2 with h' | h'
        · exact min_eq_left h'.le
        · exact absurd h' (lt_irrefl _)
      · exact hv
    rw [heq] at hqv ⊢
    rw [hJ l hl q hq]
    exact hR.taylor l hl q v hq hqv
  · obtain ⟨v, hv1, hv2⟩ := hR.linear q hq
    refine ⟨v, fun l' hl' => ?_, by rw [nErr_sat]; exact hv2⟩
    obtain ⟨l, hl, rfl⟩ := List.mem_map.1 hl'
    rw [hJ l hl q hq]
    exact hv1 l hl

/-- C94 with saturation: local convergence of the solver that calls `computeSaturation` at each iteration and saturates after
each integration, any line search. -/
theorem C94_saturated {n : Nat} (o : SvdOps ℝ) (ho : o.Exact) (hor : o.Ortho) (thr dqMin : ℝ) (ht : 0 ≤ thr)
    (entries : List (SatEntry ℝ)) (h : BoxEntries n entries) (sat0 : Nat → Int)
    (lv : List (NLevel (Fin n → ℝ) ℝ n)) (hlv : lv.length ≤ 1 ∨ ∃ l ls, lv = l :: ls ∧ l.m ≠ 0) (q : Fin n → ℝ)
    (ρ L β : ℝ) (hR : Regular (· + ·) lv q ρ L β) (hb : BallInside entries q ρ) (hL : 0 ≤ L) (hβ : 0 ≤ β)
    (hρ : 2 * β * nErr lv q ≤ ρ) (hE : L * β ^ 2 * nErr lv q ≤ 1 / 2) (I : S → Prop) (bmin : ℝ) (hbm : 0 < bmin)
    (ls : S → (Fin n → ℝ) → (Fin n → ℝ) → S × LsOut (Fin n → ℝ) (Fin n → ℝ))
    (hls : StepsIn (plusSat entries) I bmin ls) (maxIter : Nat) (dq : Fin n → ℝ) (s : S) (hs : I s) :
    let r := solve (newtonOps o false false thr (lv.map (satNLevel entries sat0)) ls) thr dqMin maxIter n q (dq, s)
    nErr lv r.arg ≤ (1 - bmin / 2) ^ r.iter * nErr lv q ∧ dist r.arg q ≤ 2 * β * nErr lv q ∧
    InBounds entries (coords r.arg) ∧
    (r.status = some .success ∨
      (r.status = some .maxIterationReached ∧ thr < ((1 - bmin / 2) ^ maxIter * nErr lv q) ^ 2) ∨
      (r.status = some .infeasible ∧ ∃ v, (∀ l ∈ lv, l.J r.arg *ᵥ v = -l.err r.arg) ∧ v ⬝ᵥ v < dqMin)) := by
  intro r
  have hlv' : (lv.map (satNLevel entries sat0)).length ≤ 1 ∨
      ∃ l ls, lv.map (satNLevel entries sat0) = l :: ls ∧ l.m ≠ 0 := by
    rcases hlv with h1 | ⟨l, ls', h1, h2⟩
    · left; simpa using h1
    · right; exact ⟨satNLevel entries sat0 l, ls'.map (satNLevel entries sat0), by rw [h1]; rfl, h2⟩
  obtain ⟨g1, g2, g3⟩ := C94_converges o ho hor thr dqMin ht (lv.map (satNLevel entries sat0)) hlv' (plusSat entries) q ρ L β
    (C94_saturated_regular entries h sat0 lv q ρ L β hR hb) hL hβ (by rw [nErr_sat]; exact hρ) (by rw [nErr_sat]; exact hE)
    I bmin hbm ls hls maxIter dq s hs
  simp only [nErr_sat] at g1 g2 g3
  have hin : dist r.arg q ≤ ρ := g2.trans hρ
  refine ⟨g1, g2, fun e he => ?_, ?_⟩
  · have hn := h.lt e he
    obtain ⟨h1, h2⟩ := hb r.arg hin e he hn
    simp only [coords, hn, dif_pos]
    exact ⟨h1.le, h2.le⟩
  · rcases g3 with g3 | g3 | ⟨g3, v, hv, hvn⟩
    · exact Or.inl g3
    · exact Or.inr (Or.inl g3)
    · refine Or.inr (Or.inr ⟨g3, v, fun l hl => ?_, hvn⟩)
      have := hv (satNLevel entries sat0 l) (List.mem_map.2 ⟨l, hl, rfl⟩)
      have hJ : (satNLevel entries sat0 l).J r.arg = l.J r.arg := by
        funext i j
        simp [satNLevel, inside_ret h sat0 hb hin]
      rw [hJ] at this
      exact this

/-- A case that meets the hypotheses: square root of 2 by Newton's method with bounds [1/2, 5/2]. -/
example : BoxEntries 1 [(⟨0, 0, 1 / 2, 5 / 2⟩ : SatEntry ℝ)] ∧
    BallInside [(⟨0, 0, 1 / 2, 5 / 2⟩ : SatEntry ℝ)] ![(3 : ℝ) / 2] (1 / 2) ∧
    Regular (· + ·) [scalarL (fun x => x ^ 2 - 2) fun x => 2 * x] ![3 / 2] (1 / 2) 1 (1 / 2) := by
  refine ⟨⟨by simp, by simp, by simp, by norm_num⟩, ?_, sqrt_regular⟩
  intro q hq e he hn
  simp only [List.mem_singleton] at he
  subst he
  have := (dist_le_pi_dist q ![(3 : ℝ) / 2] 0).trans hq
  rw [Real.dist_eq, abs_le] at this
  simp at this
  show 1 / 2 < q 0 ∧ q 0 < 5 / 2
  constructor <;> linarith [this.1, this.2]

end Hpp
