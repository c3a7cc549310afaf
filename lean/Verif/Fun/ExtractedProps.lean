import Verif.Fun.Extracted
import Mathlib.Analysis.Calculus.Deriv.Add
import Mathlib.Analysis.Calculus.Deriv.Shift
import Mathlib.Analysis.Calculus.Deriv.Comp
import Mathlib.Analysis.Calculus.Deriv.Pow
import Mathlib.Analysis.Calculus.Deriv.Mul
import Mathlib.Tactic.Linarith
import Mathlib.Tactic.NormNum

/-!
# Restriction of a function to an interval: C43
-/

namespace Hpp

variable {E : Type} [NormedAddCommGroup E] [NormedSpace ℝ E]

/-- The specification (documentation of `extract`, differentiable-function.hh): where the function is evaluated. -/
noncomputable def extractPoint (t1 t2 s : ℝ) : ℝ := if t1 ≤ t2 then t1 + s else t1 - s

omit [NormedSpace ℝ E] in
theorem extract_cases (f g : Fun1 ℝ E) (t1 t2 : ℝ) (h : f.extract t1 t2 = some g) :
    (t1 = 0 ∧ 0 < t2 ∧ g = f) ∨
    (f.inputSize = 1 ∧ f.inputDer = 1 ∧ (∀ s, g.value [s] = f.value [extractPoint t1 t2 s]) ∧
      g.inputSize = 1 ∧ g.inputDer = 1 ∧
      ∀ s, g.jac [s] = if t1 ≤ t2 then f.jac [s - t1] else -f.jac [t1 - s]) := by
  unfold Fun1.extract at h
  split_ifs at h with h0
  · exact Or.inl ⟨h0.1, h0.2, by injection h with h; exact h.symm⟩
  right
  unfold Fun1.extracted at h
  by_cases h1 : f.inputSize = 1
  · by_cases h2 : f.inputDer = 1
    · rw [if_neg (by simp [h1]), if_neg (by simp [h2])] at h
      injection h with h
      subst h
      refine ⟨h1, h2, fun s => ?_, h1, h2, fun s => ?_⟩
      · unfold extractPoint
        by_cases ht : t1 ≤ t2
        · simp [ht]
        · simp [ht, not_le.1 ht]
      · by_cases ht : t1 ≤ t2
        · simp [ht]
        · simp [ht, not_le.1 ht]
    · rw [if_neg (by simp [h1]), if_pos h2] at h; simp at h
  · rw [if_pos h1] at h; simp at h

omit [NormedSpace ℝ E] in
/-- C43. Value of the extracted function: `f (t1 + s)`, or `f (t1 - s)` if the bounds are in the reverse
order. -/
theorem C43_value (f g : Fun1 ℝ E) (t1 t2 : ℝ) (h : f.extract t1 t2 = some g) (s : ℝ) :
    (t1 ≤ t2 → g.value [s] = f.value [t1 + s]) ∧ (t2 < t1 → g.value [s] = f.value [t1 - s]) := by
  rcases extract_cases f g t1 t2 h with ⟨rfl, h0, rfl⟩ | ⟨-, -, hv, -⟩
  · refine ⟨fun _ => by rw [zero_add], fun h1 => absurd h1 (not_lt.2 h0.le)⟩
  · rw [hv s]
    unfold extractPoint
    exact ⟨fun h1 => by rw [if_pos h1], fun h1 => by rw [if_neg (not_le.2 h1)]⟩

omit [NormedSpace ℝ E] in
/-- C43. The function is evaluated between the bounds for a parameter between 0 and the length of the
interval, and the bounds are reached. -/
theorem C43_domain (f g : Fun1 ℝ E) (t1 t2 : ℝ) (h : f.extract t1 t2 = some g) :
    (∀ s, 0 ≤ s → s ≤ |t2 - t1| → ∃ t, min t1 t2 ≤ t ∧ t ≤ max t1 t2 ∧ g.value [s] = f.value [t]) ∧
    g.value [0] = f.value [t1] ∧ g.value [|t2 - t1|] = f.value [t2] := by
  refine ⟨fun s h0 h1 => ?_, ?_, ?_⟩
  · rcases le_or_gt t1 t2 with ht | ht
    · rw [abs_of_nonneg (by linarith)] at h1
      exact ⟨t1 + s, by rw [min_eq_left ht]; linarith, by rw [max_eq_right ht]; linarith,
        (C43_value f g t1 t2 h s).1 ht⟩
    · rw [abs_of_nonpos (by linarith)] at h1
      exact ⟨t1 - s, by rw [min_eq_right ht.le]; linarith, by rw [max_eq_left ht.le]; linarith,
        (C43_value f g t1 t2 h s).2 ht⟩
  · rcases le_or_gt t1 t2 with ht | ht
    · rw [(C43_value f g t1 t2 h 0).1 ht, add_zero]
    · rw [(C43_value f g t1 t2 h 0).2 ht, sub_zero]
  · rcases le_or_gt t1 t2 with ht | ht
    · rw [(C43_value f g t1 t2 h _).1 ht, abs_of_nonneg (by linarith), add_sub_cancel]
    · rw [(C43_value f g t1 t2 h _).2 ht, abs_of_nonpos (by linarith), neg_sub, sub_sub_cancel]

omit [NormedSpace ℝ E] in
/-- C43. An exception exactly if the function has not one input variable and the interval is not `[0, t2]`. -/
theorem C43_exception (f : Fun1 ℝ E) (t1 t2 : ℝ) :
    f.extract t1 t2 = none ↔ ¬(t1 = 0 ∧ 0 < t2) ∧ (f.inputSize ≠ 1 ∨ f.inputDer ≠ 1) := by
  unfold Fun1.extract Fun1.extracted
  by_cases h0 : t1 = 0 ∧ 0 < t2
  · simp [h0]
  · rw [if_neg h0]
    by_cases h1 : f.inputSize = 1 <;> by_cases h2 : f.inputDer = 1 <;> simp [h1, h2, h0]

omit [NormedSpace ℝ E] in
/-- C43. Extraction from an extracted function. -/
theorem C43_compose (f g k : Fun1 ℝ E) (t1 t2 u1 u2 : ℝ) (h : f.extract t1 t2 = some g)
    (h' : g.extract u1 u2 = some k) (s : ℝ) :
    (t1 ≤ t2 → u1 ≤ u2 → k.value [s] = f.value [t1 + u1 + s]) ∧
    (t1 ≤ t2 → u2 < u1 → k.value [s] = f.value [t1 + u1 - s]) ∧
    (t2 < t1 → u1 ≤ u2 → k.value [s] = f.value [t1 - u1 - s]) ∧
    (t2 < t1 → u2 < u1 → k.value [s] = f.value [t1 - u1 + s]) := by
  refine ⟨fun ht hu => ?_, fun ht hu => ?_, fun ht hu => ?_, fun ht hu => ?_⟩
  · rw [(C43_value g k u1 u2 h' s).1 hu, (C43_value f g t1 t2 h _).1 ht, add_assoc]
  · rw [(C43_value g k u1 u2 h' s).2 hu, (C43_value f g t1 t2 h _).1 ht, add_sub_assoc]
  · rw [(C43_value g k u1 u2 h' s).1 hu, (C43_value f g t1 t2 h _).2 ht, sub_sub]
  · rw [(C43_value g k u1 u2 h' s).2 hu, (C43_value f g t1 t2 h _).2 ht, sub_sub_eq_add_sub, sub_add_eq_add_sub]

/-- C43. Jacobian, reversed interval: the derivative of the value. -/
theorem C43_jacobian_reversed (f g : Fun1 ℝ E) (t1 t2 : ℝ) (ht : t2 < t1) (h : f.extract t1 t2 = some g)
    (hf : ∀ t, HasDerivAt (fun t => f.value [t]) (f.jac [t]) t) (s : ℝ) :
    HasDerivAt (fun s => g.value [s]) (g.jac [s]) s := by
  rcases extract_cases f g t1 t2 h with ⟨rfl, h0, rfl⟩ | ⟨-, -, -, -, -, hj⟩
  · exact absurd ht (not_lt.2 h0.le)
  · rw [hj s, if_neg (not_le.2 ht)]
    rw [show (fun s => g.value [s]) = fun s => f.value [t1 - s] from
      funext fun s => (C43_value f g t1 t2 h s).2 ht]
    exact (hf (t1 - s)).comp_const_sub t1 s

/-- C43, part, for the other intervals: the Jacobian is evaluated at `s - t1` instead of `t1 + s`; the result is the
derivative exactly if the derivative of the function is the same at both points.  In particular the claim holds if
`t1 = 0` or if the function has a constant derivative. Missing: the other functions, see `C43_jacobian_refuted`. -/
theorem C43_jacobian_partial (f g : Fun1 ℝ E) (t1 t2 : ℝ) (ht : t1 ≤ t2) (h : f.extract t1 t2 = some g)
    (hf : ∀ t, HasDerivAt (fun t => f.value [t]) (f.jac [t]) t) (s : ℝ) :
    HasDerivAt (fun s => g.value [s]) (g.jac [s]) s ↔ f.jac [s - t1] = f.jac [t1 + s] := by
  have hd : HasDerivAt (fun s => g.value [s]) (f.jac [t1 + s]) s := by
    rw [show (fun s => g.value [s]) = fun s => f.value [t1 + s] from
      funext fun s => (C43_value f g t1 t2 h s).1 ht]
    exact (hf (t1 + s)).comp_const_add t1 s
  have hj : g.jac [s] = f.jac [s - t1] := by
    rcases extract_cases f g t1 t2 h with ⟨rfl, h0, rfl⟩ | ⟨-, -, -, -, -, hj⟩
    · rw [sub_zero]
    · rw [hj s, if_pos ht]
  rw [hj]
  exact ⟨fun h1 => h1.unique hd, fun h1 => h1 ▸ hd⟩

/-- `t ↦ t²` with its derivative. -/
def exSquare : Fun1 ℝ ℝ := ⟨1, 1, fun l => l.getD 0 0 ^ 2, fun l => 2 * l.getD 0 0⟩

theorem exSquare_deriv (t : ℝ) : HasDerivAt (fun t => exSquare.value [t]) (exSquare.jac [t]) t := by
  have := hasDerivAt_pow 2 t
  simpa [exSquare] using this

theorem exSquare_extract (t1 t2 : ℝ) (h : ¬(t1 = 0 ∧ 0 < t2)) : ∃ g, exSquare.extract t1 t2 = some g := by
  unfold Fun1.extract Fun1.extracted
  rw [if_neg h]
  exact ⟨_, rfl⟩

/-- The hypotheses of the theorems of this file hold for the square on `[3, 1]`, on `[1, 3]` and on `[0, 1]`. -/
example : (∃ g, exSquare.extract 3 1 = some g ∧ g.value [1] = 4) ∧
    (∃ g, exSquare.extract 1 3 = some g ∧ g.value [1] = 4) ∧ exSquare.extract 0 1 = some exSquare := by
  refine ⟨?_, ?_, ?_⟩
  · obtain ⟨g, hg⟩ := exSquare_extract 3 1 (by norm_num)
    exact ⟨g, hg, by rw [(C43_value _ _ _ _ hg 1).2 (by norm_num)]; norm_num [exSquare]⟩
  · obtain ⟨g, hg⟩ := exSquare_extract 1 3 (by norm_num)
    exact ⟨g, hg, by rw [(C43_value _ _ _ _ hg 1).1 (by norm_num)]; norm_num [exSquare]⟩
  · norm_num [Fun1.extract]

/-- C43 is false for the intervals in increasing order: the square on `[1, 3]`, at its beginning, has derivative 2; the
Jacobian is -2. -/
theorem C43_jacobian_refuted : ∃ g, exSquare.extract 1 3 = some g ∧
    (∀ t, HasDerivAt (fun t => exSquare.value [t]) (exSquare.jac [t]) t) ∧ g.jac [0] = -2 ∧
    HasDerivAt (fun s => g.value [s]) 2 0 ∧ ¬HasDerivAt (fun s => g.value [s]) (g.jac [0]) 0 := by
  obtain ⟨g, hg⟩ := exSquare_extract 1 3 (by norm_num)
  have hj : g.jac [0] = -2 := by
    rcases extract_cases exSquare g 1 3 hg with ⟨h, -⟩ | ⟨-, -, -, -, -, hj⟩
    · norm_num at h
    · rw [hj 0, if_pos (by norm_num)]
      norm_num [exSquare]
  have hd : HasDerivAt (fun s => g.value [s]) 2 0 := by
    rw [show (fun s => g.value [s]) = fun s => exSquare.value [1 + s] from
      funext fun s => (C43_value exSquare g 1 3 hg s).1 (by norm_num)]
    have := (exSquare_deriv (1 + 0)).comp_const_add 1 0
    simpa [exSquare] using this
  refine ⟨g, hg, exSquare_deriv, hj, hd, fun h => ?_⟩
  rw [hj] at h
  have := h.unique hd
  norm_num at this

end Hpp
