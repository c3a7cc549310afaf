import Verif.Solve.OptionalProps

/-!
# C151: optional constraints, `solveLevelByLevel` and Backtracking

Sources: `/repo/src/solver/hierarchical-iterative.cc`, lines 744-823;
`/repo/include/hpp/constraints/solver/impl/hierarchical-iterative.hh`, lines 47-104 (`Backtracking`).
-/

namespace Hpp

open Matrix

namespace OptBack

/-- The mandatory constraint `x = 0`. -/
def mand : NLevel (Fin 2 → ℝ) ℝ 2 := ⟨1, fun _ => !![1, 0], fun q => ![q 0], 1, fun _ => 0⟩
/-- The optional constraint `x + y = 0`. -/
def opt : NLevel (Fin 2 → ℝ) ℝ 2 := ⟨1, fun _ => !![1, 1], fun q => ![q 0 + q 1], 1, fun _ => 0⟩

theorem norm_mand (q : Fin 2 → ℝ) : nSqNorm false [mand] q = q 0 * q 0 := by
  show ([∑ a : Fin 1, if (0 : Fin 1) = 0 then (![q 0] : Fin 1 → ℝ) a * (![q 0] : Fin 1 → ℝ) a else 0]).foldl max 0 = _
  simp [mul_self_nonneg]

theorem norm_both (q : Fin 2 → ℝ) : nSqNorm true [mand, opt] q = q 0 * q 0 := norm_mand q

theorem step {o : SvdOps ℝ} (ho : o.Exact) : o.solve (mand.at ![1, 10000]).J (-(mand.at ![1, 10000]).e) = ![-1, 0] := by
  refine exact_solve ho (mand.at ![1, 10000]) _ (![-1] : Fin 1 → ℝ) ?_ ?_
  · show (!![1, 0] : Matrix (Fin 1) (Fin 2) ℝ)ᵀ *ᵥ ((!![1, 0] : Matrix (Fin 1) (Fin 2) ℝ) *ᵥ ![-1, 0] + (![(![1, 10000] : Fin 2 → ℝ) 0] : Fin 1 → ℝ)) = 0
    ext j; fin_cases j <;> simp [mulVec, dotProduct]
  · show ![-1, 0] = (!![1, 0] : Matrix (Fin 1) (Fin 2) ℝ)ᵀ *ᵥ (![-1] : Fin 1 → ℝ)
    ext j; fin_cases j <;> simp [mulVec, dotProduct]

theorem sq_mand : (mand.at ![1, 10000]).e ⬝ᵥ (mand.at ![1, 10000]).e = 1 := by
  show (![(![1, 10000] : Fin 2 → ℝ) 0] : Fin 1 → ℝ) ⬝ᵥ ![(![1, 10000] : Fin 2 → ℝ) 0] = 1
  simp

theorem slope_mand : localSlope ([mand].map fun l => l.at ![1, 10000]) ![-1, 0] = -1 := by
  show 0 + ((!![1, 0] : Matrix (Fin 1) (Fin 2) ℝ) *ᵥ ![-1, 0]) ⬝ᵥ (![(![1, 10000] : Fin 2 → ℝ) 0] : Fin 1 → ℝ) = -1
  simp [mulVec, dotProduct]

theorem slope_both : localSlope ([mand, opt].map fun l => l.at ![1, 10000]) ![-1, 0] = -10002 := by
  show 0 + ((!![1, 0] : Matrix (Fin 1) (Fin 2) ℝ) *ᵥ ![-1, 0]) ⬝ᵥ (![(![1, 10000] : Fin 2 → ℝ) 0] : Fin 1 → ℝ) +
    ((!![1, 1] : Matrix (Fin 1) (Fin 2) ℝ) *ᵥ ![-1, 0]) ⬝ᵥ (![(![1, 10000] : Fin 2 → ℝ) 0 + (![1, 10000] : Fin 2 → ℝ) 1] : Fin 1 → ℝ) = -10002
  simp [mulVec, dotProduct]
  norm_num

theorem search_mand : (lsB false [mand] (· + ·) () ![1, 10000] ![-1, 0]).2.arg = ![0, 10000] := by
  obtain ⟨out, g1, -, g2, g3⟩ := C32_backtracking (newtonEnv false [mand] (· + ·))
    (localSlope ([mand].map fun l => l.at ![1, 10000]) ![-1, 0]) (nSqNorm false [mand] ![1, 10000]) ![1, 10000] ![-1, 0]
  have full : Armijo (newtonEnv false [mand] (· + ·)) (1 / 1000) (localSlope ([mand].map fun l => l.at ![1, 10000]) ![-1, 0])
      (nSqNorm false [mand] ![1, 10000]) ![1, 10000] ![-1, 0] ((7 / 10) ^ 0) := by
    rw [slope_mand, norm_mand]
    unfold Armijo
    show nSqNorm false [mand] _ ≤ _
    rw [norm_mand]
    show ((1 : ℝ) + (7 / 10) ^ 0 * (-1)) * (1 + (7 / 10) ^ 0 * (-1)) ≤ 1 * 1 + (7 / 10) ^ 0 * (2 * (1 / 1000) * -1)
    norm_num
  unfold lsB
  rw [g1]
  simp only [Option.getD_some]
  rw [g2]
  rcases g3 with ⟨-, -, k, -, g4, -, -, g5⟩ | ⟨-, -, g5⟩
  · have hk : k = 0 := by
      by_contra hk
      exact g5 0 (by omega) full
    rw [g4, hk]
    show ![1, 10000] + ((7 / 10 : ℝ) ^ 0) • ![-1, 0] = ![0, 10000]
    ext j; fin_cases j <;> simp
  · rw [slope_mand] at g5
    rw [slope_mand] at full
    rcases g5 with g5 | g5
    · norm_num at g5
    · exact absurd full (g5 0 (by norm_num))

theorem search_both : (lsB true [mand, opt] (· + ·) () ![1, 10000] ![-1, 0]).2.arg = ![4 / 5, 10000] := by
  obtain ⟨out, g1, -, g2, g3⟩ := C32_backtracking (newtonEnv true [mand, opt] (· + ·))
    (localSlope ([mand, opt].map fun l => l.at ![1, 10000]) ![-1, 0]) (nSqNorm true [mand, opt] ![1, 10000]) ![1, 10000] ![-1, 0]
  unfold lsB
  rw [g1]
  simp only [Option.getD_some]
  rw [g2]
  rcases g3 with ⟨-, -, k, -, -, g3, g4, -⟩ | ⟨-, g4, -⟩
  · exfalso
    rw [slope_both, norm_both] at g4
    unfold Armijo at g4
    have g4' : nSqNorm true [mand, opt] (![1, 10000] + ((7 / 10 : ℝ) ^ k) • ![-1, 0]) ≤ 1 * 1 + (7 / 10 : ℝ) ^ k * (2 * (1 / 1000) * -10002) := g4
    rw [norm_both] at g4'
    nlinarith [mul_self_nonneg ((![1, 10000] + ((7 / 10 : ℝ) ^ k) • ![-1, 0] : Fin 2 → ℝ) 0)]
  · rw [g4]
    show ![1, 10000] + ((1 / 5 : ℝ)) • ![-1, 0] = ![4 / 5, 10000]
    ext j; fin_cases j <;> norm_num

end OptBack

open OptBack in
/-- C151. `C151_ignored` does not extend to Backtracking: the optional level, that is not read to compute the direction, is read by `computeLocalSlope`.
For the mandatory constraint `x = 0`, the optional constraint `x + y = 0` and the configuration (1, 10000), the step to the
solution is accepted without the optional level (`SUCCESS` after one iteration), and divided by 5 with it. -/
theorem C151_backtracking_refuted (o : SvdOps ℝ) (ho : o.Exact) (thr dqMin : ℝ) (h0 : 0 ≤ thr) (h1 : thr < 16 / 25) (h2 : dqMin ≤ 1)
    (dq : Fin 2 → ℝ) :
    (let r := solve (newtonOps o true false thr [mand] (lsB false [mand] (· + ·))) thr dqMin 1 2 ![1, 10000] (dq, ())
     r.status = some .success ∧ r.arg = ![0, 10000]) ∧
    (let r := solve (newtonOps o true true thr [mand, opt] (lsB true [mand, opt] (· + ·))) thr dqMin 1 2 ![1, 10000] (dq, ())
     r.status = some .maxIterationReached ∧ r.arg = ![4 / 5, 10000]) := by
  have one : ∀ (O : Ops (Fin 2 → ℝ) ((Fin 2 → ℝ) × Unit) ℝ) (y : Fin 2 → ℝ), O.norm ![1, 10000] = 1 →
      O.dir ![1, 10000] (dq, ()) = ((![-1, 0], ()), 1) → (O.search ![1, 10000] (![-1, 0], ())).1 = y →
      (solve O thr dqMin 1 2 ![1, 10000] (dq, ())).arg = y ∧
      (solve O thr dqMin 1 2 ![1, 10000] (dq, ())).status = if thr < O.norm y then some .maxIterationReached else some .success := by
    intro O y e1 e2 e3
    have hlt : thr < 1 := by linarith
    unfold solve
    dsimp only
    rw [e1, if_neg (by simp)]
    unfold solveLoop
    rw [if_pos ⟨hlt, by decide⟩, e2]
    dsimp only
    rw [if_neg (not_lt.2 h2)]
    unfold solveLoop
    rw [e3]
    exact ⟨rfl, rfl⟩
  have dir : ∀ ds, descend o true thr (mand.at ![1, 10000] :: ds) dq = some ![-1, 0] := by
    intro ds
    rw [C151_direction o thr (mand.at ![1, 10000]) ds one_ne_zero (by rw [sq_mand]; linarith) dq, step ho]
  constructor
  · obtain ⟨a, b⟩ := one (newtonOps o true false thr [mand] (lsB false [mand] (· + ·))) ![0, 10000] ((norm_mand _).trans (by simp)) (by
      show (((descend o true thr [mand.at ![1, 10000]] dq).getD 0, ()),
        (descend o true thr [mand.at ![1, 10000]] dq).getD 0 ⬝ᵥ (descend o true thr [mand.at ![1, 10000]] dq).getD 0) = _
      simp [dir]) search_mand
    refine ⟨b.trans (if_neg ?_), a⟩
    show ¬ thr < nSqNorm false [mand] ![0, 10000]
    rw [norm_mand]
    simpa using h0
  · obtain ⟨a, b⟩ := one (newtonOps o true true thr [mand, opt] (lsB true [mand, opt] (· + ·))) ![4 / 5, 10000] ((norm_both _).trans (by simp)) (by
      show (((descend o true thr [mand.at ![1, 10000], opt.at ![1, 10000]] dq).getD 0, ()),
        (descend o true thr [mand.at ![1, 10000], opt.at ![1, 10000]] dq).getD 0 ⬝ᵥ (descend o true thr [mand.at ![1, 10000], opt.at ![1, 10000]] dq).getD 0) = _
      simp [dir]) search_both
    refine ⟨b.trans (if_pos ?_), a⟩
    show thr < nSqNorm true [mand, opt] ![4 / 5, 10000]
    rw [norm_both]
    norm_num
    exact h1

end Hpp
