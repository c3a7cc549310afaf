import Verif.Solve.LevelByLevel

/-!
# C154: a first level without constraint

Sources: `/repo/src/solver/hierarchical-iterative.cc`, lines 744-823 (`computeDescentDirection`) and
`/repo/include/hpp/constraints/solver/impl/hierarchical-iterative.hh`, lines 123-181 (`solve`).
-/

namespace Hpp

open Matrix

namespace GapFirst

/-- `q₀ = 0` -/
def one : NLevel (Fin 2 → ℝ) ℝ 2 := ⟨1, fun _ => !![1, 0], fun q => ![q 0], 1, id⟩

/-- no constraint -/
def zero : NLevel (Fin 2 → ℝ) ℝ 2 := ⟨0, fun _ => 0, fun _ => 0, 0, id⟩

theorem solve_one {o : SvdOps ℝ} (ho : o.Exact) (b : Fin 1 → ℝ) : o.solve (!![1, 0] : Matrix (Fin 1) (Fin 2) ℝ) b = ![b 0, 0] := by
  obtain ⟨w, hw⟩ := ho.range (!![1, 0] : Matrix (Fin 1) (Fin 2) ℝ) b
  have h := ho.ls (!![1, 0] : Matrix (Fin 1) (Fin 2) ℝ) b ![b 0, 0]
  rw [hw] at h ⊢
  have e : (!![1, 0] : Matrix (Fin 1) (Fin 2) ℝ) *ᵥ ((!![1, 0] : Matrix (Fin 1) (Fin 2) ℝ)ᵀ *ᵥ w) = w := by
    funext i
    fin_cases i
    simp [mulVec, dotProduct, Fin.sum_univ_two]
  rw [e] at h
  simp [dotProduct] at h
  have h' : w 0 = b 0 := by
    have := mul_self_eq_zero.1 (le_antisymm h (mul_self_nonneg _))
    linarith
  funext i
  fin_cases i <;> simp [mulVec, dotProduct, h']

theorem sq_first (q : Fin 2 → ℝ) : nSqNorm false [one] q = max 0 (q 0 * q 0) := by
  simp [nSqNorm, NLevel.norms, one, List.finRange_succ]

theorem sq_second (q : Fin 2 → ℝ) : nSqNorm false [zero, one] q = max 0 (q 0 * q 0) := by
  simp [nSqNorm, NLevel.norms, one, zero, List.finRange_succ]

theorem dir_one {o : SvdOps ℝ} (ho : o.Exact) (byLevel : Bool) (thr : ℝ) (q dq : Fin 2 → ℝ) :
    descend o byLevel thr ([one].map fun l => l.at q) dq = some ![-q 0, 0] := by
  show some (o.solve (!![1, 0] : Matrix (Fin 1) (Fin 2) ℝ) (-![q 0])) = _
  rw [solve_one ho]
  simp

theorem dir_two {o : SvdOps ℝ} (ho : o.Exact) (byLevel : Bool) (thr : ℝ) (q dq : Fin 2 → ℝ) :
    descend o byLevel thr ([zero, one].map fun l => l.at q) dq = some ![-q 0, dq 1] := by
  have h : descend o byLevel thr ([zero, one].map fun l => l.at q) dq =
      some (dq + o.solve (!![1, 0] : Matrix (Fin 1) (Fin 2) ℝ) (-![q 0] - !![1, 0] *ᵥ dq)) := by
    show some (descendLoop o byLevel thr true [⟨0, 0, 0⟩, ⟨1, !![1, 0], ![q 0]⟩] none dq) = _
    simp [descendLoop]
  rw [h, solve_one ho]
  congr 1
  funext i
  fin_cases i <;> simp [mulVec, dotProduct]

/-- One iteration of `solve` that gives an error equal to zero. -/
theorem solve_once {A M : Type} (O : Ops A M ℝ) {thr dqMin : ℝ} {maxIter d : Nat} (hd : d ≠ 0) (hm : 1 ≤ maxIter) {a : A} {m : M} (h0 : 0 ≤ thr)
    (h1 : thr < O.norm a) (h2 : dqMin ≤ (O.dir a m).2) (h3 : O.norm (O.search a (O.dir a m).1).1 = 0) :
    (solve O thr dqMin maxIter d a m).arg = (O.search a (O.dir a m).1).1 ∧ (solve O thr dqMin maxIter d a m).status = some .success ∧
    (solve O thr dqMin maxIter d a m).iter = 1 := by
  obtain ⟨k, rfl⟩ : ∃ k, maxIter = k + 1 := ⟨maxIter - 1, by omega⟩
  unfold solve
  dsimp only
  rw [if_neg (fun h => hd h.2), solveLoop, if_pos ⟨h1, by decide⟩]
  dsimp only
  rw [if_neg (not_lt.2 h2), h3]
  cases k with
  | zero =>
    rw [solveLoop]
    simp [solveEnd, h0]
  | succ k =>
    rw [solveLoop, if_neg (fun h => absurd h.1 (not_lt.2 h0))]
    simp [solveEnd, h0]

end GapFirst

open GapFirst

/-- C154 fails if no constraint has priority 0.  The constraint `q₀ = 0` is the only one, the configuration is `(1, 0)`, and a previous call has left the direction
`(0, c)`.  With priority 0 the result is `(0, 0)`, with priority 1 it is `(0, c)`: `SUCCESS` after one iteration in both cases. -/
theorem C154_first_refuted (o : SvdOps ℝ) (ho : o.Exact) (byLevel : Bool) (thr dqMin : ℝ) (h0 : 0 ≤ thr) (h1 : thr < 1) (h2 : dqMin ≤ 1) (maxIter : Nat)
    (hm : 1 ≤ maxIter) (c : ℝ) :
    let r := solve (newtonOps o byLevel false thr [one] (lsC false [one] (· + ·))) thr dqMin maxIter 1 ![1, 0] (![0, c], ())
    let r' := solve (newtonOps o byLevel false thr [zero, one] (lsC false [zero, one] (· + ·))) thr dqMin maxIter 1 ![1, 0] (![0, c], ())
    (r.arg = ![0, 0] ∧ r.status = some .success ∧ r.iter = 1) ∧ r'.arg = ![0, c] ∧ r'.status = some .success ∧ r'.iter = 1 := by
  intro r r'
  have e1 : (newtonOps o byLevel false thr [one] (lsC false [one] (· + ·))).dir ![1, 0] (![0, c], ()) = ((![-1, 0], ()), 1) := by
    show (((descend o byLevel thr ([one].map fun l => l.at ![1, 0]) ![0, c]).getD 0, ()), _ ⬝ᵥ _) = _
    rw [dir_one ho, Option.getD_some]
    simp [dotProduct]
  have e2 : (newtonOps o byLevel false thr [zero, one] (lsC false [zero, one] (· + ·))).dir ![1, 0] (![0, c], ()) = ((![-1, c], ()), 1 + c * c) := by
    show (((descend o byLevel thr ([zero, one].map fun l => l.at ![1, 0]) ![0, c]).getD 0, ()), _ ⬝ᵥ _) = _
    rw [dir_two ho, Option.getD_some]
    simp [dotProduct]
  have s1 : (newtonOps o byLevel false thr [one] (lsC false [one] (· + ·))).search ![1, 0] (![-1, 0], ()) = (![0, 0], (![-1, 0], ())) := by
    show ((![1, 0] + ![-1, 0] : Fin 2 → ℝ), _) = _
    simp
  have s2 : (newtonOps o byLevel false thr [zero, one] (lsC false [zero, one] (· + ·))).search ![1, 0] (![-1, c], ()) = (![0, c], (![-1, c], ())) := by
    show ((![1, 0] + ![-1, c] : Fin 2 → ℝ), _) = _
    simp
  have t1 := solve_once (newtonOps o byLevel false thr [one] (lsC false [one] (· + ·))) (thr := thr) (dqMin := dqMin) (d := 1) one_ne_zero hm
    (a := ![1, 0]) (m := (![0, c], ())) h0 (by show thr < nSqNorm false [one] _; rw [sq_first]; simpa using h1) (by rw [e1]; exact h2)
    (by rw [e1, s1]; show nSqNorm false [one] _ = 0; rw [sq_first]; simp)
  have t2 := solve_once (newtonOps o byLevel false thr [zero, one] (lsC false [zero, one] (· + ·))) (thr := thr) (dqMin := dqMin) (d := 1) one_ne_zero hm
    (a := ![1, 0]) (m := (![0, c], ())) h0 (by show thr < nSqNorm false [zero, one] _; rw [sq_second]; simpa using h1)
    (by rw [e2]; have := mul_self_nonneg c; show dqMin ≤ 1 + c * c; linarith)
    (by rw [e2, s2]; show nSqNorm false [zero, one] _ = 0; rw [sq_second]; simp)
  rw [e1, s1] at t1
  rw [e2, s2] at t2
  exact ⟨t1, t2⟩

/-- The hypotheses are met: there is an exact decomposition, and the results differ. -/
example : ∃ o : SvdOps ℝ, o.Exact ∧
    (solve (newtonOps o false false (1 / 10 ^ 8) [one] (lsC false [one] (· + ·))) (1 / 10 ^ 8) (1 / 10 ^ 12) 20 1 ![1, 0] (![0, 5], ())).arg ≠
    (solve (newtonOps o false false (1 / 10 ^ 8) [zero, one] (lsC false [zero, one] (· + ·))) (1 / 10 ^ 8) (1 / 10 ^ 12) 20 1 ![1, 0] (![0, 5], ())).arg := by
  obtain ⟨o, ho, -⟩ := exists_exact_ortho
  obtain ⟨⟨h, -⟩, h', -⟩ := C154_first_refuted o ho false (1 / 10 ^ 8) (1 / 10 ^ 12) (by norm_num) (by norm_num) (by norm_num) 20 (by norm_num) 5
  refine ⟨o, ho, fun he => ?_⟩
  rw [h, h'] at he
  have := congrFun he 1
  norm_num at this

end Hpp
