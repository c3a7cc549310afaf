import Verif.Solve.NewtonProps

/-!
# Backtracking on linear constraints that have a common solution: C131

Sources: `/repo/include/hpp/constraints/solver/impl/hierarchical-iterative.hh`, lines 47-104 and
`/repo/src/solver/hierarchical-iterative.cc`, lines 85-90 and 694-719.

The decrease required by the line search is computed from the sum of the squared errors of the constraints of all
levels, and is compared with the decrease of the largest squared error of a constraint of the mandatory levels.
-/

namespace Hpp

open Matrix

variable {A α : Type}

section
variable [Field α] [LinearOrder α] [IsStrictOrderedRing α] {n : Nat}

/-- Number of constraints of a list of levels. -/
def numCons (lv : List (NLevel A α n)) : Nat := (lv.map fun l => l.nc).sum

omit [LinearOrder α] [IsStrictOrderedRing α] in
/-- The squared norm of the error of a level is the sum over its constraints. -/
theorem norms_sum (l : NLevel A α n) (q : A) : (l.norms q).sum = l.err q ⬝ᵥ l.err q := by
  unfold NLevel.norms
  rw [← List.ofFn_eq_map, List.sum_ofFn, Finset.sum_comm]
  unfold dotProduct
  refine Finset.sum_congr rfl fun i _ => ?_
  simp

omit [LinearOrder α] [IsStrictOrderedRing α] in
theorem flatMap_norms_sum (lv : List (NLevel A α n)) (q : A) :
    (lv.flatMap fun l => l.norms q).sum = sumSq lv q ∧ (lv.flatMap fun l => l.norms q).length = numCons lv := by
  induction lv with
  | nil => simp [sumSq, numCons]
  | cons l lv ih =>
    rw [List.flatMap_cons, List.sum_append, List.length_append, ih.1, ih.2, norms_sum]
    constructor
    · simp [sumSq]
    · simp [numCons, NLevel.norms]

/-- The sum of the squared errors is at most the number of constraints times the largest one. -/
theorem sumSq_le (lv : List (NLevel A α n)) (q : A) : sumSq lv q ≤ numCons lv * nSqNorm false lv q := by
  have h1 := flatMap_norms_sum lv q
  have h2 : ∀ z ∈ lv.flatMap fun l => l.norms q, z ≤ nSqNorm false lv q := by
    have := (foldl_max_le (l := lv.flatMap fun l => l.norms q) (x := (0 : α)) (y := nSqNorm false lv q)).1
      (by unfold nSqNorm; exact le_refl _)
    exact this.2
  have h3 := List.sum_le_card_nsmul _ _ h2
  rw [h1.1, h1.2, nsmul_eq_mul] at h3
  exact h3

/-- The slope along a step that satisfies linear constraints. -/
theorem slope_solves {lv : List (NLevel A α n)} {integrate : A → (Fin n → α) → A}
    (hlin : LinearLevels integrate lv) {q : A} {v : Fin n → α} (hv : Solves integrate lv q v) :
    localSlope (lv.map fun l => l.at q) v = -sumSq lv q := by
  rw [localSlope_sum, List.map_map]
  unfold sumSq
  induction lv with
  | nil => simp
  | cons l lv ih =>
    have h1 := (hlin l (by simp) q v).1
    rw [hv l (by simp)] at h1
    have h2 : l.J q *ᵥ v = -l.err q := (neg_eq_of_add_eq_zero_right h1.symm).symm
    have h3 := ih (fun l' hl' => hlin l' (by simp [hl'])) fun l' hl' => hv l' (by simp [hl'])
    have h4 : ((l.at q).J *ᵥ v) ⬝ᵥ (l.at q).e = -(l.err q ⬝ᵥ l.err q) := by
      show (l.J q *ᵥ v) ⬝ᵥ l.err q = _
      rw [h2, neg_dotProduct]
    simp only [List.map_cons, List.sum_cons, h3, Function.comp, h4]
    ring

omit [LinearOrder α] in
theorem sumSq_nonneg' [LinearOrder α] [IsStrictOrderedRing α] (lv : List (NLevel A α n)) (q : A) :
    0 ≤ sumSq lv q := by
  unfold sumSq
  refine List.sum_nonneg fun x hx => ?_
  obtain ⟨l, -, rfl⟩ := List.mem_map.1 hx
  exact dot_self_nonneg _

/-- The condition of sufficient decrease along a step that satisfies linear constraints. -/
theorem armijo_linear (opt : Bool) {lv : List (NLevel A α n)} {integrate : A → (Fin n → α) → A}
    (hlin : LinearLevels integrate lv) {q : A} {v : Fin n → α} (hv : Solves integrate lv q v) {t : α} (ht : 0 < t) :
    Armijo (newtonEnv opt lv integrate) (1 / 1000) (localSlope (lv.map fun l => l.at q) v) (nSqNorm opt lv q) q v t ↔
      sumSq lv q ≤ 500 * (2 - t) * nSqNorm opt lv q := by
  unfold Armijo
  show nSqNorm opt lv (integrate q (t • v)) ≤ _ ↔ _
  rw [slope_solves hlin hv, nSqNorm_scale opt lv q _ t (linear_scale hlin hv t)]
  have e : nSqNorm opt lv q + t * (2 * (1 / 1000) * -sumSq lv q) - (1 - t) ^ 2 * nSqNorm opt lv q =
      t * ((500 * (2 - t) * nSqNorm opt lv q - sumSq lv q) / 500) := by ring
  rw [← sub_nonneg, e, mul_nonneg_iff_of_pos_left ht, ← sub_nonneg (b := sumSq lv q)]
  constructor
  · intro h; linarith
  · intro h; exact div_nonneg h (by norm_num)

/-! ## C131 -/

/-- C131. Backtracking along a step that satisfies linear constraints, and thus is the best one: the step is kept
exactly if the sum of the squared errors of all constraints is at most 500 times the largest squared error of a
mandatory constraint; the line search fails, and the step is divided by 5, exactly if it is more than
879.95 times larger. -/
theorem C131_step (opt : Bool) (lv : List (NLevel A α n)) (integrate : A → (Fin n → α) → A)
    (hlin : LinearLevels integrate lv) (q : A) (v : Fin n → α) (hv0 : v ≠ 0) (hv : Solves integrate lv q v) :
    ((lsB opt lv integrate () q v).2.step = v ↔ sumSq lv q ≤ 500 * nSqNorm opt lv q) ∧
    ((lsB opt lv integrate () q v).2.ok = true ↔ sumSq lv q ≤ 879.95 * nSqNorm opt lv q) ∧
    ((lsB opt lv integrate () q v).2.ok = false → (lsB opt lv integrate () q v).2.step = (1 / 5 : α) • v) ∧
    (lsB opt lv integrate () q v).2.arg = integrate q (lsB opt lv integrate () q v).2.step := by
  have hinj : ∀ t : α, t • v = v → t = 1 := by
    intro t h
    have : (t - 1) • v = 0 := by rw [sub_smul, one_smul, h, sub_self]
    rcases smul_eq_zero.1 this with h | h
    · linarith
    · exact absurd h hv0
  have hM := nSqNorm_nonneg opt lv q
  have ha : ∀ k : Nat, Armijo (newtonEnv opt lv integrate) (1 / 1000) (localSlope (lv.map fun l => l.at q) v)
      (nSqNorm opt lv q) q v ((7 / 10) ^ k) ↔ sumSq lv q ≤ 500 * (2 - (7 / 10) ^ k) * nSqNorm opt lv q :=
    fun k => armijo_linear opt hlin hv (by positivity)
  have h4 : (1 / 5 : α) < (7 / 10) ^ 4 := by norm_num
  obtain ⟨out, g1, -, g2, g3⟩ := C32_backtracking (newtonEnv opt lv integrate)
    (localSlope (lv.map fun l => l.at q) v) (nSqNorm opt lv q) q v
  have hout : (lsB opt lv integrate () q v).2 = out := by
    unfold lsB
    rw [g1, Option.getD_some]
  rw [hout]
  refine ⟨?_, ?_, ?_, g2⟩
  · constructor
    · intro h
      rcases g3 with ⟨-, -, k, -, g4, -, g5, -⟩ | ⟨-, g4, -⟩
      · have hk := hinj ((7 / 10) ^ k) (by rw [g4] at h; exact h)
        have := (ha k).1 g5
        rw [hk] at this
        linarith
      · have := hinj (1 / 5) (by rw [g4] at h; exact h)
        norm_num at this
    · intro h
      have h0 := (ha 0).2 (by rw [pow_zero]; linarith)
      rcases g3 with ⟨-, -, k, -, g4, -, -, g5⟩ | ⟨-, -, g4 | g4⟩
      · rcases Nat.eq_zero_or_pos k with rfl | hk
        · rw [g4, pow_zero]
          exact one_smul _ _
        · exact absurd h0 (g5 0 hk)
      · rw [slope_solves hlin hv] at g4
        have := sumSq_nonneg' lv q
        linarith
      · exact absurd h0 (g4 0 (by norm_num))
  · constructor
    · intro h
      rcases g3 with ⟨-, -, k, gk, -, -, g5, -⟩ | ⟨g4, -⟩
      · have := (ha k).1 g5
        have e : ((7 : α) / 10) ^ 4 ≤ (7 / 10) ^ k := pow_le_pow_of_le_one (by norm_num) (by norm_num) gk
        have e' : 500 * (2 - (7 / 10) ^ k) * nSqNorm opt lv q ≤ 879.95 * nSqNorm opt lv q := by
          refine mul_le_mul_of_nonneg_right ?_ hM
          norm_num at e ⊢
          linarith
        exact this.trans e'
      · rw [h] at g4; exact absurd g4 (by decide)
    · intro h
      have h0 := (ha 4).2 (h.trans (le_of_eq (by norm_num)))
      rcases g3 with ⟨g4, -⟩ | ⟨-, -, g4 | g4⟩
      · exact g4
      · rw [slope_solves hlin hv] at g4
        have := sumSq_nonneg' lv q
        linarith
      · exact absurd h0 (g4 4 h4)
  · intro h
    rcases g3 with ⟨g4, -⟩ | ⟨-, g4, -⟩
    · rw [h] at g4; exact absurd g4 (by decide)
    · exact g4

/-- C131. With at most 500 constraints in all and no optional level, linear constraints that have a common solution are
solved by backtracking in one iteration, as they are with constant steps. -/
theorem C131_one_iteration (o : SvdOps α) (ho : o.Exact) (thr dqMin : α) (ht : 0 ≤ thr)
    (lv : List (NLevel A α n)) (hnc : numCons lv ≤ 500)
    (integrate : A → (Fin n → α) → A) (hlin : LinearLevels integrate lv)
    (maxIter : Nat) (hm : maxIter ≠ 0) (q : A) (hq : ∃ v, Solves integrate lv q v) (dq : Fin n → α) :
    let r := solve (newtonOps o false false thr lv (lsB false lv integrate)) thr dqMin maxIter n q (dq, ())
    (r.status = some .success ∧ (r.iter = 0 ∧ r.arg = q ∨ r.iter = 1 ∧ ∀ l ∈ lv, l.err r.arg = 0)) ∨
      (r.status = some .infeasible ∧ r.iter = 0 ∧ r.arg = q ∧ ∃ v, Solves integrate lv q v ∧ v ⬝ᵥ v < dqMin) := by
  intro r
  have hstep : ∀ q v, Solves integrate lv q v → (lsB false lv integrate () q v).2.arg = integrate q v := by
    intro q v hv
    obtain ⟨out, g1, -, g2, g3⟩ := C32_backtracking (newtonEnv false lv integrate)
      (localSlope (lv.map fun l => l.at q) v) (nSqNorm false lv q) q v
    have hout : (lsB false lv integrate () q v).2 = out := by
      unfold lsB
      rw [g1, Option.getD_some]
    have hM := nSqNorm_nonneg false lv q
    have hA : Armijo (newtonEnv false lv integrate) (1 / 1000) (localSlope (lv.map fun l => l.at q) v)
        (nSqNorm false lv q) q v ((7 / 10) ^ 0) := by
      refine (armijo_linear false hlin hv (by norm_num)).2 ((sumSq_le lv q).trans ?_)
      refine mul_le_mul_of_nonneg_right ?_ hM
      have : (numCons lv : α) ≤ 500 := by exact_mod_cast hnc
      rw [pow_zero]
      linarith
    rw [hout, g2]
    rcases g3 with ⟨-, -, k, -, g4, -, -, g5⟩ | ⟨-, -, g4 | g4⟩
    · rcases Nat.eq_zero_or_pos k with rfl | hk
      · rw [g4, pow_zero]
        exact congrArg (integrate q) (one_smul _ _)
      · exact absurd hA (g5 0 hk)
    · rw [slope_solves hlin hv] at g4
      have := sumSq_nonneg' lv q
      linarith
    · exact absurd hA (g4 0 (by norm_num))
  have hls : StepsIn integrate (fun _ => True) (1 / 5 : α) (lsB false lv integrate) := by
    refine fun s q u _ => ⟨trivial, ?_⟩
    obtain ⟨out, g1, -, g2, g3⟩ := C32_backtracking (newtonEnv false lv integrate)
      (localSlope (lv.map fun l => l.at q) u) (nSqNorm false lv q) q u
    unfold lsB
    rw [g1]
    simp only [Option.getD_some]
    rcases g3 with ⟨-, -, k, -, g4, g5, -⟩ | ⟨-, g4, -⟩
    · exact ⟨_, g5.le, pow_le_one₀ (by norm_num) (by norm_num), by rw [g2, g4]; rfl⟩
    · exact ⟨1 / 5, le_refl _, by norm_num, by rw [g2, g4]; rfl⟩
  obtain ⟨h1, -, h3, -, h5, -, h7⟩ :=
    C29_statuses (newtonOps o false false thr lv (lsB false lv integrate)) thr dqMin maxIter n q (dq, ())
  have hr : r = solve (newtonOps o false false thr lv (lsB false lv integrate)) thr dqMin maxIter n q (dq, ()) := rfl
  rw [← hr] at h1 h3 h5 h7
  have hz : ∀ l ∈ lv, l.err (traj (newtonOps o false false thr lv (lsB false lv integrate)) q (dq, ()) 1).1 = 0 := by
    obtain ⟨v, hv⟩ := hq
    have hd := newton_dir (thr := thr) ho hlin hv dq
    intro l hl
    show l.err (lsB false lv integrate () q
      ((descend o false thr (lv.map fun l => l.at q) dq).getD 0)).2.arg = 0
    rw [hstep q _ hd]
    exact hd l hl
  have hn : nSqNorm false lv (traj (newtonOps o false false thr lv (lsB false lv integrate)) q (dq, ()) 1).1 = 0 :=
    nSqNorm_zero false lv _ hz
  have hle : r.iter ≤ 1 := by
    by_contra hc
    have h8 : thr < nSqNorm false lv
      (traj (newtonOps o false false thr lv (lsB false lv integrate)) q (dq, ()) 1).1 := (h7 1 (by omega)).1
    rw [hn] at h8
    exact absurd ht (not_le.2 h8)
  have hcases : (r.iter = 0 ∧ r.arg = q) ∨ (r.iter = 1 ∧ ∀ l ∈ lv, l.err r.arg = 0) := by
    rcases Nat.le_one_iff_eq_zero_or_eq_one.1 hle with h | h
    · left; rw [h] at h1; exact ⟨h, h1⟩
    · right
      rw [h] at h1
      exact ⟨h, by rw [h1]; exact hz⟩
  obtain ⟨-, g⟩ := C91_converges o ho false thr dqMin ht lv integrate hlin (fun _ => True) (1 / 5) (by norm_num) _
    hls maxIter q hq dq () trivial
  rcases g with g | ⟨g1, g2⟩ | ⟨g1, v, g2, g3⟩
  · exact Or.inl ⟨g, hcases⟩
  · exfalso
    obtain ⟨e1, e2, -⟩ := h3.1 g1
    have e3 : r.iter = 1 := by omega
    have e1' : thr < nSqNorm false lv
      (traj (newtonOps o false false thr lv (lsB false lv integrate)) q (dq, ()) r.iter).1 := e1
    rw [e3, hn] at e1'
    exact absurd ht (not_le.2 e1')
  · right
    rcases hcases with ⟨h, h'⟩ | ⟨h, h'⟩
    · refine ⟨g1, h, h', v, ?_, g3⟩
      have g2' : Solves integrate lv r.arg v := g2
      rwa [h'] at g2'
    · exfalso
      have h5' : thr < nSqNorm false lv (traj (newtonOps o false false thr lv (lsB false lv integrate)) q (dq, ())
        r.iter).1 := (h5.1 g1).1
      rw [h, hn] at h5'
      exact absurd ht (not_le.2 h5')

end

/-! ### Cases -/

namespace BackEx

/-- `K` constraints q_i = 0 of size one on ℝ^K, with the same priority. -/
def ident (K : Nat) : NLevel (Fin K → ℚ) ℚ K := ⟨K, fun _ => 1, fun q => q, K, fun i => i⟩

theorem ident_linear (K : Nat) : LinearLevels (fun q v => q + v) [ident K] := by
  intro l hl q v
  obtain rfl := List.mem_singleton.1 hl
  refine ⟨?_, rfl⟩
  show q + v = q + (1 : Matrix (Fin K) (Fin K) ℚ) *ᵥ v
  rw [one_mulVec]

theorem ident_solves (K : Nat) (q : Fin K → ℚ) : Solves (fun q v => q + v) [ident K] q (-q) := by
  intro l hl
  obtain rfl := List.mem_singleton.1 hl
  exact add_neg_cancel q

/-- The hypotheses of `C131_one_iteration` are met for 500 constraints, or 3. -/
example : numCons [ident 500] ≤ 500 ∧ LinearLevels (fun q v => q + v) [ident 500] ∧
    ∃ v, Solves (fun q v => q + v) [ident 500] (fun _ => 1) v :=
  ⟨by simp [numCons, ident], ident_linear 500, _, ident_solves 500 _⟩

theorem ident_norms (K : Nat) (x : ℚ) : (ident K).norms (fun _ => x) = List.replicate K (x * x) := by
  rw [List.eq_replicate_iff]
  constructor
  · simp [NLevel.norms, ident]
  · intro y hy
    obtain ⟨k, -, rfl⟩ := List.mem_map.1 hy
    have : ∀ k : Fin K, (∑ i : Fin K, if i = k then x * x else 0) = x * x := by simp
    exact this k

theorem foldl_max_replicate (y : ℚ) (hy : 0 ≤ y) : ∀ K : Nat, (List.replicate (K + 1) y).foldl max 0 = y := by
  have key : ∀ K : Nat, (List.replicate K y).foldl max y = y := by
    intro K
    induction K with
    | zero => rfl
    | succ K ih => rw [List.replicate_succ, List.foldl_cons, max_self, ih]
  intro K
  rw [List.replicate_succ, List.foldl_cons, max_eq_right hy, key]

theorem ident_sq (K : Nat) (x : ℚ) :
    nSqNorm false [ident (K + 1)] (fun _ => x) = x * x ∧
      sumSq [ident (K + 1)] (fun _ => x) = (K + 1 : Nat) * (x * x) := by
  constructor
  · unfold nSqNorm
    simp only [Bool.false_eq_true, if_false, List.flatMap_cons, List.flatMap_nil, List.append_nil]
    rw [ident_norms, foldl_max_replicate _ (mul_self_nonneg x)]
  · have := (flatMap_norms_sum [ident (K + 1)] (fun _ => x)).1
    rw [← this]
    simp only [List.flatMap_cons, List.flatMap_nil, List.append_nil]
    rw [ident_norms, List.sum_replicate, nsmul_eq_mul]

end BackEx

open BackEx in
/-- C131 fails without the bound on the number of constraints: for K constraints q_i = 0 and equal errors the
step to the solution is kept exactly if K is at most 500, and the line search fails exactly if K is at least 880. -/
theorem C131_many_refuted (K : Nat) (hK : 0 < K) (x : ℚ) (hx : x ≠ 0) :
    let r := (lsB false [ident K] (fun q v => q + v) () (fun _ => x) (fun _ => -x)).2
    (r.step = (fun _ => -x) ↔ K ≤ 500) ∧ (r.ok = true ↔ K ≤ 879) ∧ (r.arg = 0 ↔ K ≤ 500) := by
  obtain ⟨K, rfl⟩ : ∃ k, K = k + 1 := ⟨K - 1, by omega⟩
  have hv : Solves (fun q v => q + v) [ident (K + 1)] (fun _ => x) (fun _ => -x) := ident_solves (K + 1) _
  have hv0 : (fun _ => -x : Fin (K + 1) → ℚ) ≠ 0 := fun h => hx (by simpa using congrFun h 0)
  obtain ⟨h1, h2, -, h4⟩ := C131_step false [ident (K + 1)] _ (ident_linear _) _ _ hv0 hv
  obtain ⟨e1, e2⟩ := ident_sq K x
  have hpos : 0 < x * x := mul_self_pos.2 hx
  rw [e1, e2, mul_le_mul_iff_left₀ hpos] at h1 h2
  have i1 : (((K + 1 : Nat) : ℚ) ≤ 500) ↔ K + 1 ≤ 500 := by exact_mod_cast Iff.rfl
  have i2 : (((K + 1 : Nat) : ℚ) ≤ 879.95) ↔ K + 1 ≤ 879 := by
    constructor
    · intro h
      by_contra hc
      have : ((880 : Nat) : ℚ) ≤ ((K + 1 : Nat) : ℚ) := by exact_mod_cast (by omega : 880 ≤ K + 1)
      norm_num at this h
      linarith
    · intro h
      have : ((K + 1 : Nat) : ℚ) ≤ ((879 : Nat) : ℚ) := by exact_mod_cast h
      norm_num at this ⊢
      linarith
  refine ⟨h1.trans i1, h2.trans i2, ?_⟩
  rw [h4, ← i1, ← h1]
  constructor
  · intro h
    have := eq_neg_of_add_eq_zero_right h
    rw [this]
    rfl
  · intro h
    rw [h]
    funext i
    exact add_neg_cancel x

namespace BackEx

/-- A constraint q_0 = 0 of priority 0 and an optional constraint q_1 = 0 of priority 1. -/
def row (i : Fin 2) : NLevel (Fin 2 → ℚ) ℚ 2 := ⟨1, fun _ => Matrix.of fun _ j => if j = i then 1 else 0,
  fun q _ => q i, 1, fun _ => 0⟩

theorem row_linear : LinearLevels (fun q v => q + v) [row 0, row 1] := by
  have key : ∀ i q v, (row i).err (q + v) = (row i).err q + (row i).J q *ᵥ v := by
    intro i q v
    funext k
    show q i + v i = q i + ∑ j, (if j = i then (1 : ℚ) else 0) * v j
    simp
  intro l hl q v
  simp only [List.mem_cons, List.not_mem_nil, or_false] at hl
  rcases hl with rfl | rfl
  · exact ⟨key 0 q v, rfl⟩
  · exact ⟨key 1 q v, rfl⟩

end BackEx

open BackEx in
/-- C131 fails with an optional level: two constraints q_0 = 0 and q_1 = 0, the second one optional, from the
configuration (1, 30).  The step to the solution is refused, the line search fails and the step is divided by 5, although the
step satisfies both constraints: the error of the optional constraint is counted in the slope only. -/
theorem C131_optional_refuted :
    Solves (fun q v => q + v) [row 0, row 1] ![1, 30] ![-1, -30] ∧
    numCons [row 0, row 1] = 2 ∧
    (let r := (lsB true [row 0, row 1] (fun q v => q + v) () ![1, 30] ![-1, -30]).2
     r.ok = false ∧ r.step = (1 / 5 : ℚ) • ![-1, -30]) ∧
    (lsB true [row 0, row 1] (fun q v => q + v) () ![1, 3] ![-1, -3]).2.ok = true := by
  have hs : ∀ x y : ℚ, Solves (fun q v => q + v) [row 0, row 1] ![x, y] ![-x, -y] := by
    intro x y l hl
    simp only [List.mem_cons, List.not_mem_nil, or_false] at hl
    rcases hl with rfl | rfl
    · funext k
      show ![x, y] 0 + ![-x, -y] 0 = 0
      simp
    · funext k
      show ![x, y] 1 + ![-x, -y] 1 = 0
      simp
  have hq : ∀ x y : ℚ, nSqNorm true [row 0, row 1] ![x, y] = x * x ∧
      sumSq [row 0, row 1] ![x, y] = x * x + y * y := by
    intro x y
    constructor
    · show ([∑ i : Fin 1, if (0 : Fin 1) = 0 then ![x, y] 0 * ![x, y] 0 else 0]).foldl max 0 = _
      simp [mul_self_nonneg]
    · show ([∑ _ : Fin 1, ![x, y] 0 * ![x, y] 0, ∑ _ : Fin 1, ![x, y] 1 * ![x, y] 1] : List ℚ).sum = _
      simp
  have hn : ∀ x y : ℚ, x ≠ 0 → ![-x, -y] ≠ 0 := fun x y hx h => hx (by simpa using congrFun h 0)
  obtain ⟨-, h2, h3, -⟩ := C131_step true [row 0, row 1] _ row_linear _ _ (hn 1 30 (by norm_num)) (hs 1 30)
  obtain ⟨-, g2, -⟩ := C131_step true [row 0, row 1] _ row_linear _ _ (hn 1 3 (by norm_num)) (hs 1 3)
  rw [(hq 1 30).1, (hq 1 30).2] at h2
  rw [(hq 1 3).1, (hq 1 3).2] at g2
  have hf : (lsB true [row 0, row 1] (fun q v => q + v) () ![1, 30] ![-1, -30]).2.ok = false := by
    rw [Bool.eq_false_iff]
    intro h
    have := h2.1 h
    norm_num at this
  exact ⟨hs 1 30, rfl, ⟨hf, h3 hf⟩, g2.2 (by norm_num)⟩

end Hpp
