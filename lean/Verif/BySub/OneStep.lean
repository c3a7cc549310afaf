import Verif.BySub.NewtonProps
import Verif.Solve.SlopeProps

/-!
# One step of the solver by substitution (C123)

Source: `/repo/include/hpp/constraints/solver/by-substitution.hh`, lines 250-258.

`oneStep` differs from an iteration of `solve`: the explicit constraints are not solved before the step, `computeError` is not called
before the line search (the line search reads the value `squaredNorm_` left by an earlier computation), saturation is not computed,
and `FunctionNotDefinedForThisValue` is not caught.
-/

namespace Hpp

open Matrix

variable {A B α S : Type}

/-- `BySubstitution::oneStep` (by-substitution.hh:250-258).  `stale` is `squaredNorm_` at the entry, which is given to the line
search, `dq` is `dqSmall_` at the entry.  Result: the configuration, the state of the line search, `squaredNorm_` and the value
returned; `none` if `FunctionNotDefinedForThisValue` is thrown.  Same simplifications as `bsNewtonOps`. -/
def bsOneStep [Field α] [LinearOrder α] {n : Nat} (o : SvdOps α) (byLevel opt : Bool) (thr : α) (lv : List (NLevel A α n))
    (expl : A → A × Bool) (ls : α → S → A → (Fin n → α) → (S × LsOut A (Fin n → α)) × Bool) (stale : α) (q : A) (dq : Fin n → α)
    (s : S) : Option (A × S × α × Bool) :=
  let d := (descend o byLevel thr (lv.map fun l => l.at q) dq).getD 0
  let r := ls stale s q d
  if r.2 = true then
    let e := expl r.1.2.arg
    if e.2 = true then some (e.1, r.1.1, nSqNorm opt lv e.1, decide (nSqNorm opt lv e.1 < thr)) else none
  else none

/-- `Backtracking::operator()` (impl/hierarchical-iterative.hh:47-89), `f0` is `residualError()` at the entry. -/
def lsBFrom [Field α] [LinearOrder α] {n : Nat} (opt : Bool) (lv : List (NLevel A α n)) (f0 : α)
    (integrate : A → (Fin n → α) → A) (_ : Unit) (q : A) (u : Fin n → α) : Unit × LsOut A (Fin n → α) :=
  ((), (backtracking (newtonEnv opt lv integrate) (.default α) 5 (localSlope (lv.map fun l => l.at q) u) f0 q u).getD
    ⟨q, u, false, 0⟩)

/-- `ErrorNormBased::operator()` (impl/hierarchical-iterative.hh:115-124), `res` is `residualError()` at the entry. -/
noncomputable def lsEFrom {n : Nat} (opt : Bool) (lv : List (NLevel A ℝ n)) (res : ℝ) (integrate : A → (Fin n → ℝ) → A)
    (thr : ℝ) (s : ErrNormBased) (q : A) (u : Fin n → ℝ) : ErrNormBased × LsOut A (Fin n → ℝ) :=
  (s, s.call (newtonEnv opt lv integrate) res thr q u)

/-- With the value at the current configuration, these are the line searches of `solve`. -/
example {n : Nat} (opt : Bool) (lv : List (NLevel A ℝ n)) (integrate : A → (Fin n → ℝ) → A) (q : A) (u : Fin n → ℝ) :
    lsBFrom opt lv (nSqNorm opt lv q) integrate () q u = lsB opt lv integrate () q u := rfl

/-- The levels that count in the error -/
def mandLevels (opt : Bool) {n : Nat} (lv : List (NLevel A α n)) : List (NLevel A α n) := if opt then lv.dropLast else lv

theorem nSqNorm_lt [Field α] [LinearOrder α] [IsStrictOrderedRing α] {n : Nat} (opt : Bool) (lv : List (NLevel A α n)) (q : A) {t : α}
    (ht : 0 < t) : nSqNorm opt lv q < t ↔ ∀ l ∈ mandLevels opt lv, ∀ k : Fin l.nc,
      (∑ i, if l.blk i = k then l.err q i ^ 2 else 0) < t := by
  have key : ∀ (L : List α) (x : α), L.foldl max x < t ↔ x < t ∧ ∀ z ∈ L, z < t := by
    intro L
    induction L with
    | nil => intro x; simp
    | cons a L ih =>
      intro x
      rw [List.foldl_cons, ih, max_lt_iff]
      simp only [List.mem_cons, forall_eq_or_imp]
      constructor
      · rintro ⟨⟨a, b⟩, c⟩; exact ⟨a, b, c⟩
      · rintro ⟨a, b, c⟩; exact ⟨⟨a, b⟩, c⟩
  unfold nSqNorm
  rw [key]
  unfold mandLevels
  constructor
  · rintro ⟨-, h⟩ l hl k
    have := h _ (List.mem_flatMap.2 ⟨l, hl, List.mem_map.2 ⟨k, List.mem_finRange k, rfl⟩⟩)
    simpa only [sq] using this
  · intro h
    refine ⟨ht, fun z hz => ?_⟩
    obtain ⟨l, hl, hz⟩ := List.mem_flatMap.1 hz
    obtain ⟨k, -, rfl⟩ := List.mem_map.1 hz
    simpa only [sq] using h l hl k

section

variable [Field α] [LinearOrder α] [IsStrictOrderedRing α] {n : Nat}

/-- C123. The explicit constraints hold at the configuration reached, and `oneStep` returns true exactly if the error of each
mandatory implicit constraint is below the threshold there, from any initial configuration, whatever the line search. -/
theorem C123_result (o : SvdOps α) (byLevel opt : Bool) (thr : α) (ht : 0 < thr) (lv : List (NLevel A α n)) (expl : A → A × Bool)
    (hid : ∀ q, (expl q).2 = true → expl (expl q).1 = ((expl q).1, true))
    (ls : α → S → A → (Fin n → α) → (S × LsOut A (Fin n → α)) × Bool) (stale : α) (q : A) (dq : Fin n → α) (s : S)
    {a : A} {s' : S} {m : α} {ok : Bool} (h : bsOneStep o byLevel opt thr lv expl ls stale q dq s = some (a, s', m, ok)) :
    expl a = (a, true) ∧
      (ok = true ↔ ∀ l ∈ mandLevels opt lv, ∀ k : Fin l.nc, (∑ i, if l.blk i = k then l.err a i ^ 2 else 0) < thr) := by
  unfold bsOneStep at h
  dsimp only at h
  split at h
  · split at h
    · rename_i h2
      have e := Option.some.inj h
      have e1 := (Prod.mk.inj e).1
      have e2 := (Prod.mk.inj (Prod.mk.inj (Prod.mk.inj e).2).2).2
      refine ⟨?_, ?_⟩
      · rw [← e1]
        exact hid _ h2
      · rw [← e2, decide_eq_true_iff, e1]
        exact nSqNorm_lt opt lv a ht
    · cases h
  · cases h

omit [IsStrictOrderedRing α] in
/-- What the step does from a configuration that satisfies the explicit constraints. -/
theorem oneStep_move (o : SvdOps α) (byLevel opt : Bool) (thr : α) (lv : List (NLevel A α n)) (expl : A → A × Bool)
    (integrate : A → (Fin n → α) → A) (Φ : B → A) (plus : B → (Fin n → α) → B) (hΦ : Parametrises expl integrate Φ plus)
    (I : S → Prop) (bmin stale : α) (ls : α → S → A → (Fin n → α) → (S × LsOut A (Fin n → α)) × Bool)
    (hls : BsStepsIn integrate expl I bmin (ls stale)) (x : B) (dq : Fin n → α) (s : S) (hs : I s) :
    ∃ b s', bmin ≤ b ∧ b ≤ 1 ∧ I s' ∧
      let y := plus x (b • (descend o byLevel thr (lv.map fun l => l.at (Φ x)) dq).getD 0)
      bsOneStep o byLevel opt thr lv expl ls stale (Φ x) dq s =
        some (Φ y, s', nSqNorm opt lv (Φ y), decide (nSqNorm opt lv (Φ y) < thr)) := by
  obtain ⟨g1, b, g2, g3, g4⟩ := hls s (Φ x) ((descend o byLevel thr (lv.map fun l => l.at (Φ x)) dq).getD 0) hs
  rw [hΦ.move] at g4
  obtain ⟨e1, e2⟩ := Prod.mk.inj g4
  refine ⟨b, _, g2, g3, g1, ?_⟩
  intro y
  unfold bsOneStep
  dsimp only
  rw [if_pos e2, e1, hΦ.fixed, if_pos rfl]

/-- C123. Linear constraints, from a configuration that satisfies the explicit constraints: with a line search whose step lengths are
in [bmin, 1] the error is multiplied by at most (1 - bmin)², whatever the value of the error left by an earlier computation.  With
steps of length 1 the constraints are solved and `oneStep` returns true. -/
theorem C123_linear_partial (o : SvdOps α) (ho : o.Exact) (opt : Bool) (thr : α) (ht : 0 < thr) (lv : List (NLevel A α n))
    (expl : A → A × Bool) (integrate : A → (Fin n → α) → A) (Φ : B → A) (plus : B → (Fin n → α) → B)
    (hΦ : Parametrises expl integrate Φ plus) (hlin : LinearLevels plus (lv.map (NLevel.pull Φ))) (I : S → Prop) (bmin stale : α)
    (ls : α → S → A → (Fin n → α) → (S × LsOut A (Fin n → α)) × Bool) (hls : BsStepsIn integrate expl I bmin (ls stale))
    (x : B) (hx : ∃ v, ∀ l ∈ lv, l.err (Φ (plus x v)) = 0) (dq : Fin n → α) (s : S) (hs : I s) :
    ∃ y s' ok, bsOneStep o false opt thr lv expl ls stale (Φ x) dq s = some (Φ y, s', nSqNorm opt lv (Φ y), ok) ∧
      nSqNorm opt lv (Φ y) ≤ (1 - bmin) ^ 2 * nSqNorm opt lv (Φ x) ∧ (bmin = 1 → ok = true ∧ ∀ l ∈ lv, l.err (Φ y) = 0) := by
  obtain ⟨b, s', h1, h2, -, h3⟩ := oneStep_move o false opt thr lv expl integrate Φ plus hΦ I bmin stale ls hls x dq s hs
  refine ⟨_, s', _, h3, ?_⟩
  obtain ⟨v, hv⟩ := hx
  have hv' : Solves plus (lv.map (NLevel.pull Φ)) x v := by
    intro l hl
    obtain ⟨l, hl', rfl⟩ := List.mem_map.1 hl
    exact hv l hl'
  have hd := newton_dir (thr := thr) ho hlin hv' dq
  rw [at_pull] at hd
  set d := (descend o false thr (lv.map fun l => l.at (Φ x)) dq).getD 0 with hdd
  have hsc := linear_scale hlin hd b
  have hn := nSqNorm_scale opt (lv.map (NLevel.pull Φ)) x (plus x (b • d)) b hsc
  rw [nSqNorm_pull, nSqNorm_pull] at hn
  refine ⟨?_, fun hb => ?_⟩
  · rw [hn]
    exact mul_le_mul_of_nonneg_right (pow_le_pow_left₀ (by linarith) (by linarith) 2) (nSqNorm_nonneg _ _ _)
  · have hb1 : b = 1 := le_antisymm h2 (hb ▸ h1)
    have hz : ∀ l ∈ lv, l.err (Φ (plus x (b • d))) = 0 := by
      intro l hl
      have := hsc _ (List.mem_map.2 ⟨l, hl, rfl⟩)
      rw [hb1, sub_self, zero_smul] at this
      rw [hb1]
      exact this
    refine ⟨?_, hz⟩
    rw [decide_eq_true_iff, nSqNorm_zero opt lv _ hz]
    exact ht

end

/-- C123. The line searches meet the condition of `C123_linear_partial` whatever the value of the error left by an earlier
computation, if the explicit constraints are defined everywhere. -/
theorem C123_line_searches {n : Nat} (opt : Bool) (lv : List (NLevel A ℝ n)) (integrate : A → (Fin n → ℝ) → A)
    (expl : A → A × Bool) (hexpl : ∀ q, (expl q).2 = true) (thr alphaMin stale : ℝ) (h1 : alphaMin < 1) :
    BsStepsIn integrate expl (fun _ => True) 1 (bsSearch integrate expl (lsC opt lv)) ∧
    BsStepsIn integrate expl (fun _ => True) (1 / 5) (bsSearch integrate expl (lsBFrom opt lv stale)) ∧
    BsStepsIn integrate expl (fun s => ∃ k : Nat, s = ⟨95 / 100 - 3 / 4 * (4 / 5) ^ k, 95 / 100, 4 / 5⟩) (1 / 5)
      (bsSearch integrate expl (lsF opt lv)) ∧
    BsStepsIn integrate expl (fun s => ∃ a b, s = ErrNormBased.mk3 alphaMin a b) alphaMin
      (bsSearch integrate expl fun i => lsEFrom opt lv stale i thr) := by
  obtain ⟨a, -, c, -⟩ := C95_line_searches opt lv integrate expl hexpl thr alphaMin h1
  refine ⟨a, fun s q u _ => ⟨trivial, ?_⟩, c, ?_⟩
  · obtain ⟨out, g1, -, g2, g3⟩ := C32_backtracking (newtonEnv opt lv fun q v => (bsIntegrate integrate expl q v).1)
      (localSlope (lv.map fun l => l.at q) u) stale q u
    unfold bsSearch lsBFrom
    rw [g1]
    simp only [Option.getD_some]
    rcases g3 with ⟨-, -, k, -, g4, g5, -⟩ | ⟨-, g4, -⟩
    · exact ⟨_, g5.le, pow_le_one₀ (by norm_num) (by norm_num), Prod.ext (by rw [g2, g4]; rfl) (hexpl _).symm⟩
    · exact ⟨1 / 5, le_refl _, by norm_num, Prod.ext (by rw [g2, g4]; rfl) (hexpl _).symm⟩
  · rintro s q u ⟨a, b, rfl⟩
    obtain ⟨al, g1, g2, g3, g4⟩ := C32_error_norm (newtonEnv opt lv fun q v => (bsIntegrate integrate expl q v).1) alphaMin a b h1
      stale thr q u
    refine ⟨⟨a, b, rfl⟩, al, g1.le, g2.le, Prod.ext ?_ (hexpl _).symm⟩
    unfold bsSearch lsEFrom
    dsimp only
    rw [g4, g3]; rfl

/-! ### The explicit constraints do not hold initially -/

/-- The implicit constraint `x + 10 y = 0`, free variable `x`, with the explicit constraint `y = x` -/
def stepL : NLevel (Fin 2 → ℝ) ℝ 1 where
  m := 1
  J _ := !![11]
  err q := ![q 0 + 10 * q 1]
  nc := 1
  blk := id

def stepExpl (q : Fin 2 → ℝ) : (Fin 2 → ℝ) × Bool := (![q 0, q 0], true)

def stepInt (q : Fin 2 → ℝ) (v : Fin 1 → ℝ) : Fin 2 → ℝ := ![q 0 + v 0, q 1]

theorem step_param : Parametrises stepExpl stepInt (fun x : Fin 1 → ℝ => ![x 0, x 0]) (· + ·) :=
  ⟨fun _ => rfl, fun _ _ => rfl⟩

theorem step_linear : LinearLevels (· + ·) ([stepL].map (NLevel.pull fun x : Fin 1 → ℝ => ![x 0, x 0])) := by
  intro l hl q v
  obtain rfl := List.mem_singleton.1 hl
  refine ⟨?_, rfl⟩
  change (![(q + v) 0 + 10 * (q + v) 0] : Fin 1 → ℝ) = ![q 0 + 10 * q 0] + !![11] *ᵥ v
  funext i
  fin_cases i
  simp [mulVec, dotProduct]
  ring

/-- C123. The explicit constraints are not solved before the step: linear constraints, the implicit one is satisfied initially but
not the explicit one; after one step of length 1 the error of the implicit constraint is large and `oneStep` returns false. -/
theorem C123_linear_refuted (o : SvdOps ℝ) (ho : o.Exact) (byLevel : Bool) (thr stale : ℝ) (h1 : thr ≤ 1) (dq : Fin 1 → ℝ) :
    nSqNorm false [stepL] ![10, -1] = 0 ∧
    bsOneStep o byLevel false thr [stepL] stepExpl (fun _ => bsSearch stepInt stepExpl (lsC false [stepL])) stale ![10, -1] dq () =
      some (![10, 10], (), 110 ^ 2, false) := by
  have hn : ∀ q, nSqNorm false [stepL] q = (q 0 + 10 * q 1) * (q 0 + 10 * q 1) := by
    intro q
    have := norms_one stepL rfl q
    simp only [nSqNorm, Bool.false_eq_true, if_false, List.flatMap_cons, List.flatMap_nil, List.append_nil, this,
      List.foldl_cons, List.foldl_nil]
    change max 0 ((![q 0 + 10 * q 1] : Fin 1 → ℝ) ⬝ᵥ ![q 0 + 10 * q 1]) = _
    simp [dotProduct]
    exact mul_self_nonneg _
  have hd : (descend o byLevel thr ([stepL].map fun l => l.at ![10, -1]) dq).getD 0 = 0 := by
    change o.solve (stepL.at ![10, -1]).J (-(stepL.at ![10, -1]).e) = 0
    have h2 := ho.ls (stepL.at ![10, -1]).J (-(stepL.at ![10, -1]).e) 0
    generalize o.solve (stepL.at ![10, -1]).J (-(stepL.at ![10, -1]).e) = r at h2
    change (!![11] *ᵥ r - -![(![10, -1] : Fin 2 → ℝ) 0 + 10 * (![10, -1] : Fin 2 → ℝ) 1]) ⬝ᵥ
      (!![11] *ᵥ r - -![(![10, -1] : Fin 2 → ℝ) 0 + 10 * (![10, -1] : Fin 2 → ℝ) 1]) ≤
      (!![11] *ᵥ (0 : Fin 1 → ℝ) - -![(![10, -1] : Fin 2 → ℝ) 0 + 10 * (![10, -1] : Fin 2 → ℝ) 1]) ⬝ᵥ
      (!![11] *ᵥ (0 : Fin 1 → ℝ) - -![(![10, -1] : Fin 2 → ℝ) 0 + 10 * (![10, -1] : Fin 2 → ℝ) 1]) at h2
    simp [dotProduct] at h2
    funext i
    fin_cases i
    change r 0 = 0
    nlinarith [mul_self_nonneg (r 0)]
  refine ⟨by rw [hn]; simp, ?_⟩
  unfold bsOneStep
  dsimp only
  rw [hd]
  change some ((stepExpl (stepExpl (stepInt ![10, -1] 0)).1).1, (), nSqNorm false [stepL] (stepExpl (stepExpl (stepInt ![10, -1] 0)).1).1,
    decide (nSqNorm false [stepL] (stepExpl (stepExpl (stepInt ![10, -1] 0)).1).1 < thr)) = _
  have e : (stepExpl (stepExpl (stepInt ![10, -1] 0)).1).1 = ![10, 10] := by
    funext i
    fin_cases i <;> simp [stepExpl, stepInt]
  have e2 : nSqNorm false [stepL] ![10, 10] = 110 ^ 2 := by
    rw [hn]
    simp
    norm_num
  rw [e, e2]
  congr 4
  rw [decide_eq_false_iff_not]
  linarith

/-- The hypotheses of `C123_linear_partial` are met by the same constraints, from a configuration that satisfies the explicit one. -/
example (o : SvdOps ℝ) (ho : o.Exact) (stale : ℝ) (dq : Fin 1 → ℝ) :
    ∃ (y : Fin 1 → ℝ) (s' : Unit), bsOneStep o false false 1 [stepL] stepExpl (fun _ => bsSearch stepInt stepExpl (lsC false [stepL])) stale ![3, 3] dq () =
      some (![y 0, y 0], s', nSqNorm false [stepL] ![y 0, y 0], true) := by
  obtain ⟨y, s', ok, h1, -, h2⟩ := C123_linear_partial o ho false 1 one_pos [stepL] stepExpl stepInt _ _ step_param step_linear
    (fun _ => True) 1 stale (fun _ => bsSearch stepInt stepExpl (lsC false [stepL]))
    (C123_line_searches false [stepL] stepInt stepExpl (fun _ => rfl) 1 0 0 one_pos).1 ![3]
    ⟨![-3], fun l hl => by
      obtain rfl := List.mem_singleton.1 hl
      funext i
      fin_cases i
      simp [stepL]⟩ dq () trivial
  refine ⟨y, s', ?_⟩
  rw [(h2 rfl).1] at h1
  exact h1

/-! ### The value of the error left by an earlier computation -/

/-- The constraint `x³ - 2 x + 2 = 0`, without explicit constraint -/
def cubicL : NLevel (Fin 1 → ℝ) ℝ 1 where
  m := 1
  J q := !![3 * q 0 ^ 2 - 2]
  err q := ![q 0 ^ 3 - 2 * q 0 + 2]
  nc := 1
  blk := id

def noExpl (q : Fin 1 → ℝ) : (Fin 1 → ℝ) × Bool := (q, true)

theorem cubic_norm (q : Fin 1 → ℝ) : nSqNorm false [cubicL] q = (q 0 ^ 3 - 2 * q 0 + 2) ^ 2 := by
  have := norms_one cubicL rfl q
  simp only [nSqNorm, Bool.false_eq_true, if_false, List.flatMap_cons, List.flatMap_nil, List.append_nil, this,
    List.foldl_cons, List.foldl_nil]
  change max 0 ((![q 0 ^ 3 - 2 * q 0 + 2] : Fin 1 → ℝ) ⬝ᵥ ![q 0 ^ 3 - 2 * q 0 + 2]) = _
  simp [dotProduct]
  rw [max_eq_right (mul_self_nonneg _), sq]

theorem cubic_dir (o : SvdOps ℝ) (ho : o.Exact) (byLevel : Bool) (thr : ℝ) (dq : Fin 1 → ℝ) :
    (descend o byLevel thr ([cubicL].map fun l => l.at ![1]) dq).getD 0 = ![-1] := by
  change o.solve (cubicL.at ![1]).J (-(cubicL.at ![1]).e) = ![-1]
  have hn := cost_normal (cubicL.at ![1]) (o.solve (cubicL.at ![1]).J (-(cubicL.at ![1]).e)) fun y => by
    simpa [DLevel.cost, sub_neg_eq_add] using ho.ls (cubicL.at ![1]).J (-(cubicL.at ![1]).e) y
  generalize o.solve (cubicL.at ![1]).J (-(cubicL.at ![1]).e) = r at hn
  have h1 : (!![3 * (1 : ℝ) ^ 2 - 2] : Matrix (Fin 1) (Fin 1) ℝ)ᵀ *ᵥ
      (!![3 * (1 : ℝ) ^ 2 - 2] *ᵥ r + ![(1 : ℝ) ^ 3 - 2 * 1 + 2]) = 0 := hn
  have h2 := congrFun h1 0
  simp [mulVec, dotProduct] at h2
  norm_num at h2
  funext i
  fin_cases i
  change r 0 = -1
  linarith

theorem cubic_slope : localSlope ([cubicL].map fun l => l.at ![1]) ![-1] = -1 := by
  rw [localSlope_sum]
  change (!![3 * (![1] : Fin 1 → ℝ) 0 ^ 2 - 2] *ᵥ ![-1]) ⬝ᵥ ![(![1] : Fin 1 → ℝ) 0 ^ 3 - 2 * (![1] : Fin 1 → ℝ) 0 + 2] + 0 = -1
  simp [dotProduct, mulVec]
  norm_num

/-- The step with backtracking from 1 -/
noncomputable def cubicStep (o : SvdOps ℝ) (byLevel : Bool) (thr stale : ℝ) (dq : Fin 1 → ℝ) :=
  bsOneStep o byLevel false thr [cubicL] noExpl
    (fun f0 => bsSearch (· + ·) noExpl (lsBFrom false [cubicL] f0)) stale ![1] dq ()

theorem cubicStep_eq (o : SvdOps ℝ) (ho : o.Exact) (byLevel : Bool) (thr stale : ℝ) (dq : Fin 1 → ℝ) :
    ∃ out, backtracking (newtonEnv false [cubicL] (· + ·)) (.default ℝ) 5 (-1) stale ![1] ![-1] = some out ∧
      cubicStep o byLevel thr stale dq = some (out.arg, (), nSqNorm false [cubicL] out.arg,
        decide (nSqNorm false [cubicL] out.arg < thr)) := by
  obtain ⟨out, g1, -⟩ := C32_backtracking (newtonEnv false [cubicL] (· + ·)) (-1) stale ![1] ![-1]
  refine ⟨out, g1, ?_⟩
  unfold cubicStep bsOneStep
  dsimp only
  rw [cubic_dir o ho]
  have e : (lsBFrom false [cubicL] stale (fun q v => (bsIntegrate (fun a b => a + b) noExpl q v).1) () ![1] ![-1]) = ((), out) := by
    unfold lsBFrom
    rw [cubic_slope]
    change ((), (backtracking (newtonEnv false [cubicL] (· + ·)) (.default ℝ) 5 (-1) stale ![1] ![-1]).getD _) = _
    rw [g1]
    rfl
  unfold bsSearch
  rw [e]
  rfl

/-- C123. With the backtracking line search, `oneStep` depends on the error left in the solver by an earlier computation: from the
same configuration, the error decreases if the last computation was done there, and is multiplied by four if it was done at a
configuration of larger error. -/
theorem C123_stale_refuted (o : SvdOps ℝ) (ho : o.Exact) (byLevel : Bool) (thr : ℝ) (dq : Fin 1 → ℝ) :
    (∃ a m ok, cubicStep o byLevel thr (nSqNorm false [cubicL] ![1]) dq = some (a, (), m, ok) ∧ m < nSqNorm false [cubicL] ![1]) ∧
    ∀ q', 5 ≤ nSqNorm false [cubicL] q' → ∃ a ok, cubicStep o byLevel thr (nSqNorm false [cubicL] q') dq =
      some (a, (), 4 * nSqNorm false [cubicL] ![1], ok) := by
  have hn1 : nSqNorm false [cubicL] ![1] = 1 := by rw [cubic_norm]; norm_num
  have hstep : ∀ c : ℝ, nSqNorm false [cubicL] (![1] + c • ![-1]) = ((1 - c) ^ 3 - 2 * (1 - c) + 2) ^ 2 := by
    intro c
    rw [cubic_norm]
    have : (![1] + c • ![-1] : Fin 1 → ℝ) 0 = 1 - c := by simp; ring
    rw [this]
  have harm : ∀ stale c : ℝ, Armijo (newtonEnv false [cubicL] (· + ·)) (1 / 1000) (-1) stale ![1] ![-1] c ↔
      ((1 - c) ^ 3 - 2 * (1 - c) + 2) ^ 2 ≤ stale + c * (2 * (1 / 1000) * -1) := by
    intro stale c
    unfold Armijo newtonEnv
    dsimp only
    rw [hstep]
  refine ⟨?_, fun q' hq' => ?_⟩
  · obtain ⟨out, g1, g2⟩ := cubicStep_eq o ho byLevel thr (nSqNorm false [cubicL] ![1]) dq
    obtain ⟨out', g1', -, g3, g4⟩ := C32_backtracking (newtonEnv false [cubicL] (· + ·)) (-1) (nSqNorm false [cubicL] ![1]) ![1] ![-1]
    obtain rfl : out = out' := Option.some.inj (g1.symm.trans g1')
    refine ⟨_, _, _, g2, ?_⟩
    rcases g4 with ⟨hok, -, -⟩ | ⟨-, -, h | h⟩
    · exact (C32_backtracking_descent (newtonEnv false [cubicL] (· + ·)) (-1) ![1] ![-1] g1 hok).2 (by norm_num)
    · norm_num at h
    · exact absurd ((harm _ _).2 (by rw [hn1]; norm_num)) (h 3 (by norm_num))
  · obtain ⟨out, g1, g2⟩ := cubicStep_eq o ho byLevel thr (nSqNorm false [cubicL] q') dq
    obtain ⟨out', g1', -, g3, g4⟩ := C32_backtracking (newtonEnv false [cubicL] (· + ·)) (-1) (nSqNorm false [cubicL] q') ![1] ![-1]
    obtain rfl : out = out' := Option.some.inj (g1.symm.trans g1')
    have h0 : Armijo (newtonEnv false [cubicL] (· + ·)) (1 / 1000) (-1) (nSqNorm false [cubicL] q') ![1] ![-1] ((7 / 10) ^ 0) :=
      (harm _ _).2 (by norm_num; linarith)
    refine ⟨out.arg, decide (nSqNorm false [cubicL] out.arg < thr), ?_⟩
    rw [g2]
    rcases g4 with ⟨-, -, k, -, hk, -, -, hk'⟩ | ⟨-, -, h | h⟩
    · have hk0 : k = 0 := by
        by_contra h
        exact hk' 0 (Nat.pos_of_ne_zero h) h0
      have e : out.arg = ![1] + (1 : ℝ) • ![-1] := by
        rw [g3, hk, hk0, pow_zero]
        rfl
      have e2 : nSqNorm false [cubicL] out.arg = 4 * nSqNorm false [cubicL] ![1] := by
        rw [e, hstep, hn1]
        norm_num
      rw [e2]
    · norm_num at h
    · exact absurd h0 (h 0 (by norm_num))

/-- Such configurations exist. -/
example : 5 ≤ nSqNorm false [cubicL] ![2] := by
  rw [cubic_norm]
  simp
  norm_num

end Hpp
