import Verif.Solve.LineSearch
import Mathlib.Algebra.Order.Archimedean.Basic
import Mathlib.Tactic.NormNum
import Mathlib.Tactic.Linarith
import Mathlib.Tactic.Positivity
import Mathlib.Tactic.Ring
import Mathlib.Tactic.FieldSimp
import Mathlib.Data.Rat.Cast.Order

/-!
# Line searches: C32 and the part of C30 on line searches
-/

namespace Hpp

variable {A V α : Type}

/-- Specification: sufficient decrease of the error for step length `alpha`: the error decreases by at
least `c` times what its linear approximation announces. -/
def Armijo [Field α] [LinearOrder α] (env : LsEnv A V α) (c slope f0 : α) (a : A) (u : V) (alpha : α) :
    Prop :=
  env.err (env.integrate a (env.smul alpha u)) ≤ f0 + alpha * (2 * c * slope)

/-- Specification of a backtracking line search that tries the step lengths 1, tau, ... tau^(K-1). -/
def BtSpec [Field α] [LinearOrder α] (env : LsEnv A V α) (p : BtParam α) (K : Nat) (slope f0 : α)
    (a : A) (u : V) (out : LsOut A V) : Prop :=
  (out.ok = true ∧ 2 * p.c * slope ≤ 0 ∧ ∃ k, k < K ∧ p.smallAlpha < p.tau ^ k ∧
      Armijo env p.c slope f0 a u (p.tau ^ k) ∧ (∀ j, j < k → ¬ Armijo env p.c slope f0 a u (p.tau ^ j)) ∧
      out.step = env.smul (p.tau ^ k) u ∧ out.arg = env.integrate a out.step ∧ out.evals = k + 1) ∨
  (out.ok = false ∧ out.step = env.smul p.smallAlpha u ∧ out.arg = env.integrate a out.step ∧
    (0 < 2 * p.c * slope ∧ out.evals = 0 ∨
      2 * p.c * slope ≤ 0 ∧ out.evals = K ∧ ∀ j, j < K → ¬ Armijo env p.c slope f0 a u (p.tau ^ j)))

theorem armijo_iff [Field α] [LinearOrder α] [IsStrictOrderedRing α] (env : LsEnv A V α) (c slope f0 : α)
    (a : A) (u : V) (alpha : α) :
    f0 - env.err (env.integrate a (env.smul alpha u)) ≥ -alpha * (2 * c * slope) ↔
      Armijo env c slope f0 a u alpha := by
  unfold Armijo
  constructor <;> intro h <;> linarith

theorem btLoop_spec [Field α] [LinearOrder α] [IsStrictOrderedRing α] (env : LsEnv A V α) (p : BtParam α)
    (a : A) (u : V) (slope f0 : α) (K : Nat) (hK : p.tau ^ K ≤ p.smallAlpha)
    (hlt : ∀ j, j < K → p.smallAlpha < p.tau ^ j) (ht : 2 * p.c * slope ≤ 0) :
    ∀ fuel k, fuel + k = K → (∀ j, j < k → ¬ Armijo env p.c slope f0 a u (p.tau ^ j)) →
      ∃ out, btLoop env p a u f0 (2 * p.c * slope) fuel (p.tau ^ k) k = some out ∧
        BtSpec env p K slope f0 a u out := by
  intro fuel
  induction fuel with
  | zero =>
    intro k hk hj
    have : k = K := by omega
    subst this
    unfold btLoop
    rw [if_neg (not_lt.2 hK)]
    exact ⟨_, rfl, Or.inr ⟨rfl, rfl, rfl, Or.inr ⟨ht, rfl, hj⟩⟩⟩
  | succ fuel ih =>
    intro k hk hj
    unfold btLoop
    rw [if_pos (hlt k (by omega))]
    simp only
    by_cases h : Armijo env p.c slope f0 a u (p.tau ^ k)
    · rw [if_pos ((armijo_iff env p.c slope f0 a u _).2 h)]
      exact ⟨_, rfl, Or.inl ⟨rfl, ht, k, by omega, hlt k (by omega), h, hj, rfl, rfl, rfl⟩⟩
    · rw [if_neg (fun h' => h ((armijo_iff env p.c slope f0 a u _).1 h')), ← pow_succ]
      refine ih (k + 1) (by omega) fun j hj' => ?_
      rcases Nat.lt_succ_iff_lt_or_eq.1 hj' with hj' | rfl
      · exact hj j hj'
      · exact h

theorem backtracking_spec [Field α] [LinearOrder α] [IsStrictOrderedRing α] (env : LsEnv A V α)
    (p : BtParam α) (a : A) (u : V) (slope f0 : α) (K : Nat) (hK : p.tau ^ K ≤ p.smallAlpha)
    (hlt : ∀ j, j < K → p.smallAlpha < p.tau ^ j) :
    ∃ out, backtracking env p K slope f0 a u = some out ∧ BtSpec env p K slope f0 a u out := by
  unfold backtracking
  simp only
  by_cases ht : 2 * p.c * slope > 0
  · rw [if_pos ht]
    exact ⟨_, rfl, Or.inr ⟨rfl, rfl, rfl, Or.inl ⟨ht, rfl⟩⟩⟩
  · rw [if_neg ht]
    have := btLoop_spec env p a u slope f0 K hK hlt (not_lt.1 ht) K 0 rfl (by omega)
    rwa [pow_zero] at this

/-! ## C30 -/

/-- C30. The backtracking line search terminates for all parameters with tau < 1 and a positive
smallest step, whatever the error. -/
theorem C30_backtracking [Field α] [LinearOrder α] [IsStrictOrderedRing α] [Archimedean α] (p : BtParam α)
    (h1 : p.tau < 1) (hs : 0 < p.smallAlpha) :
    ∃ K, ∀ (env : LsEnv A V α) (slope f0 : α) (a : A) (u : V), ∃ out,
      backtracking env p K slope f0 a u = some out ∧ out.evals ≤ K := by
  classical
  have hn : ∃ n : Nat, p.tau ^ n ≤ p.smallAlpha := by
    obtain ⟨n, hn⟩ := exists_pow_lt_of_lt_one hs h1
    exact ⟨n, hn.le⟩
  have hK := Nat.find_spec hn
  refine ⟨Nat.find hn, fun env slope f0 a u => ?_⟩
  obtain ⟨out, h, hsp⟩ := backtracking_spec env p a u slope f0 _ hK
    fun j hj => not_le.1 (Nat.find_min hn hj)
  refine ⟨out, h, ?_⟩
  rcases hsp with ⟨_, _, k, hk, _, _, _, _, _, he⟩ | ⟨_, _, _, ⟨_, he⟩ | ⟨_, he, _⟩⟩ <;> omega

/-- C30 fails for the backtracking line search without the condition on tau (the parameters are public):
for a step along which the error increases the loop does not end. -/
theorem C30_backtracking_refuted (fuel : Nat) :
    backtracking (α := ℚ) (A := ℚ) (V := ℚ) ⟨(· + ·), (· * ·), fun x => x⟩ ⟨1, 1, 1 / 5⟩ fuel 0 0 0 1
      = none := by
  unfold backtracking
  simp only
  rw [if_neg (by norm_num)]
  generalize 0 = n
  induction fuel generalizing n with
  | zero => simp only [btLoop]; norm_num
  | succ fuel ih =>
    unfold btLoop
    rw [if_pos (by norm_num)]
    simp only
    rw [if_neg (by norm_num)]
    have := ih (n + 1)
    simpa using this

/-! ## C32 -/

/-- C32 (and C30). Backtracking with the default parameters: at most five evaluations; the step length is
the first power of 0.7 above 0.2 for which the error decreases sufficiently, or 0.2 if there is none or
if the direction is not a descent direction; the value returned distinguishes the two cases. -/
theorem C32_backtracking [Field α] [LinearOrder α] [IsStrictOrderedRing α] (env : LsEnv A V α)
    (slope f0 : α) (a : A) (u : V) :
    ∃ out, backtracking env (.default α) 5 slope f0 a u = some out ∧ out.evals ≤ 5 ∧
      out.arg = env.integrate a out.step ∧
      ((out.ok = true ∧ slope ≤ 0 ∧ ∃ k, k ≤ 4 ∧ out.step = env.smul ((7 / 10) ^ k) u ∧ (1 / 5 : α) < (7 / 10) ^ k ∧
          Armijo env (1 / 1000) slope f0 a u ((7 / 10) ^ k) ∧
          ∀ j, j < k → ¬ Armijo env (1 / 1000) slope f0 a u ((7 / 10) ^ j)) ∨
        (out.ok = false ∧ out.step = env.smul (1 / 5) u ∧
          (0 < slope ∨ ∀ j, (1 / 5 : α) < (7 / 10) ^ j → ¬ Armijo env (1 / 1000) slope f0 a u ((7 / 10) ^ j)))) := by
  have h5 : ((7 : α) / 10) ^ 5 ≤ 1 / 5 := by norm_num
  have hlt : ∀ j, j < 5 → (1 / 5 : α) < (7 / 10) ^ j := by
    intro j hj
    have : j = 0 ∨ j = 1 ∨ j = 2 ∨ j = 3 ∨ j = 4 := by omega
    rcases this with rfl | rfl | rfl | rfl | rfl <;> norm_num
  have hge : ∀ j, (1 / 5 : α) < (7 / 10) ^ j → j < 5 := by
    intro j hj
    by_contra hc
    have : ((7 : α) / 10) ^ j ≤ (7 / 10) ^ 5 :=
      pow_le_pow_of_le_one (by norm_num) (by norm_num) (not_lt.1 hc)
    exact absurd hj (not_lt.2 (this.trans h5))
  obtain ⟨out, h, hsp⟩ := backtracking_spec env (.default α) a u slope f0 5 h5 hlt
  refine ⟨out, h, ?_⟩
  rcases hsp with ⟨g1, g2, k, hk, g3, g4, g5, g6, g7, g8⟩ | ⟨g1, g2, g3, g4⟩
  · refine ⟨by omega, g7, Or.inl ⟨g1, ?_, k, by omega, g6, g3, g4, g5⟩⟩
    simp only [BtParam.default] at g2
    linarith
  · refine ⟨?_, g3, Or.inr ⟨g1, g2, ?_⟩⟩
    · rcases g4 with g4 | g4 <;> omega
    · rcases g4 with ⟨g4, _⟩ | ⟨_, _, g4⟩
      · refine Or.inl ?_
        simp only [BtParam.default] at g4
        linarith
      · exact Or.inr fun j hj => g4 j (hge j hj)

/-- C32. If the backtracking line search announces a success and the direction is given with its slope,
the error has not increased. -/
theorem C32_backtracking_descent [Field α] [LinearOrder α] [IsStrictOrderedRing α] (env : LsEnv A V α)
    (slope : α) (a : A) (u : V) {out : LsOut A V}
    (h : backtracking env (.default α) 5 slope (env.err a) a u = some out) (hok : out.ok = true) :
    env.err out.arg ≤ env.err a ∧ (slope < 0 → env.err out.arg < env.err a) := by
  obtain ⟨out', h', _, h1, h2⟩ := C32_backtracking env slope (env.err a) a u
  rw [h] at h'
  obtain rfl := Option.some.inj h'
  rcases h2 with ⟨_, hs, k, _, h3, h4, h5, _⟩ | ⟨h3, _⟩
  · rw [h1, h3]
    unfold Armijo at h5
    have hp : (0 : α) < (7 / 10) ^ k := lt_trans (by norm_num) h4
    constructor
    · have := mul_nonpos_of_nonneg_of_nonpos hp.le hs
      nlinarith
    · intro hs'
      have := mul_neg_of_pos_of_neg hp hs'
      nlinarith
  · rw [hok] at h3; cases h3

/-- Minimisation of `x²` from 3. -/
def lsEx : LsEnv ℚ ℚ ℚ := ⟨(· + ·), (· * ·), fun x => x * x⟩

example : (backtracking lsEx (.default ℚ) 5 (-6) 9 3 (-2)).map (fun o => (o.arg, o.step, o.ok, o.evals))
      = some (1, -2, true, 1) ∧
    (backtracking lsEx (.default ℚ) 5 (-24) 9 3 (-8)).map (fun o => (o.arg, o.step, o.ok, o.evals))
      = some (3 - 8 * (7 / 10), -8 * (7 / 10), true, 2) ∧
    (backtracking lsEx (.default ℚ) 5 (-60) 9 3 (-60)).map (fun o => (o.arg, o.step, o.ok, o.evals))
      = some (-9, -12, false, 5) := by
  decide +kernel

/-- Specification: the fixed sequence object after `k` calls. -/
def FixedSeq.after [Field α] (env : LsEnv A V α) (f : FixedSeq α) : List (A × V) → FixedSeq α
  | [] => f
  | (a, u) :: l => FixedSeq.after env (f.call env a u).1 l

theorem fixedSeq_after [Field α] [LinearOrder α] [IsStrictOrderedRing α] (env : LsEnv A V α)
    (l : List (A × V)) : ∀ n : Nat,
    FixedSeq.after env ⟨95 / 100 - 3 / 4 * (4 / 5) ^ n, 95 / 100, 4 / 5⟩ l =
      ⟨95 / 100 - 3 / 4 * (4 / 5) ^ (n + l.length), 95 / 100, 4 / 5⟩ := by
  induction l with
  | nil => intro n; rfl
  | cons x l ih =>
    intro n
    have := ih (n + 1)
    simp only [FixedSeq.after, FixedSeq.call, List.length_cons]
    rw [show n + (l.length + 1) = n + 1 + l.length by omega, ← this]
    congr 2
    rw [pow_succ]
    ring

/-- C32. Whatever the previous calls of a fixed-sequence line search, the next step is multiplied by a
number of [0.2, 0.95[, that is greater than those of the previous calls (it only depends on their
number). -/
theorem C32_fixed_sequence [Field α] [LinearOrder α] [IsStrictOrderedRing α] (env : LsEnv A V α) :
    ∃ alpha : Nat → α, alpha 0 = 1 / 5 ∧ StrictMono alpha ∧ (∀ k, 1 / 5 ≤ alpha k ∧ alpha k < 95 / 100) ∧
      ∀ (l : List (A × V)) (a : A) (u : V),
        let out := ((FixedSeq.after env (FixedSeq.init α) l).call env a u).2
        out.step = env.smul (alpha l.length) u ∧ out.arg = env.integrate a out.step ∧ out.ok = true := by
  refine ⟨fun k => 95 / 100 - 3 / 4 * (4 / 5) ^ k, by norm_num, ?_, ?_, ?_⟩
  · refine strictMono_nat_of_lt_succ fun k => ?_
    have : (0 : α) < (4 / 5) ^ k := by positivity
    simp only [pow_succ]
    linarith
  · intro k
    have h1 : (0 : α) < (4 / 5) ^ k := by positivity
    have h2 : ((4 : α) / 5) ^ k ≤ 1 := pow_le_one₀ (by norm_num) (by norm_num)
    constructor
    · linarith
    · linarith
  · intro l a u
    have h0 : FixedSeq.init α = ⟨95 / 100 - 3 / 4 * (4 / 5) ^ 0, 95 / 100, 4 / 5⟩ := by
      unfold FixedSeq.init; congr 1; norm_num
    have := fixedSeq_after env l 0
    rw [h0, this, Nat.zero_add]
    exact ⟨rfl, rfl, rfl⟩

example : (FixedSeq.after lsEx (FixedSeq.init ℚ) [(0, 1), (5, 2)]).alpha = 47 / 100 := by
  decide +kernel

theorem tanh_strictMono : StrictMono Real.tanh := by
  intro x y h
  have hx : Real.tanh x ∈ Set.Ioo (-1 : ℝ) 1 := ⟨Real.neg_one_lt_tanh x, Real.tanh_lt_one x⟩
  have hy : Real.tanh y ∈ Set.Ioo (-1 : ℝ) 1 := ⟨Real.neg_one_lt_tanh y, Real.tanh_lt_one y⟩
  rw [← Real.artanh_lt_artanh_iff hx hy, Real.artanh_tanh, Real.artanh_tanh]
  exact h

/-- C32. The error-norm based step length is in ]alphaMin, 1[ for all parameters with alphaMin < 1. -/
theorem C32_error_norm (env : LsEnv A V ℝ) (alphaMin a b : ℝ) (h : alphaMin < 1) (res thr : ℝ) (x : A)
    (u : V) :
    let out := (ErrNormBased.mk3 alphaMin a b).call env res thr x u
    ∃ alpha, alphaMin < alpha ∧ alpha < 1 ∧ out.step = env.smul alpha u ∧
      out.arg = env.integrate x out.step := by
  refine ⟨_, ?_, ?_, rfl, rfl⟩
  · have := Real.tanh_lt_one (a * (res / thr) + b)
    simp only [ErrNormBased.mk3]
    nlinarith
  · have := Real.neg_one_lt_tanh (a * (res / thr) + b)
    simp only [ErrNormBased.mk3]
    nlinarith

/-- C32. With the constructor that computes the coefficients, for alphaMin < 0.96: the step length is
a strictly decreasing function of the error; it is 0.98 at the threshold and the middle of [alphaMin, 1]
at 10⁶ times the threshold. -/
theorem C32_error_norm_default (env : LsEnv A V ℝ) (alphaMin : ℝ) (h : alphaMin < 0.96) :
    ∃ alpha : ℝ → ℝ, StrictAnti alpha ∧ alpha 1 = 0.98 ∧ alpha 1000000 = (alphaMin + 1) / 2 ∧
      (∀ r, alphaMin < alpha r ∧ alpha r < 1) ∧
      ∀ (res thr : ℝ) (x : A) (u : V),
        let out := (ErrNormBased.mk1 alphaMin).call env res thr x u
        out.step = env.smul (alpha (res / thr)) u ∧ out.arg = env.integrate x out.step := by
  have hK : 0 < (1 - alphaMin) / 2 := by linarith
  have hx : (0.02 - 1 + (0.5 + alphaMin / 2)) / ((1 - alphaMin) / 2) ∈ Set.Ioo (-1 : ℝ) 0 := by
    constructor
    · rw [lt_div_iff₀ hK]; linarith
    · rw [div_lt_iff₀ hK]; linarith
  set y := (0.02 - 1 + (0.5 + alphaMin / 2)) / ((1 - alphaMin) / 2) with hy
  have ha : 0 < Real.artanh y / (1 - 1000000) := div_pos_of_neg_of_neg (Real.artanh_neg hx) (by norm_num)
  set a := Real.artanh y / (1 - 1000000) with hadef
  refine ⟨fun r => 0.5 + alphaMin / 2 - (1 - alphaMin) / 2 * Real.tanh (a * r + -1000000 * a),
    ?_, ?_, ?_, ?_, ?_⟩
  · intro r s hrs
    have : Real.tanh (a * r + -1000000 * a) < Real.tanh (a * s + -1000000 * a) :=
      tanh_strictMono (by nlinarith)
    have := mul_lt_mul_of_pos_left this hK
    simp only
    linarith
  · have h1 : a * 1 + -1000000 * a = Real.artanh y := by rw [hadef]; field_simp; ring
    simp only [h1, Real.tanh_artanh ⟨hx.1, hx.2.trans one_pos⟩]
    rw [hy, mul_div_cancel₀ _ hK.ne']
    norm_num
  · have h1 : a * 1000000 + -1000000 * a = 0 := by ring
    simp only [h1, Real.tanh_zero]
    norm_num
    ring
  · intro r
    have h1 := Real.tanh_lt_one (a * r + -1000000 * a)
    have h2 := Real.neg_one_lt_tanh (a * r + -1000000 * a)
    constructor <;> nlinarith
  · intro res thr x u
    exact ⟨rfl, rfl⟩

/-- The default minimal step meets the hypothesis. -/
example : (0.2 : ℝ) < 0.96 := by norm_num

end Hpp
