import Verif.Fun.FiniteDiffProps
import Verif.Fun.ManipProps
import Mathlib.Analysis.Calculus.MeanValue
import Mathlib.Analysis.Calculus.Deriv.Inv
import Mathlib.Analysis.Calculus.Deriv.Pow

/-!
# C148: accuracy of the Jacobians by finite differences

The source is that of `Fun/FiniteDiff.lean`.  The specification is about the value along one direction as a function of one real
variable: `t ↦ sub (f (integrate x (t e_j))) (f x) i` for forward differences, and the difference between the values at `t` and `-t`
for central ones.  Configurations and values may belong to Lie groups.
-/

namespace Hpp.FD

open Filter Topology Set

variable {Y : Type}

/-! ### Functions of one real variable -/

/-- A function that vanishes at zero with a derivative that grows at most linearly -/
theorem one_sided {g g' : ℝ → ℝ} {a L h : ℝ} (h0 : g 0 = 0) (hd : ∀ t, 0 ≤ t → t ≤ h → HasDerivAt g (g' t) t) (hh : 0 < h)
    (hL : ∀ t, 0 ≤ t → t ≤ h → |g' t - a| ≤ L * t) : |g h / h - a| ≤ L / 2 * h := by
  have key := image_norm_le_of_norm_deriv_right_le_deriv_boundary (f := fun t => g t - a * t) (f' := fun t => g' t - a)
    (a := 0) (b := h) (B := fun t => L / 2 * t ^ 2) (B' := fun t => L * t)
    (fun t ht => (((hd t ht.1 ht.2).sub ((hasDerivAt_id t).const_mul a)).continuousAt).continuousWithinAt)
    (fun t ht => by
      have := ((hd t ht.1 ht.2.le).sub ((hasDerivAt_id t).const_mul a)).hasDerivWithinAt (s := Ici t)
      rw [mul_one] at this
      exact this)
    (by simp [h0])
    (fun t => by
      have := (hasDerivAt_pow 2 t).const_mul (L / 2)
      refine this.congr_deriv ?_
      simp
      ring)
    (fun t ht => hL t ht.1 ht.2.le) (right_mem_Icc.2 hh.le)
  rw [Real.norm_eq_abs] at key
  have e : g h / h - a = (g h - a * h) / h := by field_simp
  rw [e, abs_div, abs_of_pos hh, div_le_iff₀ hh]
  calc _ ≤ _ := key
    _ = _ := by ring

/-- The same one order further -/
theorem two_sided {k k' k'' : ℝ → ℝ} {a M h : ℝ} (h0 : k 0 = 0) (h1 : k' 0 = 2 * a)
    (hd : ∀ t, 0 ≤ t → t ≤ h → HasDerivAt k (k' t) t) (hd2 : ∀ t, 0 ≤ t → t ≤ h → HasDerivAt k' (k'' t) t) (hh : 0 < h)
    (hM : ∀ t, 0 ≤ t → t ≤ h → |k'' t| ≤ 2 * M * t) : |k h / h / 2 - a| ≤ M / 6 * h ^ 2 := by
  have key1 := image_norm_le_of_norm_deriv_right_le_deriv_boundary (f := fun t => k' t - 2 * a) (f' := k'')
    (a := 0) (b := h) (B := fun t => M * t ^ 2) (B' := fun t => 2 * M * t)
    (fun t ht => (((hd2 t ht.1 ht.2).sub_const (2 * a)).continuousAt).continuousWithinAt)
    (fun t ht => ((hd2 t ht.1 ht.2.le).sub_const (2 * a)).hasDerivWithinAt)
    (by simp [h1])
    (fun t => by
      refine ((hasDerivAt_pow 2 t).const_mul M).congr_deriv ?_
      simp
      ring)
    (fun t ht => hM t ht.1 ht.2.le)
  have key := image_norm_le_of_norm_deriv_right_le_deriv_boundary (f := fun t => k t - 2 * a * t) (f' := fun t => k' t - 2 * a)
    (a := 0) (b := h) (B := fun t => M / 3 * t ^ 3) (B' := fun t => M * t ^ 2)
    (fun t ht => (((hd t ht.1 ht.2).sub ((hasDerivAt_id t).const_mul (2 * a))).continuousAt).continuousWithinAt)
    (fun t ht => by
      have := ((hd t ht.1 ht.2.le).sub ((hasDerivAt_id t).const_mul (2 * a))).hasDerivWithinAt (s := Ici t)
      rw [mul_one] at this
      exact this)
    (by simp [h0])
    (fun t => by
      refine ((hasDerivAt_pow 3 t).const_mul (M / 3)).congr_deriv ?_
      simp
      ring)
    (fun t ht => key1 ⟨ht.1, ht.2.le⟩) (right_mem_Icc.2 hh.le)
  rw [Real.norm_eq_abs] at key
  have e : k h / h / 2 - a = (k h - 2 * a * h) / (2 * h) := by field_simp
  rw [e, abs_div, abs_of_pos (by linarith : 0 < 2 * h), div_le_iff₀ (by linarith)]
  calc _ ≤ _ := key
    _ = _ := by ring

/-! ### C148 -/

/-- C148. The step is positive, and at most the parameter times the greatest of one and the coordinate. -/
theorem C148_step (eps : ℝ) (h : 0 < eps) (x : Nat → ℝ) (i : Nat) :
    0 < step eps x i ∧ step eps x i ≤ eps * max 1 |x i| := by
  unfold step
  dsimp only
  split_ifs with hr
  · exact ⟨h, le_mul_of_one_le_right h.le (le_max_left _ _)⟩
  · exact ⟨mul_pos h (lt_of_le_of_ne (abs_nonneg _) (Ne.symm hr)), mul_le_mul_of_nonneg_left (le_max_right _ _) h.le⟩

theorem neg_single (j : Nat) (t : ℝ) : (fun k => -single j t k) = single j (-t) := by
  funext k
  unfold single
  split <;> simp

section
variable (f : (Nat → ℝ) → Y) (sub : Y → Y → Nat → ℝ) (adp : Nat → Bool) (n : Nat) (x : Nat → ℝ)
  (J : Nat → Nat → ℝ) (i j : Nat) (integrate : (Nat → ℝ) → (Nat → ℝ) → Nat → ℝ)

/-- C148. Without robot the result is that with a robot whose integration is the addition. -/
theorem C148_vector_space (eps : ℝ) (hj : j < n) :
    (forward (vecOp eps) f sub adp n x J).1 i j = (forward (robotOp eps fun x v k => x k + v k) f sub adp n x J).1 i j ∧
    (central (vecOp eps) f sub adp n x J).1 i j = (central (robotOp eps fun x v k => x k + v k) f sub adp n x J).1 i j := by
  have hp : ∀ b, (vecOp eps).integ b x (single j ((vecOp eps).step j x)) j x =
      (robotOp eps fun x v k => x k + v k).integ b x
        (single j ((robotOp eps fun x v k => x k + v k).step j x)) j x := by
    intro b
    rw [vec_at]
    funext k
    by_cases hk : k = j
    · subst hk
      rw [Function.update_self]
      cases b <;> simp [robotOp, single]
    · rw [Function.update_of_ne hk]
      cases b <;> simp [robotOp, single, hk]
  have hs : (vecOp eps).step j x = (robotOp eps fun x v k => x k + v k).step j x := rfl
  rw [(C45_forward _ (vecOp_lawful eps) f sub adp n x J).1 i j hj, (C45_central _ (vecOp_lawful eps) f sub adp n x J).1 i j hj,
    (C45_forward _ (robotOp_lawful eps _) f sub adp n x J).1 i j hj, (C45_central _ (robotOp_lawful eps _) f sub adp n x J).1 i j hj,
    hp, hp, hs]
  exact ⟨rfl, rfl⟩

theorem forward_at (eps : ℝ) (hj : j < n) (ha : adp j = true) :
    (forward (robotOp eps integrate) f sub adp n x J).1 i j =
      sub (f (integrate x (single j (step eps x j)))) (f x) i / step eps x j := by
  rw [(C45_forward _ (robotOp_lawful eps _) f sub adp n x J).1 i j hj, if_pos ha]
  rfl

theorem central_at (eps : ℝ) (hj : j < n) (ha : adp j = true) :
    (central (robotOp eps integrate) f sub adp n x J).1 i j =
      sub (f (integrate x (single j (step eps x j)))) (f (integrate x (single j (-step eps x j)))) i / step eps x j / 2 := by
  rw [(C45_central _ (robotOp_lawful eps _) f sub adp n x J).1 i j hj, if_pos ha, ← neg_single]
  rfl

/-- C148. Forward differences: if the derivative of the value in direction `j` varies with constant `L` over the length of the step,
the error is at most `L / 2` times the step. -/
theorem C148_forward {eps L : ℝ} (he : 0 < eps) (hj : j < n) (ha : adp j = true) (g' : ℝ → ℝ)
    (h0 : sub (f (integrate x (single j 0))) (f x) i = 0)
    (hd : ∀ t, 0 ≤ t → t ≤ eps * max 1 |x j| → HasDerivAt (fun t => sub (f (integrate x (single j t))) (f x) i) (g' t) t)
    (hL : ∀ t, 0 ≤ t → t ≤ eps * max 1 |x j| → |g' t - g' 0| ≤ L * t) :
    |(forward (robotOp eps integrate) f sub adp n x J).1 i j - g' 0| ≤ L / 2 * (eps * max 1 |x j|) := by
  obtain ⟨h1, h2⟩ := C148_step eps he x j
  have hL0 : 0 ≤ L := by
    have := (abs_nonneg _).trans (hL _ h1.le h2)
    exact (mul_nonneg_iff_of_pos_right h1).1 this
  rw [forward_at f sub adp n x J i j integrate eps hj ha]
  refine (one_sided (g := fun t => sub (f (integrate x (single j t))) (f x) i) h0
    (fun t g1 g2 => hd t g1 (g2.trans h2)) h1 fun t g1 g2 => hL t g1 (g2.trans h2)).trans ?_
  exact mul_le_mul_of_nonneg_left h2 (by linarith)

/-- C148. Central differences: the error is of second order. -/
theorem C148_central {eps M a : ℝ} (he : 0 < eps) (hj : j < n) (ha : adp j = true) (k' k'' : ℝ → ℝ)
    (h0 : sub (f (integrate x (single j 0))) (f (integrate x (single j (-0)))) i = 0) (h1 : k' 0 = 2 * a)
    (hd : ∀ t, 0 ≤ t → t ≤ eps * max 1 |x j| →
      HasDerivAt (fun t => sub (f (integrate x (single j t))) (f (integrate x (single j (-t)))) i) (k' t) t)
    (hd2 : ∀ t, 0 ≤ t → t ≤ eps * max 1 |x j| → HasDerivAt k' (k'' t) t)
    (hM : ∀ t, 0 ≤ t → t ≤ eps * max 1 |x j| → |k'' t| ≤ 2 * M * t) :
    |(central (robotOp eps integrate) f sub adp n x J).1 i j - a| ≤ M / 6 * (eps * max 1 |x j|) ^ 2 := by
  obtain ⟨g1, g2⟩ := C148_step eps he x j
  have hM0 : 0 ≤ M := by
    have := (abs_nonneg _).trans (hM _ g1.le g2)
    have := (mul_nonneg_iff_of_pos_right g1).1 this
    linarith
  rw [central_at f sub adp n x J i j integrate eps hj ha]
  refine (two_sided (k := fun t => sub (f (integrate x (single j t))) (f (integrate x (single j (-t)))) i) h0 h1
    (fun t p1 p2 => hd t p1 (p2.trans g2)) (fun t p1 p2 => hd2 t p1 (p2.trans g2)) g1 fun t p1 p2 => hM t p1 (p2.trans g2)).trans ?_
  exact mul_le_mul_of_nonneg_left (pow_le_pow_left₀ g1.le g2 2) (by linarith)

/-- C148. Both tend to the derivative when the parameter tends to zero. -/
theorem C148_limit {a : ℝ} (hj : j < n) (ha : adp j = true) (h0 : ∀ y, sub y y i = 0) (hi : integrate x (single j 0) = x) :
    (HasDerivAt (fun t => sub (f (integrate x (single j t))) (f x) i) a 0 →
      Tendsto (fun eps => (forward (robotOp eps integrate) f sub adp n x J).1 i j) (𝓝[>] 0) (𝓝 a)) ∧
    (HasDerivAt (fun t => sub (f (integrate x (single j t))) (f (integrate x (single j (-t)))) i) (2 * a) 0 →
      Tendsto (fun eps => (central (robotOp eps integrate) f sub adp n x J).1 i j) (𝓝[>] 0) (𝓝 a)) := by
  have hs : Tendsto (fun eps => step eps x j) (𝓝[>] 0) (𝓝[≠] 0) := by
    refine tendsto_nhdsWithin_iff.2 ⟨?_, ?_⟩
    · have h1 : Tendsto (fun eps => eps * max 1 |x j|) (𝓝[>] (0 : ℝ)) (𝓝 0) := by
        have : Tendsto (fun eps => eps * max 1 |x j|) (𝓝 (0 : ℝ)) (𝓝 (0 * max 1 |x j|)) := tendsto_id.mul_const _
        rw [zero_mul] at this
        exact this.mono_left nhdsWithin_le_nhds
      refine squeeze_zero' ?_ ?_ h1
      · filter_upwards [self_mem_nhdsWithin] with eps he
        exact (C148_step eps he x j).1.le
      · filter_upwards [self_mem_nhdsWithin] with eps he
        exact (C148_step eps he x j).2
    · filter_upwards [self_mem_nhdsWithin] with eps he
      exact (C148_step eps he x j).1.ne'
  constructor
  · intro hd
    simp only [forward_at f sub adp n x J i j integrate _ hj ha]
    have := (hasDerivAt_iff_tendsto_slope_zero.1 hd).comp hs
    refine this.congr fun eps => ?_
    simp only [Function.comp, zero_add, hi, h0, sub_zero, smul_eq_mul]
    rw [div_eq_inv_mul]
  · intro hd
    simp only [central_at f sub adp n x J i j integrate _ hj ha]
    have := ((hasDerivAt_iff_tendsto_slope_zero.1 hd).comp hs).div_const 2
    rw [mul_div_cancel_left₀ a (two_ne_zero)] at this
    refine this.congr fun eps => ?_
    simp only [Function.comp, zero_add, neg_zero, h0, sub_zero, smul_eq_mul]
    rw [div_eq_inv_mul _ (step eps x j)]

end

/-- C148. Central differences of a real value that is three times differentiable in direction `j`: the error is at most a sixth of the
bound of the variations of the second derivative times the square of the step. -/
theorem C148_central_real (f : (Nat → ℝ) → Nat → ℝ) (adp : Nat → Bool) (n : Nat) (x : Nat → ℝ) (J : Nat → Nat → ℝ) (i j : Nat)
    (integrate : (Nat → ℝ) → (Nat → ℝ) → Nat → ℝ) {eps M : ℝ} (he : 0 < eps) (hj : j < n) (ha : adp j = true) (g' g'' : ℝ → ℝ)
    (hd : ∀ t, |t| ≤ eps * max 1 |x j| → HasDerivAt (fun t => f (integrate x (single j t)) i) (g' t) t)
    (hd2 : ∀ t, |t| ≤ eps * max 1 |x j| → HasDerivAt g' (g'' t) t)
    (hM : ∀ t, |t| ≤ eps * max 1 |x j| → ∀ s, |s| ≤ eps * max 1 |x j| → |g'' t - g'' s| ≤ M * |t - s|) :
    |(central (robotOp eps integrate) f (fun a b i => a i - b i) adp n x J).1 i j - g' 0| ≤ M / 6 * (eps * max 1 |x j|) ^ 2 := by
  have hneg : ∀ {g : ℝ → ℝ} {d t : ℝ}, HasDerivAt g d (-t) → HasDerivAt (fun t => g (-t)) (-d) t := by
    intro g d t hg
    have := hg.comp t (hasDerivAt_neg t)
    rw [mul_neg, mul_one] at this
    exact this
  refine C148_central f (fun a b i => a i - b i) adp n x J i j integrate he hj ha (fun t => g' t + g' (-t))
    (fun t => g'' t - g'' (-t)) (by simp) (by simp; ring) ?_ ?_ ?_
  · intro t h1 h2
    have := (hd t (by rwa [abs_of_nonneg h1])).sub (hneg (hd (-t) (by rwa [abs_neg, abs_of_nonneg h1])))
    rw [sub_neg_eq_add] at this
    exact this
  · intro t h1 h2
    have := (hd2 t (by rwa [abs_of_nonneg h1])).add (hneg (hd2 (-t) (by rwa [abs_neg, abs_of_nonneg h1])))
    rwa [← sub_eq_add_neg] at this
  · intro t h1 h2
    refine (hM t (by rwa [abs_of_nonneg h1]) (-t) (by rwa [abs_neg, abs_of_nonneg h1])).trans (le_of_eq ?_)
    rw [sub_neg_eq_add, ← two_mul, abs_of_nonneg (by linarith)]
    ring

/-- C148. Only the derivative varies with constant `L`: central differences are at least as accurate as the bound of forward ones. -/
theorem C148_central_first_order (f : (Nat → ℝ) → Nat → ℝ) (adp : Nat → Bool) (n : Nat) (x : Nat → ℝ) (J : Nat → Nat → ℝ)
    (i j : Nat) (integrate : (Nat → ℝ) → (Nat → ℝ) → Nat → ℝ) {eps L : ℝ} (he : 0 < eps) (hj : j < n) (ha : adp j = true)
    (g' : ℝ → ℝ) (hd : ∀ t, |t| ≤ eps * max 1 |x j| → HasDerivAt (fun t => f (integrate x (single j t)) i) (g' t) t)
    (hL : ∀ t, |t| ≤ eps * max 1 |x j| → |g' t - g' 0| ≤ L * |t|) :
    |(central (robotOp eps integrate) f (fun a b i => a i - b i) adp n x J).1 i j - g' 0| ≤ L / 2 * (eps * max 1 |x j|) := by
  obtain ⟨h1, h2⟩ := C148_step eps he x j
  have hL0 : 0 ≤ L := by
    have := (abs_nonneg _).trans (hL _ (by rwa [abs_of_pos h1]))
    rw [abs_of_pos h1] at this
    exact (mul_nonneg_iff_of_pos_right h1).1 this
  rw [central_at f _ adp n x J i j integrate eps hj ha]
  have hp := one_sided (g := fun t => f (integrate x (single j t)) i - f (integrate x (single j 0)) i) (g' := g') (a := g' 0) (L := L)
    (sub_self _) (fun t g1 g2 => (hd t (by rw [abs_of_nonneg g1]; exact g2.trans h2)).sub_const _) h1
    fun t g1 g2 => by
      have := hL t (by rw [abs_of_nonneg g1]; exact g2.trans h2)
      rwa [abs_of_nonneg g1] at this
  have hm := one_sided (g := fun t => f (integrate x (single j (-t))) i - f (integrate x (single j 0)) i)
    (g' := fun t => -g' (-t)) (a := -g' 0) (L := L)
    (by simp) (fun t g1 g2 => by
      have := (hd (-t) (by rw [abs_neg, abs_of_nonneg g1]; exact g2.trans h2)).comp t (hasDerivAt_neg t)
      rw [mul_neg, mul_one] at this
      exact this.sub_const (f (integrate x (single j 0)) i)) h1
    fun t g1 g2 => by
      have := hL (-t) (by rw [abs_neg, abs_of_nonneg g1]; exact g2.trans h2)
      rw [abs_neg, abs_of_nonneg g1] at this
      rw [neg_sub_neg, abs_sub_comm]
      exact this
  have e : (f (integrate x (single j (step eps x j))) i - f (integrate x (single j (-step eps x j))) i) / step eps x j / 2 - g' 0 =
      (((f (integrate x (single j (step eps x j))) i - f (integrate x (single j 0)) i) / step eps x j - g' 0) -
        ((f (integrate x (single j (-step eps x j))) i - f (integrate x (single j 0)) i) / step eps x j - -g' 0)) / 2 := by
    ring
  rw [e, abs_div, abs_of_pos (two_pos : (0 : ℝ) < 2), div_le_iff₀ two_pos]
  refine (abs_sub _ _).trans ?_
  have : L / 2 * step eps x j ≤ L / 2 * (eps * max 1 |x j|) := mul_le_mul_of_nonneg_left h2 (by linarith)
  linarith

/-- C148. The bound of forward differences is reached, by `x ↦ L / 2 x²` at zero: the error is exactly `L / 2` times the parameter. -/
theorem C148_forward_sharp (eps L : ℝ) (he : 0 < eps) (J : Nat → Nat → ℝ) :
    (forward (robotOp eps fun x v k => x k + v k) (fun x (_ : Nat) => L / 2 * x 0 ^ 2) (fun a b i => a i - b i) (fun _ => true) 1
      (fun _ => 0) J).1 0 0 = L / 2 * eps := by
  rw [forward_at _ _ _ _ _ _ _ _ _ eps one_pos rfl]
  simp [step, single]
  field_simp

end Hpp.FD

namespace Hpp.Manip

/-- C148. Manipulability: the Jacobian is within a sixth of the bound of the variations of the second derivative times the square of
the step, at most `1e-8 max (1, |x_j|)`, of the derivative of the value. -/
theorem C148_manipulability {m : Nat} (svd : Svds m) (J : (Nat → ℝ) → Fin m → Nat → ℝ) (act : List Bool)
    (integrate : (Nat → ℝ) → (Nat → ℝ) → Nat → ℝ) (n : Nat) (x : Nat → ℝ) (N : Nat → Nat → ℝ) (j : Nat) (hj : j < n)
    (ha : act.getD j false = true) {M : ℝ} (g' g'' : ℝ → ℝ)
    (hd : ∀ t, |t| ≤ 1e-8 * max 1 |x j| → HasDerivAt (fun t => compute svd J act (integrate x (FD.single j t))) (g' t) t)
    (hd2 : ∀ t, |t| ≤ 1e-8 * max 1 |x j| → HasDerivAt g' (g'' t) t)
    (hM : ∀ t, |t| ≤ 1e-8 * max 1 |x j| → ∀ s, |s| ≤ 1e-8 * max 1 |x j| → |g'' t - g'' s| ≤ M * |t - s|) :
    |jacobian svd J act integrate n x N 0 j - g' 0| ≤ M / 6 * (1e-8 * max 1 |x j|) ^ 2 := by
  have h := FD.C148_central_real (fun q (_ : Nat) => compute svd J act q) (fun j => act.getD j false) n x N 0 j integrate
    (eps := 1e-8) (by norm_num) hj ha g' g'' hd hd2 hM
  have e : jacobian svd J act integrate n x N 0 j =
      (FD.central (FD.robotOp (1e-8 : ℝ) integrate) (fun q (_ : Nat) => compute svd J act q) (fun a b i => a i - b i)
        (fun j => act.getD j false) n x N).1 0 j := by
    have h1 := (FD.C45_central (FD.robotOp (1e-8 : ℝ) integrate) (FD.robotOp_lawful _ _) (compute svd J act) (fun a b _ => a - b)
      (fun j => act.getD j false) n x N).1 0 j hj
    have h2 := (FD.C45_central (FD.robotOp (1e-8 : ℝ) integrate) (FD.robotOp_lawful _ _) (fun q (_ : Nat) => compute svd J act q)
      (fun a b i => a i - b i) (fun j => act.getD j false) n x N).1 0 j hj
    rw [h2]
    unfold jacobian
    rw [h1]
  rw [e]
  exact h

end Hpp.Manip

namespace Hpp.FD

/-- The hypotheses of `C148_central_real` and of `C148_forward` hold for `x ↦ x³` on a vector space, at `x = 1`. -/
example (J : Nat → Nat → ℝ) :
    |(central (robotOp (1 / 10) fun x v k => x k + v k) (fun x (_ : Nat) => x 0 ^ 3) (fun a b i => a i - b i) (fun _ => true) 1
      (fun _ => 1) J).1 0 0 - 3| ≤ 1 / 100 ∧
    |(forward (robotOp (1 / 10) fun x v k => x k + v k) (fun x (_ : Nat) => x 0 ^ 3) (fun a b i => a i - b i) (fun _ => true) 1
      (fun _ => 1) J).1 0 0 - 3| ≤ 7 / 20 := by
  have hb : (1 / 10 : ℝ) * max 1 |(fun _ => 1 : Nat → ℝ) 0| = 1 / 10 := by norm_num
  have hd : ∀ t : ℝ, HasDerivAt (fun t : ℝ => ((fun _ => 1 : Nat → ℝ) 0 + single 0 t 0) ^ 3) (3 * (1 + t) ^ 2) t := by
    intro t
    have := ((hasDerivAt_id t).const_add 1).pow 3
    refine this.congr_deriv ?_
    simp
  constructor
  · have := C148_central_real (fun x (_ : Nat) => x 0 ^ 3) (fun _ => true) 1 (fun _ => 1) J 0 0 (fun x v k => x k + v k)
      (eps := 1 / 10) (M := 6) (by norm_num) one_pos rfl (fun t => 3 * (1 + t) ^ 2) (fun t => 6 * (1 + t)) (fun t _ => hd t)
      (fun t _ => by
        have := (((hasDerivAt_id t).const_add 1).pow 2).const_mul 3
        refine this.congr_deriv ?_
        simp
        ring)
      (fun t _ s _ => by
        rw [show 6 * (1 + t) - 6 * (1 + s) = 6 * (t - s) by ring, abs_mul]
        norm_num)
    rw [hb] at this
    norm_num at this ⊢
    exact this
  · have := C148_forward (fun x (_ : Nat) => x 0 ^ 3) (fun a b i => a i - b i) (fun _ => true) 1 (fun _ => 1) J 0 0
      (fun x v k => x k + v k) (eps := 1 / 10) (L := 7) (by norm_num) one_pos rfl (fun t => 3 * (1 + t) ^ 2) (by simp [single])
      (fun t _ _ => (hd t).sub_const _)
      (fun t h1 h2 => by
        rw [hb] at h2
        rw [abs_of_nonneg (by nlinarith)]
        nlinarith)
    rw [hb] at this
    norm_num at this ⊢
    exact this

end Hpp.FD

namespace Hpp.Manip

open Matrix Topology

/-- The value is the first variable, between 0 and 2. -/
theorem compute_ex (svd : Svds 1) (hs : svd.Ok) (q : Nat → ℝ) (h0 : 0 < q 0) (h2 : q 0 < 2) :
    compute svd (fun (q : Nat → ℝ) _ _ => (10 : ℝ) ^ (-q 0)) [true] q = q 0 := by
  have hp : (0 : ℝ) < 10 ^ (-q 0) := Real.rpow_pos_of_pos (by norm_num) _
  have hg : gram (fun (_ : Fin 1) (_ : Nat) => (10 : ℝ) ^ (-q 0)) [true] = !![(10 ^ (-q 0)) * (10 ^ (-q 0))] := by
    ext a b
    fin_cases a
    fin_cases b
    simp [gram]
  rw [C88_value hs _ _ _ ?_, hg]
  · rw [det_fin_one]
    show max (-Real.logb 10 √((10 : ℝ) ^ (-q 0) * 10 ^ (-q 0))) 0 = q 0
    rw [Real.sqrt_mul_self hp.le, Real.logb_rpow (by norm_num) (by norm_num), neg_neg, max_eq_left h0.le]
  · intro v
    rw [hg]
    have hd : dmin ≤ 1 / 100 := by
      unfold dmin
      exact (pow_le_pow_of_le_one (by norm_num) (by norm_num) (by norm_num : 7 ≤ 1022)).trans (by norm_num)
    have h1 : (1 / 100 : ℝ) ≤ 10 ^ (-q 0) := by
      have : (10 : ℝ) ^ (-2 : ℝ) ≤ 10 ^ (-q 0) := Real.rpow_le_rpow_of_exponent_le (by norm_num) (by linarith)
      refine le_trans ?_ this
      rw [Real.rpow_neg (by norm_num)]
      norm_num
    have h3 : dmin ^ 2 ≤ 10 ^ (-q 0) * 10 ^ (-q 0) := by
      rw [sq]
      exact mul_le_mul (hd.trans h1) (hd.trans h1) dmin_pos.le hp.le
    simp only [dotProduct, mulVec, Fin.sum_univ_one, of_apply, cons_val_zero]
    nlinarith [mul_self_nonneg (v 0), mul_le_mul_of_nonneg_right h3 (mul_self_nonneg (v 0))]

/-- The hypotheses of `C148_manipulability` hold: the value is the variable itself, the Jacobian is exact. -/
example (svd : Svds 1) (hs : svd.Ok) (N : Nat → Nat → ℝ) :
    jacobian svd (fun (q : Nat → ℝ) _ _ => (10 : ℝ) ^ (-q 0)) [true] (fun x v k => x k + v k) 1 (fun _ => 1) N 0 0 = 1 := by
  have h := C148_manipulability svd (fun (q : Nat → ℝ) _ _ => (10 : ℝ) ^ (-q 0)) [true] (fun x v k => x k + v k) 1 (fun _ => 1) N 0
    one_pos rfl (M := 0) (fun _ => 1) (fun _ => 0) (fun t ht => by
      have hb : |t| ≤ 1e-8 := by simpa using ht
      have h1 := abs_le.1 hb
      have hd : HasDerivAt (fun t : ℝ => 1 + t) 1 t := (hasDerivAt_id t).const_add 1
      refine hd.congr_of_eventuallyEq ?_
      filter_upwards [Ioo_mem_nhds (show t - 1 / 2 < t by linarith) (show t < t + 1 / 2 by linarith)] with s hs'
      obtain ⟨g1, g2⟩ := hs'
      have g3 : -(1e-8 : ℝ) ≤ t := h1.1
      have g4 : t ≤ (1e-8 : ℝ) := h1.2
      norm_num at g3 g4
      have := compute_ex svd hs (fun k => 1 + FD.single 0 s k) (by simp [FD.single]; linarith) (by simp [FD.single]; linarith)
      simpa [FD.single] using this)
    (fun t _ => hasDerivAt_const _ _) (fun t _ s _ => by simp)
  rw [zero_div, zero_mul] at h
  exact sub_eq_zero.1 (abs_nonpos_iff.1 h)

end Hpp.Manip
