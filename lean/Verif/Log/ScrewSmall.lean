import Verif.Log.Inject
import Mathlib.Analysis.SpecialFunctions.Trigonometric.Bounds
import Mathlib.Analysis.Complex.Trigonometric

/-!
# Accuracy of `logSE3` for small rotations

Below 1e-2, `logSE3` replaces its coefficients by truncated series (tools.hh:174-181), and below 1e-6, `logSO3` replaces
`θ / sin θ` by 1 (tools.hh:72-75).  The screw motion of the returned velocities then does not reach the pose exactly: the gap is
bounded here.
-/

namespace Hpp.Log

open Matrix Hpp.Sym Hpp.Pose

/-- Taylor polynomials of sine and cosine with an explicit remainder -/
theorem sincos9 {x : ℝ} (h0 : 0 ≤ x) (h1 : x ≤ 1) :
    |Real.sin x - (x - x ^ 3 / 6 + x ^ 5 / 120 - x ^ 7 / 5040)| ≤ x ^ 9 / 100000 ∧
    |Real.cos x - (1 - x ^ 2 / 2 + x ^ 4 / 24 - x ^ 6 / 720 + x ^ 8 / 40320)| ≤ x ^ 9 / 100000 := by
  have hn : ‖(x : ℂ) * Complex.I‖ = x := by simp [abs_of_nonneg h0]
  have h := Complex.exp_bound (x := (x : ℂ) * Complex.I) (by rw [hn]; exact h1) (n := 9) (by norm_num)
  rw [hn] at h
  set z := Complex.exp ((x : ℂ) * Complex.I) - ∑ m ∈ Finset.range 9, ((x : ℂ) * Complex.I) ^ m / (m.factorial : ℂ) with hz
  have hb : x ^ 9 * (((9 : ℕ).succ : ℝ) * (((9 : ℕ).factorial : ℝ) * ((9 : ℕ) : ℝ))⁻¹) ≤ x ^ 9 / 100000 := by
    have : (((9 : ℕ).succ : ℝ) * (((9 : ℕ).factorial : ℝ) * ((9 : ℕ) : ℝ))⁻¹) ≤ 1 / 100000 := by
      norm_num [Nat.factorial]
    calc _ ≤ x ^ 9 * (1 / 100000) := by gcongr
      _ = _ := by ring
  have hsum : ∑ m ∈ Finset.range 9, ((x : ℂ) * Complex.I) ^ m / (m.factorial : ℂ)
      = ((1 - x ^ 2 / 2 + x ^ 4 / 24 - x ^ 6 / 720 + x ^ 8 / 40320 : ℝ) : ℂ)
        + ((x - x ^ 3 / 6 + x ^ 5 / 120 - x ^ 7 / 5040 : ℝ) : ℂ) * Complex.I := by
    have e2 : Complex.I ^ 2 = -1 := Complex.I_sq
    have e3 : Complex.I ^ 3 = -Complex.I := by rw [pow_succ, e2]; ring
    have e4 : Complex.I ^ 4 = 1 := by rw [show 4 = 2 * 2 from rfl, pow_mul, e2]; norm_num
    have e5 : Complex.I ^ 5 = Complex.I := by rw [pow_succ, e4]; ring
    have e6 : Complex.I ^ 6 = -1 := by rw [show 6 = 4 + 2 from rfl, pow_add, e4, e2]; ring
    have e7 : Complex.I ^ 7 = -Complex.I := by rw [show 7 = 4 + 3 from rfl, pow_add, e4, e3]; ring
    have e8 : Complex.I ^ 8 = 1 := by rw [show 8 = 4 + 4 from rfl, pow_add, e4]; ring
    simp only [Finset.sum_range_succ, Finset.sum_range_zero, mul_pow, e2, e3, e4, e5, e6, e7, e8, Nat.factorial]
    push_cast
    ring
  have hexp : Complex.exp ((x : ℂ) * Complex.I) = ((Real.cos x : ℝ) : ℂ) + ((Real.sin x : ℝ) : ℂ) * Complex.I := by
    rw [Complex.exp_mul_I]; push_cast; rfl
  have hre : z.re = Real.cos x - (1 - x ^ 2 / 2 + x ^ 4 / 24 - x ^ 6 / 720 + x ^ 8 / 40320) := by
    rw [hz, hsum, hexp]
    simp only [Complex.sub_re, Complex.add_re, Complex.ofReal_re, Complex.mul_re, Complex.ofReal_im, Complex.I_re, Complex.I_im]
    ring
  have him : z.im = Real.sin x - (x - x ^ 3 / 6 + x ^ 5 / 120 - x ^ 7 / 5040) := by
    rw [hz, hsum, hexp]
    simp only [Complex.sub_im, Complex.add_im, Complex.ofReal_im, Complex.mul_im, Complex.ofReal_re, Complex.I_re, Complex.I_im]
    ring
  constructor
  · rw [← him]; exact (Complex.abs_im_le_norm z).trans (h.trans hb)
  · rw [← hre]; exact (Complex.abs_re_le_norm z).trans (h.trans hb)

/-- Exact value of the coefficient `alpha` -/
noncomputable def alphaExact (x : ℝ) : ℝ := x * Real.sin x / (2 * (1 - Real.cos x))

/-- The truncated series of tools.hh:176 -/
noncomputable def alphaSeries (x : ℝ) : ℝ := 1 - x * x / 12 - x * x * x * x / 720

theorem alpha_close {x : ℝ} (h0 : 0 < x) (h1 : x ≤ 1e-2) : |alphaExact x - alphaSeries x| ≤ x ^ 6 / 18000 := by
  obtain ⟨hs, hc⟩ := sincos9 h0.le (by norm_num at h1; linarith)
  unfold alphaExact
  generalize Real.sin x = S at *
  generalize Real.cos x = C at *
  have hx : x ≤ 1 / 100 := by norm_num at h1; linarith
  obtain ⟨e, he, rfl⟩ : ∃ e, |e| ≤ x ^ 9 / 100000 ∧ S = (x - x ^ 3 / 6 + x ^ 5 / 120 - x ^ 7 / 5040) + e :=
    ⟨_, hs, by ring⟩
  obtain ⟨f, hf, rfl⟩ : ∃ f, |f| ≤ x ^ 9 / 100000 ∧ C = (1 - x ^ 2 / 2 + x ^ 4 / 24 - x ^ 6 / 720 + x ^ 8 / 40320) + f :=
    ⟨_, hc, by ring⟩
  have p2 : 0 < x ^ 2 := by positivity
  have p8 : 0 < x ^ 8 := by positivity
  have q1 : ∀ n : ℕ, x ^ (n + 1) ≤ x ^ n / 100 := fun n => by
    rw [pow_succ]
    have : 0 ≤ x ^ n := by positivity
    nlinarith
  have i2 := q1 2
  have i3 := q1 3
  have i4 := q1 4
  have i5 := q1 5
  have i6 := q1 6
  have i7 := q1 7
  have i8 := q1 8
  have i9 := q1 9
  have i10 := q1 10
  have i11 := q1 11
  norm_num at i2 i3 i4 i5 i6 i7 i8 i9 i10 i11
  have p10 : 0 < x ^ 10 := by positivity
  have p12 : 0 < x ^ 12 := by positivity
  have hD : 99 / 100 * x ^ 2 ≤ 2 * (1 - ((1 - x ^ 2 / 2 + x ^ 4 / 24 - x ^ 6 / 720 + x ^ 8 / 40320) + f)) := by
    have := abs_le.1 hf
    have p6 : 0 < x ^ 6 := by positivity
    linarith
  set D := 2 * (1 - ((1 - x ^ 2 / 2 + x ^ 4 / 24 - x ^ 6 / 720 + x ^ 8 / 40320) + f)) with hDd
  have hD0 : 0 < D := by linarith
  have hN : x * ((x - x ^ 3 / 6 + x ^ 5 / 120 - x ^ 7 / 5040) + e) - D * alphaSeries x
      = -x ^ 8 / 30240 - x ^ 10 * (1 / 241920 - 1 / 259200) - x ^ 12 / 14515200 + x * e + 2 * f * alphaSeries x := by
    rw [hDd]; unfold alphaSeries; ring
  have hA : |alphaSeries x| ≤ 1 := by
    unfold alphaSeries
    rw [abs_le]
    constructor
    · nlinarith
    · nlinarith [mul_self_nonneg (x * x)]
  have hxe : |x * e| ≤ x ^ 10 / 100000 := by
    rw [abs_mul, abs_of_pos h0]
    calc x * |e| ≤ x * (x ^ 9 / 100000) := by gcongr
      _ = _ := by ring
  have hfa : |2 * f * alphaSeries x| ≤ x ^ 9 / 50000 := by
    rw [abs_mul, abs_mul, abs_two]
    calc 2 * |f| * |alphaSeries x| ≤ 2 * (x ^ 9 / 100000) * 1 := by gcongr
      _ = _ := by ring
  have hNb : |x * ((x - x ^ 3 / 6 + x ^ 5 / 120 - x ^ 7 / 5040) + e) - D * alphaSeries x| ≤ x ^ 8 / 20000 := by
    rw [hN]
    have a1 := abs_le.1 hxe
    have a2 := abs_le.1 hfa
    rw [abs_le]
    constructor <;> linarith
  have e1 : x * ((x - x ^ 3 / 6 + x ^ 5 / 120 - x ^ 7 / 5040) + e) / D - alphaSeries x
      = (x * ((x - x ^ 3 / 6 + x ^ 5 / 120 - x ^ 7 / 5040) + e) - D * alphaSeries x) / D := by
    field_simp
  rw [e1, abs_div, abs_of_pos hD0, div_le_iff₀ hD0]
  refine hNb.trans ?_
  have p6 : 0 < x ^ 6 / 18000 := by positivity
  calc x ^ 8 / 20000 ≤ x ^ 6 / 18000 * (99 / 100 * x ^ 2) := by nlinarith
    _ ≤ _ := by gcongr

theorem lin3_entry {u : V3 ℝ} (hu : u ⬝ᵥ u = 1) (x y z : ℝ) (i j : Fin 3) : |lin3 x y z u i j| ≤ |x| + |y| + |z| := by
  have hc := fun i => (unit_comp hu i).1
  have h1 : |(1 : M3 ℝ) i j| ≤ 1 := by
    rw [Matrix.one_apply]; split <;> simp
  have h2 : |hat u i j| ≤ 1 := by
    fin_cases i <;> fin_cases j <;> simp [hat, hc]
  have h3 : |vecMulVec u u i j| ≤ 1 := by
    rw [vecMulVec_apply, abs_mul]
    exact mul_le_one₀ (hc i) (abs_nonneg _) (hc j)
  unfold lin3
  simp only [Matrix.add_apply, Matrix.smul_apply, smul_eq_mul]
  refine (abs_add_three _ _ _).trans ?_
  rw [abs_mul, abs_mul, abs_mul]
  have := abs_nonneg x
  have := abs_nonneg y
  have := abs_nonneg z
  nlinarith

/-- The velocity of `logSE3` in terms of the axis, for coefficients `a`, `d` close to the exact ones: the screw motion ends close to
the target. -/
theorem screw_end {s a d ε P : ℝ} (h0 : 0 < s) (h1 : s ≤ 1e-2) {u p : V3 ℝ} (hu : u ⬝ᵥ u = 1)
    (ha : |a - alphaExact s| ≤ ε) (hd : |d - (1 - alphaExact s)| ≤ ε) (hp : ∀ i, |p i| ≤ P) (i : Fin 3) :
    |(lin3 (Real.sin s / s) ((1 - Real.cos s) / s) (1 - Real.sin s / s) u *ᵥ (lin3 a (-(s / 2)) d u *ᵥ p)) i - p i|
      ≤ 15 * ε * P := by
  have hs1 : s < Real.pi := by have := Real.pi_gt_three; norm_num at h1; linarith
  have hsin : 0 < Real.sin s := Real.sin_pos_of_pos_of_lt_pi h0 hs1
  have hsc := Real.sin_sq_add_cos_sq s
  have hc := (half_angle hsin).2
  have hε : 0 ≤ ε := (abs_nonneg _).trans ha
  have hP : 0 ≤ P := (abs_nonneg _).trans (hp 0)
  set va := Real.sin s / s with hva
  set vb := (1 - Real.cos s) / s with hvb
  have hva1 : |va| ≤ 1 := by
    rw [abs_of_nonneg (by positivity), div_le_one h0]; exact (Real.sin_lt h0).le
  have hva2 : |1 - va| ≤ 1 := by
    have h2 : 0 < va := by positivity
    have h3 := abs_le.1 hva1
    rw [abs_le]; constructor <;> linarith
  have hvb1 : |vb| ≤ 1 := by
    rw [abs_of_nonneg (by positivity), div_le_one h0]
    have := Real.one_sub_sq_div_two_le_cos (x := s)
    norm_num at h1
    nlinarith
  set A := alphaExact s with hA
  have key : lin3 va vb (1 - va) u * lin3 a (-(s / 2)) d u = 1
      + lin3 (va * (a - A)) (vb * (a - A)) (va * (d - (1 - A)) + (1 - va) * (a - A) + (1 - va) * (d - (1 - A))) u := by
    rw [lin3_mul hu, ← lin3_one u]
    have e1 : va * A = (1 + Real.cos s) / 2 := by
      rw [hva, hA]; unfold alphaExact; field_simp; linear_combination hsc
    have e2 : vb * A = Real.sin s / 2 := by rw [hvb, hA]; unfold alphaExact; field_simp
    have e3 : vb * (s / 2) = (1 - Real.cos s) / 2 := by rw [hvb]; field_simp
    have e4 : va * (s / 2) = Real.sin s / 2 := by rw [hva]; field_simp
    have hadd : ∀ x y z x' y' z' : ℝ, lin3 x y z u + lin3 x' y' z' u = lin3 (x + x') (y + y') (z + z') u := by
      intro x y z x' y' z'; unfold lin3; module
    rw [hadd]
    congr 1
    · linear_combination e1 + e3
    · linear_combination e2 - e4
    · linear_combination -e1 - e3
  rw [mulVec_mulVec, key, add_mulVec, one_mulVec, Pi.add_apply, add_sub_cancel_left]
  have hb : |va * (a - A)| ≤ ε := by
    rw [abs_mul]
    calc |va| * |a - A| ≤ 1 * ε := by gcongr
      _ = ε := one_mul _
  have hb' : |vb * (a - A)| ≤ ε := by
    rw [abs_mul]
    calc |vb| * |a - A| ≤ 1 * ε := by gcongr
      _ = ε := one_mul _
  have hb3 : |va * (d - (1 - A)) + (1 - va) * (a - A) + (1 - va) * (d - (1 - A))| ≤ 3 * ε := by
    refine (abs_add_three _ _ _).trans ?_
    rw [abs_mul, abs_mul, abs_mul]
    calc _ ≤ 1 * ε + 1 * ε + 1 * ε := by gcongr
      _ = 3 * ε := by ring
  have hent := fun j => (lin3_entry hu (va * (a - A)) (vb * (a - A))
    (va * (d - (1 - A)) + (1 - va) * (a - A) + (1 - va) * (d - (1 - A))) i j).trans
      (add_le_add (add_le_add hb hb') hb3)
  generalize lin3 (va * (a - A)) (vb * (a - A))
    (va * (d - (1 - A)) + (1 - va) * (a - A) + (1 - va) * (d - (1 - A))) u = E at hent
  rw [mulVec, dotProduct, Fin.sum_univ_three]
  refine (abs_add_three _ _ _).trans ?_
  rw [abs_mul, abs_mul, abs_mul]
  calc _ ≤ (ε + ε + 3 * ε) * P + (ε + ε + 3 * ε) * P + (ε + ε + 3 * ε) * P := by
        gcongr
        · exact hent 0
        · exact hp 0
        · exact hent 1
        · exact hp 1
        · exact hent 2
        · exact hp 2
    _ = 15 * ε * P := by ring

theorem rot_angle_zero {R : M3 ℝ} (h : IsRot R) (ha : angle R = 0) : R = 1 := by
  have h1 : IsRot (1 : M3 ℝ) := ⟨by simp, by simp⟩
  refine C76_injective h h1 (by rw [ha]; exact Real.pi_pos) (by rw [(log_one rfl).1]; exact Real.pi_pos) ?_
  rw [(log_one rfl).2]
  have h2 := logSO3_norm h (by rw [ha]; exact Real.pi_pos)
  rw [ha, if_neg (by norm_num), Real.sin_zero] at h2
  rw [dot_three] at h2
  have q := fun i => mul_self_nonneg (logSO3 R i)
  have hz : ∀ i, logSO3 R i * logSO3 R i = 0 := by
    intro i
    have := q 0; have := q 1; have := q 2
    fin_cases i <;> simp only [Fin.isValue, Fin.zero_eta, Fin.mk_one, Fin.reduceFinMk] <;> linarith
  funext i
  exact mul_self_eq_zero.1 (hz i)

theorem logSE3_lin3 {M : SE3 ℝ} {s : ℝ} {u : V3 ℝ} (hl : logSO3 M.R = s • u) :
    (logSE3 M).1 = lin3 (alphaSE3 (angle M.R)) (-(s / 2)) (s * s * betaSE3 (angle M.R)) u *ᵥ M.p := by
  simp only [logSE3, hl]
  simp only [lin3, add_mulVec, smul_mulVec, one_mulVec, hat_mulVec, vecMulVec_mulVec, op_smul_eq_smul, smul_smul,
    map_smul, LinearMap.smul_apply, smul_dotProduct, smul_eq_mul]
  module

/-- C76. Below 1e-2, the coefficients of `logSE3` are truncated series, and below 1e-6 the rotation vector is approximate as well: the
screw motion of the returned velocities starts from the identity and ends at a pose whose rotation differs from that of `M` by at most
1e-18 per coefficient (it is the same above 1e-6), and whose origin differs from that of `M` by at most 1e-15 times the largest
coordinate of this origin. -/
theorem C76_screw_small (M : SE3 ℝ) (hR : IsRot M.R) (h : angle M.R < 1e-2) (P : ℝ) (hP : ∀ i, |M.p i| ≤ P) :
    ∃ γ : ℝ → SE3 ℝ, γ 0 = SE3.one ∧ (∀ t, SE3.Moves γ (logSE3 M).1 (logSE3 M).2 t) ∧
      (∀ i j, |(γ 1).R i j - M.R i j| ≤ 1e-18) ∧ (1e-6 < angle M.R → (γ 1).R = M.R) ∧
      ∀ i, |(γ 1).p i - M.p i| ≤ 1e-15 * P := by
  have hpi := Real.pi_gt_three
  have hP0 : 0 ≤ P := (abs_nonneg _).trans (hP 0)
  have h' : angle M.R < Real.pi := by norm_num at h; linarith
  -- the motion, given the angle and the axis
  have main : ∀ (s : ℝ) (u : V3 ℝ), 0 < s → s ≤ 1e-2 → u ⬝ᵥ u = 1 → logSO3 M.R = s • u →
      |alphaSE3 (angle M.R) - alphaExact s| ≤ 6e-17 → |s * s * betaSE3 (angle M.R) - (1 - alphaExact s)| ≤ 6e-17 →
      ∃ γ : ℝ → SE3 ℝ, γ 0 = SE3.one ∧ (∀ t, SE3.Moves γ (logSE3 M).1 (logSE3 M).2 t) ∧
        (γ 1).R = rodrigues (Real.cos s) (Real.sin s) u ∧ ∀ i, |(γ 1).p i - M.p i| ≤ 1e-15 * P := by
    intro s u hs hs' hu hl ha hb
    refine ⟨fun t => ⟨rodrigues (Real.cos (t * s)) (Real.sin (t * s)) u,
      lin3 (Real.sin (t * s) / s) ((1 - Real.cos (t * s)) / s) (t - Real.sin (t * s) / s) u *ᵥ (logSE3 M).1⟩, ?_, ?_, ?_, ?_⟩
    · refine SE3.ext' ?_ ?_
      · simp [rodrigues, SE3.one]
      · simp [lin3, SE3.one]
    · intro t
      refine ⟨rodrigues_isRot hu (Real.sin_sq_add_cos_sq _), fun a b => ?_, screw_deriv hs.ne' t _⟩
      have hr : (logSE3 M).2 = s • u := hl
      rw [hr]
      exact rodrigues_moves hu s t a b
    · simp only [one_mul]
    · intro i
      simp only [one_mul]
      rw [logSE3_lin3 hl]
      refine (screw_end hs hs' hu ha hb hP i).trans ?_
      gcongr
      norm_num
  rcases (angle_nonneg hR).eq_or_lt with h0 | h0
  · have h1 := rot_angle_zero hR h0.symm
    have hz : hat (0 : V3 ℝ) = 0 := by ext i j; fin_cases i <;> fin_cases j <;> simp [hat]
    have hl : (logSE3 M).1 = M.p ∧ (logSE3 M).2 = 0 := by
      obtain ⟨a, b⟩ := log_one h1
      unfold logSE3 alphaSE3
      simp only [a, b, hz]
      simp
      norm_num
    refine ⟨fun t => ⟨1, t • M.p⟩, SE3.ext' rfl (by simp [SE3.one]), fun t => ⟨⟨by simp, by simp⟩, fun a b => ?_, fun a => ?_⟩,
      fun i j => ?_, fun _ => h1.symm, fun i => ?_⟩
    · rw [hl.2]
      rw [hz]
      simpa using hasDerivAt_const t ((1 : M3 ℝ) a b)
    · rw [hl.1]
      simpa using (hasDerivAt_id t).mul_const (M.p a)
    · rw [h1]; simp; norm_num
    · simp; positivity
  by_cases h6 : 1e-6 < angle M.R
  · obtain ⟨u, hu, -, hl, hRu⟩ := logSO3_axis hR h6 h'
    have hcl := alpha_close h0 h.le
    have hx6 : angle M.R ^ 6 / 18000 ≤ 6e-17 := by
      have : angle M.R ^ 6 ≤ (1e-2) ^ 6 := by gcongr
      norm_num at this ⊢; linarith
    have hα : alphaSE3 (angle M.R) = alphaSeries (angle M.R) := by
      unfold alphaSE3; rw [if_pos (by rw [abs_of_pos h0]; exact h)]; rfl
    have hβ := alpha_beta h0
    obtain ⟨γ, g0, g1, g2, g3⟩ := main _ u h0 h.le hu hl (by rw [hα, abs_sub_comm]; exact hcl.trans hx6) (by
      rw [show angle M.R * angle M.R * betaSE3 (angle M.R) = 1 - alphaSE3 (angle M.R) by rw [hβ]; ring, hα,
        show ∀ a b : ℝ, 1 - a - (1 - b) = b - a by intro a b; ring]
      exact hcl.trans hx6)
    refine ⟨γ, g0, g1, fun i j => ?_, fun _ => ?_, g3⟩
    · rw [g2, ← hRu]; simp; norm_num
    · rw [g2, ← hRu]
  · have h6' := not_lt.1 h6
    obtain ⟨u, hu, hax, hRu⟩ := rotation_eq hR h0 h'
    have hl : logSO3 M.R = Real.sin (angle M.R) • u := by
      rw [logSO3_small h6', hax, smul_smul]
      congr 1
      ring
    set x := angle M.R with hx
    have hs0 : 0 < Real.sin x := Real.sin_pos_of_pos_of_lt_pi h0 h'
    have hsx := Real.sin_lt h0
    have hs3 := Real.sin_gt_sub_cube h0
    have hx6 : x ≤ 1 / 1000000 := by norm_num at h6'; linarith
    set s := Real.sin x with hs
    have hx3 : x ^ 3 ≤ (1 / 1000000) ^ 3 := by gcongr
    have hxs : x - s ≤ 1 / 6000000000000000000 := by norm_num at hx3; linarith
    have hcl := alpha_close hs0 (by norm_num; linarith)
    have hs6 : s ^ 6 / 18000 ≤ 1e-17 := by
      have : s ^ 6 ≤ (1 / 1000000) ^ 6 := by gcongr; linarith
      norm_num at this ⊢; linarith
    have hα : alphaSE3 x = alphaSeries x := by
      unfold alphaSE3; rw [if_pos (by rw [abs_of_pos h0]; exact h)]; rfl
    have hβ : betaSE3 x = 1 / 12 + x * x / 720 := by
      unfold betaSE3; rw [if_pos (by rw [abs_of_pos h0]; exact h)]
    have hcl' := abs_le.1 (hcl.trans hs6)
    have hss : x * x - s * s ≤ 1 / 1000000000000000000 ∧ 0 ≤ x * x - s * s := by
      constructor <;> nlinarith
    have hx2 : x * x ≤ 1 := by nlinarith
    have hs2 : s * s ≤ 1 := by nlinarith
    have hs2' : 0 ≤ s * s := by positivity
    have h4 : x * x * x * x - s * s * s * s ≤ 2 / 1000000000000000000 ∧ 0 ≤ x * x * x * x - s * s * s * s := by
      have e : x * x * x * x - s * s * s * s = (x * x - s * s) * (x * x + s * s) := by ring
      rw [e]
      constructor
      · nlinarith [hss.1, hss.2]
      · exact mul_nonneg hss.2 (by positivity)
    have h4' : s * s * (x * x - s * s) ≤ 1 / 1000000000000000000 ∧ 0 ≤ s * s * (x * x - s * s) := by
      constructor
      · nlinarith [hss.1, hss.2]
      · exact mul_nonneg hs2' hss.2
    obtain ⟨γ, g0, g1, g2, g3⟩ := main s u hs0 (by norm_num; linarith) hu hl (by
        rw [hα, abs_le]
        have e : alphaSeries x = alphaSeries s - (x * x - s * s) / 12 - (x * x * x * x - s * s * s * s) / 720 := by
          unfold alphaSeries; ring
        rw [e]
        norm_num at hcl' ⊢
        constructor <;> linarith [hss.1, hss.2, h4.1, h4.2]) (by
        rw [hβ, abs_le]
        have e : s * s * (1 / 12 + x * x / 720) = 1 - alphaSeries s + s * s * (x * x - s * s) / 720 := by
          unfold alphaSeries; ring
        rw [e]
        norm_num at hcl' ⊢
        constructor <;> linarith [h4'.1, h4'.2])
    refine ⟨γ, g0, g1, fun i j => ?_, fun h => absurd h h6, g3⟩
    rw [g2]
    conv_lhs => rw [hRu]
    have hc1 : |Real.cos s - Real.cos x| ≤ x - s := by
      have := Real.abs_cos_sub_cos_le s x
      rw [abs_of_neg (by linarith : s - x < 0)] at this
      linarith
    have hc2 : |Real.sin s - Real.sin x| ≤ x - s := by
      have := Real.abs_sin_sub_sin_le s x
      rw [abs_of_neg (by linarith : s - x < 0)] at this
      linarith
    have hsub : rodrigues (Real.cos s) (Real.sin s) u i j - rodrigues (Real.cos x) (Real.sin x) u i j
        = lin3 (Real.cos s - Real.cos x) (Real.sin s - Real.sin x) (-(Real.cos s - Real.cos x)) u i j := by
      simp only [rodrigues, lin3, Matrix.add_apply, Matrix.smul_apply, smul_eq_mul]
      ring
    rw [hsub]
    refine (lin3_entry hu _ _ _ i j).trans ?_
    rw [abs_neg]
    norm_num
    linarith

/-- Both regimes (series only, and series with an approximate rotation vector) are met, with an origin away from zero. -/
example : ∃ M M' : SE3 ℝ, IsRot M.R ∧ 1e-6 < angle M.R ∧ angle M.R < 1e-2 ∧ M.p ≠ 0 ∧ (∀ i, |M.p i| ≤ 1) ∧
    IsRot M'.R ∧ 0 < angle M'.R ∧ angle M'.R < 1e-6 ∧ M'.p ≠ 0 ∧ ∀ i, |M'.p i| ≤ 1 := by
  have hpi := Real.pi_gt_three
  have ha : angle (exTurn 5e-3) = 5e-3 := by
    unfold exTurn
    rw [mul_one]
    exact rodrigues_angle (by norm_num) (by norm_num; linarith) exAxis_unit
  have hb : angle (exTurn 5e-7) = 5e-7 := by
    unfold exTurn
    rw [mul_one]
    exact rodrigues_angle (by norm_num) (by norm_num; linarith) exAxis_unit
  refine ⟨⟨exTurn 5e-3, fun _ => 1⟩, ⟨exTurn 5e-7, fun _ => 1⟩, rodrigues_isRot exAxis_unit (Real.sin_sq_add_cos_sq _), ?_, ?_,
    fun h => by simpa using congrFun h 0, fun i => by simp, rodrigues_isRot exAxis_unit (Real.sin_sq_add_cos_sq _), ?_, ?_,
    fun h => by simpa using congrFun h 0, fun i => by simp⟩ <;> simp only [ha, hb] <;> norm_num

end Hpp.Log
