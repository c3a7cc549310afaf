import Verif.Svd.Props
import Verif.Solve.SaturationProps
import Mathlib.Algebra.Order.BigOperators.Ring.Finset
import Mathlib.Tactic.Linarith

/-!
# Projection of velocities and of configurations on the tangent space of the constraints (C104)

Source: `/repo/src/solver/by-substitution.cc`, lines 258-303.

Simplifications: coefficients are in an ordered field; the configuration space is a vector space; the Jacobian and its
decomposition are exact.
-/

namespace Hpp

open Matrix

variable {α : Type} {m n k : Nat}

/-- `projectOnKernel` (by-substitution.cc:283-303).  `noCons`: `constraints_.empty ()`; `s`: decomposition of the reduced
Jacobian in `q`; `entries`: loops of `saturate`; `res0`: initial content of `result`. -/
def projectConfig [Field α] [LinearOrder α] (noCons : Bool) (s : Svd α m n) (free : Fin n → Nat) (entries : List (SatEntry α))
    (res0 : Nat → α) (sat0 : Nat → Int) (q tgt : Nat → α) : Nat → α :=
  if noCons then tgt
  else
    let om := tgt - q
    let op := projectOnKernel noCons s free om
    (clampLoop (q + op) entries res0 sat0).qSat

/-! ### Specification -/

/-- Tangent space of the constraints.  The explicit constraints compute the outputs from the free variables, `G` is their
Jacobian; `J1`, `J2` are the Jacobians of the implicit constraints with respect to the free variables and to the outputs. -/
structure Tangent [Field α] (free : Fin n → Nat) (out : Fin k → Nat) (G : Matrix (Fin k) (Fin n) α)
    (J1 : Matrix (Fin m) (Fin n) α) (J2 : Matrix (Fin m) (Fin k) α) (v : Nat → α) : Prop where
  expl : (fun a => v (out a)) = G *ᵥ fun j => v (free j)
  impl : J1 *ᵥ (fun j => v (free j)) + J2 *ᵥ (fun a => v (out a)) = 0

section
variable [Field α]

/-- **C104.** When the solver has rows, the projection of a velocity is in the tangent space of the constraints exactly when the
outputs of the explicit constraints do not move for the velocity of the free variables; replacing the components of the outputs by
the ones given by the explicit constraints always gives a vector of the tangent space. -/
theorem C104_tangent_partial {s : Svd α m n} {G : Matrix (Fin k) (Fin n) α} {J1 : Matrix (Fin m) (Fin n) α}
    {J2 : Matrix (Fin m) (Fin k) α} (h : s.Exact (J1 + J2 * G)) {free : Fin n → Nat} {out : Fin k → Nat}
    (hinj : Function.Injective free) (hd : ∀ j a, free j ≠ out a) (hm : 0 < m) (darg : Nat → α) (res w : Nat → α)
    (hres : res = projectOnKernel false s free darg) (hw : ∀ j, w (free j) = res (free j))
    (hw' : ∀ a, w (out a) = (G *ᵥ fun j => res (free j)) a) :
    (Tangent free out G J1 J2 res ↔ G *ᵥ (fun j => res (free j)) = 0) ∧ Tangent free out G J1 J2 w := by
  obtain ⟨h1, h2, -⟩ := C42_project s _ h free hinj hm darg
  rw [← hres] at h1 h2
  have hout : (fun a => res (out a)) = 0 := funext fun a => h1 _ fun j => hd j a
  rw [add_mulVec, ← mulVec_mulVec] at h2
  refine ⟨⟨fun ht => ?_, fun ht => ⟨?_, ?_⟩⟩, ?_, ?_⟩
  · rw [← ht.expl, hout]
  · rw [hout, ht]
  · rw [ht, mulVec_zero, add_zero] at h2
    rw [h2, hout, mulVec_zero, add_zero]
  · rw [show (fun j => w (free j)) = fun j => res (free j) from funext hw]
    exact funext hw'
  · rw [show (fun j => w (free j)) = fun j => res (free j) from funext hw,
      show (fun a => w (out a)) = G *ᵥ fun j => res (free j) from funext hw', h2]

end

/-- Free variables 0 and 2; the implicit constraint is on variable 2; the explicit one computes variable 1 equal to variable 0. -/
def exG : Matrix (Fin 1) (Fin 2) ℚ := !![1, 0]
def exJ1 : Matrix (Fin 1) (Fin 2) ℚ := !![0, 1]
def exJ2 : Matrix (Fin 1) (Fin 1) ℚ := !![0]

def exSvd : Svd ℚ 1 2 where
  k := 1
  l := 1
  U := !![1]
  V := !![0; 1]
  σ := fun _ => 1
  rank := 1
  hk := le_rfl
  hl := le_rfl

theorem exSvd_exact : exSvd.Exact (exJ1 + exJ2 * exG) where
  orthU := by decide +kernel
  orthV := by decide +kernel
  pos := fun _ _ => one_ne_zero
  eq := by decide +kernel

/-- "The projection of a velocity is in the tangent space of the constraints" is false with explicit constraints: a velocity of
the tangent space is projected on a vector that is not in the tangent space. -/
theorem C104_tangent_refuted : ∃ (free : Fin 2 → Nat) (out : Fin 1 → Nat) (v : Nat → ℚ),
    Function.Injective free ∧ (∀ j a, free j ≠ out a) ∧ exSvd.Exact (exJ1 + exJ2 * exG) ∧
    Tangent free out exG exJ1 exJ2 v ∧ ¬ Tangent free out exG exJ1 exJ2 (projectOnKernel false exSvd free v) := by
  refine ⟨![0, 2], ![1], fun i => [1, 1, 0].getD i 0, ?_, by decide, exSvd_exact, ⟨by decide +kernel, by decide +kernel⟩, ?_⟩
  · intro a b h
    fin_cases a <;> fin_cases b <;> simp_all
  · intro ht
    exact absurd ht.expl (by decide +kernel)

/-! ### Configurations -/

section
variable [Field α] [LinearOrder α]

theorem projectConfig_get {entries : List (SatEntry α)} (hn : (entries.map (·.iq)).Nodup) (s : Svd α m n) (free : Fin n → Nat)
    (res0 : Nat → α) (sat0 : Nat → Int) (q tgt : Nat → α) {e : SatEntry α} (he : e ∈ entries) :
    projectConfig false s free entries res0 sat0 q tgt e.iq =
      (clamp e.lb e.ub (q e.iq + projectOnKernel false s free (tgt - q) e.iq)).1 :=
  satFold_qSat _ _ _ e hn he

/-- With at least one constraint, the result is within the bounds. -/
theorem C104_bounds {entries : List (SatEntry α)} (hn : (entries.map (·.iq)).Nodup) (hb : ∀ e ∈ entries, e.lb ≤ e.ub)
    (s : Svd α m n) (free : Fin n → Nat) (res0 : Nat → α) (sat0 : Nat → Int) (q tgt : Nat → α) {e : SatEntry α} (he : e ∈ entries) :
    e.lb ≤ projectConfig false s free entries res0 sat0 q tgt e.iq ∧
      projectConfig false s free entries res0 sat0 q tgt e.iq ≤ e.ub := by
  rw [projectConfig_get hn s free res0 sat0 q tgt he, clamp_val _ _ _ (hb e he)]
  exact ⟨le_max_left _ _, max_le (hb e he) (min_le_right _ _)⟩

/-- "The result is within the bounds" is false for a solver without constraint. -/
theorem C104_bounds_refuted : ∃ (entries : List (SatEntry ℚ)) (q tgt : Nat → ℚ) (e : SatEntry ℚ), e ∈ entries ∧ e.lb ≤ e.ub ∧
    e.lb ≤ q e.iq ∧ q e.iq ≤ e.ub ∧
    e.ub < projectConfig true exSvd ![0, 1] entries (fun _ => 0) (fun _ => 0) q tgt e.iq :=
  ⟨[⟨0, 0, 0, 1⟩], fun _ => 0, fun _ => 2, ⟨0, 0, 0, 1⟩, by simp, by decide, by decide, by decide, by decide +kernel⟩

variable [IsStrictOrderedRing α]

theorem dot_self_nonneg' (x : Fin n → α) : 0 ≤ x ⬝ᵥ x := Finset.sum_nonneg fun i _ => mul_self_nonneg (x i)

/-- When the projection is within the bounds: the result differs from `q` by a displacement of the free variables that is in the
kernel of the reduced Jacobian, and, among these configurations, it is the closest one to the configuration to project (for the
free variables). -/
theorem C104_config {s : Svd α m n} {A : Matrix (Fin m) (Fin n) α} (h : s.Exact A) {free : Fin n → Nat}
    (hinj : Function.Injective free) (hm : 0 < m) {entries : List (SatEntry α)} (hn : (entries.map (·.iq)).Nodup)
    (hfree : ∀ j, free j ∈ entries.map (·.iq)) (res0 : Nat → α) (sat0 : Nat → Int) (q tgt : Nat → α) (res : Nat → α)
    (hres : res = projectConfig false s free entries res0 sat0 q tgt)
    (hin : ∀ e ∈ entries, e.lb ≤ e.ub ∧ e.lb ≤ q e.iq + projectOnKernel false s free (tgt - q) e.iq ∧
      q e.iq + projectOnKernel false s free (tgt - q) e.iq ≤ e.ub) :
    (∀ e ∈ entries, (∀ j, free j ≠ e.iq) → res e.iq = q e.iq) ∧
    A *ᵥ (fun j => res (free j) - q (free j)) = 0 ∧
    ∀ x : Nat → α, A *ᵥ (fun j => x (free j) - q (free j)) = 0 →
      ∑ j, (tgt (free j) - res (free j)) ^ 2 ≤ ∑ j, (tgt (free j) - x (free j)) ^ 2 := by
  obtain ⟨h1, h2, h3, -⟩ := C42_project s A h free hinj hm (tgt - q)
  have hg : ∀ e ∈ entries, res e.iq = q e.iq + projectOnKernel false s free (tgt - q) e.iq := fun e he => by
    rw [hres, projectConfig_get hn s free res0 sat0 q tgt he, clamp_val _ _ _ (hin e he).1, min_eq_left (hin e he).2.2,
      max_eq_right (hin e he).2.1]
  have hgf : ∀ j, res (free j) = q (free j) + projectOnKernel false s free (tgt - q) (free j) := fun j => by
    obtain ⟨e, he, hj⟩ := List.mem_map.1 (hfree j)
    rw [← hj]
    exact hg e he
  refine ⟨fun e he hj => ?_, ?_, fun x hx => ?_⟩
  · rw [hg e he, h1 _ hj, add_zero]
  · simp only [hgf, add_sub_cancel_left]
    exact h2
  · set p : Fin n → α := fun j => projectOnKernel false s free (tgt - q) (free j) with hp
    set y : Fin n → α := fun j => x (free j) - q (free j) with hy
    set d : Fin n → α := fun j => (tgt - q) (free j) with hd
    have hk : A *ᵥ (y - p) = 0 := by rw [mulVec_sub, hx, h2, sub_zero]
    have ho : (d - p) ⬝ᵥ (y - p) = 0 := h3 _ hk
    have e1 : ∑ j, (tgt (free j) - res (free j)) ^ 2 = (d - p) ⬝ᵥ (d - p) := by
      refine Finset.sum_congr rfl fun j _ => ?_
      simp only [hgf, hd, hp, Pi.sub_apply]
      ring
    have e2 : ∑ j, (tgt (free j) - x (free j)) ^ 2 = (d - y) ⬝ᵥ (d - y) := by
      refine Finset.sum_congr rfl fun j _ => ?_
      simp only [hd, hy, Pi.sub_apply]
      ring
    have e3 : d - y = (d - p) - (y - p) := by abel
    have hgen : ∀ a b : Fin n → α, a ⬝ᵥ b = 0 → a ⬝ᵥ a ≤ (a - b) ⬝ᵥ (a - b) := fun a b hab => by
      rw [sub_dotProduct, dotProduct_sub, dotProduct_sub, dotProduct_comm b a, hab]
      have := dot_self_nonneg' b
      linarith
    rw [e1, e2, e3]
    exact hgen _ _ ho

/-- Projecting the result again does not change it, when it is within the bounds. -/
theorem C104_idempotent {s : Svd α m n} {A : Matrix (Fin m) (Fin n) α} (h : s.Exact A) {free : Fin n → Nat}
    (hinj : Function.Injective free) (hm : 0 < m) {entries : List (SatEntry α)} (hn : (entries.map (·.iq)).Nodup)
    (hfree : ∀ j, free j ∈ entries.map (·.iq)) (res0 res1 : Nat → α) (sat0 sat1 : Nat → Int) (q tgt : Nat → α) (res : Nat → α)
    (hres : res = projectConfig false s free entries res0 sat0 q tgt)
    (hin : ∀ e ∈ entries, e.lb ≤ e.ub ∧ e.lb ≤ q e.iq + projectOnKernel false s free (tgt - q) e.iq ∧
      q e.iq + projectOnKernel false s free (tgt - q) e.iq ≤ e.ub) :
    ∀ e ∈ entries, projectConfig false s free entries res1 sat1 q res e.iq = res e.iq := by
  obtain ⟨h1, -, -, h4, -⟩ := C42_project s A h free hinj hm (tgt - q)
  have hg : ∀ e ∈ entries, res e.iq = q e.iq + projectOnKernel false s free (tgt - q) e.iq := fun e he => by
    rw [hres, projectConfig_get hn s free res0 sat0 q tgt he, clamp_val _ _ _ (hin e he).1, min_eq_left (hin e he).2.2,
      max_eq_right (hin e he).2.1]
  have hp : projectOnKernel false s free (res - q) = projectOnKernel false s free (tgt - q) := by
    rw [← h4]
    have hm0 : (m == 0) = false := by simp; omega
    unfold projectOnKernel
    rw [hm0]
    simp only [Bool.or_self, Bool.false_eq_true, if_false]
    have : (fun j => (res - q) (free j)) = fun j => projectOnKernel false s free (tgt - q) (free j) := funext fun j => by
      obtain ⟨e, he, hj⟩ := List.mem_map.1 (hfree j)
      have := hg e he
      rw [hj] at this
      rw [Pi.sub_apply, this, add_sub_cancel_left]
    rw [this]
    unfold projectOnKernel
    rw [hm0]
    simp only [Bool.or_self, Bool.false_eq_true, if_false]
  intro e he
  rw [projectConfig_get hn s free res1 sat1 q res he, hp, clamp_val _ _ _ (hin e he).1, min_eq_left (hin e he).2.2,
    max_eq_right (hin e he).2.1, hg e he]

/-- The result satisfies the affine constraints (without explicit constraint) that `q` satisfies. -/
theorem C104_affine {s : Svd α m n} {A : Matrix (Fin m) (Fin n) α} (h : s.Exact A) (hm : 0 < m)
    {entries : List (SatEntry α)} (hn : (entries.map (·.iq)).Nodup)
    (hcov : ∀ i, i < n → i ∈ entries.map (·.iq)) (res0 : Nat → α) (sat0 : Nat → Int) (q tgt : Nat → α) (res : Nat → α)
    (hres : res = projectConfig false s (fun j => j.val) entries res0 sat0 q tgt)
    (hin : ∀ e ∈ entries, e.lb ≤ e.ub ∧ e.lb ≤ q e.iq + projectOnKernel false s (fun j => j.val) (tgt - q) e.iq ∧
      q e.iq + projectOnKernel false s (fun j => j.val) (tgt - q) e.iq ≤ e.ub) (b : Fin m → α)
    (hq : A *ᵥ (fun j => q j.val) = b) : A *ᵥ (fun j => res j.val) = b := by
  have hk := (C104_config h (fun a b h => Fin.ext h) hm hn (fun j => hcov _ j.isLt) res0 sat0 q tgt res hres hin).2.1
  have e : (fun j : Fin n => res j.val - q j.val) = (fun j => res j.val) - fun j => q j.val := rfl
  rw [e, mulVec_sub, hq, sub_eq_zero] at hk
  exact hk

end

/-- Variables 0 and 1, the second one is constrained: `(0, 3)` projected from `(1, 0)` is `(0, 0)`, within the bounds. -/
example : let entries : List (SatEntry ℚ) := [⟨0, 0, -5, 5⟩, ⟨1, 1, -5, 5⟩]
    let q : Nat → ℚ := fun i => [1, 0].getD i 0
    let tgt : Nat → ℚ := fun i => [0, 3].getD i 0
    (∀ e ∈ entries, e.lb ≤ e.ub ∧ e.lb ≤ q e.iq + projectOnKernel false exSvd (fun j => j.val) (tgt - q) e.iq ∧
      q e.iq + projectOnKernel false exSvd (fun j => j.val) (tgt - q) e.iq ≤ e.ub) ∧
    (List.range 2).map (projectConfig false exSvd (fun j => j.val) entries (fun _ => 0) (fun _ => 0) q tgt) = [0, 0] := by
  decide +kernel

end Hpp
