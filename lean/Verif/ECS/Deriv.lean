import Verif.ECS.RhsProps
import Mathlib.Analysis.Calculus.Deriv.Add
import Mathlib.Analysis.Calculus.Deriv.Mul
import Mathlib.Tactic.IntervalCases

/-!
# C15: the Jacobian of an explicit constraint set as a derivative along motions
-/

namespace Hpp

variable {α κ : Type}

/-- C15, general form.  `V k x` reads "velocity variable `k` of the motion has value `x`".  If the
free variables have velocities `v`, and if each constraint transmits velocities through its own
Jacobian (as does a constraint that holds all along the motion), then the velocity of every
variable is the product of the matrix returned by `jacobian` with `v`.  Applies to any Lie group,
with its own notion of velocity. -/
theorem C15_velocity [CommSemiring α] [DecidableEq κ] {nq nv : Nat} {s : ECS α κ}
    (h : ECS.Built nq nv s) (hw : ∀ c ∈ s.cons, WellFormed nq nv c) (hcoh : AllCoherent s.cons)
    (hs : ∀ c ∈ s.cons, c.inV.Pairwise lexLe) (q : Nat → α) (V : Nat → α → Prop) (v : Nat → α)
    (hfree : ∀ k < nv, (∀ c ∈ s.cons, ¬ WritesV c k) → V k (v k))
    (hchain : ∀ d ∈ s.data, ∀ w : Nat → α, (∀ k, ReadsV d.c k → V k (w k)) →
      ∀ m r, (indices d.c.outV)[m]? = some r →
        V r (∑ p ∈ Finset.range (indices d.c.inV).length,
          d.c.jac (rview q d.c.inQ) d.fval d.rhs m p * w ((indices d.c.inV).getD p 0))) :
    ∀ k < nv, V k (∑ l ∈ Finset.range nv, s.jacobian q k l * v l) := by
  obtain ⟨hI, hnq, hnv⟩ := Inv.built h
  obtain ⟨g1, -, g3⟩ := C15_jacobian h hw hcoh hs q
  obtain ⟨rk, hrk⟩ := hI.rankData
  set Jv : Nat → α := fun k => ∑ l ∈ Finset.range nv, s.jacobian q k l * v l with hJv
  have free : ∀ k < nv, (∀ c ∈ s.cons, ¬ WritesV c k) → V k (Jv k) := by
    intro k hk hf
    have : Jv k = v k := by
      simp only [hJv, g1 k _ hf]
      rw [Finset.sum_eq_single k]
      · simp [hk]
      · intro l _ hl
        rw [if_neg (fun e => hl e.1.symm), zero_mul]
      · intro hn; exact absurd (Finset.mem_range.2 hk) hn
    rw [this]; exact hfree k hk hf
  have main : ∀ n, ∀ d ∈ s.data, rk d < n → ∀ r, WritesV d.c r → V r (Jv r) := by
    intro n
    induction n with
    | zero => intro d _ h; omega
    | succ n ih =>
      intro d hd hlt r hr
      obtain ⟨m, hm⟩ := List.mem_iff_getElem?.1 ((mem_indices _ _).2 hr)
      have hin : ∀ k, ReadsV d.c k → V k (Jv k) := by
        intro k hk
        by_cases hex : ∃ c ∈ s.cons, WritesV c k
        · obtain ⟨c, hc, hcw⟩ := hex
          obtain ⟨d', hd', rfl⟩ := List.mem_map.1 hc
          have hdep : Depends d.c d'.c :=
            (hcoh d.c (mem_cons_of_data hd) d'.c hc).dep ⟨k, hk, hcw⟩
          have := hrk d hd d' hd' hdep
          exact ih d' hd' (by omega) k hcw
        · exact free k ((hw d.c (mem_cons_of_data hd)).inV k hk)
            fun c hc hwk => hex ⟨c, hc, hwk⟩
      have := hchain d hd Jv hin m r hm
      have e : Jv r = ∑ p ∈ Finset.range (indices d.c.inV).length,
          d.c.jac (rview q d.c.inQ) d.fval d.rhs m p * Jv ((indices d.c.inV).getD p 0) := by
        simp only [hJv, g3 d hd m r _ hm, Finset.sum_mul, Finset.mul_sum]
        rw [Finset.sum_comm]
        apply Finset.sum_congr rfl
        intro p _
        apply Finset.sum_congr rfl
        intro l _
        ring
      rw [e]; exact this
  intro k hk
  by_cases hex : ∃ c ∈ s.cons, WritesV c k
  · obtain ⟨c, hc, hcw⟩ := hex
    obtain ⟨d, hd, rfl⟩ := List.mem_map.1 hc
    exact main (rk d + 1) d hd (by omega) k hcw
  · exact free k hk fun c hc hwk => hex ⟨c, hc, hwk⟩

/-- `D` is the derivative at `x0` of the function computing the outputs of `d` from its inputs:
along any motion of the inputs through `x0`. -/
def EData.IsDeriv (d : EData ℝ κ) (q0 : Nat → ℝ) (D : Nat → Nat → ℝ) : Prop :=
  ∀ (u : ℝ → Nat → ℝ) (t0 : ℝ) (w : Nat → ℝ), (∀ i, Reads d.c i → u t0 i = q0 i) →
    (∀ i, Reads d.c i → HasDerivAt (fun t => u t i) (w i) t0) →
    ∀ m < (indices d.c.outQ).length,
      HasDerivAt (fun t => (d.c.outVal (rview (u t) d.c.inQ) d.rhs).getD m 0)
        (∑ p ∈ Finset.range (indices d.c.inQ).length, D m p * w ((indices d.c.inQ).getD p 0)) t0

/-- C15 when the configuration space is a vector space: if the free variables move along a
differentiable curve, the solution of the explicit constraints moves with velocity
`jacobian * (velocity of the free variables)`. -/
theorem C15_derivative [DecidableEq κ] {nq : Nat} {s : ECS ℝ κ} (h : ECS.Built nq nq s)
    (hw : ∀ c ∈ s.cons, WellFormed nq nq c) (hvec : ∀ c ∈ s.cons, c.inV = c.inQ ∧ c.outV = c.outQ)
    (hs : ∀ c ∈ s.cons, c.inQ.Pairwise lexLe) (hl : ∀ d ∈ s.data, d.OutLen)
    (γ : ℝ → Nat → ℝ) (t0 : ℝ) (v : Nat → ℝ)
    (hγ : ∀ k, (∀ c ∈ s.cons, ¬ Writes c k) → HasDerivAt (fun t => γ t k) (v k) t0)
    (hD : ∀ d ∈ s.data, d.IsDeriv (s.solve (γ t0))
      (d.c.jac (rview (s.solve (γ t0)) d.c.inQ) d.fval d.rhs)) :
    ∀ k < nq, HasDerivAt (fun t => s.solve (γ t) k)
      (∑ l ∈ Finset.range nq, s.jacobian (s.solve (γ t0)) k l * v l) t0 := by
  have hcoh : AllCoherent s.cons := by
    intro c hc c' hc'
    obtain ⟨h1, h2⟩ := hvec c hc
    obtain ⟨h3, h4⟩ := hvec c' hc'
    refine ⟨?_, ?_, ?_⟩
    · rintro ⟨v, h5, h6⟩
      unfold ReadsV at h5; unfold WritesV at h6; rw [h1] at h5; rw [h4] at h6
      exact ⟨v, h5, h6⟩
    · rintro ⟨v, h5, h6⟩
      unfold Reads at h5; unfold Writes at h6; rw [← h1] at h5; rw [← h4] at h6
      exact ⟨v, h5, h6⟩
    · rintro ⟨v, h5, h6⟩
      unfold WritesV at h5 h6; rw [h2] at h5; rw [h4] at h6
      exact ⟨v, h5, h6⟩
  have hsol := fun t => (C13_solve h hw hcoh hl (γ t) _).1 rfl
  refine C15_velocity h hw hcoh (fun c hc => by rw [(hvec c hc).1]; exact hs c hc)
    (s.solve (γ t0)) (fun k x => HasDerivAt (fun t => s.solve (γ t) k) x t0) v ?_ ?_
  · intro k _ hf
    have hf' : ∀ c ∈ s.cons, ¬ Writes c k := by
      intro c hc hk
      apply hf c hc
      unfold WritesV; rw [(hvec c hc).2]; exact hk
    have : (fun t => s.solve (γ t) k) = fun t => γ t k := by
      funext t; exact (hsol t).2 k hf'
    rw [this]; exact hγ k hf'
  · intro d hd w hin m r hm
    obtain ⟨e1, e2⟩ := hvec d.c (mem_cons_of_data hd)
    rw [e2] at hm
    have hmlt : m < (indices d.c.outQ).length := lt_of_getElem?_some hm
    have := hD d hd (fun t => s.solve (γ t)) t0 w (fun _ _ => rfl)
      (fun i hi => hin i (by unfold ReadsV; rw [e1]; exact hi)) m hmlt
    rw [e1]
    refine HasDerivAt.congr_of_eventuallyEq this (Filter.Eventually.of_forall fun t => ?_)
    have hh := (hsol t).1 d hd
    unfold EData.Holds at hh
    show s.solve (γ t) r = (d.c.outVal (rview (s.solve (γ t)) d.c.inQ) d.rhs).getD m 0
    rw [← hh, List.getD_eq_getElem?_getD]
    unfold rview
    rw [List.getElem?_map, hm]
    rfl

namespace ExR

/-- `(q2, q3) = (q4, 3 q4) + rhs` and `q4 = q0 * q1 + rhs`, over the reals. -/
noncomputable def conB : ECon ℝ Nat :=
  vecCon 1 [⟨4, 1⟩] [⟨2, 2⟩] [⟨4, 1⟩] [⟨2, 2⟩] [.equality, .equalToZero]
    (fun x => [x.getD 0 0, 3 * x.getD 0 0]) (fun _ m _ => if m = 0 then 1 else 3)

noncomputable def conA : ECon ℝ Nat :=
  vecCon 2 [⟨0, 2⟩] [⟨4, 1⟩] [⟨0, 2⟩] [⟨4, 1⟩] [.equality]
    (fun x => [x.getD 0 0 * x.getD 1 0]) (fun x _ p => if p = 0 then x.getD 1 0 else x.getD 0 0)

noncomputable def get (r : Except Err (Option Nat × ECS ℝ Nat)) (d : ECS ℝ Nat) : ECS ℝ Nat :=
  match r with
  | .ok (_, s) => s
  | .error _ => d

noncomputable def s0 : ECS ℝ Nat := ECS.init 6 6 1
noncomputable def s1 : ECS ℝ Nat := get (s0.add 10 conB) s0
noncomputable def s2 : ECS ℝ Nat := get (s1.add 10 conA) s1

theorem built : ECS.Built 6 6 s2 :=
  .add _ 10 conA [] (some 1) _ (.add _ 10 conB [] (some 0) _ (.init 1) rfl) rfl

theorem cons : s2.cons = [conB, conA] := rfl
theorem data : s2.data = [EData.new conB [], EData.new conA []] := rfl

theorem wellFormed : ∀ c ∈ s2.cons, WellFormed 6 6 c := by
  rw [cons]
  intro c hc
  simp only [List.mem_cons, List.not_mem_nil, or_false] at hc
  rcases hc with rfl | rfl
  · refine ⟨⟨⟨2, 2⟩, rfl, by decide⟩, ⟨⟨2, 2⟩, rfl, by decide⟩, ?_, ?_⟩ <;> intro i h <;>
      simp [Reads, ReadsV, conB, vecCon, Seg.Has] at h <;> omega
  · refine ⟨⟨⟨4, 1⟩, rfl, by decide⟩, ⟨⟨4, 1⟩, rfl, by decide⟩, ?_, ?_⟩ <;> intro i h <;>
      simp [Reads, ReadsV, conA, vecCon, Seg.Has] at h <;> omega

theorem isDeriv (q0 : Nat → ℝ) : ∀ d ∈ s2.data,
    d.IsDeriv q0 (d.c.jac (rview q0 d.c.inQ) d.fval d.rhs) := by
  rw [data]
  intro d hd
  simp only [List.mem_cons, List.not_mem_nil, or_false] at hd
  rcases hd with rfl | rfl
  · intro u t0 w h0 hu m hm
    have hu4 := hu 4 (by simp [Reads, EData.new, conB, vecCon, Seg.Has])
    have hm2 : m < 2 := hm
    interval_cases m
    · have := hu4.add_const 0
      simpa [EData.new, conB, vecCon, indices, rview, vectorSpace, List.range', List.replicate] using this
    · have := (hu4.const_mul 3).add_const 0
      simpa [EData.new, conB, vecCon, indices, rview, vectorSpace, List.range', List.replicate] using this
  · intro u t0 w h0 hu m hm
    have hu0 := hu 0 (by simp [Reads, EData.new, conA, vecCon, Seg.Has])
    have hu1 := hu 1 (by simp [Reads, EData.new, conA, vecCon, Seg.Has])
    have e0 := h0 0 (by simp [Reads, EData.new, conA, vecCon, Seg.Has])
    have e1 := h0 1 (by simp [Reads, EData.new, conA, vecCon, Seg.Has])
    have hm1 : m < 1 := hm
    interval_cases m
    have := (hu0.mul hu1).add_const 0
    rw [e0, e1] at this
    have e : ∑ p ∈ Finset.range 2, (if p = 0 then q0 1 else q0 0) * w ([0, 1].getD p 0) =
        w 0 * q0 1 + q0 0 * w 1 := by
      simp [Finset.sum_range_succ]; ring
    rw [← e] at this
    simpa [EData.new, conA, vecCon, indices, rview, vectorSpace, List.range', List.replicate] using this

/-- The hypotheses of `C15_derivative` are met by a non linear set of two dependent constraints. -/
example (γ : ℝ → Nat → ℝ) (t0 : ℝ) (v : Nat → ℝ)
    (hγ : ∀ k, HasDerivAt (fun t => γ t k) (v k) t0) :=
  C15_derivative built wellFormed
    (by rw [cons]; intro c hc; simp only [List.mem_cons, List.not_mem_nil, or_false] at hc
        rcases hc with rfl | rfl <;> exact ⟨rfl, rfl⟩)
    (by rw [cons]; intro c hc; simp only [List.mem_cons, List.not_mem_nil, or_false] at hc
        rcases hc with rfl | rfl <;> simp [conA, conB, vecCon])
    (by rw [data]; intro d hd; simp only [List.mem_cons, List.not_mem_nil, or_false] at hd
        rcases hd with rfl | rfl <;> intro x <;> rfl)
    γ t0 v (fun k _ => hγ k) (isDeriv _)

end ExR

end Hpp
