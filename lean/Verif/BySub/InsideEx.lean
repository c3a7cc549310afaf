import Verif.BySub.InsideProps
import Verif.BySub.NewtonLinkEx
import Verif.Solve.Redundant

/-!
# C142 for the solver by substitution: a solver

Sources: `/repo/include/hpp/constraints/solver/impl/by-substitution.hh`, lines 38-167,
`/repo/src/solver/hierarchical-iterative.cc`, lines 653-672, 712-719.
-/

namespace Hpp

open Matrix

namespace BsInsideEx
open BsLinkEx

/-- `q₀` between 0 and 2, `q₁` between 0 and 3 -/
noncomputable def box : List (SatEntry ℝ) := [⟨0, 0, 0, 2⟩, ⟨1, 1, 0, 3⟩]

theorem in_box {q : Nat → ℝ} (h0 : 0 < q 0 ∧ q 0 < 2) (h1 : 0 < q 1 ∧ q 1 < 3) : StrictlyInside box q := by
  intro e he
  simp only [box, List.mem_cons, List.not_mem_nil, or_false] at he
  rcases he with rfl | rfl
  · exact h0
  · exact h1

/-- Constant steps; the explicit constraints are defined everywhere. -/
noncomputable def lsC : BsLineSearch Unit :=
  fun V env slope st q u => (lineConstant V env slope st q u, true)

noncomputable abbrev free (o : SvdOps ℝ) (J0 : (Nat → ℝ) → Jac ℝ) :=
  s.fullOps D o J0 (fun _ => true) (fun _ _ => 0) (fun q v i => q i + v i) lsC

noncomputable abbrev bounded (o : SvdOps ℝ) (J0 : (Nat → ℝ) → Jac ℝ) :=
  s.fullOps D o J0 (fun _ => true) (satFlags box fun _ => 0) (satMove (fun q v i => q i + v i) box) lsC

theorem kept : s.Kept hist := fun e he => by
  rw [impl_eq, List.mem_singleton] at he
  subst he
  refine ⟨fun r hr => ?_, fun r t _ htc hin => ?_⟩
  · decide
  · have h : t = .equalToZero := List.mem_singleton.1 (List.mem_of_getElem? htc)
    subst h
    rcases hin with h | h <;> cases h

theorem solve_sub (q : Nat → ℝ) : s.ex.solve q 0 = q 0 ∧ s.ex.solve q 1 = q 0 ^ 2 := by
  have e := (C95_parametrises s_built rfl BsR.s_wf (coherent_of_vec BsR.s_vec) BsR.s_len q).2.1
  have e' : s.ex.solve q = bsSub s q 0 := (Prod.mk.inj e).1
  have h := sub_eq q 0
  rw [e']
  simpa using h

/-- The Newton direction -/
theorem dir_eq {o : SvdOps ℝ} (ho : o.Exact) (hor : o.Ortho) (J0 : (Nat → ℝ) → Jac ℝ) (q : Nat → ℝ) (hq : 0 < q 0) (m) :
    2 * q 0 * ((free o J0).dir q m).2.1 ⟨0, Nat.one_pos⟩ = -(q 1 - 2) := by
  have e : free o J0 = _ := (bs_fullOps_noSat s D o J0 _ lsC).trans
    (C115_same_steps (D := D) s_built lawful kept (fun h => by cases h) o J0 _)
  rw [e]
  have hc : ∀ x, Cancels [(s.nLevel D lev).at q] x ↔ 2 * q 0 * x ⟨0, Nat.one_pos⟩ = -(q 1 - 2) := by
    intro x
    have hJ : ((s.nLevel D lev).at q).J *ᵥ x + ((s.nLevel D lev).at q).e =
        fun _ => 2 * q 0 * x ⟨0, Nat.one_pos⟩ + (q 1 - 2) := by
      show s.dJ D (fun _ _ => 0) q lev *ᵥ x + s.dErr D (fun _ _ => 0) q lev = _
      rw [dJ_mul]
      funext r
      show _ + s.dErr D (fun _ _ => 0) q lev r = _
      rw [dErr_eq]
    constructor
    · intro h
      have h1 := h _ (List.mem_singleton.2 rfl)
      rw [hJ] at h1
      have h2 := congrFun h1 ⟨0, by show 0 < (indices (s.rows lev).segs).length; rw [rows_len]; exact Nat.one_pos⟩
      have h3 : 2 * q 0 * x ⟨0, Nat.one_pos⟩ + (q 1 - 2) = 0 := h2
      linarith
    · intro h d hd
      obtain rfl := List.mem_singleton.1 hd
      rw [hJ]
      funext r
      show _ = (0 : ℝ)
      linarith
  obtain ⟨-, r, h1, h2, -⟩ := C132_solutions o o ho hor ho hor s.hi.sqThr s.hi.sqThr [(s.nLevel D lev).at q] _ ⟨_, _, rfl, .inl rfl⟩
    ⟨_, _, rfl, .inl rfl⟩ ⟨fun _ => -(q 1 - 2) / (2 * q 0), (hc _).2 (by rw [mul_div_cancel₀]; linarith)⟩ (fun _ => Iff.rfl) m.1 m.1
  have h3 : ((bsNewtonOps o s.hi.byLevel s.hi.lastIsOptional s.hi.sqThr (s.hi.levels.map (s.nLevel D)) (bsExpl s) fun st q u =>
      lsC _ (s.lsEnv fun q v i => q i + v i) (fun q u => localSlope (s.hi.levels.map (s.dLevel D (J0 q) q)) u) st q u).dir q m).2.1 = r := by
    show (descend o false s.hi.sqThr [(s.nLevel D lev).at q] m.1).getD 0 = r
    rw [h1]
    rfl
  rw [h3]
  exact (hc r).1 h2

theorem int_eq (q : Nat → ℝ) (v) : s.ex.solve (fun i => q i + expand (hiFree s.hi) v (fun _ => 0) i) 0 = q 0 + v ⟨0, Nat.one_pos⟩ ∧
    s.ex.solve (fun i => q i + expand (hiFree s.hi) v (fun _ => 0) i) 1 = (q 0 + v ⟨0, Nat.one_pos⟩) ^ 2 := sub_eq q v

theorem move_eq (q : Nat → ℝ) (v) : q 0 + expand (hiFree s.hi) v (fun _ => 0) 0 = q 0 + v ⟨0, Nat.one_pos⟩ ∧
    q 1 + expand (hiFree s.hi) v (fun _ => 0) 1 = q 1 :=
  ⟨rfl, add_zero _⟩

/-- The hypotheses of `C142_substitution` hold: the explicit constraint `q₁ = q₀²` and the implicit constraint `q₁ = 2`, from
`q₀ = 3/2`, `q₀` between 0 and 2 and `q₁` between 0 and 3. -/
theorem same_result {o : SvdOps ℝ} (ho : o.Exact) (hor : o.Ortho) (J0 : (Nat → ℝ) → Jac ℝ) (dq u) (maxIter : Nat) (want : Bool) :
    bsSolve (bounded o J0) s.hi.sqThr (1 / 10 ^ 12) maxIter s.reducedDim want s.hi.lastIsOptional (fun _ => 3 / 2) (dq, u, ()) =
      bsSolve (free o J0) s.hi.sqThr (1 / 10 ^ 12) maxIter s.reducedDim want s.hi.lastIsOptional (fun _ => 3 / 2) (dq, u, ()) := by
  obtain ⟨a0, a1⟩ := solve_sub fun _ => 3 / 2
  have hw : (want && s.hi.lastIsOptional) = false := Bool.and_false want
  refine C142_substitution (I := fun _ => True) (bsLocal_of_local (C142_line_searches 0).1 fun _ => true) (fun q v i => q i + v i) _ _ _ _ _ _ _ _ trivial
    fun t ht hc => ?_
  rw [hw] at ht hc ⊢
  have key : ∀ t : BsSt _ _ ℝ, BsReach (free o J0) s.hi.sqThr (1 / 10 ^ 12) false
      (bsInit (free o J0) s.hi.sqThr false (s.ex.solve fun _ => 3 / 2) (dq, u, ())) t →
      t = bsInit (free o J0) s.hi.sqThr false (s.ex.solve fun _ => 3 / 2) (dq, u, ()) ∨ t.above = false := by
    intro t ht
    induction ht with
    | start => exact .inl rfl
    | @step t t' hr h1 h2 h3 ih =>
      rcases h1 with h | ⟨h, -⟩
      · cases h
      rcases ih with rfl | ih
      · right
        have hd := dir_eq ho hor J0 (s.ex.solve fun _ => 3 / 2) (by rw [a0]; norm_num) (dq, u, ())
        rw [a0, a1] at hd
        have h4 := Sum.inl.inj h3
        rw [← h4]
        show decide (1 / 4 * (1 / 10 * (1 / 10)) < (s.hi.sqNorm _).getD 0) = false
        rw [BsLinkEx.sqNorm_eq, (solve_sub _).2, Option.getD_some]
        show decide (1 / 4 * (1 / 10 * (1 / 10)) < ((s.ex.solve (fun i => s.ex.solve (fun _ => 3 / 2) i +
          expand (hiFree s.hi) ((free o J0).dir (s.ex.solve fun _ => 3 / 2) (dq, u, ())).2.1 (fun _ => 0) i) 0) ^ 2 - 2) ^ 2) = false
        rw [(int_eq _ _).1, a0]
        have hv : ((free o J0).dir (s.ex.solve fun _ => 3 / 2) (dq, u, ())).2.1 ⟨0, Nat.one_pos⟩ = -1 / 12 := by linarith
        rw [hv]
        norm_num
      · rw [ih] at h
        cases h
  rcases key t ht with rfl | h
  · have hd := dir_eq ho hor J0 (s.ex.solve fun _ => 3 / 2) (by rw [a0]; norm_num) (dq, u, ())
    rw [a0, a1] at hd
    have hv : ((free o J0).dir (s.ex.solve fun _ => 3 / 2) (dq, u, ())).2.1 ⟨0, Nat.one_pos⟩ = -1 / 12 := by linarith
    refine ⟨in_box ?_ ?_, fun c h0 h1 e he => ?_⟩
    · show 0 < s.ex.solve (fun _ => 3 / 2) 0 ∧ s.ex.solve (fun _ => 3 / 2) 0 < 2
      rw [a0]
      norm_num
    · show 0 < s.ex.solve (fun _ => 3 / 2) 1 ∧ s.ex.solve (fun _ => 3 / 2) 1 < 3
      rw [a1]
      norm_num
    · have := in_box (q := fun i => s.ex.solve (fun _ => 3 / 2) i +
          expand (hiFree s.hi) (c • ((free o J0).dir (s.ex.solve fun _ => 3 / 2) (dq, u, ())).2.1) (fun _ => 0) i) (by
        rw [(move_eq _ _).1, a0, Pi.smul_apply, hv, smul_eq_mul]
        constructor <;> linarith) (by
        rw [(move_eq _ _).2, a1]
        constructor <;> norm_num) e he
      exact ⟨this.1.le, this.2.le⟩
  · rcases hc with h' | ⟨h', -⟩
    · cases h'
    · rw [h] at h'
      cases h'

end BsInsideEx

end Hpp
