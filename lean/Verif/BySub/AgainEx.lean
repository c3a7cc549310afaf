import Verif.BySub.Again
import Verif.BySub.NewtonLinkEx

/-!
# C127: example

The solver of `BySub/NewtonLinkEx.lean`: explicit constraint `y = x²`, implicit constraint `y = 2`, squared error threshold 1/100.
-/

namespace Hpp.BsLinkEx

open BsR

theorem ops_norm {S : Type} (o : SvdOps ℝ) (J0 : (Nat → ℝ) → Jac ℝ)
    (ls : S → (Nat → ℝ) → (Fin (indices s.hi.free.segs).length → ℝ) →
      (S × LsOut (Nat → ℝ) (Fin (indices s.hi.free.segs).length → ℝ)) × Bool) (q : Nat → ℝ) :
    s.hi.sqNorm q = some ((s.ops D o J0 ls).norm q) := by
  show _ = some ((s.hi.sqNorm q).getD 0)
  rw [BsLinkEx.sqNorm_eq]
  rfl

/-- `C127_again`: the hypotheses hold from `x = 3/2`. -/
example (o : SvdOps ℝ) (ho : o.Exact) (hor : o.Ortho) (J0 : (Nat → ℝ) → Jac ℝ) (dq u) (m) :
    let r := bsSolve (s.ops D o J0 lsK) s.hi.sqThr (1 / 10 ^ 12) s.hi.maxIter s.reducedDim false s.hi.lastIsOptional
      (fun _ => 3 / 2) (dq, u, ())
    bsSolve (s.ops D o J0 lsK) s.hi.sqThr (1 / 10 ^ 12) s.hi.maxIter s.reducedDim false s.hi.lastIsOptional r.arg m =
      ⟨r.arg, m, 0, .success, false⟩ := by
  intro r
  obtain ⟨p1, p2, -⟩ := s_built.parts
  obtain ⟨l1, l2⟩ := lawful.impl
  have hs := (solves o ho hor J0 dq u).1
  refine C127_again p2 BsR.s_wf (coherent_of_vec BsR.s_vec) BsR.s_len p1 l1 l2 (by intro h; cases h) (s.ops D o J0 lsK)
    (ops_norm o J0 lsK) (fun _ => rfl) (fun _ _ => rfl) _ _ _ _ _ _ _ _ rfl _ m ⟨(iI, 0), ?_, ?_, ?_⟩ hs rfl
  · rw [impl_eq]; exact List.mem_singleton.2 rfl
  · intro h; cases h
  · obtain ⟨R, hI, hf, hR, h2⟩ := inv
    have hg := getRhs_eq hI hf hR (e := (iI, 0)) (by rw [impl_eq]; exact List.mem_singleton.2 rfl)
    have h2 : R iI.fn.key = [0] := h2
    rw [h2] at hg
    refine ⟨[0], hg, ?_⟩
    have e := (C95_parametrises s_built rfl BsR.s_wf (coherent_of_vec BsR.s_vec) BsR.s_len (fun _ => 3 / 2)).2.1
    have e' : s.ex.solve (fun _ => 3 / 2) = bsSub s (fun _ => 3 / 2) 0 := (Prod.mk.inj e).1
    rw [conErr, e', (sub_eq _ _).2]
    show (1 / 10 * (1 / 10) : ℝ) ≤ 0 + _ * _
    simp only [Pi.zero_apply]
    norm_num

/-- `C127_kept`: the solution of the explicit constraint for `x² = 2`. -/
example (o : SvdOps ℝ) (J0 : (Nat → ℝ) → Jac ℝ) (m) {x : ℝ} (hx : x ^ 2 = 2) :
    bsSolve (s.ops D o J0 lsK) s.hi.sqThr (1 / 10 ^ 12) s.hi.maxIter s.reducedDim false s.hi.lastIsOptional (s.ex.solve fun _ => x) m =
      ⟨s.ex.solve fun _ => x, m, 0, .success, false⟩ := by
  obtain ⟨p1, p2, -⟩ := s_built.parts
  obtain ⟨l1, l2⟩ := lawful.impl
  have ht : (0 : ℝ) ≤ s.hi.sqThr := by show (0 : ℝ) ≤ 1 / 10 * (1 / 10); norm_num
  refine C127_kept p2 BsR.s_wf (coherent_of_vec BsR.s_vec) BsR.s_len p1 l1 l2 (by intro h; cases h) (s.ops D o J0 lsK)
    (ops_norm o J0 lsK) (fun _ => rfl) ht _ _ _ _ rfl m rfl
    ((C13_solve p2 BsR.s_wf (coherent_of_vec BsR.s_vec) BsR.s_len _ _).1 rfl).1 ?_
  refine (errorsAtMost_norm p1 l1 l2 (by intro h; cases h) (BsLinkEx.sqNorm_eq _) (by linarith)).2 ?_
  have e := (C95_parametrises s_built rfl BsR.s_wf (coherent_of_vec BsR.s_vec) BsR.s_len (fun _ => x)).2.1
  have e' : s.ex.solve (fun _ => x) = bsSub s (fun _ => x) 0 := (Prod.mk.inj e).1
  rw [e', (sub_eq _ _).2]
  simp only [Pi.zero_apply, add_zero]
  rw [hx]
  norm_num
  exact ht

end Hpp.BsLinkEx
