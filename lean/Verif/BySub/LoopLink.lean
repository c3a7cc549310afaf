import Verif.BySub.NewtonLinkEx

/-!
# C37: `SUCCESS` and `isSatisfied` of the same solver
-/

namespace Hpp

open Matrix

section
variable {κ S : Type} [DecidableEq κ] {El : Space ℝ → List ℝ → Prop} {nq nv : Nat} {h : BHist ℝ κ} {s : BS ℝ κ}
  {D : Space ℝ → List ℝ → List ℝ → Nat → Nat → ℝ}

/-- C37. Solver by substitution built by insertion of constraints: whatever the line search and the
decomposition are, if `solve` returns `SUCCESS` then at the configuration returned the explicit constraints hold exactly, the squared error
of each mandatory implicit constraint is below the threshold, and `isSatisfied` answers `true`. -/
theorem C37_isSatisfied (hb : BS.Built El nq nv h s) (hl : BHist.Lawful El h)
    (hw : ∀ c ∈ explOf h, WellFormed nq nv c) (hcoh : AllCoherent (explOf h)) (hol : ∀ d ∈ s.ex.data, d.OutLen)
    (hne : s.hi.lastIsOptional = true → s.hi.levels ≠ [])
    (t : ℝ) (ht : 0 < t) (hthr : s.ex.threshold = t) (hsq : s.hi.sqThr = t * t)
    (hag : ∀ d ∈ s.ex.data, ∀ q, d.Holds q → normSq (d.c.space.sub (d.c.h q) d.rhs) = 0)
    (o : SvdOps ℝ) (J0 : (Nat → ℝ) → Jac ℝ)
    (ls : S → (Nat → ℝ) → (Fin (indices s.hi.free.segs).length → ℝ) →
      (S × LsOut (Nat → ℝ) (Fin (indices s.hi.free.segs).length → ℝ)) × Bool)
    (dqMin : ℝ) (w : Bool) (q : Nat → ℝ) (m)
    (hs : (bsSolve (s.ops D o J0 ls) s.hi.sqThr dqMin s.hi.maxIter s.reducedDim w s.hi.lastIsOptional q m).status = .success) :
    let r := bsSolve (s.ops D o J0 ls) s.hi.sqThr dqMin s.hi.maxIter s.reducedDim w s.hi.lastIsOptional q m
    (∀ d ∈ s.ex.data, d.Holds r.arg) ∧
    (∀ e ∈ implOf h, IsMandatory s.hi e → ∃ v, s.hi.getRhs e.1 = some (some v) ∧
      sqSum (conError s.hi.ineqThr r.arg e.1 v) < s.hi.sqThr) ∧
    ∃ err, s.isSatisfied r.arg = some (err, true) := by
  intro r
  obtain ⟨p1, p2, p3, -⟩ := hb.parts
  obtain ⟨l1, l2⟩ := hl.impl
  obtain ⟨hu, hn⟩ := C37_success _ _ _ _ _ _ _ _ _ hs
  have hpos : 0 < s.hi.sqThr := by rw [hsq]; exact mul_pos ht ht
  have hex : ∀ d ∈ s.ex.data, d.Holds r.arg :=
    C37_explicit_holds p2 (by rw [p3]; exact hw) (by rw [p3]; exact hcoh) hol (s.ops D o J0 ls)
      (fun q q' h => (Prod.mk.inj h).1.symm) _ _ _ _ _ _ _ _ hu
  obtain ⟨n, g1, -, g3, -⟩ := C33_worst p1 l1 l2 hne r.arg
  have hlt : n < s.hi.sqThr := by
    have e : (s.ops D o J0 ls).norm r.arg = n := by
      show (s.hi.sqNorm r.arg).getD 0 = n
      rw [g1, Option.getD_some]
    change (s.ops D o J0 ls).norm r.arg < _ ∨ (s.ops D o J0 ls).norm r.arg ≤ _ at hn
    rw [e] at hn
    rcases hn with hn | hn
    · exact hn
    · linarith
  refine ⟨hex, fun e he hm => ?_, ?_⟩
  · obtain ⟨v, hv, hle⟩ := g3 e he hm
    exact ⟨v, hv, lt_of_le_of_lt hle hlt⟩
  · obtain ⟨err, b, h1, h2⟩ := C40_enforced hb hl t (by rw [hthr]; linarith) hthr hsq hne r.arg
    refine ⟨err, ?_⟩
    rw [h1, h2.2 ⟨ht.ne', ?_, ?_⟩]
    · intro d hd
      rw [hag d hd _ (hex d hd)]
      exact mul_pos ht ht
    · intro e he hf hm
      obtain ⟨v, hv, hle⟩ := g3 (e.1.impl, e.2.1) (mem_implOf.2 ⟨e, he, hf, rfl, rfl⟩) hm
      rw [← hsq]
      exact ⟨v, hv, lt_of_le_of_lt hle hlt⟩

end

open BsLinkEx in
/-- The hypotheses are met by the solver of the example of C115, which does return `SUCCESS` from `q₀ = 3/2`. -/
example (o : SvdOps ℝ) (J0 : (Nat → ℝ) → Jac ℝ) (ls) (q : Nat → ℝ)
    (m : (Fin (indices s.hi.free.segs).length → ℝ) × (Fin (indices s.hi.free.segs).length → ℝ) × Unit)
    (hs : (bsSolve (s.ops D o J0 ls) s.hi.sqThr (1 / 10 ^ 12) s.hi.maxIter s.reducedDim false s.hi.lastIsOptional q
      m).status = .success) :
    ∃ err, s.isSatisfied (bsSolve (s.ops D o J0 ls) s.hi.sqThr (1 / 10 ^ 12) s.hi.maxIter s.reducedDim false
      s.hi.lastIsOptional q m).arg = some (err, true) := by
  refine (C37_isSatisfied s_built lawful BsR.s_wf (coherent_of_vec BsR.s_vec) BsR.s_len (fun h => by cases h) (1 / 10)
    (by norm_num) rfl rfl ?_ o J0 ls _ false q m hs).2.2
  intro d hd q hq
  rw [data_eq, BsR.s_data] at hd
  obtain rfl := List.mem_singleton.1 hd
  have h6 : [q 1] = [q 0 ^ 2 + 0] := hq
  have h7 : q 1 = q 0 ^ 2 := by simpa using h6
  show (q 1 - q 0 ^ 2 - 0) * (q 1 - q 0 ^ 2 - 0) + 0 = 0
  rw [h7]; ring

end Hpp
