import Verif.BySub.Resume
import Verif.BySub.OrderProps

/-!
# C155: the hypothesis on explicit constraints holds for solvers
-/

namespace Hpp

variable {κ S : Type} [DecidableEq κ]

/-- C155. In a solver by substitution the set of explicit constraints, however the solver was built, keeps the configurations that it returns, provided the explicit
functions are defined there (`hdom`; they depend on variables that they do not compute).  Hence `C155_substitution` and `C155_optimize` apply to each solver. -/
theorem C155_explicit {nq nv : Nat} {E : Space ℝ → List ℝ → Prop} {h : BHist ℝ κ} {s : BS ℝ κ} (hb : BS.Built E nq nv h s)
    (hwf : ∀ c ∈ explOf h, WellFormed nq nv c) (hcoh : AllCoherent (explOf h)) (hlen : ∀ d ∈ s.ex.data, d.OutLen) (D : Space ℝ → List ℝ → List ℝ → Nat → Nat → ℝ) (o : SvdOps ℝ) (J0 : (Nat → ℝ) → Jac ℝ) (dom : (Nat → ℝ) → Bool)
    (hdom : ∀ q, dom q = true → dom (s.ex.solve q) = true) (sat : (Nat → ℝ) → Nat → ℝ) (move : (Nat → ℝ) → (Nat → ℝ) → Nat → ℝ) (ls : BsLineSearch S)
    (thr dqMin : ℝ) (k j rd : Nat) (w l : Bool) (hw : (w && l) = false) (q : Nat → ℝ)
    (m : (Fin (indices s.hi.free.segs).length → ℝ) × (Fin (indices s.hi.free.segs).length → ℝ) × S) :
    let O := s.fullOps D o J0 dom sat move ls
    let r := bsSolve O thr dqMin k rd w l q m
    let r' := bsSolve O thr dqMin j rd w l r.arg r.mem
    let R := bsSolve O thr dqMin (k + j) rd w l q m
    (∀ a b, O.expl a = (b, true) → O.expl b = (b, true)) ∧
    (r.status = .maxIterationReached → thr ≤ O.norm r.arg → R.status ≠ .errorIncreased →
      r'.status = R.status ∧ k + r'.iter = R.iter ∧ (R.undef = false → r'.arg = R.arg)) := by
  intro O r r' R
  obtain ⟨-, hx, hc, -⟩ := BS.Built.parts hb
  rw [← hc] at hwf hcoh
  have hi : ∀ a b, O.expl a = (b, true) → O.expl b = (b, true) := by
    intro a b hab
    have h1 : s.ex.solve a = b := congrArg Prod.fst hab
    have h2 : dom a = true := congrArg Prod.snd hab
    subst h1
    exact Prod.ext (C13_idempotent hx hwf hcoh hlen a) (hdom a h2)
  refine ⟨hi, fun hr ht hR => ?_⟩
  obtain ⟨g1, -, g3, g4⟩ := ((C155_substitution O hi thr dqMin k j rd w l hw q m hr).1 ht).1 hR
  exact ⟨g1, g3, g4⟩

open BsOrderEx in
/-- Two explicit constraints, one of which reads the output of the other. -/
example (D : Space ℝ → List ℝ → List ℝ → Nat → Nat → ℝ) (o : SvdOps ℝ) (J0 : (Nat → ℝ) → Jac ℝ) (move : (Nat → ℝ) → (Nat → ℝ) → Nat → ℝ)
    (ls : BsLineSearch Unit) (a b : Nat → ℝ) (h : (sAB.fullOps D o J0 (fun _ => true) (fun _ _ => 0) move ls).expl a = (b, true)) :
    (sAB.fullOps D o J0 (fun _ => true) (fun _ _ => 0) move ls).expl b = (b, true) :=
  (C155_explicit builtAB wfAB (coherent_of_vec vecAB) lenAB D o J0 (fun _ => true) (fun _ _ => rfl) (fun _ _ => 0) move ls 1 1 1 1 1 false false rfl a
    (fun _ => 0, fun _ => 0, ())).1 a b h

end Hpp
