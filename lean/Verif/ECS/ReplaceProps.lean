import Verif.ECS.RhsProps

/-!
# Replacement of the constraints of an explicit set by copies: C39
-/

namespace Hpp

variable {α κ : Type}

/-- Specification: what a set of explicit constraints uses of a constraint to solve it and to test it. -/
structure SameContent (c c' : ECon α κ) : Prop where
  inQ : c'.inQ = c.inQ
  outQ : c'.outQ = c.outQ
  space : c'.space = c.space
  h : c'.h = c.h
  outVal : c'.outVal = c.outVal

/-- C39. After `replace`, each constraint for which a replacement is given is replaced, the others are kept; the right hand
sides are kept, and if the replacements have the same content as the constraints, the solutions, the errors and the answers
of `isSatisfied` are unchanged. -/
theorem C39_replace [CommRing α] [LinearOrder α] [IsStrictOrderedRing α] (s : ECS α κ)
    (m : ECon α κ → Option (ECon α κ)) :
    (s.replace m).cons = s.cons.map (fun c => (m c).getD c) ∧
    (s.replace m).data.map (·.rhs) = s.data.map (·.rhs) ∧
    ((∀ d ∈ s.data, ∀ c', m d.c = some c' → SameContent d.c c') → ∀ q,
      (s.replace m).solve q = s.solve q ∧ ∀ t, (s.replace m).isSatisfied q t = s.isSatisfied q t) := by
  let f : EData α κ → EData α κ := fun d => match m d.c with
    | some c => { d with c := c }
    | none => d
  have hdata : (s.replace m).data = s.data.map f := rfl
  have hf1 : ∀ d, (f d).c = (m d.c).getD d.c := by
    intro d
    show EData.c (match m d.c with
      | some c => { d with c := c }
      | none => d) = _
    cases m d.c <;> rfl
  have hf2 : ∀ d, (f d).rhs = d.rhs := by
    intro d
    show EData.rhs (match m d.c with
      | some c => { d with c := c }
      | none => d) = _
    cases m d.c <;> rfl
  refine ⟨?_, ?_, fun hm q => ?_⟩
  · unfold ECS.cons
    rw [hdata, List.map_map, List.map_map]
    exact List.map_congr_left fun d _ => hf1 d
  · rw [hdata, List.map_map]
    exact List.map_congr_left fun d _ => hf2 d
  · have hsame : ∀ d ∈ s.data, SameContent d.c (f d).c := by
      intro d hd
      rw [hf1]
      cases hmc : m d.c with
      | none => exact ⟨rfl, rfl, rfl, rfl, rfl⟩
      | some c' => exact hm d hd c' hmc
    constructor
    · unfold ECS.solve
      have hord : (s.replace m).order = s.order := rfl
      rw [hord]
      generalize s.order = l
      induction l generalizing q with
      | nil => rfl
      | cons i l ih =>
        rw [List.foldl_cons, List.foldl_cons]
        have : (match (s.replace m).data[i]? with
            | some d => solveOne d q
            | none => q) = match s.data[i]? with
            | some d => solveOne d q
            | none => q := by
          rw [hdata, List.getElem?_map]
          cases hi : s.data[i]? with
          | none => rfl
          | some d =>
            have hs := hsame d (List.mem_of_getElem? hi)
            show solveOne (f d) q = solveOne d q
            unfold solveOne
            rw [hf2, hs.inQ, hs.outQ, hs.outVal]
        refine Eq.trans ?_ (ih _)
        exact congrArg (fun q => List.foldl _ q l) this
    · intro t
      have herr : ∀ d ∈ s.data, (f d).error q = d.error q := by
        intro d hd
        have hs := hsame d hd
        unfold EData.error
        rw [hs.space, hs.h, hf2]
      have hloop : ∀ (l : List (EData α κ)) (r : List α × α), (∀ d ∈ l, (f d).error q = d.error q) →
          satLoop q (l.map f) r = satLoop q l r := by
        intro l
        induction l with
        | nil => intro r _; rfl
        | cons d l ih =>
          rintro ⟨e, n⟩ hl
          rw [List.map_cons, satLoop, satLoop, hl d (by simp)]
          exact ih _ fun d hd => hl d (by simp [hd])
      unfold ECS.isSatisfied
      rw [hdata, hloop s.data _ herr]
      rfl

namespace Ex

/-- Both constraints are replaced by copies with another function object (`createWithExplicit` of an archive, `copy`). -/
def renamed : ECon Int Nat → Option (ECon Int Nat) := fun c => some { c with key := c.key + 10 }

example : (s2.replace renamed).cons.map (·.key) = s2.cons.map (·.key + 10) ∧
    ∀ q, (s2.replace renamed).solve q = s2.solve q := by
  obtain ⟨h1, -, h3⟩ := C39_replace s2 renamed
  refine ⟨?_, fun q => (h3 (fun d _ c' hc => ?_) q).1⟩
  · rw [h1, List.map_map]
    rfl
  · cases hc
    exact ⟨rfl, rfl, rfl, rfl, rfl⟩

end Ex

end Hpp
