import Verif.ECS.Props

/-!
# A concrete explicit constraint set

Six variables, `B : (q2, q3) = (q4, 3 q4) + rhs` inserted first, then `A : q4 = q0 + 2 q1 + rhs`.
Shows that the hypotheses of the theorems of Props.lean are met by non trivial cases.
-/

namespace Hpp.Ex

def conB : ECon Int Nat :=
  vecCon 1 [⟨4, 1⟩] [⟨2, 2⟩] [⟨4, 1⟩] [⟨2, 2⟩] [.equality, .equalToZero]
    (fun x => [x.getD 0 0, 3 * x.getD 0 0]) (fun _ m _ => if m = 0 then 1 else 3)

def conA : ECon Int Nat :=
  vecCon 2 [⟨0, 2⟩] [⟨4, 1⟩] [⟨0, 2⟩] [⟨4, 1⟩] [.equality]
    (fun x => [x.getD 0 0 + 2 * x.getD 1 0]) (fun _ _ p => if p = 0 then 1 else 2)

/-- Reads an output of `A` and writes an input of `A`. -/
def conLoop : ECon Int Nat :=
  vecCon 3 [⟨3, 1⟩] [⟨0, 1⟩] [⟨3, 1⟩] [⟨0, 1⟩] [.equality] (fun x => x) (fun _ _ _ => 1)

/-- Extract the set from a successful call. -/
def get (r : Except Err (Option Nat × ECS Int Nat)) (d : ECS Int Nat) : ECS Int Nat :=
  match r with
  | .ok (_, s) => s
  | .error _ => d

def s0 : ECS Int Nat := ECS.init 6 6 1
def s1 : ECS Int Nat := get (s0.add 10 conB) s0
def s2 : ECS Int Nat := get (s1.add 10 conA) s1

theorem add1 : s0.add 10 conB = .ok (some 0, s1) := rfl
theorem add2 : s1.add 10 conA = .ok (some 1, s2) := rfl

theorem built : ECS.Built 6 6 s2 :=
  .add _ 10 conA [] _ _ (.add _ 10 conB [] _ _ (.init 1) add1) add2

theorem cons : s2.cons = [conB, conA] := rfl

theorem wellFormed : ∀ c ∈ s2.cons, WellFormed 6 6 c := by
  rw [cons]
  intro c hc
  simp only [List.mem_cons, List.not_mem_nil, or_false] at hc
  rcases hc with rfl | rfl
  · refine ⟨⟨⟨2, 2⟩, rfl, by decide⟩, ⟨⟨2, 2⟩, rfl, by decide⟩, ?_, ?_⟩ <;> intro i h <;>
      simp [Reads, ReadsV, conB, vecCon, Seg.Has] at h <;> omega
  · refine ⟨⟨⟨4, 1⟩, rfl, by decide⟩, ⟨⟨4, 1⟩, rfl, by decide⟩, ?_, ?_⟩ <;> intro i h <;>
      simp [Reads, ReadsV, conA, vecCon, Seg.Has] at h <;> omega

theorem coherent : AllCoherent s2.cons := by
  rw [cons]
  intro c hc c' hc'
  have hq : ∀ c ∈ [conB, conA], c.inV = c.inQ ∧ c.outV = c.outQ := by
    intro c hc
    simp only [List.mem_cons, List.not_mem_nil, or_false] at hc
    rcases hc with rfl | rfl <;> exact ⟨rfl, rfl⟩
  obtain ⟨h1, h2⟩ := hq c hc
  obtain ⟨h3, h4⟩ := hq c' hc'
  refine ⟨?_, ?_, ?_⟩
  · rintro ⟨v, h5, h6⟩; unfold ReadsV at h5; unfold WritesV at h6; rw [h1] at h5; rw [h4] at h6
    exact ⟨v, h5, h6⟩
  · rintro ⟨v, h5, h6⟩; unfold Reads at h5; unfold Writes at h6; rw [← h1] at h5; rw [← h4] at h6
    exact ⟨v, h5, h6⟩
  · rintro ⟨v, h5, h6⟩; unfold WritesV at h5 h6; rw [h2] at h5; rw [h4] at h6
    exact ⟨v, h5, h6⟩

theorem outLen : ∀ d ∈ s2.data, d.OutLen := by
  have : s2.data = [EData.new conB [], EData.new conA []] := rfl
  rw [this]
  intro d hd
  simp only [List.mem_cons, List.not_mem_nil, or_false] at hd
  rcases hd with rfl | rfl <;> intro x <;> rfl

theorem sorted : ∀ c ∈ s2.cons, c.inV.Pairwise lexLe := by
  rw [cons]; decide

-- the constraint inserted last is evaluated first
example : s2.order = [1, 0] := rfl

-- the order is not the insertion order, and the solution uses the value computed by `A`
example : (List.range 6).map (s2.solve fun i => [1, 2, 0, 0, 0, 7].getD i 0) = [1, 2, 5, 15, 5, 7] := by
  decide +kernel

-- hypotheses of C09-C13, C15, C68
example := C09_accepted_compatible built
example := C12_order built wellFormed coherent
example := C13_solve built wellFormed coherent outLen
example := C68_dependencies built wellFormed coherent
example := C15_jacobian built wellFormed coherent sorted

-- a constraint closing a loop is rejected and the set unchanged, a constraint with an inequality too
example : s2.add 10 conLoop = .ok (none, s2) := rfl
example : s2.add 10 { conLoop with outQ := [⟨5, 1⟩], outV := [⟨5, 1⟩], comp := [.superior] } =
    .ok (none, s2) := rfl
-- it reads its own output
example : s2.add 10 { conLoop with outQ := [⟨3, 1⟩] } = .error .throws := rfl

-- dependencies go through `A`
example : 0 < s2.dep 0 1 ∧ 0 < s2.dep 1 1 ∧ s2.dep 0 4 = 0 := by decide +kernel

example : (List.range 6).map (fun r => (List.range 6).map (s2.jacobian (fun _ => 0) r)) =
    [[1, 0, 0, 0, 0, 0], [0, 1, 0, 0, 0, 0], [1, 2, 0, 0, 0, 0], [3, 6, 0, 0, 0, 0],
     [1, 2, 0, 0, 0, 0], [0, 0, 0, 0, 0, 1]] := by decide +kernel

end Hpp.Ex
