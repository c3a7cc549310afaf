import Verif.Locked.Model
import Verif.ECS.Props

/-!
# Properties of locked joints (C57)
-/

namespace Hpp

variable {α κ : Type}

/-- A joint of configuration space `sp`: adding a zero velocity changes nothing. -/
def JSpace.Lawful [Zero α] (sp : JSpace α) : Prop :=
  ∀ x : List α, x.length = sp.nq → sp.integrate x (List.replicate sp.nv 0) = x

theorem rn_lawful [AddGroup α] (n : Nat) : (JSpace.rn n : JSpace α).Lawful := by
  intro x hx
  change List.zipWith (· + ·) x (List.replicate n 0) = x
  replace hx : x.length = n := hx
  induction x generalizing n with
  | nil => rfl
  | cons a x ih =>
    cases n with
    | zero => simp at hx
    | succ n => rw [List.replicate_succ, List.zipWith_cons_cons, ih n (by simpa using hx), add_zero]

/-- Created from a joint and a value, the constraint locks exactly the variables of the joint. -/
theorem C57_joint_partial [Zero α] [Sub α] (key : κ) (j : LJoint α) (hl : j.space.Lawful) (value : List α)
    (hv : value.length = j.space.nq) : Locks (lockedJoint key j value) j.rankInConfiguration value := by
  have hidx : indices (lockedJoint key j value).outQ = List.range' j.rankInConfiguration value.length := by
    rw [hv]
    simp [lockedJoint, explicitCon, indices]
  have hval : ∀ (q : Nat → α) junk, solveOne (EData.new (lockedJoint key j value) junk) q =
      lview q (lockedJoint key j value).outQ value := by
    intro q junk
    change lview q (lockedJoint key j value).outQ (j.space.integrate value (List.replicate j.space.nv 0)) = _
    rw [hl value hv]
  refine ⟨fun i => ?_, fun i => ?_, fun i => ?_, fun q junk i hi => ?_, fun q junk i hi => ?_⟩
  · rintro ⟨s, hs, -⟩
    simp [lockedJoint, explicitCon] at hs
  · rintro ⟨s, hs, -⟩
    simp [lockedJoint, explicitCon] at hs
  · rw [← mem_indices, hidx, List.mem_range'_1]
  · rw [hval]
    have h := rview_lview q (lockedJoint key j value).outQ value (by rw [hidx]; exact List.nodup_range') (by rw [hidx]; simp)
    have h2 := congrArg (fun l => l[i]?) h
    simp only [rview, hidx, List.getElem?_map] at h2
    rw [List.getElem?_range' (by omega)] at h2
    simpa using h2
  · rw [hval]
    refine lview_not_mem q _ value i ?_
    rw [hidx, List.mem_range'_1]
    omega

/-- In a set of explicit constraints, whatever the other constraints: solving gives the requested value to the joint. -/
theorem C57_in_set [Zero α] [Sub α] [DecidableEq κ] {nq nv : Nat} {s : ECS α κ} (h : ECS.Built nq nv s)
    (hw : ∀ c ∈ s.cons, WellFormed nq nv c) (hcoh : AllCoherent s.cons) (hl : ∀ d ∈ s.data, d.OutLen)
    (key : κ) (j : LJoint α) (hj : j.space.Lawful) (value : List α) (hv : value.length = j.space.nq) (junk : List α)
    (hd : EData.new (lockedJoint key j value) junk ∈ s.data) (q : Nat → α) (i : Nat) (hi : i < value.length) :
    some (s.solve q (j.rankInConfiguration + i)) = value[i]? := by
  obtain ⟨hH, -⟩ := (C13_solve h hw hcoh hl q (s.solve q)).1 rfl
  have h1 := hH _ hd
  have e1 : indices (lockedJoint key j value).outQ = List.range' j.rankInConfiguration value.length := by
    rw [hv]
    simp [lockedJoint, explicitCon, indices]
  have h2 : rview (s.solve q) (lockedJoint key j value).outQ = value := by
    refine Eq.trans h1 ?_
    change j.space.integrate value (List.replicate j.space.nv 0) = value
    exact hj value hv
  have h3 := congrArg (fun l => l[i]?) h2
  simp only [rview, e1, List.getElem?_map] at h3
  rw [List.getElem?_range' (by omega)] at h3
  simpa using h3

/-- The constraint is accepted by any set of explicit constraints in which no constraint computes a variable of the joint. -/
theorem C57_accepted [Zero α] [Sub α] [DecidableEq κ] {nq nv : Nat} {s : ECS α κ} (h : ECS.Built nq nv s) (key : κ)
    (j : LJoint α) (value : List α) (junk : List α)
    (hw : ∀ c ∈ s.cons ++ [lockedJoint key j value], WellFormed nq nv c)
    (hcoh : AllCoherent (s.cons ++ [lockedJoint key j value]))
    (hfree : ∀ c ∈ s.cons, ∀ i, j.rankInConfiguration ≤ i → i < j.rankInConfiguration + j.space.nq → ¬ Writes c i) :
    ∃ N, ∀ fuel, N ≤ fuel → ∃ s', s.add fuel (lockedJoint key j value) junk = .ok (some s.cons.length, s') ∧
      s'.cons = s.cons ++ [lockedJoint key j value] := by
  obtain ⟨N, hN⟩ := C10_accept_iff_compatible h (lockedJoint key j value) junk hw hcoh
  refine ⟨N, fun fuel hf => (hN fuel hf).1 ⟨?_, ?_, ?_⟩⟩
  · intro t ht
    exact Or.inr (List.eq_of_mem_replicate ht)
  · rintro c hc i ⟨⟨sg, hs, h1, h2⟩, h3⟩
    rw [List.mem_singleton.1 hs] at h1 h2
    exact hfree c hc i h1 h2 h3
  · rintro y ⟨x, ⟨sg, hs, -⟩, -⟩
    simp [lockedJoint, explicitCon] at hs

/-- C57. The ranks of the constraint are those of the joint, in configurations and in velocities. -/
theorem C57_ranks [Zero α] [Sub α] (key : κ) (j : LJoint α) (value : List α) :
    (lockedJoint key j value).rankInConfiguration = some j.rankInConfiguration ∧
    (lockedJoint key j value).rankInVelocity = some j.rankInVelocity ∧
    (∀ i, Covers (lockedJoint key j value).outV i ↔
      j.rankInVelocity ≤ i ∧ i < j.rankInVelocity + j.space.nv) := by
  refine ⟨rfl, rfl, fun i => ?_⟩
  simp [lockedJoint, explicitCon, Covers, Seg.Has]

/-- Created with an index in the joint or with extra degrees of freedom, the constraint computes no variable: the intervals of
the outputs are passed as intervals of velocity inputs.  Its rank in the configuration is read from an empty vector, and
adding it to a set of explicit constraints is undefined behaviour. -/
theorem C57_index_refuted [Zero α] [Add α] [Sub α] [DecidableEq κ] (key : κ) (j : LJoint α) (index : Nat) (value : List α) :
    (∀ i, ¬ Covers (lockedJointPartial key j index value).outQ i) ∧
    (lockedJointPartial key j index value).rankInConfiguration = none ∧
    (∀ (s : ECS α κ) fuel, s.add fuel (lockedJointPartial key j index value) = .error .ub) ∧
    (index < j.space.nq → Covers (lockedJointPartial key j index value).inV j.rankInConfiguration) ∧
    (value ≠ [] → ∀ first, ¬ Locks (lockedJointPartial key j index value) first value) := by
  have h0 : ∀ i, ¬ Covers (lockedJointPartial key j index value).outQ i := by
    rintro i ⟨s, hs, -⟩
    simp [lockedJointPartial, explicitCon] at hs
  refine ⟨h0, rfl, fun s fuel => rfl, fun h => ⟨_, List.mem_singleton.2 rfl, Nat.le_refl _, ?_⟩, fun hne first hL => ?_⟩
  · change j.rankInConfiguration < j.rankInConfiguration + (j.space.nq - index)
    omega
  · have := List.length_pos_iff.2 hne
    exact h0 first ((hL.writes first).2 ⟨Nat.le_refl _, by omega⟩)

theorem C57_extra_refuted [Zero α] [Add α] [Sub α] [DecidableEq κ] (key : κ) (nq nv extra index : Nat) (value : List α) :
    (∀ i, ¬ Covers (lockedJointExtra key nq nv extra index value).outQ i) ∧
    (lockedJointExtra key nq nv extra index value).rankInConfiguration = none ∧
    (∀ (s : ECS α κ) fuel, s.add fuel (lockedJointExtra key nq nv extra index value) = .error .ub) ∧
    (value ≠ [] → ∀ first, ¬ Locks (lockedJointExtra key nq nv extra index value) first value) := by
  have h0 : ∀ i, ¬ Covers (lockedJointExtra key nq nv extra index value).outQ i := by
    rintro i ⟨s, hs, -⟩
    simp [lockedJointExtra, explicitCon] at hs
  refine ⟨h0, rfl, fun s fuel => rfl, fun hne first hL => ?_⟩
  have := List.length_pos_iff.2 hne
  exact h0 first ((hL.writes first).2 ⟨Nat.le_refl _, by omega⟩)

/-! ### Examples -/

/-- A revolute joint at rank 2 after a base of 2 variables -/
def demoLJoint : LJoint Int := ⟨2, 2, JSpace.rn 1⟩

example : Locks (lockedJoint 0 demoLJoint [7]) 2 [7] := C57_joint_partial 0 demoLJoint (rn_lawful 1) [7] rfl

example : ∃ N, ∀ fuel, N ≤ fuel → ∃ s', (ECS.init 4 4 (0 : Int)).add fuel (lockedJoint 0 demoLJoint [7]) = .ok (some 0, s') ∧
    s'.cons = [lockedJoint 0 demoLJoint [7]] := by
  refine C57_accepted (nq := 4) (nv := 4) (.init 0) 0 demoLJoint [7] [] ?_ ?_ ?_
  · intro c hc
    rw [show c = lockedJoint 0 demoLJoint [7] from List.mem_singleton.1 hc]
    refine ⟨⟨_, rfl, by decide⟩, ⟨_, rfl, by decide⟩, ?_, ?_⟩
    · rintro i ⟨s, hs, -⟩; simp [lockedJoint, explicitCon] at hs
    · rintro i ⟨s, hs, -⟩; simp [lockedJoint, explicitCon] at hs
  · intro c hc c' hc'
    rw [show c = lockedJoint 0 demoLJoint [7] from List.mem_singleton.1 hc,
      show c' = lockedJoint 0 demoLJoint [7] from List.mem_singleton.1 hc']
    refine ⟨?_, ?_, ?_⟩
    · rintro ⟨v, ⟨s, hs, -⟩, -⟩; simp [lockedJoint, explicitCon] at hs
    · rintro ⟨v, ⟨s, hs, -⟩, -⟩; simp [lockedJoint, explicitCon] at hs
    · rintro -
      exact ⟨2, ⟨_, List.mem_singleton.2 rfl, by decide, by decide⟩, ⟨_, List.mem_singleton.2 rfl, by decide, by decide⟩⟩
  · intro c hc
    simp [ECS.cons, ECS.init] at hc

/-- The lock of the first extra degree of freedom of a robot of size 4 with 2 extra dofs computes nothing. -/
example : (lockedJointExtra 0 4 4 2 0 [(7 : Int)]).outQ = [] ∧ (lockedJointExtra 0 4 4 2 0 [(7 : Int)]).inV = [⟨2, 1⟩] :=
  ⟨rfl, rfl⟩

end Hpp
