import Verif.Pose.SettersProps

/-!
# Columns of the Jacobian that are not active (C107)

The solvers read the active parameters of the functions to find the columns of the Jacobians that may be non zero.

The Jacobians of the joints (pinocchio, external) are in a `Kin`; `Robot.Kinematic` states what they are: along the degree of freedom `c`
of joint `a`, the joints that are `a` or descend from `a` move as one rigid body, the other joints do not move.
-/

namespace Hpp.Pose

open Matrix Hpp.Sym Hpp.Log

variable {n e : Nat}

/-! ### Specification -/

/-- Along the degree of freedom `c`, joint `j` moves with the rigid body that turns with angular velocity `w`, the point of this body that
is at the origin of the world having velocity `u`.  The Jacobians of a joint are expressed in the frame of the joint. -/
def MovesWith (K : Kin n) (c : Fin n) (u w : V3 ℝ) (j : Nat) : Prop :=
  (K.M j).R *ᵥ (fun i => K.Jw j i c) = w ∧ (K.M j).R *ᵥ (fun i => K.Jv j i c) = u + crossProduct w (K.M j).p

/-- The Jacobians of the joints of a robot in configuration `q` -/
structure Robot.Kinematic (r : Robot ℝ) (q : Nat → ℝ) (K : Kin n) : Prop where
  pose : K.M = r.fk q
  joint : ∀ c : Fin n, ∃ a, 0 < a ∧ a < r.njoints ∧ r.VVar a c
  moves : ∀ (c : Fin n) (a : Nat), 0 < a → a < r.njoints → r.VVar a c → ∃ u w : V3 ℝ, ∀ j,
    (r.Anc a j → MovesWith K c u w j) ∧ (¬ r.Anc a j → MovesWith K c 0 0 j)

/-! ### Lemmas -/

theorem col_mul {m : Nat} (A : Matrix (Fin 3) (Fin m) ℝ) (B : Matrix (Fin m) (Fin n) ℝ) (c : Fin n) :
    (fun i => (A * B) i c) = A *ᵥ fun k => B k c := by
  funext i
  rfl

theorem mul_col_zero {m : Nat} (A : Matrix (Fin 3) (Fin m) ℝ) {B : Matrix (Fin m) (Fin n) ℝ} {c : Fin n} (h : (fun i => B i c) = 0)
    (i : Fin 3) : (A * B) i c = 0 := by
  have := congrFun (col_mul A B c) i
  rw [h, mulVec_zero] at this
  exact this

theorem mulVec_cross (R : M3 ℝ) (x v : V3 ℝ) : colCross R v *ᵥ x = crossProduct (R *ᵥ x) v := by
  funext i
  fin_cases i <;> simp [colCross, mulVec, dotProduct, Fin.sum_univ_three, crossProduct] <;> ring

theorem MovesWith.w_zero {K : Kin n} {c : Fin n} {j : Nat} (hr : IsRot (K.M j).R) (h : MovesWith K c 0 0 j) :
    (fun i => K.Jw j i c) = 0 ∧ (fun i => K.Jv j i c) = 0 := by
  have inv : ∀ x : V3 ℝ, (K.M j).R *ᵥ x = 0 → x = 0 := fun x hx => by
    have := congrArg ((K.M j).Rᵀ *ᵥ ·) hx
    simpa [mulVec_mulVec, hr.1] using this
  refine ⟨inv _ h.1, inv _ ?_⟩
  rw [h.2]
  simp

/-- Both joints move as one rigid body, which is fixed if one of them is the world. -/
structure Together (s : GTS) (K : Kin n) (c : Fin n) (u w : V3 ℝ) : Prop where
  rot : ∀ j, IsRot (K.M j).R
  h1 : ∀ j, s.g.j1 = some j → MovesWith K c u w j
  h2 : ∀ j, s.g.joint2 = some j → MovesWith K c u w j
  h0 : s.g.j1 = none ∨ s.g.joint2 = none → u = 0 ∧ w = 0

theorem GTS.jtranslation_zero {s : GTS} {K : Kin n} {c : Fin n} {u w : V3 ℝ} (h : Together s K c u w)
    {B : Matrix (Fin 3) (Fin n) ℝ} (hB : s.jtranslation K = some B) (i : Fin 3) : B i c = 0 := by
  obtain ⟨rot, h1, h2, h0⟩ := h
  unfold GTS.jtranslation at hB
  cases e1 : s.g.j1 with
  | none =>
    obtain ⟨rfl, rfl⟩ := h0 (.inl e1)
    cases e2 : s.g.joint2 with
    | none => simp [e1, e2] at hB
    | some j2 =>
      obtain ⟨z1, z2⟩ := (h2 j2 e2).w_zero (rot j2)
      have key : ∀ A A' : M3 ℝ, (A * K.Jw j2 + A' * K.Jv j2) i c = 0 := fun A A' => by
        have a1 := congrFun (col_mul A (K.Jw j2) c) i
        have a2 := congrFun (col_mul A' (K.Jv j2) c) i
        rw [z1, mulVec_zero] at a1
        rw [z2, mulVec_zero] at a2
        rw [Matrix.add_apply]
        simpa using congrArg₂ (· + ·) a1 a2
      have key2 : ∀ A' : M3 ℝ, (A' * K.Jv j2) i c = 0 := fun A' => by
        have := key 0 A'
        simpa using this
      simp only [e1, e2] at hB
      split at hB <;> split at hB <;> injection hB with hB <;> subst hB
      · exact key2 _
      · exact key2 _
      · exact key _ _
      · rw [Matrix.mul_add, ← Matrix.mul_assoc, ← Matrix.mul_assoc]
        exact key _ _
  | some j1 =>
    have m1 := h1 j1 e1
    have r1 := rot j1
    cases e2 : s.g.joint2 with
    | none =>
      obtain ⟨rfl, rfl⟩ := h0 (.inr e2)
      obtain ⟨z1, z2⟩ := m1.w_zero r1
      have key : ∀ A A' : M3 ℝ, (A' * (A * K.Jw j1 - K.Jv j1)) i c = 0 := fun A A' => by
        have a1 := congrFun (col_mul (A' * A) (K.Jw j1) c) i
        have a2 := congrFun (col_mul A' (K.Jv j1) c) i
        rw [z1, mulVec_zero] at a1
        rw [z2, mulVec_zero] at a2
        rw [Matrix.mul_sub, ← Matrix.mul_assoc, Matrix.sub_apply]
        simpa using congrArg₂ (· - ·) a1 a2
      simp only [e1, e2] at hB
      split at hB <;> injection hB with hB <;> subst hB
      · have := key (-(K.M j1).Rᵀ * colCross (K.M j1).R (s.cross2 K.M + (s.g.M2 K.M).p - (K.M j1).p)) 1
        rwa [Matrix.one_mul] at this
      · exact key _ _
    | some j2 =>
      have m2 := h2 j2 e2
      have hM2 : s.g.M2 K.M = K.M j2 := by simp [GT.M2, e2]
      have key : ∀ (A : M3 ℝ) (x : V3 ℝ),
          (A * ((-(K.M j1).Rᵀ * colCross (K.M j1).R (x + (K.M j2).p - (K.M j1).p)) * K.Jw j1 +
            ((K.M j1).Rᵀ * (K.M j2).R) * K.Jv j2 - K.Jv j1 + (K.M j1).Rᵀ * colCross (K.M j2).R x * K.Jw j2)) i c = 0 := fun A x => by
        have hz : (fun i => (((-(K.M j1).Rᵀ * colCross (K.M j1).R (x + (K.M j2).p - (K.M j1).p)) * K.Jw j1 +
            ((K.M j1).Rᵀ * (K.M j2).R) * K.Jv j2 - K.Jv j1 + (K.M j1).Rᵀ * colCross (K.M j2).R x * K.Jw j2)) i c) = 0 := by
          have b1 : (fun i => K.Jv j1 i c) = (K.M j1).Rᵀ *ᵥ ((K.M j1).R *ᵥ fun i => K.Jv j1 i c) := by
            rw [mulVec_mulVec, r1.1, one_mulVec]
          have : (fun i => (((-(K.M j1).Rᵀ * colCross (K.M j1).R (x + (K.M j2).p - (K.M j1).p)) * K.Jw j1 +
              ((K.M j1).Rᵀ * (K.M j2).R) * K.Jv j2 - K.Jv j1 + (K.M j1).Rᵀ * colCross (K.M j2).R x * K.Jw j2)) i c) =
              (fun i => ((-(K.M j1).Rᵀ * colCross (K.M j1).R (x + (K.M j2).p - (K.M j1).p)) * K.Jw j1) i c) +
              (fun i => (((K.M j1).Rᵀ * (K.M j2).R) * K.Jv j2) i c) - (fun i => K.Jv j1 i c) +
              (fun i => ((K.M j1).Rᵀ * colCross (K.M j2).R x * K.Jw j2) i c) := rfl
          rw [this, col_mul, col_mul, col_mul, b1, ← mulVec_mulVec, ← mulVec_mulVec, ← mulVec_mulVec, mulVec_cross, mulVec_cross,
            m1.1, m1.2, m2.1, m2.2, neg_mulVec, ← mulVec_neg, ← mulVec_add, ← mulVec_sub, ← mulVec_add]
          rw [show -(crossProduct w (x + (K.M j2).p - (K.M j1).p)) + (u + crossProduct w (K.M j2).p) -
            (u + crossProduct w (K.M j1).p) + crossProduct w x = 0 from by
              simp only [map_add, map_sub]; abel]
          exact mulVec_zero _
        exact mul_col_zero A hz i
      simp only [e1, e2, hM2] at hB
      by_cases ht : s.t2isZero = true
      · have hx : s.cross2 K.M = 0 := by simp [GTS.cross2, ht]
        simp only [ht, if_true, hx] at hB
        have k0 : ∀ A : M3 ℝ, (A * ((-(K.M j1).Rᵀ * colCross (K.M j1).R (0 + (K.M j2).p - (K.M j1).p)) * K.Jw j1 +
            ((K.M j1).Rᵀ * (K.M j2).R) * K.Jv j2 - K.Jv j1)) i c = 0 := fun A => by
          have h := key A 0
          have hc : colCross (K.M j2).R 0 = 0 := by
            ext a b
            fin_cases a <;> simp [colCross, crossProduct]
          rwa [hc, Matrix.mul_zero, Matrix.zero_mul, add_zero] at h
        split at hB <;> injection hB with hB <;> subst hB
        · have := k0 1
          rwa [Matrix.one_mul] at this
        · exact k0 _
      · simp only [ht, if_false, Bool.false_eq_true] at hB
        split at hB <;> injection hB with hB <;> subst hB
        · have := key 1 (s.cross2 K.M)
          rwa [Matrix.one_mul] at this
        · exact key _ _

theorem GTS.jorientation_zero {s : GTS} {K : Kin n} {c : Fin n} {u w : V3 ℝ} (h : Together s K c u w)
    {B : Matrix (Fin 3) (Fin n) ℝ} (hB : s.jorientation K = some B) (i : Fin 3) : B i c = 0 := by
  obtain ⟨rot, h1, h2, h0⟩ := h
  unfold GTS.jorientation at hB
  cases e1 : s.g.j1 with
  | none =>
    obtain ⟨rfl, rfl⟩ := h0 (.inl e1)
    cases e2 : s.g.joint2 with
    | none => simp [e1, e2] at hB
    | some j2 =>
      obtain ⟨z1, -⟩ := (h2 j2 e2).w_zero (rot j2)
      simp only [e1, e2] at hB
      injection hB with hB
      subst hB
      have := congrFun (col_mul (s.jlogFrom1 K.M * (s.g.M2 K.M).R) (K.Jw j2) c) i
      rw [z1, mulVec_zero] at this
      exact this
  | some j1 =>
    have m1 := h1 j1 e1
    have r1 := rot j1
    cases e2 : s.g.joint2 with
    | none =>
      obtain ⟨rfl, rfl⟩ := h0 (.inr e2)
      obtain ⟨z1, -⟩ := m1.w_zero r1
      simp only [e1, e2] at hB
      injection hB with hB
      subst hB
      have := congrFun (col_mul (-s.jlogFrom1 K.M) (K.Jw j1) c) i
      rw [z1, mulVec_zero, Matrix.neg_mul] at this
      rw [Matrix.mul_neg]
      exact this
    | some j2 =>
      have m2 := h2 j2 e2
      have hM2 : s.g.M2 K.M = K.M j2 := by simp [GT.M2, e2]
      simp only [e1, e2, hM2] at hB
      injection hB with hB
      subst hB
      have hz : (fun i => (-K.Jw j1 + ((K.M j1).Rᵀ * (K.M j2).R) * K.Jw j2) i c) = 0 := by
        have b1 : (fun i => K.Jw j1 i c) = (K.M j1).Rᵀ *ᵥ ((K.M j1).R *ᵥ fun i => K.Jw j1 i c) := by
          rw [mulVec_mulVec, r1.1, one_mulVec]
        have : (fun i => (-K.Jw j1 + ((K.M j1).Rᵀ * (K.M j2).R) * K.Jw j2) i c) =
            -(fun i => K.Jw j1 i c) + (fun i => (((K.M j1).Rᵀ * (K.M j2).R) * K.Jw j2) i c) := rfl
        rw [this, col_mul, b1, ← mulVec_mulVec, m1.1, m2.1]
        simp
      have := congrFun (col_mul (s.jlogFrom1 K.M) (-K.Jw j1 + ((K.M j1).Rᵀ * (K.M j2).R) * K.Jw j2) c) i
      rw [hz, mulVec_zero] at this
      exact this

/-- The state with the exact flags -/
noncomputable def GTS.exact (g : GT) (active : List Bool × List Bool) : GTS := ⟨g, g.R1isID, true, g.t1isZero, g.t2isZero, active⟩

theorem GTS.exact_blocks (g : GT) (active : List Bool × List Bool) (K : Kin n) :
    (GTS.exact g active).jtranslation K = g.jtranslation K ∧ (GTS.exact g active).jorientation K = g.jorientation K := ⟨rfl, rfl⟩

/-- A degree of freedom that is not on the path between the joints moves them together. -/
theorem Robot.Kinematic.together {r : Robot ℝ} (ok : r.Ok) {q : Nat → ℝ} {K : Kin n} (h : r.Kinematic q K) (s : GTS) {c : Fin n}
    (hc : ∀ a, r.OnPath (s.g.j1.getD 0) (s.g.joint2.getD 0) a → ¬ r.VVar a c) : ∃ u w, Together s K c u w := by
  obtain ⟨a, a0, an, hv⟩ := h.joint c
  obtain ⟨u, w, hm⟩ := h.moves c a a0 an hv
  have hp : ¬ r.OnPath (s.g.j1.getD 0) (s.g.joint2.getD 0) a := fun hp => hc a hp hv
  have rot : ∀ j, IsRot (K.M j).R := fun j => by rw [h.pose]; exact Robot.fk_rot ok q j
  have h00 : ¬ r.Anc a 0 := fun h => by cases h <;> omega
  unfold Robot.OnPath at hp
  by_cases h1 : r.Anc a (s.g.j1.getD 0)
  · have h2 : r.Anc a (s.g.joint2.getD 0) := by tauto
    refine ⟨u, w, rot, fun j e => ?_, fun j e => ?_, fun e => ?_⟩
    · rw [e] at h1; exact (hm j).1 h1
    · rw [e] at h2; exact (hm j).1 h2
    · rcases e with e | e
      · rw [e] at h1; exact absurd h1 h00
      · rw [e] at h2; exact absurd h2 h00
  · have h2 : ¬ r.Anc a (s.g.joint2.getD 0) := by tauto
    refine ⟨0, 0, rot, fun j e => ?_, fun j e => ?_, fun _ => ⟨rfl, rfl⟩⟩
    · rw [e] at h1; exact (hm j).2 h1
    · rw [e] at h2; exact (hm j).2 h2

/-! ### C107 -/

/-- Generic transformations after any sequence of calls of the setters that sets a joint: the columns of the Jacobian of the velocities
that are not declared active are zero, whatever the configuration, the mask, the content of the temporary matrices. -/
theorem C107_transformation {r : Robot ℝ} (ok : r.Ok) (rel pos ori ose3 : Bool) (mask : List Bool) (l : List GTOp) (s : GTS)
    (hs : s = (GTS.new r rel pos ori ose3 mask).run r l) (hl : lastJoint1 l ≠ none ∨ lastJoint2 l ≠ none)
    (b1 : s.g.j1.getD 0 < r.njoints) (b2 : s.g.joint2.getD 0 < r.njoints) {q : Nat → ℝ} {K : Kin n} (hK : r.Kinematic q K)
    {c : Fin n} (hc : s.active.2[c.val]? ≠ some true) :
    (∀ B, s.jtranslation K = some B → ∀ i, B i c = 0) ∧ (∀ B, s.jorientation K = some B → ∀ i, B i c = 0) ∧
    (s.g.Ok → ∀ (C : Rows n) (J J' : Rows2 n e), s.g.jacobian K C J = some J' → ∀ k, k < s.g.mask.count true → J' k (.inl c) = 0) := by
  have h := (C103_state ok rel pos ori ose3 mask l s hs).2.2.2.2 hl b1 b2 c.val
  obtain ⟨u, w, ht⟩ := hK.together ok s (c := c) fun a ha hv => hc (h.2.2 ⟨a, ha, hv⟩)
  refine ⟨fun B hB => GTS.jtranslation_zero ht hB, fun B hB => GTS.jorientation_zero ht hB, fun gok C J J' hJ k hk => ?_⟩
  have ht' : Together (GTS.exact s.g s.active) K c u w := ⟨ht.rot, ht.h1, ht.h2, ht.h0⟩
  obtain ⟨Bp, Bo, hp, ho, hrows⟩ := s.g.jacobian_rows gok hJ
  rw [← s.g.rows_length gok] at hk
  have hi := List.getElem?_eq_getElem hk
  generalize s.g.rows[k] = i at hi
  have hmem : i < s.g.lPos + s.g.lOri := by
    have := List.mem_of_getElem? hi
    simp only [GT.rows, List.mem_filter, List.mem_range] at this
    exact this.1
  rw [(hrows k i hi).1 c]
  have hb : ∀ (B : Matrix (Fin 3) (Fin n) ℝ) (i : Nat), (∀ i, B i c = 0) → blockRow B i c = 0 := fun B i h => by
    unfold blockRow
    split_ifs <;> first | rfl | exact h _
  by_cases hpos : i < s.g.lPos
  · rw [if_pos hpos]
    have : s.g.pos = true := by
      by_contra hne
      simp [GT.lPos, hne] at hpos
    exact hb _ _ fun i => GTS.jtranslation_zero ht' (hp this) i
  · rw [if_neg hpos]
    have : s.g.ori = true := by
      by_contra hne
      simp [GT.lOri, hne] at hmem
      omega
    exact hb _ _ fun i => GTS.jorientation_zero ht' (ho this) i

/-! ### Examples -/

/-- Joints 1, 2 and 3 of `demoRobot`: the Jacobians of joints 2 and 3 have a non zero column for the variable of joint 1. -/
def demoCols (q : Nat → ℝ) : Kin 3 where
  M := demoRobot.fk q
  Jv := fun j => Matrix.of fun i c => if i = 0 ∧ 0 < j ∧ (c.val = 0 ∨ c.val + 1 = j) then 1 else 0
  Jw := fun _ => 0

theorem demoRobot_anc (a j : Nat) (ha : 0 < a) : demoRobot.Anc a j ↔ 0 < j ∧ (a = 1 ∨ a = j) := by
  constructor
  · intro h
    induction h with
    | self h => exact ⟨h, .inr rfl⟩
    | @up j hj h ih =>
      refine ⟨hj, ?_⟩
      have := ih
      simp only [demoRobot] at this
      split at this <;> omega
  · rintro ⟨hj, rfl | rfl⟩
    · by_cases h : j = 1
      · subst h; exact .self (by omega)
      · refine .up hj ?_
        have : demoRobot.parent j = 1 := by simp only [demoRobot]; rw [if_neg (by omega)]
        rw [this]
        exact .self (by omega)
    · exact .self ha

theorem demoRobot_fkR (q : Nat → ℝ) (n j : Nat) : (demoRobot.fkLoop q n j).R = 1 := by
  induction n generalizing j with
  | zero => rfl
  | succ n ih =>
    unfold Robot.fkLoop
    split
    · rfl
    · have : (demoRobot.local_ q j).R = 1 := by
        simp [Robot.local_, demoRobot, SE3.mul]
      simp [SE3.mul, ih, this]

/-- The Jacobians satisfy the contract. -/
theorem demoCols_ok (q : Nat → ℝ) : demoRobot.Kinematic q (demoCols q) where
  pose := rfl
  joint := fun c => ⟨c.val + 1, by omega, by simp only [demoRobot]; omega, by simp only [Robot.VVar, demoRobot]; omega⟩
  moves := fun c a h h' hv => by
    have hv : a = c.val + 1 := by simp only [Robot.VVar, demoRobot] at hv; omega
    have hR : ∀ j, ((demoCols q).M j).R = 1 := fun j => demoRobot_fkR q j j
    refine ⟨![1, 0, 0], 0, fun j => ⟨fun hj => ?_, fun hj => ?_⟩⟩
    · rw [demoRobot_anc a j h] at hj
      have hj' : 0 < j ∧ (c.val = 0 ∨ c.val + 1 = j) := by omega
      refine ⟨?_, ?_⟩
      · rw [hR]; funext i; simp [demoCols]
      · rw [hR]; funext i; fin_cases i
        · simp only [demoCols, Matrix.one_mulVec, Matrix.of_apply]
          rw [if_pos ⟨rfl, hj'⟩]
          simp
        · simp [demoCols]
        · simp [demoCols]
    · rw [demoRobot_anc a j h] at hj
      have hj' : ¬ (0 < j ∧ (c.val = 0 ∨ c.val + 1 = j)) := by omega
      refine ⟨?_, ?_⟩
      · rw [hR]; funext i; simp [demoCols]
      · rw [hR]; funext i; simp only [demoCols, Matrix.one_mulVec, Matrix.of_apply, map_zero, LinearMap.zero_apply, add_zero, Pi.zero_apply]
        rw [if_neg (fun h => hj' h.2)]

/-- A relative transformation between joints 2 and 3: the first column is not active; the Jacobian of each joint has a non zero one. -/
example (q : Nat → ℝ) : ∃ s : GTS, s = (GTS.new demoRobot true true true false (List.replicate 6 true)).run demoRobot
      [.joint1 (some 2), .joint2 (some 3)] ∧ s.active.2[(0 : Fin 3).val]? ≠ some true ∧ s.active.2[(1 : Fin 3).val]? = some true ∧
    (demoCols q).Jv 2 0 0 = 1 ∧ (demoCols q).Jv 3 0 0 = 1 ∧ s.g.Ok ∧
    (∀ B, s.jtranslation (demoCols q) = some B → ∀ i, B i 0 = 0) := by
  refine ⟨_, rfl, ?_, ?_, by simp [demoCols], by simp [demoCols], ⟨rfl, .inl rfl, fun h => absurd (show false = true from h) (by decide), one_isRot, one_isRot⟩, ?_⟩
  · decide
  · decide
  · exact (C107_transformation (e := 0) demoRobot_ok true true true false _ _ _ rfl (.inl (by decide)) (by decide) (by decide)
      (demoCols_ok q) (by decide)).1

end Hpp.Pose
