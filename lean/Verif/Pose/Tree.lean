import Verif.Pose.SE3
import Verif.Common.Space
import Verif.Segments.Props

/-!
# Kinematic trees

Model of what the library uses of `pinocchio::Model` and `hpp::pinocchio::Joint` (external): joints numbered from 1, joint 0 is
the universe, the parent of a joint has a smaller number, the position of a joint is that of its parent times its
placement times the transform computed from its own configuration variables.
-/

namespace Hpp.Pose

open Matrix Hpp.Sym

/-- A robot.  `jt j v` is the transform of joint `j` for the values `v` of its variables. -/
structure Robot (α : Type) where
  njoints : Nat
  nq : Nat
  nv : Nat
  parent : Nat → Nat
  idxq : Nat → Nat
  jnq : Nat → Nat
  idxv : Nat → Nat
  jnv : Nat → Nat
  placement : Nat → SE3 α
  jt : Nat → List α → SE3 α

variable {α : Type} [CommRing α]

/-- Invariants of `pinocchio::Model`. -/
structure Robot.Ok (r : Robot α) : Prop where
  pos : 0 < r.njoints
  parent_lt : ∀ j, 0 < j → r.parent j < j
  qin : ∀ j, 0 < j → j < r.njoints → r.idxq j + r.jnq j ≤ r.nq
  vin : ∀ j, 0 < j → j < r.njoints → r.idxv j + r.jnv j ≤ r.nv
  qdisj : ∀ i j k, 0 < i → 0 < j → i < r.njoints → j < r.njoints → r.idxq i ≤ k → k < r.idxq i + r.jnq i →
    r.idxq j ≤ k → k < r.idxq j + r.jnq j → i = j
  vdisj : ∀ i j k, 0 < i → 0 < j → i < r.njoints → j < r.njoints → r.idxv i ≤ k → k < r.idxv i + r.jnv i →
    r.idxv j ≤ k → k < r.idxv j + r.jnv j → i = j
  rotp : ∀ j, IsRot (r.placement j).R
  rotj : ∀ j v, IsRot (r.jt j v).R

/-- Specification: `a` is `j` or an ancestor of `j` (the universe is nobody's ancestor). -/
inductive Robot.Anc (r : Robot α) : Nat → Nat → Prop where
  | self {j : Nat} : 0 < j → r.Anc j j
  | up {a j : Nat} : 0 < j → r.Anc a (r.parent j) → r.Anc a j

/-- Specification: joint `a` lies on the path between `i` and `j` in the tree. -/
def Robot.OnPath (r : Robot α) (i j a : Nat) : Prop := (r.Anc a i ∧ ¬ r.Anc a j) ∨ (r.Anc a j ∧ ¬ r.Anc a i)

/-- Specification: configuration variable `k` belongs to joint `j`. -/
def Robot.QVar (r : Robot α) (j k : Nat) : Prop := r.idxq j ≤ k ∧ k < r.idxq j + r.jnq j

/-- Specification: velocity variable `k` belongs to joint `j`. -/
def Robot.VVar (r : Robot α) (j k : Nat) : Prop := r.idxv j ≤ k ∧ k < r.idxv j + r.jnv j

/-- Joints visited by `while (joint && joint->index() != 0) joint = joint->parentJoint()`. -/
def Robot.chainLoop (r : Robot α) : Nat → Nat → List Nat
  | 0, _ => []
  | n + 1, j => if j = 0 then [] else j :: r.chainLoop n (r.parent j)

def Robot.chain (r : Robot α) (j : Nat) : List Nat := r.chainLoop j j

/-- Values of the configuration variables of a joint -/
def Robot.slice (r : Robot α) (q : Nat → α) (j : Nat) : List α := (List.range' (r.idxq j) (r.jnq j)).map q

/-- Transform of a joint with respect to its parent -/
def Robot.local_ (r : Robot α) (q : Nat → α) (j : Nat) : SE3 α := (r.placement j).mul (r.jt j (r.slice q j))

/-- Forward kinematics (pinocchio, external): `joint->currentTransformation()`. -/
def Robot.fkLoop (r : Robot α) (q : Nat → α) : Nat → Nat → SE3 α
  | 0, _ => SE3.one
  | n + 1, j => if j = 0 then SE3.one else (r.fkLoop q n (r.parent j)).mul (r.local_ q j)

def Robot.fk (r : Robot α) (q : Nat → α) (j : Nat) : SE3 α := r.fkLoop q j j

/-! ### Lemmas -/

omit [CommRing α] in
theorem Robot.chainLoop_mono {r : Robot α} (hp : ∀ j, 0 < j → r.parent j < j) {n j : Nat} (h : j ≤ n) :
    r.chainLoop n j = r.chainLoop j j := by
  induction n using Nat.strong_induction_on generalizing j with
  | _ n ih =>
    cases n with
    | zero => simp_all
    | succ n =>
      cases j with
      | zero => simp [Robot.chainLoop]
      | succ j =>
        have := hp (j + 1) (by omega)
        simp only [Robot.chainLoop, Nat.add_eq_zero_iff, one_ne_zero, and_false, if_false]
        rw [ih n (by omega) (j := r.parent (j + 1)) (by omega), ih j (by omega) (j := r.parent (j + 1)) (by omega)]

omit [CommRing α] in
theorem Robot.chain_zero (r : Robot α) : r.chain 0 = [] := rfl

omit [CommRing α] in
theorem Robot.chain_pos {r : Robot α} (hp : ∀ j, 0 < j → r.parent j < j) {j : Nat} (h : 0 < j) :
    r.chain j = j :: r.chain (r.parent j) := by
  obtain ⟨j, rfl⟩ : ∃ m, j = m + 1 := ⟨j - 1, by omega⟩
  have := hp (j + 1) (by omega)
  unfold Robot.chain
  conv_lhs => rw [Robot.chainLoop]
  simp only [Nat.add_eq_zero_iff, one_ne_zero, and_false, if_false]
  rw [chainLoop_mono hp (by omega)]

omit [CommRing α] in
theorem Robot.mem_chain {r : Robot α} (hp : ∀ j, 0 < j → r.parent j < j) {a j : Nat} : a ∈ r.chain j ↔ r.Anc a j := by
  induction j using Nat.strong_induction_on with
  | _ j ih =>
    rcases Nat.eq_zero_or_pos j with rfl | h
    · rw [chain_zero]
      constructor
      · intro h; simp at h
      · intro h; cases h <;> omega
    · rw [chain_pos hp h, List.mem_cons, ih _ (hp j h)]
      constructor
      · rintro (rfl | h')
        · exact .self h
        · exact .up h h'
      · intro h'
        cases h' with
        | self _ => left; rfl
        | up _ h' => right; exact h'

omit [CommRing α] in
theorem Robot.Anc.le {r : Robot α} (hp : ∀ j, 0 < j → r.parent j < j) {a j : Nat} (h : r.Anc a j) : a ≤ j ∧ 0 < a := by
  induction h with
  | self h => exact ⟨le_refl _, h⟩
  | up h _ ih => exact ⟨le_trans ih.1 (hp _ h).le, ih.2⟩

omit [CommRing α] in
theorem Robot.chain_sorted {r : Robot α} (hp : ∀ j, 0 < j → r.parent j < j) (j : Nat) : (r.chain j).Pairwise (· > ·) := by
  induction j using Nat.strong_induction_on with
  | _ j ih =>
    rcases Nat.eq_zero_or_pos j with rfl | h
    · simp [chain_zero]
    · rw [chain_pos hp h, List.pairwise_cons]
      refine ⟨fun a ha => ?_, ih _ (hp j h)⟩
      have := ((mem_chain hp).1 ha).le hp
      have := hp j h
      omega

omit [CommRing α] in
theorem Robot.chain_nodup {r : Robot α} (hp : ∀ j, 0 < j → r.parent j < j) (j : Nat) : (r.chain j).Nodup :=
  (r.chain_sorted hp j).imp fun h => Nat.ne_of_gt h

omit [CommRing α] in
/-- Two branches of the tree: they join at the closest common ancestor. -/
theorem Robot.chain_split {r : Robot α} (hp : ∀ j, 0 < j → r.parent j < j) (i j : Nat) :
    ∃ A B C, r.chain i = A ++ C ∧ r.chain j = B ++ C ∧ ∀ a ∈ A, a ∉ B := by
  induction h : i + j using Nat.strong_induction_on generalizing i j with
  | _ n ih =>
    rcases Nat.lt_trichotomy i j with hlt | rfl | hgt
    · have := hp j (by omega)
      obtain ⟨A, B, C, hA, hB, hd⟩ := ih (i + r.parent j) (by omega) i (r.parent j) rfl
      refine ⟨A, j :: B, C, hA, by rw [chain_pos hp (by omega), hB, List.cons_append], fun a ha hb => ?_⟩
      rcases List.mem_cons.1 hb with rfl | hb
      · have : a ∈ r.chain i := by rw [hA]; simp [ha]
        have := ((mem_chain hp).1 this).le hp
        omega
      · exact hd a ha hb
    · exact ⟨[], [], r.chain i, rfl, rfl, by simp⟩
    · have := hp i (by omega)
      obtain ⟨A, B, C, hA, hB, hd⟩ := ih (r.parent i + j) (by omega) (r.parent i) j rfl
      refine ⟨i :: A, B, C, by rw [chain_pos hp (by omega), hA, List.cons_append], hB, fun a ha hb => ?_⟩
      rcases List.mem_cons.1 ha with rfl | ha
      · have : a ∈ r.chain j := by rw [hB]; simp [hb]
        have := ((mem_chain hp).1 this).le hp
        omega
      · exact hd a ha hb

omit [CommRing α] in
theorem Robot.onPath_split {r : Robot α} (hp : ∀ j, 0 < j → r.parent j < j) {i j : Nat} {A B C : List Nat}
    (hA : r.chain i = A ++ C) (hB : r.chain j = B ++ C) (hd : ∀ a ∈ A, a ∉ B) (a : Nat) :
    r.OnPath i j a ↔ a ∈ A ∨ a ∈ B := by
  have nA := r.chain_nodup hp i
  have nB := r.chain_nodup hp j
  rw [hA, List.nodup_append] at nA
  rw [hB, List.nodup_append] at nB
  unfold OnPath
  rw [← mem_chain hp, ← mem_chain hp, hA, hB]
  simp only [List.mem_append]
  constructor
  · rintro (⟨h1 | h1, h2⟩ | ⟨h1 | h1, h2⟩)
    · exact .inl h1
    · exact absurd (.inr h1) h2
    · exact .inr h1
    · exact absurd (.inr h1) h2
  · rintro (h | h)
    · refine .inl ⟨.inl h, ?_⟩
      rintro (h' | h')
      · exact hd a h h'
      · exact nA.2.2 a h a h' rfl
    · refine .inr ⟨.inl h, ?_⟩
      rintro (h' | h')
      · exact hd a h' h
      · exact nB.2.2 a h a h' rfl

/-- Transform from the joint above the last element of a branch to its first element -/
def Robot.branch (r : Robot α) (q : Nat → α) : List Nat → SE3 α
  | [] => SE3.one
  | j :: l => (r.branch q l).mul (r.local_ q j)

theorem Robot.branch_append (r : Robot α) (q : Nat → α) (A C : List Nat) :
    r.branch q (A ++ C) = (r.branch q C).mul (r.branch q A) := by
  induction A with
  | nil => simp [branch, SE3.mul_one]
  | cons a A ih => simp [branch, ih, SE3.mul_assoc]

theorem Robot.fkLoop_branch (r : Robot α) (q : Nat → α) (n j : Nat) : r.fkLoop q n j = r.branch q (r.chainLoop n j) := by
  induction n generalizing j with
  | zero => rfl
  | succ n ih =>
    simp only [fkLoop, chainLoop]
    split
    · rfl
    · simp [branch, ih]

theorem Robot.fk_branch (r : Robot α) (q : Nat → α) (j : Nat) : r.fk q j = r.branch q (r.chain j) := r.fkLoop_branch q j j

theorem Robot.branch_rot {r : Robot α} (h : r.Ok) (q : Nat → α) (l : List Nat) : IsRot (r.branch q l).R := by
  induction l with
  | nil => exact ⟨by simp [branch, SE3.one], by simp [branch, SE3.one]⟩
  | cons j l ih => exact ih.mul ((h.rotp j).mul (h.rotj j _))

theorem Robot.fk_rot {r : Robot α} (h : r.Ok) (q : Nat → α) (j : Nat) : IsRot (r.fk q j).R := by
  rw [fk_branch]; exact branch_rot h q _

theorem Robot.branch_congr (r : Robot α) {q q' : Nat → α} {l : List Nat}
    (h : ∀ j ∈ l, ∀ k, r.QVar j k → q k = q' k) : r.branch q l = r.branch q' l := by
  induction l with
  | nil => rfl
  | cons j l ih =>
    simp only [branch]
    rw [ih (fun i hi => h i (List.mem_cons_of_mem _ hi))]
    have : r.slice q j = r.slice q' j := by
      unfold slice
      refine List.map_congr_left fun k hk => h j List.mem_cons_self k ?_
      rw [List.mem_range'_1] at hk
      exact hk
    rw [local_, this]
    rfl

theorem SE3.actInv_mul {C A B : SE3 α} (h : IsRot C.R) : (C.mul A).actInv (C.mul B) = A.actInv B := by
  refine SE3.ext' ?_ ?_
  · simp only [SE3.actInv, SE3.mul, transpose_mul, Matrix.mul_assoc]
    rw [← Matrix.mul_assoc C.Rᵀ, h.1, Matrix.one_mul]
  · simp only [SE3.actInv, SE3.mul, transpose_mul]
    have : C.R *ᵥ B.p + C.p - (C.R *ᵥ A.p + C.p) = C.R *ᵥ (B.p - A.p) := by rw [mulVec_sub]; abel
    rw [this, mulVec_mulVec, Matrix.mul_assoc, h.1, Matrix.mul_one]

/-- The relative position of two joints depends only on the variables of the joints on the path between them. -/
theorem Robot.rel_congr {r : Robot α} (h : r.Ok) {q q' : Nat → α} {i j : Nat}
    (he : ∀ a, r.OnPath i j a → ∀ k, r.QVar a k → q k = q' k) :
    (r.fk q i).actInv (r.fk q j) = (r.fk q' i).actInv (r.fk q' j) := by
  obtain ⟨A, B, C, hA, hB, hd⟩ := r.chain_split h.parent_lt i j
  have hp := r.onPath_split h.parent_lt hA hB hd
  simp only [fk_branch, hA, hB, branch_append, SE3.actInv_mul (branch_rot h q C), SE3.actInv_mul (branch_rot h q' C)]
  rw [r.branch_congr fun a ha => he a ((hp a).2 (.inl ha)), r.branch_congr fun a ha => he a ((hp a).2 (.inr ha))]

omit [CommRing α] in
/-- Joints on a path are joints of the robot. -/
theorem Robot.OnPath.bounds {r : Robot α} (hp : ∀ j, 0 < j → r.parent j < j) {i j a : Nat} (h : r.OnPath i j a) :
    0 < a ∧ (a ≤ i ∨ a ≤ j) := by
  rcases h with ⟨h, -⟩ | ⟨h, -⟩
  · exact ⟨(h.le hp).2, .inl (h.le hp).1⟩
  · exact ⟨(h.le hp).2, .inr (h.le hp).1⟩

end Hpp.Pose
