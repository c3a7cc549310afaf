import Verif.Solve.ShortestProps
import Verif.Solve.Newton

/-!
# The order of the rows of a level does not matter (C128)

`computeDescentDirection` uses the levels through the squared norms of the linearised errors only.
-/

namespace Hpp

open Matrix

variable {α : Type}

/-- Specification: two levels that have the same squared norm of the linearised error for all steps. -/
structure DLevel.Same [Field α] {n : Nat} (d d' : DLevel α n) : Prop where
  empty : d.m = 0 ↔ d'.m = 0
  cost : ∀ x, d.cost x = d'.cost x

section
variable [Field α] [LinearOrder α] [IsStrictOrderedRing α] {n : Nat}

omit [LinearOrder α] [IsStrictOrderedRing α] in
theorem cost_expand (d : DLevel α n) (x : Fin n → α) :
    d.cost x = (d.J *ᵥ x) ⬝ᵥ (d.J *ᵥ x) + 2 * ((d.J *ᵥ x) ⬝ᵥ d.e) + d.e ⬝ᵥ d.e := by
  unfold DLevel.cost
  rw [add_dotProduct, dotProduct_add, dotProduct_add, dotProduct_comm d.e (d.J *ᵥ x)]
  ring

theorem DLevel.Same.parts {d d' : DLevel α n} (h : d.Same d') (x : Fin n → α) :
    (d.J *ᵥ x) ⬝ᵥ (d.J *ᵥ x) = (d'.J *ᵥ x) ⬝ᵥ (d'.J *ᵥ x) ∧ (d.J *ᵥ x) ⬝ᵥ d.e = (d'.J *ᵥ x) ⬝ᵥ d'.e := by
  have h0 := h.cost 0
  have h1 := h.cost x
  have h2 := h.cost (-x)
  simp only [cost_expand, mulVec_neg, mulVec_zero, neg_dotProduct, dotProduct_neg, zero_dotProduct, dotProduct_zero, neg_neg] at h0 h1 h2
  constructor <;> linarith

omit [LinearOrder α] [IsStrictOrderedRing α] in
theorem resid_dot (d : DLevel α n) (x : Fin n → α) : (-d.e - d.J *ᵥ x) ⬝ᵥ (-d.e - d.J *ᵥ x) = d.cost x := by
  have : -d.e - d.J *ᵥ x = -(d.J *ᵥ x + d.e) := by abel
  rw [this, neg_dotProduct, dotProduct_neg, neg_neg]
  rfl

/-- Two steps that are orthogonal to the same set of remaining steps are the same. -/
theorem step_unique {k k' : Nat} (Q : Matrix (Fin n) (Fin k) α) (Q' : Matrix (Fin n) (Fin k') α) (dq z z' : Fin n → α)
    (hset : Reach (some ⟨k, Q⟩) (dq + z) = Reach (some ⟨k', Q'⟩) (dq + z')) (h : ∀ u, z ⬝ᵥ (Q *ᵥ u) = 0)
    (h' : ∀ u, z' ⬝ᵥ (Q' *ᵥ u) = 0) : z = z' ∧ ∀ v, (∃ y, v = Q *ᵥ y) ↔ ∃ y, v = Q' *ᵥ y := by
  have m1 : dq + z' ∈ Reach (some ⟨k, Q⟩) (dq + z) := by rw [hset]; exact reach_mem _ _
  have m2 : dq + z ∈ Reach (some ⟨k', Q'⟩) (dq + z') := by rw [← hset]; exact reach_mem _ _
  obtain ⟨u, hu⟩ := m1
  obtain ⟨u', hu'⟩ := m2
  have e1 : z' - z = Q *ᵥ u := by
    have : dq + z' - (dq + z) = Q *ᵥ u := by rw [hu]; abel
    rw [← this]; abel
  have e2 : z' - z = -(Q' *ᵥ u') := by
    have : dq + z - (dq + z') = Q' *ᵥ u' := by rw [hu']; abel
    rw [← this]; abel
  have hz : (z' - z) ⬝ᵥ (z' - z) = 0 := by
    rw [sub_dotProduct]
    have a1 : z ⬝ᵥ (z' - z) = 0 := by rw [e1]; exact h u
    have a2 : z' ⬝ᵥ (z' - z) = 0 := by rw [e2, dotProduct_neg, h', neg_zero]
    rw [a1, a2, sub_zero]
  have hzz : z = z' := (sub_eq_zero.1 (dot_self_zero hz)).symm
  refine ⟨hzz, fun v => ?_⟩
  subst hzz
  have e : ∀ {k : Nat} (Q : Matrix (Fin n) (Fin k) α), (∃ y, v = Q *ᵥ y) ↔ dq + z + v ∈ Reach (some ⟨k, Q⟩) (dq + z) := by
    intro k Q
    constructor
    · rintro ⟨y, rfl⟩; exact ⟨y, rfl⟩
    · rintro ⟨y, hy⟩; exact ⟨y, add_left_cancel hy⟩
  rw [e Q, e Q', hset]

omit [LinearOrder α] [IsStrictOrderedRing α] in
/-- A matrix with orthonormal columns has no column iff its range is reduced to zero. -/
theorem cols_zero_iff {k : Nat} (Q : Matrix (Fin n) (Fin k) α) (h : Qᵀ * Q = 1) : k = 0 ↔ ∀ y, Q *ᵥ y = 0 := by
  constructor
  · intro hk y
    subst hk
    funext i
    simp [mulVec, dotProduct]
  · intro h0
    by_contra hk
    obtain ⟨k, rfl⟩ := Nat.exists_eq_succ_of_ne_zero hk
    have h1 := h0 (Pi.single 0 1)
    have h2 : (Qᵀ * Q) *ᵥ Pi.single 0 1 = 0 := by rw [← mulVec_mulVec, h1, mulVec_zero]
    rw [h, one_mulVec] at h2
    have := congrFun h2 0
    simp at this

/-- Projectors with the same range -/
def ProjSame (p p' : Proj α n) : Prop :=
  match p, p' with
  | none, none => True
  | some ⟨_, P⟩, some ⟨_, P'⟩ => Pᵀ * P = 1 ∧ P'ᵀ * P' = 1 ∧ ∀ v, (∃ y, v = P *ᵥ y) ↔ ∃ y, v = P' *ᵥ y
  | _, _ => False

omit [LinearOrder α] [IsStrictOrderedRing α] in
theorem projSame_zero {k k' : Nat} {P : Matrix (Fin n) (Fin k) α} {P' : Matrix (Fin n) (Fin k') α}
    (h : ProjSame (some ⟨k, P⟩) (some ⟨k', P'⟩)) : k = 0 ↔ k' = 0 := by
  obtain ⟨h1, h2, h3⟩ := h
  rw [cols_zero_iff P h1, cols_zero_iff P' h2]
  constructor
  · intro h y
    obtain ⟨y', hy'⟩ := (h3 (P' *ᵥ y)).2 ⟨y, rfl⟩
    rw [hy', h]
  · intro h y
    obtain ⟨y', hy'⟩ := (h3 (P *ᵥ y)).1 ⟨y, rfl⟩
    rw [hy', h]

/-- One level without projector -/
theorem same_none {o o' : SvdOps α} (ho : o.Exact) (hor : o.Ortho) (ho' : o'.Exact) (hor' : o'.Ortho) {d d' : DLevel α n}
    (h : d.Same d') (dq : Fin n → α) :
    o.solve d.J (-d.e - d.J *ᵥ dq) = o'.solve d'.J (-d'.e - d'.J *ᵥ dq) ∧
      ProjSame (some (o.ker d.J)) (some (o'.ker d'.J)) := by
  have hset : Reach (some (o.ker d.J)) (dq + o.solve d.J (-d.e - d.J *ᵥ dq)) =
      Reach (some (o'.ker d'.J)) (dq + o'.solve d'.J (-d'.e - d'.J *ᵥ dq)) := by
    rw [← level_none ho d dq _ rfl, ← level_none ho' d' dq _ rfl]
    simp only [h.cost]
  have orth : ∀ {o : SvdOps α}, o.Exact → ∀ (d : DLevel α n) (b : Fin d.m → α) u,
      o.solve d.J b ⬝ᵥ ((o.ker d.J).2 *ᵥ u) = 0 := by
    intro o ho d b u
    obtain ⟨w, hw⟩ := ho.range d.J b
    rw [hw, dot_mulVec_left, mulVec_mulVec, ho.ker_sub, zero_mulVec, dotProduct_zero]
  obtain ⟨h1, h2⟩ := step_unique _ _ dq _ _ hset (orth ho d _) (orth ho' d' _)
  exact ⟨h1, hor _, hor' _, h2⟩

/-- One level with a projector -/
theorem same_some {o o' : SvdOps α} (ho : o.Exact) (hor : o.Ortho) (ho' : o'.Exact) (hor' : o'.Ortho) {d d' : DLevel α n}
    (h : d.Same d') {k k' : Nat} {P : Matrix (Fin n) (Fin k) α} {P' : Matrix (Fin n) (Fin k') α}
    (hp : ProjSame (some ⟨k, P⟩) (some ⟨k', P'⟩)) (dq : Fin n → α) :
    P *ᵥ o.solve (d.J * P) (-d.e - d.J *ᵥ dq) = P' *ᵥ o'.solve (d'.J * P') (-d'.e - d'.J *ᵥ dq) ∧
      ProjSame (some ⟨_, P * (o.ker (d.J * P)).2⟩) (some ⟨_, P' * (o'.ker (d'.J * P')).2⟩) := by
  obtain ⟨p1, p2, p3⟩ := hp
  have hr : Reach (some ⟨k, P⟩) dq = Reach (some ⟨k', P'⟩) dq := by
    ext x
    constructor
    · rintro ⟨y, rfl⟩
      obtain ⟨y', hy'⟩ := (p3 (P *ᵥ y)).1 ⟨y, rfl⟩
      exact ⟨y', by rw [hy']⟩
    · rintro ⟨y, rfl⟩
      obtain ⟨y', hy'⟩ := (p3 (P' *ᵥ y)).2 ⟨y, rfl⟩
      exact ⟨y', by rw [hy']⟩
  have hset := (level_some ho P d dq _ rfl).symm
  have hset' := level_some ho' P' d' dq _ rfl
  rw [hr] at hset
  simp only [h.cost] at hset
  rw [hset'] at hset
  have orth : ∀ {o : SvdOps α}, o.Exact → ∀ (d : DLevel α n) {k : Nat} (P : Matrix (Fin n) (Fin k) α), Pᵀ * P = 1 →
      ∀ (b : Fin d.m → α) u, (P *ᵥ o.solve (d.J * P) b) ⬝ᵥ ((P * (o.ker (d.J * P)).2) *ᵥ u) = 0 := by
    intro o ho d k P hP b u
    obtain ⟨w, hw⟩ := ho.range (d.J * P) b
    have e : ∀ a b : Fin k → α, (P *ᵥ a) ⬝ᵥ (P *ᵥ b) = a ⬝ᵥ b := by
      intro a b
      have := dot_mulVec_left Pᵀ a (P *ᵥ b)
      rw [transpose_transpose, mulVec_mulVec, hP, one_mulVec] at this
      exact this
    rw [← mulVec_mulVec, e, hw, dot_mulVec_left, mulVec_mulVec, ho.ker_sub, zero_mulVec, dotProduct_zero]
  have ortho : ∀ {o : SvdOps α}, o.Ortho → ∀ {m k : Nat} (M : Matrix (Fin m) (Fin k) α) (P : Matrix (Fin n) (Fin k) α), Pᵀ * P = 1 →
      (P * (o.ker M).2)ᵀ * (P * (o.ker M).2) = 1 := by
    intro o hor m k M P hP
    rw [transpose_mul, Matrix.mul_assoc, ← Matrix.mul_assoc Pᵀ P, hP, Matrix.one_mul, hor]
  obtain ⟨h1, h2⟩ := step_unique _ _ dq _ _ hset (orth ho d P p1 _) (orth ho' d' P' p2 _)
  exact ⟨h1, ortho hor _ P p1, ortho hor' _ P' p2, h2⟩

theorem descendLoop_same {o o' : SvdOps α} (ho : o.Exact) (hor : o.Ortho) (ho' : o'.Exact) (hor' : o'.Ortho) (byLevel : Bool) (thr : α)
    {ds ds' : List (DLevel α n)} (h : List.Forall₂ DLevel.Same ds ds') : ∀ (first : Bool) (p p' : Proj α n) (dq : Fin n → α),
    ProjSame p p' → (first = true → p = none) →
    descendLoop o byLevel thr first ds p dq = descendLoop o' byLevel thr first ds' p' dq := by
  induction h with
  | nil => intro first p p' dq _ _; rfl
  | @cons d d' ds ds' hd hds ih =>
    intro first p p' dq hp hf
    unfold descendLoop
    by_cases hm : d.m = 0
    · rw [if_pos hm, if_pos (hd.empty.1 hm)]
      exact ih false p p' dq hp (by simp)
    · rw [if_neg hm, if_neg (fun h => hm (hd.empty.2 h))]
      have hemp : ds'.isEmpty = ds.isEmpty := by
        cases hds <;> rfl
      rw [hemp]
      match p, p', hp, hf with
      | none, none, _, _ =>
        have hstep : ∃ dq₀ : Fin n → α, ∀ (o : SvdOps α) (d : DLevel α n),
            (if first = true then -d.e else -d.e - d.J *ᵥ dq) = -d.e - d.J *ᵥ dq₀ ∧
            (if first = true then o.solve d.J (if first = true then -d.e else -d.e - d.J *ᵥ dq)
              else dq + o.solve d.J (if first = true then -d.e else -d.e - d.J *ᵥ dq)) =
              dq₀ + o.solve d.J (-d.e - d.J *ᵥ dq₀) := by
          cases first with
          | false => exact ⟨dq, fun _ _ => ⟨by simp, by simp⟩⟩
          | true => exact ⟨0, fun _ _ => ⟨by simp, by simp⟩⟩
        obtain ⟨dq₀, hq⟩ := hstep
        obtain ⟨hs, hpj⟩ := same_none ho hor ho' hor' hd dq₀
        simp only
        rw [(hq o d).2, (hq o d).1, (hq o' d').2, (hq o' d').1, resid_dot, resid_dot, hd.cost, hs]
        have hz := projSame_zero hpj
        by_cases hk : (o.ker d.J).1 = 0
        · rw [if_pos hk, if_pos (hz.1 hk)]
        · rw [if_neg hk, if_neg (fun h => hk (hz.2 h)), ih false _ _ _ hpj (by simp)]
      | some ⟨k, P⟩, some ⟨k', P'⟩, hp, hf =>
        have hff : first = false := by
          cases first with
          | false => rfl
          | true => cases hf rfl
        subst hff
        simp only [Bool.false_eq_true, if_false]
        obtain ⟨hs, hpj⟩ := same_some ho hor ho' hor' hd hp dq
        rw [resid_dot, resid_dot, hd.cost, hs]
        have hz := projSame_zero hpj
        by_cases hk : (o.ker (d.J * P)).1 = 0
        · rw [if_pos hk, if_pos (hz.1 hk)]
        · rw [if_neg hk, if_neg (fun h => hk (hz.2 h)), ih false _ _ _ hpj (by simp)]

end

/-- C128. The descent direction depends on the levels only through the squared norms of their linearised errors, thus not on
the order of their rows: for any decompositions, with or without `solveLevelByLevel`, whatever previous iterations have left. -/
theorem C128_direction [Field α] [LinearOrder α] [IsStrictOrderedRing α] {o o' : SvdOps α} (ho : o.Exact) (hor : o.Ortho)
    (ho' : o'.Exact) (hor' : o'.Ortho) (byLevel : Bool) (thr : α) {n : Nat} {levels levels' : List (DLevel α n)}
    (h : List.Forall₂ DLevel.Same levels levels') (dq : Fin n → α) :
    descend o byLevel thr levels dq = descend o' byLevel thr levels' dq := by
  match levels, levels', h with
  | [], [], _ => rfl
  | [d], [d'], h =>
    obtain ⟨hd, -⟩ := List.forall₂_cons.1 h
    obtain ⟨hs, -⟩ := same_none ho hor ho' hor' hd 0
    simp only [mulVec_zero, sub_zero] at hs
    exact congrArg some hs
  | d :: e :: ds, d' :: e' :: ds', h =>
    exact congrArg some (descendLoop_same ho hor ho' hor' byLevel thr h true none none dq trivial fun _ => rfl)

/-- C128. So does the slope that the backtracking line search uses. -/
theorem C128_slope [Field α] [LinearOrder α] [IsStrictOrderedRing α] {n : Nat} {levels levels' : List (DLevel α n)}
    (h : List.Forall₂ DLevel.Same levels levels') (dq : Fin n → α) : localSlope levels dq = localSlope levels' dq := by
  unfold localSlope
  generalize (0 : α) = s
  induction h generalizing s with
  | nil => rfl
  | cons hd _ ih =>
    rw [List.foldl_cons, List.foldl_cons, (hd.parts dq).2]
    exact ih _

/-- C128. and the columns that saturation blocks. -/
theorem C128_saturation [Field α] [LinearOrder α] [IsStrictOrderedRing α] {n : Nat} {d d' : DLevel α n} (h : d.Same d')
    (s : Fin n → α) : (satLevel s d).Same (satLevel s d') := by
  have hg : d.Jᵀ *ᵥ d.e = d'.Jᵀ *ᵥ d'.e := by
    funext j
    have := (h.parts (Pi.single j 1)).2
    rw [dotProduct_comm, dotProduct_comm _ d'.e, ← dot_mulVec_left, ← dot_mulVec_left] at this
    simpa using this
  refine ⟨h.empty, fun x => ?_⟩
  set mk : Fin n → α := fun j => if s j * (d.Jᵀ *ᵥ d.e) j < 0 then 0 else x j with hmk
  have key : ∀ e : DLevel α n, e.Jᵀ *ᵥ e.e = d.Jᵀ *ᵥ d.e → (satLevel s e).cost x = e.cost mk := by
    intro e he
    have : (satLevel s e).J *ᵥ x = e.J *ᵥ mk := by
      funext i
      simp only [mulVec, dotProduct]
      refine Finset.sum_congr rfl fun j _ => ?_
      show (if s j * (e.Jᵀ *ᵥ e.e) j < 0 then 0 else e.J i j) * x j = e.J i j * mk j
      rw [he, hmk]
      dsimp only
      split <;> simp
    unfold DLevel.cost
    rw [this]
    rfl
  rw [key d rfl, key d' hg.symm, h.cost]

/-- A level whose rows are permuted is the same in the sense above. -/
theorem DLevel.Same.of_equiv [Field α] {n : Nat} {d d' : DLevel α n} (e : Fin d.m ≃ Fin d'.m) (hJ : ∀ i, d'.J (e i) = d.J i)
    (he : ∀ i, d'.e (e i) = d.e i) : d.Same d' := by
  have hm : d.m = d'.m := by simpa using Fintype.card_congr e
  refine ⟨by rw [hm], fun x => ?_⟩
  unfold DLevel.cost dotProduct
  refine Fintype.sum_equiv e _ _ fun i => ?_
  have h1 : (d'.J *ᵥ x) (e i) = (d.J *ᵥ x) i := by simp only [mulVec, hJ]
  simp only [Pi.add_apply, h1, he]

/-- Two rows exchanged -/
example : (⟨2, !![1, 2; 3, 4], ![5, 6]⟩ : DLevel ℝ 2).Same ⟨2, !![3, 4; 1, 2], ![6, 5]⟩ :=
  .of_equiv (Equiv.swap 0 1) (fun i => by fin_cases i <;> rfl) (fun i => by fin_cases i <;> rfl)

end Hpp
