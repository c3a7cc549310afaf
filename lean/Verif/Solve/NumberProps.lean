import Verif.Solve.OrderProps
import Verif.HI.OrderProps

/-!
# C137. Numbering of the variables: descent direction, line searches and iterations

Sources: `/repo/include/hpp/constraints/solver/impl/hierarchical-iterative.hh`, lines 39-181 and
`/repo/src/solver/hierarchical-iterative.cc`, lines 653-672 and 744-823.

The statement about solvers built by insertion of constraints is in `HI/NumberProps.lean`.
-/

namespace Hpp

open Matrix

variable {α : Type}

/-- Specification: the levels are the same up to the numbering `e` of the variables: same squared norm of the linearised error for the
same step. -/
structure DLevel.Renumbered [Field α] {n n' : Nat} (e : Fin n ≃ Fin n') (d : DLevel α n) (d' : DLevel α n') : Prop where
  empty : d.m = 0 ↔ d'.m = 0
  cost : ∀ x, d'.cost (x ∘ e.symm) = d.cost x

/-- A level with the columns of its Jacobian in the other order -/
def DLevel.cols [Field α] {n n' : Nat} (e : Fin n ≃ Fin n') (d : DLevel α n') : DLevel α n := ⟨d.m, d.J.submatrix id e, d.e⟩

section
variable [Field α] {n n' : Nat}

theorem cols_mulVec {m : Nat} (e : Fin n ≃ Fin n') (J : Matrix (Fin m) (Fin n') α) (x : Fin n → α) :
    J.submatrix id e *ᵥ x = J *ᵥ (x ∘ e.symm) := by
  funext i
  show ∑ j, J i (e j) * x j = ∑ j, J i j * x (e.symm j)
  rw [← Equiv.sum_comp e]
  simp

theorem cols_cost (e : Fin n ≃ Fin n') (d : DLevel α n') (x : Fin n → α) : (d.cols e).cost x = d.cost (x ∘ e.symm) := by
  show (d.J.submatrix id e *ᵥ x + d.e) ⬝ᵥ (d.J.submatrix id e *ᵥ x + d.e) = _
  rw [cols_mulVec]
  rfl

theorem DLevel.Renumbered.same {e : Fin n ≃ Fin n'} {d : DLevel α n} {d' : DLevel α n'} (h : d.Renumbered e d') : d.Same (d'.cols e) :=
  ⟨h.empty, fun x => by rw [cols_cost, h.cost]⟩

theorem forall₂_cols {e : Fin n ≃ Fin n'} {L : List (DLevel α n)} {L' : List (DLevel α n')} (h : List.Forall₂ (DLevel.Renumbered e) L L') :
    List.Forall₂ DLevel.Same L (L'.map (DLevel.cols e)) := by
  induction h with
  | nil => exact .nil
  | cons hd _ ih => exact .cons hd.same ih

/-- The decompositions, applied to the matrices with their columns in another order -/
def SvdOps.renumber (E : ∀ k, Equiv.Perm (Fin k)) (o : SvdOps α) : SvdOps α where
  solve {_ k} M b := o.solve (M.submatrix id (E k).symm) b ∘ E k
  ker {_ k} M := ⟨_, (o.ker (M.submatrix id (E k).symm)).2.submatrix (E k) id⟩

end

section
variable [Field α] [LinearOrder α] [IsStrictOrderedRing α] {n n' : Nat}

omit [LinearOrder α] [IsStrictOrderedRing α] in
theorem perm_mulVec {m k : Nat} (M : Matrix (Fin m) (Fin k) α) (e : Equiv.Perm (Fin k)) (x : Fin k → α) :
    M.submatrix id e.symm *ᵥ x = M *ᵥ (x ∘ e) := by
  have := cols_mulVec e.symm M x
  simpa using this

omit [IsStrictOrderedRing α] in
theorem SvdOps.Exact.renumber (E : ∀ k, Equiv.Perm (Fin k)) {o : SvdOps α} (h : o.Exact) : (o.renumber E).Exact where
  ls {m k} M b y := by
    have h1 := h.ls (M.submatrix id (E k).symm) b (y ∘ (E k).symm)
    rw [perm_mulVec, perm_mulVec] at h1
    have e2 : (y ∘ (E k).symm) ∘ E k = y := by funext i; simp
    rw [e2] at h1
    exact h1
  range {m k} M b := by
    obtain ⟨w, hw⟩ := h.range (M.submatrix id (E k).symm) b
    refine ⟨w, ?_⟩
    show o.solve (M.submatrix id (E k).symm) b ∘ E k = _
    rw [hw]
    funext i
    show ∑ j, M j ((E k).symm (E k i)) * w j = ∑ j, M j i * w j
    rw [Equiv.symm_apply_apply]
  ker_sub {m k} M := by
    have h1 := h.ker_sub (M.submatrix id (E k).symm)
    refine Eq.trans ?_ h1
    funext i j
    show ∑ l, M i l * (o.ker (M.submatrix id (E k).symm)).2 (E k l) j =
      ∑ l, M i ((E k).symm l) * (o.ker (M.submatrix id (E k).symm)).2 l j
    rw [← Equiv.sum_comp (E k) (fun l => M i ((E k).symm l) * (o.ker (M.submatrix id (E k).symm)).2 l j)]
    simp
  ker_sup {m k} M x hx := by
    obtain ⟨y, hy⟩ := h.ker_sup (M.submatrix id (E k).symm) (x ∘ (E k).symm) (by
      rw [perm_mulVec]
      have e2 : (x ∘ (E k).symm) ∘ E k = x := by funext i; simp
      rw [e2, hx])
    refine ⟨y, ?_⟩
    funext i
    have := congrFun hy (E k i)
    simp only [Function.comp_apply, Equiv.symm_apply_apply] at this
    exact this

omit [LinearOrder α] [IsStrictOrderedRing α] in
theorem SvdOps.Ortho.renumber (E : ∀ k, Equiv.Perm (Fin k)) {o : SvdOps α} (h : o.Ortho) : (o.renumber E).Ortho := by
  intro m k M
  have h1 := h (M.submatrix id (E k).symm)
  show ((o.ker (M.submatrix id (E k).symm)).2.submatrix (E k) id)ᵀ * (o.ker (M.submatrix id (E k).symm)).2.submatrix (E k) id = 1
  rw [← h1]
  generalize (o.ker (M.submatrix id (E k).symm)).2 = K
  funext i j
  show ∑ l, K (E k l) i * K (E k l) j = ∑ l, K l i * K l j
  exact Equiv.sum_comp (E k) fun l => K l i * K l j

/-- Projectors with the same range, up to the numbering -/
def ProjRenumbered (e : Fin n ≃ Fin n') (p : Proj α n) (p' : Proj α n') : Prop :=
  ProjSame p (p'.map fun P => ⟨P.1, P.2.submatrix e id⟩)

omit [LinearOrder α] [IsStrictOrderedRing α] in
theorem cols_mul {m k : Nat} (e : Fin n ≃ Fin n') (J : Matrix (Fin m) (Fin n') α) (P : Matrix (Fin n') (Fin k) α) :
    J.submatrix id e * P.submatrix e id = J * P := by
  funext i j
  show ∑ l, J i (e l) * P (e l) j = ∑ l, J i l * P l j
  exact Equiv.sum_comp e fun l => J i l * P l j

/-- One level without projector -/
theorem renumbered_none {o o' : SvdOps α} (ho : o.Exact) (hor : o.Ortho) (ho' : o'.Exact) (hor' : o'.Ortho) {e : Fin n ≃ Fin n'}
    {d : DLevel α n} {d' : DLevel α n'} (h : d.Renumbered e d') (dq : Fin n → α) :
    o'.solve d'.J (-d'.e - d'.J *ᵥ (dq ∘ e.symm)) = o.solve d.J (-d.e - d.J *ᵥ dq) ∘ e.symm ∧
      ProjRenumbered e (some (o.ker d.J)) (some (o'.ker d'.J)) := by
  obtain rfl : n = n' := by simpa using Fintype.card_congr e
  obtain ⟨E, hE⟩ : ∃ E : ∀ k, Equiv.Perm (Fin k), E n = e :=
    ⟨Function.update (fun _ => 1) n e, by simp⟩
  obtain ⟨h1, h2⟩ := same_none ho hor (ho'.renumber E) (hor'.renumber E) h.same dq
  have hJ : ((d'.cols e).J).submatrix id (E n).symm = d'.J := by
    rw [hE]
    show (d'.J.submatrix id e).submatrix id e.symm = d'.J
    rw [submatrix_submatrix]
    funext i j
    simp
  constructor
  · rw [h1]
    show _ = (o'.solve (((d'.cols e).J).submatrix id (E n).symm) _ ∘ E n) ∘ e.symm
    rw [hJ, hE]
    show _ = (o'.solve d'.J (-d'.e - d'.J.submatrix id e *ᵥ dq) ∘ e) ∘ e.symm
    rw [cols_mulVec]
    funext i
    simp
  · have hk : (o'.renumber E).ker (d'.cols e).J = ⟨_, (o'.ker d'.J).2.submatrix e id⟩ := by
      show (⟨_, (o'.ker (((d'.cols e).J).submatrix id (E n).symm)).2.submatrix (E n) id⟩ : Σ r : Nat, Matrix (Fin n) (Fin r) α) = _
      rw [hJ, hE]
      rfl
    unfold ProjRenumbered
    rw [hk] at h2
    exact h2

/-- One level with a projector -/
theorem renumbered_some {o o' : SvdOps α} (ho : o.Exact) (hor : o.Ortho) (ho' : o'.Exact) (hor' : o'.Ortho) {e : Fin n ≃ Fin n'}
    {d : DLevel α n} {d' : DLevel α n'} (h : d.Renumbered e d') {k k' : Nat} {P : Matrix (Fin n) (Fin k) α} {P' : Matrix (Fin n') (Fin k') α}
    (hp : ProjRenumbered e (some ⟨k, P⟩) (some ⟨k', P'⟩)) (dq : Fin n → α) :
    P' *ᵥ o'.solve (d'.J * P') (-d'.e - d'.J *ᵥ (dq ∘ e.symm)) = (P *ᵥ o.solve (d.J * P) (-d.e - d.J *ᵥ dq)) ∘ e.symm ∧
      ProjRenumbered e (some ⟨_, P * (o.ker (d.J * P)).2⟩) (some ⟨_, P' * (o'.ker (d'.J * P')).2⟩) := by
  obtain ⟨h1, h2⟩ := same_some ho hor ho' hor' h.same (P' := P'.submatrix e id) hp dq
  have hJ : (d'.cols e).J * P'.submatrix e id = d'.J * P' := cols_mul e d'.J P'
  have hr : -(d'.cols e).e - (d'.cols e).J *ᵥ dq = -d'.e - d'.J *ᵥ (dq ∘ e.symm) := by
    show -d'.e - d'.J.submatrix id e *ᵥ dq = _
    rw [cols_mulVec]
  constructor
  · rw [h1]
    funext i
    show _ = (P'.submatrix e id *ᵥ o'.solve ((d'.cols e).J * P'.submatrix e id) (-(d'.cols e).e - (d'.cols e).J *ᵥ dq)) (e.symm i)
    rw [hJ, hr]
    show _ = ∑ j, P' (e (e.symm i)) j * _
    rw [Equiv.apply_symm_apply]
    rfl
  · unfold ProjRenumbered
    rw [hJ] at h2
    exact h2

theorem descendLoop_renumbered {o o' : SvdOps α} (ho : o.Exact) (hor : o.Ortho) (ho' : o'.Exact) (hor' : o'.Ortho) (byLevel : Bool) (thr : α)
    {e : Fin n ≃ Fin n'} {ds : List (DLevel α n)} {ds' : List (DLevel α n')} (h : List.Forall₂ (DLevel.Renumbered e) ds ds') :
    ∀ (first : Bool) (p : Proj α n) (p' : Proj α n') (dq : Fin n → α), ProjRenumbered e p p' → (first = true → p = none) →
    descendLoop o' byLevel thr first ds' p' (dq ∘ e.symm) = descendLoop o byLevel thr first ds p dq ∘ e.symm := by
  induction h with
  | nil => intro first p p' dq _ _; rfl
  | @cons d d' ds ds' hd hds ih =>
    intro first p p' dq hp hf
    unfold descendLoop
    by_cases hm : d.m = 0
    · rw [if_pos hm, if_pos (hd.empty.1 hm)]
      exact ih false p p' dq hp (by simp)
    · rw [if_neg hm, if_neg (fun h => hm (hd.empty.2 h))]
      have hemp : ds'.isEmpty = ds.isEmpty := by
        cases hds <;> rfl
      rw [hemp]
      have hadd : ∀ x y : Fin n → α, x ∘ e.symm + y ∘ e.symm = (x + y) ∘ e.symm := fun _ _ => rfl
      match p, p', hp, hf with
      | none, none, _, _ =>
        have hstep : ∃ dq₀ : Fin n → α, (∀ (o : SvdOps α) (d : DLevel α n),
            (if first = true then -d.e else -d.e - d.J *ᵥ dq) = -d.e - d.J *ᵥ dq₀ ∧
            (if first = true then o.solve d.J (if first = true then -d.e else -d.e - d.J *ᵥ dq)
              else dq + o.solve d.J (if first = true then -d.e else -d.e - d.J *ᵥ dq)) =
              dq₀ + o.solve d.J (-d.e - d.J *ᵥ dq₀)) ∧ ∀ (o : SvdOps α) (d : DLevel α n'),
            (if first = true then -d.e else -d.e - d.J *ᵥ (dq ∘ e.symm)) = -d.e - d.J *ᵥ (dq₀ ∘ e.symm) ∧
            (if first = true then o.solve d.J (if first = true then -d.e else -d.e - d.J *ᵥ (dq ∘ e.symm))
              else dq ∘ e.symm + o.solve d.J (if first = true then -d.e else -d.e - d.J *ᵥ (dq ∘ e.symm))) =
              dq₀ ∘ e.symm + o.solve d.J (-d.e - d.J *ᵥ (dq₀ ∘ e.symm)) := by
          cases first with
          | false => exact ⟨dq, fun _ _ => ⟨by simp, by simp⟩, fun _ _ => ⟨by simp, by simp⟩⟩
          | true =>
            have hz : (0 : Fin n → α) ∘ e.symm = 0 := rfl
            exact ⟨0, fun _ _ => ⟨by simp, by simp⟩, fun _ _ => by rw [hz]; exact ⟨by simp, by simp⟩⟩
        obtain ⟨dq₀, hq, hq'⟩ := hstep
        obtain ⟨hs, hpj⟩ := renumbered_none ho hor ho' hor' hd dq₀
        simp only
        rw [(hq o d).2, (hq o d).1, (hq' o' d').2, (hq' o' d').1, resid_dot, resid_dot, hd.cost, hs, hadd]
        have hz := projSame_zero hpj
        by_cases hk : (o.ker d.J).1 = 0
        · rw [if_pos hk, if_pos (hz.1 hk)]
          split
          · rfl
          · split <;> rfl
        · rw [if_neg hk, if_neg (fun h => hk (hz.2 h)), ih false _ _ _ hpj (by simp)]
          split
          · rfl
          · split <;> rfl
      | some ⟨k, P⟩, some ⟨k', P'⟩, hp, hf =>
        have hff : first = false := by
          cases first with
          | false => rfl
          | true => cases hf rfl
        subst hff
        simp only [Bool.false_eq_true, if_false]
        obtain ⟨hs, hpj⟩ := renumbered_some ho hor ho' hor' hd hp dq
        rw [resid_dot, resid_dot, hd.cost, hs, hadd]
        have hz := projSame_zero hpj
        by_cases hk : (o.ker (d.J * P)).1 = 0
        · rw [if_pos hk, if_pos (hz.1 hk)]
          split
          · rfl
          · split <;> rfl
        · rw [if_neg hk, if_neg (fun h => hk (hz.2 h)), ih false _ _ _ hpj (by simp)]
          split
          · rfl
          · split <;> rfl

/-- C137. The descent direction is the same, in the other numbering: for any decompositions, with or without
`solveLevelByLevel`, whatever previous iterations have left. -/
theorem C137_direction {o o' : SvdOps α} (ho : o.Exact) (hor : o.Ortho) (ho' : o'.Exact) (hor' : o'.Ortho) (byLevel : Bool) (thr : α)
    {e : Fin n ≃ Fin n'} {L : List (DLevel α n)} {L' : List (DLevel α n')} (h : List.Forall₂ (DLevel.Renumbered e) L L') (dq : Fin n → α) :
    descend o' byLevel thr L' (dq ∘ e.symm) = (descend o byLevel thr L dq).map (· ∘ e.symm) := by
  match L, L', h with
  | [], [], _ => rfl
  | [d], [d'], h =>
    obtain ⟨hd, -⟩ := List.forall₂_cons.1 h
    obtain ⟨hs, -⟩ := renumbered_none ho hor ho' hor' hd 0
    have hz : (0 : Fin n → α) ∘ e.symm = 0 := rfl
    simp only [hz, mulVec_zero, sub_zero] at hs
    exact congrArg some hs
  | d :: f :: ds, d' :: f' :: ds', h =>
    exact congrArg some (descendLoop_renumbered ho hor ho' hor' byLevel thr h true none none dq trivial fun _ => rfl)

/-- C137. The slope is the same, -/
theorem C137_slope {e : Fin n ≃ Fin n'} {L : List (DLevel α n)} {L' : List (DLevel α n')} (h : List.Forall₂ (DLevel.Renumbered e) L L')
    (dq : Fin n → α) : localSlope L' (dq ∘ e.symm) = localSlope L dq := by
  rw [C128_slope (forall₂_cols h) dq]
  unfold localSlope
  rw [List.foldl_map]
  congr 1
  funext s d
  show s + (d.J *ᵥ (dq ∘ e.symm)) ⬝ᵥ d.e = s + (d.J.submatrix id e *ᵥ dq) ⬝ᵥ d.e
  rw [cols_mulVec]

/-- C137. and saturation blocks the same columns. -/
theorem C137_saturation {e : Fin n ≃ Fin n'} {d : DLevel α n} {d' : DLevel α n'} (h : d.Renumbered e d') (s : Fin n → α) (s' : Fin n' → α)
    (hs : ∀ j, s' (e j) = s j) : (satLevel s d).Renumbered e (satLevel s' d') := by
  have h1 := C128_saturation h.same s
  have h2 : satLevel s (d'.cols e) = (satLevel s' d').cols e := by
    unfold satLevel DLevel.cols
    congr 1
    funext i j
    show (if s j * _ < 0 then 0 else d'.J i (e j)) = if s' (e j) * _ < 0 then 0 else d'.J i (e j)
    rw [hs]
    rfl
  rw [h2] at h1
  exact ⟨h1.empty, fun x => by rw [← cols_cost, h1.cost]⟩

end

/-! ## Line searches -/

/-- Specification: the line searches choose corresponding steps for two solvers that correspond to each other. -/
def LineSearch.SameFor {A A' S : Type} (φ : A → A') (ls : LineSearch A S) (ls' : LineSearch A' S) : Prop :=
  ∀ (V V' : Type) (ψ : V → V') (env : LsEnv A V ℝ) (env' : LsEnv A' V' ℝ) (slope : A → V → ℝ) (slope' : A' → V' → ℝ),
    (∀ q v, env'.integrate (φ q) (ψ v) = φ (env.integrate q v)) → (∀ a v, env'.smul a (ψ v) = ψ (env.smul a v)) →
    (∀ q, env'.err (φ q) = env.err q) → (∀ q v, slope' (φ q) (ψ v) = slope q v) → ∀ (st : S) (q : A) (u : V),
    (ls' V' env' slope' st (φ q) (ψ u)).1 = (ls V env slope st q u).1 ∧
    (ls' V' env' slope' st (φ q) (ψ u)).2.arg = φ (ls V env slope st q u).2.arg

theorem btLoop_sim {A A' V V' : Type} (φ : A → A') (ψ : V → V') (env : LsEnv A V ℝ) (env' : LsEnv A' V' ℝ)
    (h1 : ∀ q v, env'.integrate (φ q) (ψ v) = φ (env.integrate q v)) (h2 : ∀ a v, env'.smul a (ψ v) = ψ (env.smul a v))
    (h3 : ∀ q, env'.err (φ q) = env.err q) (p : BtParam ℝ) (q : A) (u : V) (f0 t : ℝ) : ∀ (fuel : Nat) (alpha : ℝ) (evals : Nat),
    (btLoop env' p (φ q) (ψ u) f0 t fuel alpha evals).map (·.arg) = (btLoop env p q u f0 t fuel alpha evals).map fun r => φ r.arg := by
  intro fuel
  induction fuel with
  | zero =>
    intro alpha evals
    unfold btLoop btFallback
    rw [h2, h1]
    split <;> rfl
  | succ fuel ih =>
    intro alpha evals
    unfold btLoop btFallback
    dsimp only
    rw [h2, h1, h2, h1, h3]
    split
    · split
      · rfl
      · exact ih _ _
    · rfl

/-- C137. The line searches of the library -/
theorem C137_line_searches {A A' : Type} (φ : A → A') (thr : ℝ) :
    LineSearch.SameFor φ lineConstant lineConstant ∧ LineSearch.SameFor φ lineBacktracking lineBacktracking ∧
    LineSearch.SameFor φ lineFixedSequence lineFixedSequence ∧
    LineSearch.SameFor φ (lineErrorNormBased thr) (lineErrorNormBased thr) := by
  refine ⟨?_, ?_, ?_, ?_⟩
  · intro V V' ψ env env' slope slope' h1 h2 h3 h4 st q u
    exact ⟨rfl, h1 q u⟩
  · intro V V' ψ env env' slope slope' h1 h2 h3 h4 st q u
    refine ⟨rfl, ?_⟩
    unfold lineBacktracking backtracking
    dsimp only
    rw [h4, h3]
    split
    · show env'.integrate _ (env'.smul _ _) = φ (env.integrate _ (env.smul _ _))
      rw [h2, h1]
    · have := btLoop_sim φ ψ env env' h1 h2 h3 (.default ℝ) q u (env.err q) (2 * (BtParam.default ℝ).c * slope q u) 5 1 0
      generalize btLoop env' _ _ _ _ _ _ _ _ = x' at this ⊢
      generalize btLoop env _ _ _ _ _ _ _ _ = x at this ⊢
      cases x <;> cases x'
      · rfl
      · simp at this
      · simp at this
      · simpa using this
  · intro V V' ψ env env' slope slope' h1 h2 h3 h4 st q u
    refine ⟨rfl, ?_⟩
    show env'.integrate _ (env'.smul _ _) = φ (env.integrate _ (env.smul _ _))
    rw [h2, h1]
  · intro V V' ψ env env' slope slope' h1 h2 h3 h4 st q u
    refine ⟨rfl, ?_⟩
    show env'.integrate _ (env'.smul _ _) = φ (env.integrate _ (env.smul _ _))
    rw [h2, h1, h3]

/-! ## Iterations -/

section
variable {A A' M M' : Type} [LinearOrder α]

theorem solveLoop_sim (φ : A → A') (μ : M → M') {o : Ops A M α} {o' : Ops A' M' α} (hn : ∀ a, o'.norm (φ a) = o.norm a)
    (hd : ∀ a m, o'.dir (φ a) (μ m) = (μ (o.dir a m).1, (o.dir a m).2))
    (hs : ∀ a m, o'.search (φ a) (μ m) = (φ (o.search a m).1, μ (o.search a m).2)) (thr dqMin : α) : ∀ (left iter dec : Nat)
    (prev : Option α) (a : A) (m : M) (n : α) (st : Option Status),
    solveLoop o' thr dqMin left iter dec prev (φ a) (μ m) n st =
      (fun r => ⟨φ r.arg, μ r.mem, r.iter, r.status⟩ : SolveOut A M → SolveOut A' M') (solveLoop o thr dqMin left iter dec prev a m n st) := by
  intro left
  induction left with
  | zero => intros; rfl
  | succ left ih =>
    intro iter dec prev a m n st
    unfold solveLoop
    simp only [hd, hs, hn]
    by_cases h1 : thr < n ∧ dec ≠ 0
    · rw [if_pos h1, if_pos h1]
      by_cases h2 : (o.dir a m).2 < dqMin
      · rw [if_pos h2, if_pos h2]
      · rw [if_neg h2, if_neg h2]
        cases prev <;> exact ih _ _ _ _ _ _ _
    · rw [if_neg h1, if_neg h1]

/-- C137. The iterations of solvers that correspond to each other. -/
theorem C137_iterations (φ : A → A') (μ : M → M') {o : Ops A M α} {o' : Ops A' M' α} (hn : ∀ a, o'.norm (φ a) = o.norm a)
    (hd : ∀ a m, o'.dir (φ a) (μ m) = (μ (o.dir a m).1, (o.dir a m).2))
    (hs : ∀ a m, o'.search (φ a) (μ m) = (φ (o.search a m).1, μ (o.search a m).2)) (thr dqMin : α) (maxIter rd : Nat) (a : A) (m : M) :
    solve o' thr dqMin maxIter rd (φ a) (μ m) =
      (fun r => ⟨φ r.arg, μ r.mem, r.iter, r.status⟩ : SolveOut A M → SolveOut A' M') (solve o thr dqMin maxIter rd a m) := by
  unfold solve
  simp only [hn]
  by_cases h1 : thr < o.norm a ∧ rd = 0
  · rw [if_pos h1, if_pos h1]
  · rw [if_neg h1, if_neg h1]
    exact solveLoop_sim φ μ hn hd hs thr dqMin _ _ _ none _ _ _ _

end

end Hpp
