import Verif.Solve.NumberProps
import Verif.Solve.Redundant
import Verif.Solve.SlopeProps

/-!
# C140. The unit of the configuration variables

Sources: `/repo/src/solver/hierarchical-iterative.cc`, lines 623-672 and 744-828 and
`/repo/include/hpp/constraints/solver/impl/hierarchical-iterative.hh`, lines 39-181.
-/

namespace Hpp

open Matrix

variable {α : Type}

/-- Specification: the same level with variables in other units: the velocity `x` becomes `c j * x j`. -/
structure DLevel.InUnits [Field α] {n : Nat} (c : Fin n → α) (d d' : DLevel α n) : Prop where
  empty : d.m = 0 ↔ d'.m = 0
  cost : ∀ x, d'.cost (fun j => c j * x j) = d.cost x

/-- Specification: the linearised constraints determine the velocities of all variables that they read. -/
def Determined [Field α] {n : Nat} (L : List (DLevel α n)) : Prop :=
  ∀ v, (∀ d ∈ L, d.J *ᵥ v = 0) → ∀ j, v j ≠ 0 → ∀ d ∈ L, ∀ i, d.J i j = 0

section
variable [Field α] [LinearOrder α] [IsStrictOrderedRing α] {n : Nat} {c : Fin n → α}

/-- The level with columns multiplied -/
def DLevel.scaled (c : Fin n → α) (d : DLevel α n) : DLevel α n := ⟨d.m, fun i j => d.J i j * c j, d.e⟩

omit [LinearOrder α] [IsStrictOrderedRing α] in
theorem scaled_mulVec (c : Fin n → α) (d : DLevel α n) (x : Fin n → α) : (d.scaled c).J *ᵥ x = d.J *ᵥ fun j => c j * x j := by
  funext i
  show ∑ j, d.J i j * c j * x j = ∑ j, d.J i j * (c j * x j)
  exact Finset.sum_congr rfl fun j _ => mul_assoc _ _ _

omit [LinearOrder α] [IsStrictOrderedRing α] in
theorem scaled_cost (c : Fin n → α) (d : DLevel α n) (x : Fin n → α) : (d.scaled c).cost x = d.cost fun j => c j * x j := by
  unfold DLevel.cost
  rw [scaled_mulVec]
  rfl

omit [LinearOrder α] [IsStrictOrderedRing α] in
theorem DLevel.InUnits.same {d d' : DLevel α n} (h : d.InUnits c d') : d.Same (d'.scaled c) :=
  ⟨h.empty, fun x => by rw [scaled_cost, h.cost]⟩

omit [IsStrictOrderedRing α] in
theorem lexOpt_units (hc : ∀ j, c j ≠ 0) {L L' : List (DLevel α n)} (h : List.Forall₂ (DLevel.InUnits c) L L') :
    ∀ S : Set (Fin n → α), lexOpt {y | (fun j => (c j)⁻¹ * y j) ∈ S} L' = {y | (fun j => (c j)⁻¹ * y j) ∈ lexOpt S L} := by
  induction h with
  | nil => intro S; rfl
  | @cons d d' L L' hd _ ih =>
    intro S
    have hcost : ∀ y : Fin n → α, d'.cost y = d.cost fun j => (c j)⁻¹ * y j := by
      intro y
      rw [← hd.cost]
      congr 1
      funext j
      rw [mul_inv_cancel_left₀ (hc j)]
    show lexOpt {y | (fun j => (c j)⁻¹ * y j) ∈ S ∧ ∀ z, (fun j => (c j)⁻¹ * z j) ∈ S → d'.cost y ≤ d'.cost z} L' = _
    have e : {y | (fun j => (c j)⁻¹ * y j) ∈ S ∧ ∀ z, (fun j => (c j)⁻¹ * z j) ∈ S → d'.cost y ≤ d'.cost z} =
        {y | (fun j => (c j)⁻¹ * y j) ∈ {x | x ∈ S ∧ ∀ y ∈ S, d.cost x ≤ d.cost y}} := by
      ext y
      refine and_congr_right fun _ => ⟨fun H x hx => ?_, fun H z hz => ?_⟩
      · have hx' : (fun j => (c j)⁻¹ * (c j * x j)) = x := by
          funext j
          rw [inv_mul_cancel_left₀ (hc j)]
        have := H (fun j => c j * x j) (by rw [hx']; exact hx)
        rw [hcost, hcost (fun j => c j * x j), hx'] at this
        exact this
      · rw [hcost, hcost z]
        exact H _ hz
    rw [e, ih]
    rfl

/-- A variable that no linearised constraint reads (because it is blocked, for instance) does not move. -/
theorem unread_zero {o : SvdOps α} (ho : o.Exact) (hor : o.Ortho) (thr : α) {L : List (DLevel α n)} (hL : FirstLevel L) (dq : Fin n → α)
    {r : Fin n → α} (hr : descend o false thr L dq = some r) {j : Fin n} (hj : ∀ d ∈ L, ∀ i, d.J i j = 0) : r j = 0 := by
  have m : r ∈ lexOpt Set.univ L := C36_lexicographic o ho thr L dq hr
  have hJ : ∀ d ∈ L, d.J *ᵥ (Function.update r j 0) = d.J *ᵥ r := by
    intro d hd
    funext i
    show ∑ k, d.J i k * Function.update r j 0 k = ∑ k, d.J i k * r k
    refine Finset.sum_congr rfl fun k _ => ?_
    by_cases hk : k = j
    · subst hk; rw [hj d hd, zero_mul, zero_mul]
    · rw [Function.update_of_ne hk]
  have hm : ∀ (L : List (DLevel α n)) (S : Set (Fin n → α)) (x y : Fin n → α), (∀ d ∈ L, d.J *ᵥ y = d.J *ᵥ x) → x ∈ lexOpt S L → y ∈ S →
      y ∈ lexOpt S L := by
    intro L
    induction L with
    | nil => intro S x y _ _ hy; exact hy
    | cons d L ih =>
      intro S x y h hx hy
      have hx2 := lexOpt_sub L _ hx
      refine ih _ x y (fun d' hd' => h d' (List.mem_cons_of_mem _ hd')) hx ⟨hy, fun z hz => ?_⟩
      have e : d.cost y = d.cost x := by
        unfold DLevel.cost
        rw [h d (List.mem_cons_self ..)]
      rw [e]
      exact hx2.2 z hz
  obtain ⟨g1, -⟩ := C93_shortest_partial o ho hor thr L hL.cond dq hr _ (hm L _ _ _ hJ m trivial)
  have e1 : r ⬝ᵥ r = Function.update r j 0 ⬝ᵥ Function.update r j 0 + r j * r j := by
    unfold dotProduct
    rw [← Finset.add_sum_erase _ _ (Finset.mem_univ j), ← Finset.add_sum_erase _ (fun k => Function.update r j 0 k * _) (Finset.mem_univ j)]
    rw [Function.update_self, mul_zero, zero_add, add_comm]
    congr 1
    refine Finset.sum_congr rfl fun k hk => ?_
    rw [Function.update_of_ne (Finset.ne_of_mem_erase hk)]
  have h2 : r j * r j ≤ 0 := by linarith
  exact mul_self_eq_zero.1 (le_antisymm h2 (mul_self_nonneg _))

/-- The columns that are read are the same. -/
theorem DLevel.InUnits.unread (hc : ∀ j, c j ≠ 0) {d d' : DLevel α n} (h : d.InUnits c d') {j : Fin n} (hj : ∀ i, d.J i j = 0) (i : Fin d'.m) :
    d'.J i j = 0 := by
  have hk : ∀ x : Fin n → α, d'.cost (fun k => c k * (x + Pi.single j 1 : Fin n → α) k) = d'.cost (fun k => c k * x k) := by
    intro x
    rw [h.cost, h.cost]
    unfold DLevel.cost
    have : d.J *ᵥ (Pi.single j 1 : Fin n → α) = 0 := by
      funext i
      rw [mulVec_single_one]
      exact hj i
    rw [mulVec_add, this, add_zero]
  have e : ∀ x : Fin n → α, (fun k => c k * (x + Pi.single j 1 : Fin n → α) k) = (fun k => c k * x k) + Pi.single j (c j) := by
    intro x
    funext k
    by_cases hk : k = j
    · subst hk; simp [mul_add]
    · simp [Pi.single_eq_of_ne hk]
  set w : Fin d'.m → α := d'.J *ᵥ Pi.single j (c j) with hw
  have h3 : ∀ y : Fin d'.m → α, (∃ x : Fin n → α, y = d'.J *ᵥ (fun k => c k * x k) + d'.e) → (y + w) ⬝ᵥ (y + w) = y ⬝ᵥ y := by
    rintro y ⟨x, rfl⟩
    have := hk x
    rw [e] at this
    unfold DLevel.cost at this
    rw [mulVec_add, add_right_comm] at this
    exact this
  have h4 := h3 (d'.e) ⟨0, by simp; exact mulVec_zero _⟩
  have h5 := h3 (d'.e + w) ⟨Pi.single j 1, by
    have := e 0
    simp only [zero_add] at this
    rw [this]
    have z : (fun k => c k * (0 : Fin n → α) k) = 0 := by funext k; simp
    rw [z, zero_add, add_comm]⟩
  have h6 : w ⬝ᵥ w = 0 := by
    simp only [add_dotProduct, dotProduct_add] at h4 h5
    linarith
  have h7 : w i = 0 := by
    have h8 := (Finset.sum_eq_zero_iff_of_nonneg fun i _ => mul_self_nonneg (w i)).1 h6 i (Finset.mem_univ i)
    exact mul_self_eq_zero.1 h8
  have h8 : w i = d'.J i j * c j := by
    rw [hw, mulVec_single]
    show MulOpposite.op (c j) • d'.J i j = _
    rfl
  rw [h8] at h7
  exact (mul_eq_zero.1 h7).resolve_right (hc j)

/-- C140. If the linearised constraints determine the velocities of the variables that they read, the direction is the same in all
units, whatever the levels, the decompositions and what previous iterations have left. -/
theorem C140_direction {o o' : SvdOps α} (ho : o.Exact) (hor : o.Ortho) (ho' : o'.Exact) (hor' : o'.Ortho) (thr thr' : α)
    (hc : ∀ j, c j ≠ 0) {L L' : List (DLevel α n)} (hL : FirstLevel L) (hdet : Determined L) (h : List.Forall₂ (DLevel.InUnits c) L L')
    (dq dq' : Fin n → α) : descend o' false thr' L' dq' = (descend o false thr L dq).map fun x j => c j * x j := by
  have hL' : FirstLevel L' := by
    obtain ⟨d, ds, rfl, hd⟩ := hL
    cases h with
    | @cons _ d' _ ds' h1 h2 =>
      refine ⟨d', ds', rfl, hd.imp (fun h => ?_) fun h => ?_⟩
      · subst h; cases h2; rfl
      · rw [Ne, ← h1.empty]; exact h
  obtain ⟨r, hr⟩ := hL.some o thr dq
  obtain ⟨r', hr'⟩ := hL'.some o' thr' dq'
  have m : r ∈ lexOpt Set.univ L := C36_lexicographic o ho thr L dq hr
  have m' : r' ∈ lexOpt Set.univ L' := C36_lexicographic o' ho' thr' L' dq' hr'
  have e := lexOpt_units hc h Set.univ
  have m2 : (fun j => (c j)⁻¹ * r' j) ∈ lexOpt Set.univ L := by
    have : r' ∈ lexOpt {y | (fun j => (c j)⁻¹ * y j) ∈ (Set.univ : Set (Fin n → α))} L' := m'
    rw [e] at this
    exact this
  have hz := hdet (r - fun j => (c j)⁻¹ * r' j) fun d hd => by
    rw [mulVec_sub, sub_eq_zero]
    exact (lexOpt_image L Set.univ fun _ _ _ _ => trivial).2 _ m _ m2 d hd
  rw [hr, hr', Option.map_some]
  congr 1
  funext j
  by_cases hj : ∀ d ∈ L, ∀ i, d.J i j = 0
  · rw [unread_zero ho hor thr hL dq hr hj, mul_zero]
    refine unread_zero ho' hor' thr' hL' dq' hr' fun d' hd' => ?_
    obtain ⟨d, hd, hdd⟩ : ∃ d ∈ L, d.InUnits c d' := by
      clear hL hdet hL' hr hr' m m' e m2 hz hj
      induction h with
      | nil => cases hd'
      | @cons a b _ _ h1 _ ih =>
        rcases List.mem_cons.1 hd' with rfl | h2
        · exact ⟨a, List.mem_cons_self .., h1⟩
        · obtain ⟨d, g1, g2⟩ := ih h2
          exact ⟨d, List.mem_cons_of_mem _ g1, g2⟩
    exact hdd.unread hc (hj d hd)
  · have h1 : (r - fun j => (c j)⁻¹ * r' j) j = 0 := by
      by_contra h2
      exact hj (hz j h2)
    have h2 : r j - (c j)⁻¹ * r' j = 0 := h1
    rw [sub_eq_zero.1 h2, mul_inv_cancel_left₀ (hc j)]

/-- C140. So is the slope (even if they do not), -/
theorem C140_slope {L L' : List (DLevel α n)} (h : List.Forall₂ (DLevel.InUnits c) L L') (dq : Fin n → α) :
    localSlope L' (fun j => c j * dq j) = localSlope L dq := by
  have hs : List.Forall₂ DLevel.Same L (L'.map (DLevel.scaled c)) := by
    induction h with
    | nil => exact .nil
    | cons h1 _ ih => exact .cons h1.same ih
  rw [C128_slope hs dq]
  unfold localSlope
  rw [List.foldl_map]
  congr 1
  funext s d
  show s + (d.J *ᵥ fun j => c j * dq j) ⬝ᵥ d.e = s + ((d.scaled c).J *ᵥ dq) ⬝ᵥ d.e
  exact congrArg (fun v => s + v ⬝ᵥ d.e) (scaled_mulVec c d dq).symm

/-- C140. and saturation blocks the same columns. -/
theorem C140_saturation (hc : ∀ j, 0 < c j) {d d' : DLevel α n} (h : d.InUnits c d') (s : Fin n → α) :
    (satLevel s d).InUnits c (satLevel s d') := by
  have h1 := C128_saturation h.same s
  have h2 : satLevel s (d'.scaled c) = (satLevel s d').scaled c := by
    unfold satLevel
    show DLevel.mk d'.m _ _ = DLevel.mk d'.m _ _
    congr 1
    funext i j
    have hj : ((d'.scaled c).Jᵀ *ᵥ (d'.scaled c).e) j = c j * (d'.Jᵀ *ᵥ d'.e) j := by
      show ∑ i, d'.J i j * c j * d'.e i = c j * ∑ i, d'.J i j * d'.e i
      rw [Finset.mul_sum]
      exact Finset.sum_congr rfl fun i _ => by ring
    show (if s j * ((d'.scaled c).Jᵀ *ᵥ (d'.scaled c).e) j < 0 then 0 else d'.J i j * c j) =
      (if s j * (d'.Jᵀ *ᵥ d'.e) j < 0 then 0 else d'.J i j) * c j
    rw [hj, mul_left_comm, ite_mul, zero_mul]
    refine if_congr ?_ rfl rfl
    exact ⟨fun h => neg_of_mul_neg_right h (hc j).le, fun h => mul_neg_of_pos_of_neg (hc j) h⟩
  rw [h2] at h1
  exact ⟨h1.empty, fun x => by rw [← scaled_cost, h1.cost]⟩

end

/-- C140. Without this hypothesis the direction does depend on the units: for `x + y = 1` from 0 it is `(1/2, 1/2)`; when `y` is given in
halves (`x + y' / 2 = 1`) it is `(4/5, 2/5)`. -/
theorem C140_direction_refuted : ∃ (L L' : List (DLevel ℝ 2)) (c : Fin 2 → ℝ), (∀ j, 0 < c j) ∧ FirstLevel L ∧
    List.Forall₂ (DLevel.InUnits c) L L' ∧ ∀ (o : SvdOps ℝ), o.Exact → o.Ortho → ∀ (thr : ℝ) (dq : Fin 2 → ℝ),
      descend o false thr L' dq ≠ (descend o false thr L dq).map fun x j => c j * x j := by
  let mk : ℝ → DLevel ℝ 2 := fun a => ⟨1, fun _ j => if j = 0 then 1 else a, fun _ => -1⟩
  have hap : ∀ (a : ℝ) (x : Fin 2 → ℝ), (mk a).J *ᵥ x + (mk a).e = fun _ : Fin 1 => x 0 + a * x 1 - 1 := by
    intro a x
    funext i
    show (∑ j : Fin 2, (if j = 0 then 1 else a) * x j) + -1 = _
    rw [Fin.sum_univ_two]
    simp
    ring
  have hcan : ∀ (a : ℝ) (x : Fin 2 → ℝ), Cancels [mk a] x ↔ x 0 + a * x 1 = 1 := by
    intro a x
    unfold Cancels
    rw [List.forall_mem_singleton, hap]
    constructor
    · intro h
      have : x 0 + a * x 1 - 1 = 0 := congrFun (β := fun _ : Fin 1 => ℝ) h 0
      linarith
    · intro h
      funext _
      show x 0 + a * x 1 - 1 = 0
      linarith
  have hdir : ∀ (o : SvdOps ℝ), o.Exact → o.Ortho → ∀ (thr : ℝ) (dq : Fin 2 → ℝ) (a : ℝ),
      descend o false thr [mk a] dq = some ![1 / (1 + a * a), a / (1 + a * a)] := by
    intro o ho hor thr dq a
    have hp : (1 + a * a) ≠ 0 := by nlinarith [mul_self_nonneg a]
    have hc : Cancels [mk a] ![1 / (1 + a * a), a / (1 + a * a)] := by
      rw [hcan]
      show 1 / (1 + a * a) + a * (a / (1 + a * a)) = 1
      field_simp
    obtain ⟨-, r, hr, h1, h2⟩ := C132_solutions o o ho hor ho hor thr thr [mk a] [mk a] ⟨_, _, rfl, Or.inl rfl⟩ ⟨_, _, rfl, Or.inl rfl⟩
      ⟨_, hc⟩ (fun _ => Iff.rfl) dq dq
    rw [hr]
    congr 1
    by_contra hne
    have h3 := h2 _ hc (Ne.symm hne)
    have h4 := (hcan a r).1 h1
    simp only [dotProduct, Fin.sum_univ_two, Matrix.cons_val_zero, Matrix.cons_val_one] at h3
    have h5 : 1 / (1 + a * a) * (1 / (1 + a * a)) + a / (1 + a * a) * (a / (1 + a * a)) = 1 / (1 + a * a) := by
      field_simp
    rw [h5, lt_div_iff₀ (by nlinarith [mul_self_nonneg a])] at h3
    nlinarith [mul_self_nonneg (r 1 - a * r 0)]
  refine ⟨[mk 1], [mk (1 / 2)], ![1, 2], ?_, ⟨_, _, rfl, Or.inl rfl⟩, .cons ⟨Iff.rfl, fun x => ?_⟩ .nil, ?_⟩
  · intro j
    fin_cases j <;> norm_num
  · unfold DLevel.cost
    rw [hap, hap]
    show (fun _ : Fin 1 => 1 * x 0 + 1 / 2 * (2 * x 1) - 1) ⬝ᵥ (fun _ : Fin 1 => 1 * x 0 + 1 / 2 * (2 * x 1) - 1) =
      (fun _ : Fin 1 => x 0 + 1 * x 1 - 1) ⬝ᵥ fun _ : Fin 1 => x 0 + 1 * x 1 - 1
    have : 1 * x 0 + 1 / 2 * (2 * x 1) - 1 = x 0 + 1 * x 1 - 1 := by ring
    rw [this]
  · intro o ho hor thr dq
    rw [hdir o ho hor, hdir o ho hor]
    intro h
    have h1 := congrFun (Option.some.inj h) 0
    have h2 : (1 : ℝ) / (1 + 1 / 2 * (1 / 2)) = 1 * (1 / (1 + 1 * 1)) := h1
    norm_num at h2

/-! ## Iterations -/

section
variable {A A' M M' : Type} [LinearOrder α]

theorem solveLoop_sim_feasible (φ : A → A') (μ : M → M') {o : Ops A M α} {o' : Ops A' M' α} (hn : ∀ a, o'.norm (φ a) = o.norm a)
    (hd : ∀ a m, (o'.dir (φ a) (μ m)).1 = μ (o.dir a m).1)
    (hs : ∀ a m, o'.search (φ a) (μ m) = (φ (o.search a m).1, μ (o.search a m).2)) (thr dqMin dqMin' : α) : ∀ (left iter dec : Nat)
    (prev : Option α) (a : A) (m : M) (n : α) (st : Option Status),
    (solveLoop o thr dqMin left iter dec prev a m n st).status ≠ some .infeasible →
    (solveLoop o' thr dqMin' left iter dec prev (φ a) (μ m) n st).status ≠ some .infeasible →
    solveLoop o' thr dqMin' left iter dec prev (φ a) (μ m) n st =
      (fun r => ⟨φ r.arg, μ r.mem, r.iter, r.status⟩ : SolveOut A M → SolveOut A' M') (solveLoop o thr dqMin left iter dec prev a m n st) := by
  intro left
  induction left with
  | zero => intros; rfl
  | succ left ih =>
    intro iter dec prev a m n st h h'
    have S : ∀ {A M : Type} (o : Ops A M α) (dqMin : α) (a : A) (m : M), solveLoop o thr dqMin (left + 1) iter dec prev a m n st =
        if thr < n ∧ dec ≠ 0 then
          if (o.dir a m).2 < dqMin then ⟨a, (o.dir a m).1, iter, solveEnd thr n (left + 1) (some .infeasible)⟩
          else solveLoop o thr dqMin left (iter + 1)
            (if (match prev with | none => true | some p => decide (o.norm (o.search a (o.dir a m).1).1 < p)) then 3 else dec - 1)
            (some (o.norm (o.search a (o.dir a m).1).1)) (o.search a (o.dir a m).1).1 (o.search a (o.dir a m).1).2
            (o.norm (o.search a (o.dir a m).1).1)
            (if (match prev with | none => true | some p => decide (o.norm (o.search a (o.dir a m).1).1 < p)) then st else some .errorIncreased)
        else ⟨a, m, iter, solveEnd thr n (left + 1) st⟩ := fun _ _ _ _ => rfl
    rw [S] at h h' ⊢
    rw [S]
    simp only [hd, hs, hn] at h' ⊢
    by_cases h1 : thr < n ∧ dec ≠ 0
    · rw [if_pos h1] at h h' ⊢
      rw [if_pos h1]
      have hinf : solveEnd thr n (left + 1) (some .infeasible) = some .infeasible := by
        unfold solveEnd
        rw [if_pos h1.1]
        rfl
      by_cases h2 : (o.dir a m).2 < dqMin
      · rw [if_pos h2] at h
        exact absurd hinf h
      · by_cases h3 : (o'.dir (φ a) (μ m)).2 < dqMin'
        · rw [if_pos h3] at h'
          exact absurd hinf h'
        · rw [if_neg h2] at h ⊢
          rw [if_neg h3] at h' ⊢
          cases prev <;> exact ih _ _ _ _ _ _ _ h h'
    · rw [if_neg h1, if_neg h1]

/-- C140. The iterations of solvers that correspond to each other, but for the norm of the steps: if none of them ends because a step
is too small the results correspond to each other. -/
theorem C140_iterations (φ : A → A') (μ : M → M') {o : Ops A M α} {o' : Ops A' M' α} (hn : ∀ a, o'.norm (φ a) = o.norm a)
    (hd : ∀ a m, (o'.dir (φ a) (μ m)).1 = μ (o.dir a m).1)
    (hs : ∀ a m, o'.search (φ a) (μ m) = (φ (o.search a m).1, μ (o.search a m).2)) (thr dqMin dqMin' : α) (maxIter rd : Nat) (a : A) (m : M)
    (h : (solve o thr dqMin maxIter rd a m).status ≠ some .infeasible)
    (h' : (solve o' thr dqMin' maxIter rd (φ a) (μ m)).status ≠ some .infeasible) :
    solve o' thr dqMin' maxIter rd (φ a) (μ m) =
      (fun r => ⟨φ r.arg, μ r.mem, r.iter, r.status⟩ : SolveOut A M → SolveOut A' M') (solve o thr dqMin maxIter rd a m) := by
  unfold solve at h h' ⊢
  simp only [hn] at h' ⊢
  by_cases h1 : thr < o.norm a ∧ rd = 0
  · rw [if_pos h1, if_pos h1]
  · rw [if_neg h1] at h h' ⊢
    rw [if_neg h1]
    exact solveLoop_sim_feasible φ μ hn hd hs thr dqMin dqMin' _ _ _ none _ _ _ _ h h'

end

end Hpp
