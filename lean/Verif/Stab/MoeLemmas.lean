import Verif.Stab.Moe

namespace Hpp.Stab

open Matrix Hpp.Sym

variable {n p c : Nat}

theorem mem_cells (x : Fin p × Fin c) : x ∈ cells p c := by
  unfold cells
  rw [List.mem_flatMap]
  exact ⟨x.1, List.mem_finRange _, List.mem_map.2 ⟨x.2, List.mem_finRange _, rfl⟩⟩

theorem unrow_row (i : Fin p) (a : Fin 3) : unrow (row i a) = (i, a) := by
  unfold unrow row
  exact Equiv.symm_apply_apply _ _

theorem row_unrow (r : Fin (p * 3)) : row (unrow r).1 (unrow r).2 = r := by
  unfold unrow row
  exact Equiv.apply_symm_apply _ _

theorem Moe.Wf.nodes {f : Moe p c} (h : f.Wf) : Nodes f.S :=
  ⟨fun ⟨i, j, h⟩ ha => ⟨i, j, ha.trans h⟩, h.addr⟩

theorem Moe.el_S (f : Moe p c) (i : Fin p) (j : Fin c) : f.S (f.el i j) := ⟨i, j, .refl _⟩

/-- Blocks of the Jacobian -/
def Moe.dblock (f : Moe p c) (w : World ℝ n) (i : Fin p) (j : Fin c) : Matrix (Fin 3) (Fin n) ℝ := (f.el i j).diff w

/-- The members are right when they are marked as valid. -/
structure MOk (f : Moe p c) (svdOf : Matrix (Fin (p * 3)) (Fin c) ℝ → Svd ℝ (p * 3) c) (w : World ℝ n) (m : MMem n p c) :
    Prop where
  good : Good w f.S m.st
  value : m.vV = true → m.value = f.mat w
  jac : m.jV = true → m.jac = f.dblock w
  svd : m.svdV = true → m.svd = svdOf (f.mat w)
  pi : m.piV = true → m.svdV = true ∧ m.vV = true ∧ m.pi = (svdOf (f.mat w)).pinv
  svdv : m.svdV = true → m.vV = true

variable {f : Moe p c} {svdOf : Matrix (Fin (p * 3)) (Fin c) ℝ → Svd ℝ (p * 3) c} {w : World ℝ n}

theorem valueLoop (hf : f.Wf) : ∀ (l : List (Fin p × Fin c)) (s : St ℝ n × Matrix (Fin (p * 3)) (Fin c) ℝ),
    Good w f.S s.1 →
    Good w f.S (l.foldl (f.valueStep w) s).1 ∧
    ∀ r j, ((unrow r).1, j) ∈ l ∨ s.2 r j = f.mat w r j → (l.foldl (f.valueStep w) s).2 r j = f.mat w r j := by
  intro l
  induction l with
  | nil =>
    intro s h
    exact ⟨h, fun r j hr => hr.resolve_left (by simp)⟩
  | cons x l ih =>
    intro s h
    obtain ⟨a1, a2⟩ := computeValue_after hf.nodes (f.el x.1 x.2) s.1 (f.el_S _ _) (hf.handled _ _) h
    obtain ⟨b1, b2⟩ := ih (f.valueStep w s x) a1.good
    refine ⟨b1, fun r j hr => b2 r j ?_⟩
    by_cases hx : (unrow r).1 = x.1 ∧ j = x.2
    · refine .inr ?_
      simp only [Moe.valueStep, setBlock]
      rw [if_pos hx, (a1.good _ (f.el_S x.1 x.2)).value a2]
      simp only [Moe.mat, hx.1, hx.2]
    · rcases hr with hr | hr
      · rcases List.mem_cons.1 hr with hr | hr
        · exact absurd ⟨congrArg Prod.fst hr, congrArg Prod.snd hr⟩ hx
        · exact .inl hr
      · refine .inr ?_
        simp only [Moe.valueStep, setBlock]
        rw [if_neg hx, hr]

theorem jacLoop (hf : f.Wf) : ∀ (l : List (Fin p × Fin c)) (s : St ℝ n × (Fin p → Fin c → Matrix (Fin 3) (Fin n) ℝ)),
    Good w f.S s.1 →
    Good w f.S (l.foldl (f.jacStep w) s).1 ∧
    ∀ i j, (i, j) ∈ l ∨ s.2 i j = f.dblock w i j → (l.foldl (f.jacStep w) s).2 i j = f.dblock w i j := by
  intro l
  induction l with
  | nil =>
    intro s h
    exact ⟨h, fun r j hr => hr.resolve_left (by simp)⟩
  | cons x l ih =>
    intro s h
    obtain ⟨a1, a2⟩ := computeJac_after hf.nodes (f.el x.1 x.2) s.1 (f.el_S _ _) (hf.handled _ _) h
    obtain ⟨b1, b2⟩ := ih (f.jacStep w s x) a1.good
    refine ⟨b1, fun i j hr => b2 i j ?_⟩
    by_cases hx : i = x.1 ∧ j = x.2
    · refine .inr ?_
      simp only [Moe.jacStep]
      rw [if_pos hx, (a1.good _ (f.el_S x.1 x.2)).jac a2, hx.1, hx.2]
      rfl
    · rcases hr with hr | hr
      · rcases List.mem_cons.1 hr with hr | hr
        · exact absurd ⟨congrArg Prod.fst hr, congrArg Prod.snd hr⟩ hx
        · exact .inl hr
      · refine .inr ?_
        simp only [Moe.jacStep]
        rw [if_neg hx, hr]

theorem touchLoop (hf : f.Wf) : ∀ (l : List (Fin p × Fin c)) (st : St ℝ n), Good w f.S st →
    Good w f.S (l.foldl (fun st x => Sym.computeJac w (f.el x.1 x.2) st) st) := by
  intro l
  induction l with
  | nil => intro st h; exact h
  | cons x l ih =>
    intro st h
    exact ih _ (computeJac_after hf.nodes (f.el x.1 x.2) st (f.el_S _ _) (hf.handled _ _) h).1.good

theorem MOk.computeValue (hf : f.Wf) {m : MMem n p c} (h : MOk f svdOf w m) :
    MOk f svdOf w (f.computeValue w m) ∧ (f.computeValue w m).vV = true ∧ (m.jV = true → (f.computeValue w m).jV = true) ∧
      (m.svdV = true → (f.computeValue w m).svdV = true) := by
  unfold Moe.computeValue
  split
  · next hv => exact ⟨h, hv, id, id⟩
  · next hv =>
    obtain ⟨a, b⟩ := valueLoop hf (cells p c) (m.st, m.value) h.good
    refine ⟨⟨a, fun _ => ?_, h.jac, h.svd, fun hp => ⟨(h.pi hp).1, rfl, (h.pi hp).2.2⟩, fun _ => rfl⟩, rfl, id, id⟩
    funext r j
    exact b r j (.inl (mem_cells _))

theorem MOk.computeJac (hf : f.Wf) {m : MMem n p c} (h : MOk f svdOf w m) :
    MOk f svdOf w (f.computeJac w m) ∧ (f.computeJac w m).jV = true ∧ (m.vV = true → (f.computeJac w m).vV = true) ∧
      (m.svdV = true → (f.computeJac w m).svdV = true) ∧ (m.piV = true → (f.computeJac w m).piV = true) := by
  unfold Moe.computeJac
  split
  · next hv => exact ⟨h, hv, id, id, id⟩
  · obtain ⟨a, b⟩ := jacLoop hf (cells p c) (m.st, m.jac) h.good
    refine ⟨⟨a, h.value, fun _ => ?_, h.svd, h.pi, h.svdv⟩, rfl, id, id, id⟩
    funext i j
    exact b i j (.inl (mem_cells _))

theorem MOk.computeSVD (hf : f.Wf) {m : MMem n p c} (h : MOk f svdOf w m) :
    MOk f svdOf w (f.computeSVD svdOf w m) ∧ (f.computeSVD svdOf w m).svdV = true ∧
      (m.jV = true → (f.computeSVD svdOf w m).jV = true) := by
  unfold Moe.computeSVD
  split
  · next hv => exact ⟨h, hv, id⟩
  · next hv =>
    obtain ⟨a, b, d, _⟩ := h.computeValue hf
    exact ⟨⟨a.good, a.value, a.jac, fun _ => by rw [← a.value b], fun hp => ⟨rfl, b, (a.pi hp).2.2⟩, fun _ => b⟩, rfl, d⟩

theorem MOk.computePinv (hf : f.Wf) {m : MMem n p c} (h : MOk f svdOf w m) :
    MOk f svdOf w (f.computePinv svdOf w m) ∧ (f.computePinv svdOf w m).piV = true ∧
      (m.jV = true → (f.computePinv svdOf w m).jV = true) := by
  unfold Moe.computePinv
  split
  · next hv => exact ⟨h, hv, id⟩
  · obtain ⟨a, b, d, _⟩ := h.computeValue hf
    obtain ⟨a', b', d'⟩ := a.computeSVD hf
    exact ⟨⟨a'.good, a'.value, a'.jac, a'.svd, fun _ => ⟨b', a'.svdv b', by rw [← a'.svd b']⟩, a'.svdv⟩, rfl,
      fun hj => d' (d hj)⟩

theorem MOk.touch (hf : f.Wf) {m : MMem n p c} (h : MOk f svdOf w m) : MOk f svdOf w (f.touch w m) :=
  ⟨touchLoop hf _ _ h.good, h.value, h.jac, h.svd, h.pi, h.svdv⟩

/-! ### Invalidation -/

theorem invalLoop {f : Moe p c} : ∀ (l : List (Fin p × Fin c)) (st : St ℝ n),
    (∀ i, (l.foldl (fun st x => Sym.invalidate (f.el x.1 x.2) st) st i).value = (st i).value ∧
      (l.foldl (fun st x => Sym.invalidate (f.el x.1 x.2) st) st i).jac = (st i).jac) ∧
    (∀ i, Off (st i) → Off (l.foldl (fun st x => Sym.invalidate (f.el x.1 x.2) st) st i)) ∧
    (∀ a x, x ∈ l → Sub a (f.el x.1 x.2) → Off (l.foldl (fun st x => Sym.invalidate (f.el x.1 x.2) st) st a.id)) := by
  intro l
  induction l with
  | nil => intro st; exact ⟨fun i => ⟨rfl, rfl⟩, fun i h => h, fun a x hx => by cases hx⟩
  | cons y l ih =>
    intro st
    obtain ⟨h1, h2, h3⟩ := ih (Sym.invalidate (f.el y.1 y.2) st)
    refine ⟨fun i => ?_, fun i hi => h2 i (invalidate_off_mono _ _ _ hi), fun a x hx hs => ?_⟩
    · obtain ⟨e1, e2⟩ := invalidate_const (f.el y.1 y.2) st i
      exact ⟨(h1 i).1.trans e1, (h1 i).2.trans e2⟩
    · rcases List.mem_cons.1 hx with hx | hx
      · subst hx
        exact h2 _ (invalidate_off _ _ _ hs)
      · exact h3 a x hx hs

theorem MOk.invalidate (svdOf : Matrix (Fin (p * 3)) (Fin c) ℝ → Svd ℝ (p * 3) c) (w : World ℝ n) {m : MMem n p c}
    (h : f.Built m) : MOk f svdOf w (f.invalidate m) := by
  refine ⟨fun a ha => ?_, (fun x => nomatch x), (fun x => nomatch x), (fun x => nomatch x), (fun x => nomatch x),
    (fun x => nomatch x)⟩
  obtain ⟨i, j, hs⟩ := ha
  obtain ⟨e1, _, e3⟩ := invalLoop (f := f) (cells p c) m.st
  obtain ⟨h1, h2, h3⟩ := e3 a (i, j) (mem_cells _) hs
  refine ⟨fun x => ?_, fun x => ?_, fun _ x => ?_, fun _ x => ?_, fun k v hx => ?_⟩
  · exact absurd (h1.symm.trans x) (by simp)
  · exact absurd (h2.symm.trans x) (by simp)
  · exact absurd (h3.symm.trans x) (by simp)
  · exact absurd (h3.symm.trans x) (by simp)
  · subst hx
    have hc := (h i j).sub hs
    exact ⟨(e1 _).1.trans hc.1, (e1 _).2.trans hc.2⟩

/-! ### Products -/

theorem foldl_ite_sum {ι : Type} (P : ι → Prop) [DecidablePred P] (g : ι → ℝ) : ∀ (l : List ι) (a : ℝ),
    l.foldl (fun a x => if P x then a + g x else a) a = a + (l.map fun x => if P x then g x else 0).sum := by
  intro l
  induction l with
  | nil => intro a; simp
  | cons x l ih =>
    intro a
    rw [List.foldl_cons, ih, List.map_cons, List.sum_cons]
    by_cases h : P x
    · simp only [if_pos h]; ring
    · simp only [if_neg h]; ring

theorem foldl_apply2 {ι κ μ : Type} (g : ι → κ → μ → ℝ → ℝ) : ∀ (l : List ι) (M : Matrix κ μ ℝ) (r : κ) (k : μ),
    (l.foldl (fun (M : Matrix κ μ ℝ) x => fun r k => g x r k (M r k)) M) r k = l.foldl (fun a x => g x r k a) (M r k) := by
  intro l
  induction l with
  | nil => intros; rfl
  | cons x l ih => intro M r k; exact ih _ r k

theorem sum_flat {ι : Type} (g : ι → List ℝ) : ∀ l : List ι, (l.flatMap g).sum = (l.map fun x => (g x).sum).sum := by
  intro l
  induction l with
  | nil => rfl
  | cons x l ih => rw [List.flatMap_cons, List.sum_append, ih, List.map_cons, List.sum_cons]

theorem sum_cells (g : Fin p × Fin c → ℝ) : ((cells p c).map g).sum = ∑ i, ∑ j, g (i, j) := by
  unfold cells
  rw [List.map_flatMap, sum_flat, Fin.sum_univ_def]
  congr 1
  refine List.map_congr_left fun i _ => ?_
  rw [List.map_map, Fin.sum_univ_def]
  rfl

/-- `jacobianTimes` -/
theorem jacobianTimes_eq (f : Moe p c) (w : World ℝ n) (m : MMem n p c) (rhs : Fin c → ℝ) (r : Fin (p * 3)) (k : Fin n) :
    (f.jacobianTimes w m rhs).2 r k = ∑ j, m.jac (unrow r).1 j (unrow r).2 k * rhs j := by
  unfold Moe.jacobianTimes
  dsimp only
  rw [foldl_apply2 (fun (x : Fin p × Fin c) (r : Fin (p * 3)) (k : Fin n) a =>
    if (unrow r).1 = x.1 then a + m.jac x.1 x.2 (unrow r).2 k * rhs x.2 else a),
    foldl_ite_sum (fun x : Fin p × Fin c => (unrow r).1 = x.1), sum_cells]
  simp only [Matrix.zero_apply, zero_add]
  rw [Finset.sum_eq_single (unrow r).1]
  · exact Finset.sum_congr rfl fun j _ => if_pos rfl
  · intro i _ hi
    exact Finset.sum_eq_zero fun j _ => if_neg (Ne.symm hi)
  · intro h
    exact absurd (Finset.mem_univ _) h

/-- `jacobianTransposeTimes` -/
theorem jacobianTransposeTimes_eq (f : Moe p c) (w : World ℝ n) (m : MMem n p c) (rhs : Fin (p * 3) → ℝ) (j : Fin c)
    (k : Fin n) :
    (f.jacobianTransposeTimes w m rhs).2 j k = ∑ r, rhs r * m.jac (unrow r).1 j (unrow r).2 k := by
  unfold Moe.jacobianTransposeTimes
  dsimp only
  rw [foldl_apply2 (fun (x : Fin p × Fin c) (j : Fin c) (k : Fin n) a =>
    if j = x.2 then a + (seg rhs x.1 ᵥ* m.jac x.1 x.2) k else a),
    foldl_ite_sum (fun x : Fin p × Fin c => j = x.2), sum_cells]
  simp only [Matrix.zero_apply, zero_add]
  have e : ∀ i : Fin p, (∑ j', if j = j' then (seg rhs i ᵥ* m.jac i j') k else 0) = ∑ a, rhs (row i a) * m.jac i j a k := by
    intro i
    rw [Finset.sum_ite_eq]
    rw [if_pos (Finset.mem_univ _)]
    rfl
  simp only [e]
  rw [← Fintype.sum_prod_type' (f := fun (i : Fin p) (a : Fin 3) => rhs (row i a) * m.jac i j a k)]
  refine Fintype.sum_equiv finProdFinEquiv _ _ fun x => ?_
  have h : unrow (finProdFinEquiv x) = x := by unfold unrow; exact Equiv.symm_apply_apply _ _
  rw [h]
  rfl

/-! ### Derivatives -/

/-- Derivative of the matrix for a velocity -/
def Moe.dmat (f : Moe p c) (w : World ℝ n) (qd : Fin n → ℝ) : Matrix (Fin (p * 3)) (Fin c) ℝ :=
  fun r j => (f.dblock w (unrow r).1 j *ᵥ qd) (unrow r).2

theorem mat_deriv (hf : f.Wf) {w : ℝ → World ℝ n} {qd : Fin n → ℝ} {t : ℝ} (hw : Moves w qd t) (r : Fin (p * 3))
    (j : Fin c) : HasDerivAt (fun t => f.mat (w t) r j) (f.dmat (w t) qd r j) t :=
  denote_deriv hw (f.el (unrow r).1 j) (hf.handled _ _).transposed (unrow r).2

theorem jacobianTimes_mulVec {m : MMem n p c} (hm : MOk f svdOf w m) (hj : m.jV = true) (rhs : Fin c → ℝ) (qd : Fin n → ℝ) :
    (f.jacobianTimes w m rhs).2 *ᵥ qd = f.dmat w qd *ᵥ rhs := by
  funext r
  simp only [mulVec, dotProduct, jacobianTimes_eq, hm.jac hj, Moe.dmat, Finset.sum_mul]
  rw [Finset.sum_comm]
  exact Finset.sum_congr rfl fun j _ => Finset.sum_congr rfl fun k _ => by ring

theorem jacobianTransposeTimes_mulVec {m : MMem n p c} (hm : MOk f svdOf w m) (hj : m.jV = true) (rhs : Fin (p * 3) → ℝ)
    (qd : Fin n → ℝ) :
    (f.jacobianTransposeTimes w m rhs).2 *ᵥ qd = (f.dmat w qd)ᵀ *ᵥ rhs := by
  funext j
  simp only [mulVec, dotProduct, jacobianTransposeTimes_eq, hm.jac hj, Moe.dmat, Finset.sum_mul, transpose_apply]
  rw [Finset.sum_comm]
  exact Finset.sum_congr rfl fun j _ => Finset.sum_congr rfl fun k _ => by ring

end Hpp.Stab
