import Verif.Stab.Contacts

namespace Hpp.Stab

open Matrix Hpp.Sym

variable {n : Nat}

/-- Columns that share the normal have the same joint and normal. -/
def Grouped (l : List Col) : Prop :=
  ∀ x ∈ l, ∀ y ∈ l, x.grp = y.grp → x.contact.joint = y.contact.joint ∧ x.contact.normal = y.contact.normal

theorem colsOfContacts_grouped (l : List ContactPt) : Grouped (colsOfContacts l) := by
  intro x hx y hy h
  unfold colsOfContacts at hx hy
  rw [List.mem_map] at hx hy
  obtain ⟨⟨a, i⟩, ha, rfl⟩ := hx
  obtain ⟨⟨b, j⟩, hb, rfl⟩ := hy
  rw [List.mem_zipIdx_iff_getElem?] at ha hb
  have h' : i = j := h
  subst h'
  have e : a = b := Option.some.inj (ha.symm.trans hb)
  subst e
  exact ⟨rfl, rfl⟩

theorem colsOfForces_grouped (l : List Forces) : Grouped (colsOfForces l) := by
  intro x hx y hy h
  unfold colsOfForces at hx hy
  rw [List.mem_flatMap] at hx hy
  obtain ⟨⟨a, i⟩, ha, hx⟩ := hx
  obtain ⟨⟨b, j⟩, hb, hy⟩ := hy
  rw [List.mem_map] at hx hy
  obtain ⟨P, _, rfl⟩ := hx
  obtain ⟨P', _, rfl⟩ := hy
  rw [List.mem_zipIdx_iff_getElem?] at ha hb
  have h' : i = j := h
  subst h'
  have e : a = b := Option.some.inj (ha.symm.trans hb)
  subst e
  exact ⟨rfl, rfl⟩

theorem phi_nodes {com : Nat} {l : List Col} {a : Expr ℝ} (h : (phi com l).S a) :
    a = nodeOG com ∨ ∃ j : Fin l.length, a = nodeN l[j] ∨ a = nodeOP j l[j] ∨ a = nodeDiff com j l[j] ∨
      a = nodeCross com j l[j] := by
  obtain ⟨i, j, h⟩ := h
  have hN : ∀ x : Col, Sub a (nodeN x) → a = nodeN x := by
    intro x h
    unfold nodeN at h ⊢
    cases h
    rfl
  by_cases hi : i = 0
  · have e : (phi com l).el i j = nodeN l[j] := if_pos hi
    rw [e] at h
    exact .inr ⟨j, .inl (hN _ h)⟩
  · have e : (phi com l).el i j = nodeCross com j l[j] := if_neg hi
    rw [e] at h
    unfold nodeCross at h
    cases h with
    | refl => exact .inr ⟨j, .inr (.inr (.inr rfl))⟩
    | right _ _ _ _ h => exact .inr ⟨j, .inl (hN _ h)⟩
    | left _ _ _ _ h =>
      unfold nodeDiff at h
      cases h with
      | refl => exact .inr ⟨j, .inr (.inr (.inl rfl))⟩
      | left _ _ _ _ h =>
        unfold nodeOG at h
        cases h
        exact .inl rfl
      | right _ _ _ _ h =>
        unfold nodeOP at h
        cases h
        exact .inr ⟨j, .inr (.inl rfl)⟩

theorem phi_wf (com : Nat) {l : List Col} (hl : Grouped l) : (phi com l).Wf := by
  refine ⟨fun {a b} ha hb hab => ?_, fun i j => ?_⟩
  · have hid : (nodeOG com).id = 0 ∧ (∀ x, (nodeN x).id = 4 * x.grp + 1) ∧ (∀ i x, (nodeOP i x).id = 4 * i + 4) ∧
        (∀ i x, (nodeDiff com i x).id = 4 * i + 3) ∧ (∀ i x, (nodeCross com i x).id = 4 * i + 2) :=
      ⟨rfl, fun _ => rfl, fun _ _ => rfl, fun _ _ => rfl, fun _ _ => rfl⟩
    obtain ⟨i0, i1, i2, i3, i4⟩ := hid
    have key : ∀ i j : Fin l.length, (i : Nat) = j → i = j := fun i j h => Fin.ext h
    rcases phi_nodes ha with rfl | ⟨i, rfl | rfl | rfl | rfl⟩ <;>
      rcases phi_nodes hb with rfl | ⟨j, rfl | rfl | rfl | rfl⟩ <;>
      simp only [i0, i1, i2, i3, i4] at hab <;> first | rfl | omega | skip
    · have hg : l[i].grp = l[j].grp := by omega
      obtain ⟨e1, e2⟩ := hl _ (List.getElem_mem i.2) _ (List.getElem_mem j.2) hg
      unfold nodeN
      change Expr.leaf (4 * l[i].grp + 1) (Leaf.vectorIn l[i].contact.joint l[i].contact.normal) =
        Expr.leaf (4 * l[j].grp + 1) (Leaf.vectorIn l[j].contact.joint l[j].contact.normal)
      rw [hg]
      rw [show l[i].contact.joint = l[j].contact.joint from e1, show l[i].contact.normal = l[j].contact.normal from e2]
    · rw [key i j (by omega)]
    · rw [key i j (by omega)]
    · rw [key i j (by omega)]
  · unfold phi
    dsimp only
    split
    · trivial
    · simp [nodeCross, nodeDiff, nodeN, nodeOG, nodeOP, Expr.Handled, Expr.isCom, Expr.offCenter]

theorem phi_built (com : Nat) (l : List Col) (m : MMem n 2 l.length) : (phi com l).Built m := by
  intro i j
  unfold phi
  dsimp only
  split
  · trivial
  · simp [nodeCross, nodeDiff, nodeN, nodeOG, nodeOP, Constructed]

/-! ### Wrench -/

theorem unrow_eq (i : Fin 2) (a : Fin 3) : unrow (row i a) = (i, a) := unrow_row i a

/-- First three rows of `phi F + Gravity`: resultant; last three rows: opposite of the moment. -/
theorem phi_wrench (com : Nat) (l : List Col) (w : World ℝ n) (F : Fin l.length → ℝ) (a : Fin 3) :
    (gravity + (phi com l).mat w *ᵥ F) (row 0 a) = resultant l w F a ∧
      (gravity + (phi com l).mat w *ᵥ F) (row 1 a) = -moment com l w F a := by
  have h0 : ∀ j : Fin l.length, ((phi com l).el 0 j).denote w = l[j].contact.nrm w := fun j => rfl
  have h1 : ∀ j : Fin l.length, ((phi com l).el 1 j).denote w =
      crossProduct (w.com com - l[j].contact.pos w) (l[j].contact.nrm w) := fun j => rfl
  have g0 : gravity (row 0 a) = -(![0, 0, 1] : V3 ℝ) a := by
    fin_cases a <;> simp [gravity, row, finProdFinEquiv]
  have g1 : gravity (row 1 a) = 0 := by
    unfold gravity
    rw [if_neg]
    fin_cases a <;> decide
  constructor
  · simp only [Pi.add_apply, g0, mulVec, dotProduct, Moe.mat, unrow_row, h0, resultant, Pi.sub_apply, Finset.sum_apply,
      Pi.smul_apply, smul_eq_mul]
    rw [neg_add_eq_sub]
    congr 1
    exact Finset.sum_congr rfl fun j _ => mul_comm _ _
  · simp only [Pi.add_apply, g1, mulVec, dotProduct, Moe.mat, unrow_row, h1, moment, Finset.sum_apply,
      Pi.smul_apply, smul_eq_mul, zero_add, ← Finset.sum_neg_distrib]
    refine Finset.sum_congr rfl fun j _ => ?_
    rw [← neg_sub, map_neg, LinearMap.neg_apply, Pi.neg_apply]
    ring

theorem forall_row {P : Fin (2 * 3) → Prop} : (∀ r, P r) ↔ (∀ a, P (row 0 a)) ∧ ∀ a, P (row 1 a) := by
  refine ⟨fun h => ⟨fun a => h _, fun a => h _⟩, fun h r => ?_⟩
  rw [← row_unrow r]
  generalize unrow r = x
  obtain ⟨i, a⟩ := x
  fin_cases i
  · exact h.1 a
  · exact h.2 a

theorem phi_balanced (com : Nat) (l : List Col) (w : World ℝ n) (F : Fin l.length → ℝ) :
    gravity + (phi com l).mat w *ᵥ F = 0 ↔ Balanced com l w F := by
  rw [funext_iff, forall_row]
  unfold Balanced
  rw [funext_iff, funext_iff]
  refine and_congr (forall_congr' fun a => ?_) (forall_congr' fun a => ?_)
  · rw [(phi_wrench com l w F a).1]
    rfl
  · rw [(phi_wrench com l w F a).2]
    exact neg_eq_zero

end Hpp.Stab
