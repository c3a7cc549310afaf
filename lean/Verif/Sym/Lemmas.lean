import Verif.Sym.Model
import Mathlib.LinearAlgebra.CrossProduct
import Mathlib.LinearAlgebra.Matrix.Determinant.Basic
import Mathlib.LinearAlgebra.Matrix.NonsingularInverse
import Mathlib.Analysis.Calculus.Deriv.Add
import Mathlib.Analysis.Calculus.Deriv.Mul
import Mathlib.Tactic.Ring
import Mathlib.Tactic.FinCases
import Mathlib.Tactic.LinearCombination
import Mathlib.Tactic.Abel

namespace Hpp.Sym

open Matrix

variable {α : Type} {n : Nat} [CommRing α]

/-! ### Specification: value of an expression -/

/-- The vector an expression denotes. -/
def Expr.denote (w : World α n) : Expr α → V3 α
  | .leaf _ (.point v) => v
  | .leaf _ (.pointIn j l) => w.R j *ᵥ l + w.p j
  | .leaf _ (.vectorIn j v) => w.R j *ᵥ v
  | .leaf _ (.com c) => w.com c
  | .bin _ .cross l r => crossProduct (l.denote w) (r.denote w)
  | .bin _ .diff l r => l.denote w - r.denote w
  | .bin _ .sum l r => l.denote w + r.denote w
  | .un _ (.smul a) e => a • e.denote w
  | .un _ (.rot tr j) e => if tr then (w.R j)ᵀ *ᵥ e.denote w else w.R j *ᵥ e.denote w

/-- Sub-expressions -/
inductive Sub : Expr α → Expr α → Prop
  | refl (e : Expr α) : Sub e e
  | left {e : Expr α} (i : Nat) (op : BinOp) (l r : Expr α) (h : Sub e l) : Sub e (.bin i op l r)
  | right {e : Expr α} (i : Nat) (op : BinOp) (l r : Expr α) (h : Sub e r) : Sub e (.bin i op l r)
  | arg {e : Expr α} (i : Nat) (op : UnOp α) (a : Expr α) (h : Sub e a) : Sub e (.un i op a)

/-- Identifiers are addresses of objects: two sub-expressions with the same identifier are the same. -/
def Addressed (e : Expr α) : Prop := ∀ a b : Expr α, Sub a e → Sub b e → a.id = b.id → a = b

/-- The expression is a point that is not the center of its joint. -/
def Expr.offCenter : Expr α → Prop
  | .leaf _ (.pointIn _ l) => l ≠ 0
  | _ => False

def Expr.isCom : Expr α → Prop
  | .leaf _ (.com _) => True
  | _ => False

/-- Expressions the code handles: no operand of a cross product is the center of mass or a point other than the center
of its joint; only multiplications by the transpose of a rotation, the operand of which is not the center of mass. -/
def Expr.Handled : Expr α → Prop
  | .leaf _ _ => True
  | .bin _ .cross l r => l.Handled ∧ r.Handled ∧ ¬ l.isCom ∧ ¬ r.isCom ∧ ¬ l.offCenter ∧ ¬ r.offCenter
  | .bin _ _ l r => l.Handled ∧ r.Handled
  | .un _ (.smul _) e => e.Handled
  | .un _ (.rot tr _) e => e.Handled ∧ tr = true ∧ ¬ e.isCom

/-- What the Jacobian should be. -/
def Expr.diff (w : World α n) : Expr α → Matrix (Fin 3) (Fin n) α
  | .leaf _ (.point _) => 0
  | .leaf _ (.pointIn j l) => w.R j * w.Jv j - (hat (w.R j *ᵥ l) * w.R j) * w.Jw j
  | .leaf _ (.vectorIn j v) => (-hat (w.R j *ᵥ v) * w.R j) * w.Jw j
  | .leaf _ (.com c) => w.Jcom c
  | .bin _ .cross l r => hat (l.denote w) * r.diff w - hat (r.denote w) * l.diff w
  | .bin _ .diff l r => l.diff w - r.diff w
  | .bin _ .sum l r => l.diff w + r.diff w
  | .un _ (.smul a) e => a • e.diff w
  | .un _ (.rot _ j) e => (w.R j)ᵀ * ((hat (e.denote w) * w.R j) * w.Jw j + e.diff w)

/-! ### Vectors -/

theorem hat_mulVec (a b : V3 α) : hat a *ᵥ b = crossProduct a b := by
  ext i
  fin_cases i <;> simp [hat, cross_apply, mulVec, dotProduct, Fin.sum_univ_three] <;> ring

theorem hat_neg_comm (a b : V3 α) : hat a *ᵥ b = -(hat b *ᵥ a) := by
  ext i
  fin_cases i <;> simp [hat, mulVec, dotProduct, Fin.sum_univ_three] <;> ring

theorem hat_zero : hat (0 : V3 α) = 0 := by
  ext i j
  fin_cases i <;> fin_cases j <;> simp [hat]

/-- Rotation matrices -/
def IsRot (R : M3 α) : Prop := Rᵀ * R = 1 ∧ R.det = 1

theorem transpose_cross (R : M3 α) (a b : V3 α) :
    Rᵀ *ᵥ crossProduct (R *ᵥ a) (R *ᵥ b) = R.det • crossProduct a b := by
  ext i
  fin_cases i <;> simp [cross_apply, mulVec, dotProduct, Fin.sum_univ_three, det_fin_three] <;> ring

theorem IsRot.mul_transpose {R : M3 α} (h : IsRot R) : R * Rᵀ = 1 :=
  mul_eq_one_comm.mp h.1

/-- A rotation preserves cross products. -/
theorem IsRot.cross {R : M3 α} (h : IsRot R) (a b : V3 α) :
    crossProduct (R *ᵥ a) (R *ᵥ b) = R *ᵥ crossProduct a b := by
  have h1 := transpose_cross R a b
  rw [h.2, one_smul] at h1
  rw [← h1, mulVec_mulVec, h.mul_transpose, one_mulVec]

theorem IsRot.transpose {R : M3 α} (h : IsRot R) : IsRot Rᵀ :=
  ⟨by rw [transpose_transpose]; exact h.mul_transpose, by rw [det_transpose]; exact h.2⟩

/-! ### The cache -/

/-- The members of a node are right for the current state of the robot when they are marked as valid. -/
structure NodeOk (w : World α n) (e : Expr α) (c : Cache α n) : Prop where
  value : c.vV = true → c.value = e.denote w
  jac : c.jV = true → c.jac = e.diff w
  cross : ¬ e.isCom → c.cV = true → c.cross = hat (e.denote w)
  off : e.offCenter → c.cV = true → c.jV = true
  const : ∀ i v, e = .leaf i (.point v) → c.value = v ∧ c.jac = 0

/-- A set of nodes that contains the operands of its nodes and where identifiers are addresses. -/
structure Nodes (S : Expr α → Prop) : Prop where
  closed : ∀ {a e : Expr α}, S e → Sub a e → S a
  addr : ∀ {a b : Expr α}, S a → S b → a.id = b.id → a = b

/-- All the nodes of a set are right. -/
def Good (w : World α n) (S : Expr α → Prop) (st : St α n) : Prop :=
  ∀ e : Expr α, S e → NodeOk w e (st e.id)

/-- Validity is not lost. -/
def Mono (st st' : St α n) : Prop :=
  ∀ i, ((st i).vV = true → (st' i).vV = true) ∧ ((st i).jV = true → (st' i).jV = true) ∧
    ((st i).cV = true → (st' i).cV = true)

omit [CommRing α] in
theorem Mono.refl (st : St α n) : Mono st st := fun _ => ⟨id, id, id⟩

omit [CommRing α] in
theorem Mono.trans {a b c : St α n} (h : Mono a b) (h' : Mono b c) : Mono a c := fun i =>
  ⟨fun x => (h' i).1 ((h i).1 x), fun x => (h' i).2.1 ((h i).2.1 x), fun x => (h' i).2.2 ((h i).2.2 x)⟩

omit [CommRing α] in
theorem Mono.update {st : St α n} {i : Nat} {c : Cache α n}
    (h : ((st i).vV = true → c.vV = true) ∧ ((st i).jV = true → c.jV = true) ∧ ((st i).cV = true → c.cV = true)) :
    Mono st (Function.update st i c) := by
  intro k
  by_cases hk : k = i
  · subst hk; simpa using h
  · simp [Function.update_of_ne hk]

omit [CommRing α] in
theorem Sub.trans {a b c : Expr α} (h : Sub a b) (h' : Sub b c) : Sub a c := by
  induction h' with
  | refl => exact h
  | left i op l r _ ih => exact .left i op l r ih
  | right i op l r _ ih => exact .right i op l r ih
  | arg i op e _ ih => exact .arg i op e ih

/-- Writing a right node. -/
theorem Good.update {w : World α n} {S : Expr α → Prop} {e : Expr α} {st : St α n} {c : Cache α n} (h : Good w S st)
    (ha : Nodes S) (he : S e) (hc : NodeOk w e c) : Good w S (Function.update st e.id c) := by
  intro b hb
  by_cases hk : b.id = e.id
  · have := ha.addr hb he hk
    subst this
    simpa using hc
  · rw [Function.update_of_ne hk]
    exact h b hb

/-- Effect of a method on a right memory. -/
structure After (w : World α n) (S : Expr α → Prop) (st st' : St α n) : Prop where
  good : Good w S st'
  mono : Mono st st'

theorem setValue_after {w : World α n} {S : Expr α → Prop} {e : Expr α} {st : St α n} {v : V3 α} (h : Good w S st)
    (ha : Nodes S) (he : S e) (hl : ∀ i k, e ≠ .leaf i k) (hv : v = e.denote w) :
    After w S st (setValue e.id v st) ∧ (setValue e.id v st e.id).vV = true := by
  have hn := h e he
  refine ⟨⟨h.update ha he ?_, Mono.update ⟨fun _ => rfl, fun x => x, fun x => x⟩⟩, by simp [setValue]⟩
  exact ⟨fun _ => hv, hn.jac, hn.cross, hn.off, fun i v' h' => absurd h' (hl i _)⟩

theorem setJac_after {w : World α n} {S : Expr α → Prop} {e : Expr α} {st : St α n} {J : Matrix (Fin 3) (Fin n) α}
    (h : Good w S st) (ha : Nodes S) (he : S e) (hl : ∀ i k, e ≠ .leaf i k)
    (hJ : J = e.diff w) :
    After w S st (setJac e.id J st) ∧ (setJac e.id J st e.id).jV = true := by
  have hn := h e he
  refine ⟨⟨h.update ha he ?_, Mono.update ⟨fun x => x, fun _ => rfl, fun x => x⟩⟩, by simp [setJac]⟩
  exact ⟨hn.value, fun _ => hJ, hn.cross, fun _ _ => rfl, fun i v' h' => absurd h' (hl i _)⟩

omit [CommRing α] in
theorem rawValue_eq {e : Expr α} (h : ¬ e.isCom) (st : St α n) : rawValue e st = (st e.id).value := by
  match e with
  | .leaf i (.com _) => exact absurd trivial h
  | .leaf i (.point _) => rfl
  | .leaf i (.pointIn _ _) => rfl
  | .leaf i (.vectorIn _ _) => rfl
  | .bin _ _ _ _ => rfl
  | .un _ _ _ => rfl

theorem setCross_after {w : World α n} {S : Expr α → Prop} {e : Expr α} {st : St α n} (h : Good w S st) (ha : Nodes S)
    (he : S e) (hc : ¬ e.isCom) (ho : e.offCenter → (st e.id).jV = true) (hv : (st e.id).vV = true) :
    After w S st (setCross e st) ∧ (setCross e st e.id).cV = true := by
  have hn := h e he
  refine ⟨⟨h.update ha he ?_, Mono.update ⟨fun x => x, fun x => x, fun _ => rfl⟩⟩, by simp [setCross]⟩
  exact ⟨hn.value, hn.jac, fun _ _ => by rw [rawValue_eq hc, hn.value hv], fun o _ => ho o, hn.const⟩

/-- `computeValue` on an expression the code handles. -/
theorem computeValue_after {w : World α n} {S : Expr α → Prop} (ha : Nodes S) :
    ∀ (e : Expr α) (st : St α n), S e → e.Handled → Good w S st →
      After w S st (computeValue w e st) ∧ (computeValue w e st e.id).vV = true := by
  intro e
  induction e with
  | leaf i k =>
    intro st he _ h
    have hn := h _ he
    unfold computeValue
    split
    · next hv => exact ⟨⟨h, Mono.refl st⟩, hv⟩
    · refine ⟨⟨h.update ha he ?_, Mono.update ?_⟩, by simp [Expr.id]⟩
      · have hn : NodeOk w (Expr.leaf i k) (st i) := hn
        match k, hn with
        | .point v, hn =>
          exact ⟨fun _ => (hn.const i v rfl).1, hn.jac, hn.cross, hn.off, hn.const⟩
        | .pointIn j l, hn =>
          exact ⟨fun _ => rfl, hn.jac, hn.cross, hn.off, fun a b hab => by cases hab⟩
        | .vectorIn j l, hn =>
          exact ⟨fun _ => rfl, hn.jac, hn.cross, hn.off, fun a b hab => by cases hab⟩
        | .com c, hn =>
          exact ⟨fun _ => rfl, hn.jac, hn.cross, hn.off, fun a b hab => by cases hab⟩
      · cases k <;> exact ⟨fun _ => rfl, fun x => x, fun x => x⟩
  | bin i op l r ihl ihr =>
    intro st he hh h
    have hl : S l := ha.closed he (Sub.left i op l r (.refl l))
    have hr : S r := ha.closed he (Sub.right i op l r (.refl r))
    have hne : ∀ i' k, Expr.bin i op l r ≠ .leaf i' k := fun _ _ hx => by cases hx
    match op with
    | .cross =>
      obtain ⟨hhl, hhr, hcl, -, hol, -⟩ := hh
      unfold computeValue
      split
      · next hv => exact ⟨⟨h, Mono.refl st⟩, hv⟩
      · have key : After w S st (if (st l.id).cV then st else setCross l (computeValue w l st)) ∧
            ((if (st l.id).cV then st else setCross l (computeValue w l st)) l.id).cV = true := by
          split
          · next hc => exact ⟨⟨h, Mono.refl st⟩, hc⟩
          · obtain ⟨a1, a2⟩ := ihl st hl hhl h
            obtain ⟨b1, b2⟩ := setCross_after a1.good ha hl hcl (fun o => absurd o hol) a2
            exact ⟨⟨b1.good, a1.mono.trans b1.mono⟩, b2⟩
        generalize (if (st l.id).cV then st else setCross l (computeValue w l st)) = s1 at key ⊢
        obtain ⟨a1, a2⟩ := key
        obtain ⟨b1, b2⟩ := ihr s1 hr hhr a1.good
        have hx := (b1.good l hl).cross hcl ((b1.mono l.id).2.2 a2)
        have hy := (b1.good r hr).value b2
        obtain ⟨c1, c2⟩ := setValue_after (e := .bin i .cross l r)
          (v := (computeValue w r s1 l.id).cross *ᵥ (computeValue w r s1 r.id).value) b1.good ha he hne
          (by rw [hx, hy, hat_mulVec]; rfl)
        exact ⟨⟨c1.good, (a1.mono.trans b1.mono).trans c1.mono⟩, c2⟩
    | .diff =>
      obtain ⟨hhl, hhr⟩ := hh
      unfold computeValue
      split
      · next hv => exact ⟨⟨h, Mono.refl st⟩, hv⟩
      · obtain ⟨a1, a2⟩ := ihl st hl hhl h
        obtain ⟨b1, b2⟩ := ihr _ hr hhr a1.good
        have hx := (b1.good l hl).value ((b1.mono l.id).1 a2)
        have hy := (b1.good r hr).value b2
        obtain ⟨c1, c2⟩ := setValue_after (e := .bin i .diff l r)
          (v := (computeValue w r (computeValue w l st) l.id).value -
            (computeValue w r (computeValue w l st) r.id).value) b1.good ha he hne (by rw [hx, hy]; rfl)
        exact ⟨⟨c1.good, (a1.mono.trans b1.mono).trans c1.mono⟩, c2⟩
    | .sum =>
      obtain ⟨hhl, hhr⟩ := hh
      unfold computeValue
      split
      · next hv => exact ⟨⟨h, Mono.refl st⟩, hv⟩
      · obtain ⟨a1, a2⟩ := ihl st hl hhl h
        obtain ⟨b1, b2⟩ := ihr _ hr hhr a1.good
        have hx := (b1.good l hl).value ((b1.mono l.id).1 a2)
        have hy := (b1.good r hr).value b2
        obtain ⟨c1, c2⟩ := setValue_after (e := .bin i .sum l r)
          (v := (computeValue w r (computeValue w l st) l.id).value +
            (computeValue w r (computeValue w l st) r.id).value) b1.good ha he hne (by rw [hx, hy]; rfl)
        exact ⟨⟨c1.good, (a1.mono.trans b1.mono).trans c1.mono⟩, c2⟩
  | un i op e ih =>
    intro st he hh h
    have hs : S e := ha.closed he (Sub.arg i op e (.refl e))
    have hne : ∀ i' k, Expr.un i op e ≠ .leaf i' k := fun _ _ hx => by cases hx
    match op with
    | .smul a =>
      unfold computeValue
      split
      · next hv => exact ⟨⟨h, Mono.refl st⟩, hv⟩
      · obtain ⟨a1, a2⟩ := ih st hs hh h
        have hx := (a1.good e hs).value a2
        obtain ⟨c1, c2⟩ := setValue_after (e := .un i (.smul a) e)
          (v := a • (computeValue w e st e.id).value) a1.good ha he hne (by rw [hx]; rfl)
        exact ⟨⟨c1.good, a1.mono.trans c1.mono⟩, c2⟩
    | .rot tr j =>
      unfold computeValue
      split
      · next hv => exact ⟨⟨h, Mono.refl st⟩, hv⟩
      · obtain ⟨a1, a2⟩ := ih st hs hh.1 h
        have hx := (a1.good e hs).value a2
        obtain ⟨c1, c2⟩ := setValue_after (e := .un i (.rot tr j) e)
          (v := if tr then (w.R j)ᵀ *ᵥ (computeValue w e st e.id).value
            else w.R j *ᵥ (computeValue w e st e.id).value) a1.good ha he hne (by rw [hx]; rfl)
        exact ⟨⟨c1.good, a1.mono.trans c1.mono⟩, c2⟩

theorem computeCross_after {w : World α n} {S : Expr α → Prop} {e : Expr α} {st : St α n} (ha : Nodes S) (he : S e)
    (hh : e.Handled) (hc : ¬ e.isCom) (h : Good w S st) (ho : e.offCenter → (st e.id).jV = true) :
    After w S st (computeCross w e st) ∧ (computeCross w e st e.id).cV = true := by
  unfold computeCross
  split
  · next hv => exact ⟨⟨h, Mono.refl st⟩, hv⟩
  · obtain ⟨a1, a2⟩ := computeValue_after ha e st he hh h
    obtain ⟨b1, b2⟩ := setCross_after a1.good ha he hc (fun o => (a1.mono e.id).2.1 (ho o)) a2
    exact ⟨⟨b1.good, a1.mono.trans b1.mono⟩, b2⟩

variable [DecidableEq α]

theorem implJac_center (w : World α n) (j : Nat) {l : V3 α} (c : Cache α n) (h : l = 0) :
    (Leaf.pointIn j l).implJac w c = { c with jac := w.R j * w.Jv j } := by
  simp [Leaf.implJac, h]

theorem implJac_off (w : World α n) (j : Nat) {l : V3 α} (c : Cache α n) (h : l ≠ 0) :
    (Leaf.pointIn j l).implJac w c =
      { c with jac := w.R j * w.Jv j - (hat (w.R j *ᵥ l) * w.R j) * w.Jw j, cross := hat (w.R j *ᵥ l) } := by
  simp [Leaf.implJac, h]

theorem implJac_ok {w : World α n} {i : Nat} {k : Leaf α} {c : Cache α n} (h : NodeOk w (.leaf i k) c)
    (hj : c.jV ≠ true) : NodeOk w (.leaf i k) { k.implJac w c with jV := true } := by
  match k, h with
  | .point v, h => exact ⟨h.value, fun _ => (h.const i v rfl).2, h.cross, fun _ _ => rfl, h.const⟩
  | .pointIn j l, h =>
    by_cases hl : l = 0
    · rw [implJac_center w j c hl]
      refine ⟨h.value, fun _ => ?_, h.cross, fun _ _ => rfl, fun a b hab => by cases hab⟩
      simp only [Expr.diff]
      rw [hl, mulVec_zero, hat_zero, Matrix.zero_mul, Matrix.zero_mul, sub_zero]
    · rw [implJac_off w j c hl]
      refine ⟨h.value, fun _ => rfl, fun _ hc => ?_, fun _ _ => rfl, fun a b hab => by cases hab⟩
      exact absurd (h.off hl hc) hj
  | .vectorIn j v, h =>
    exact ⟨h.value, fun _ => rfl, fun _ _ => rfl, fun _ _ => rfl, fun a b hab => by cases hab⟩
  | .com c', h =>
    exact ⟨fun _ => rfl, fun _ => rfl, fun hx => absurd trivial hx, fun _ _ => rfl, fun a b hab => by cases hab⟩

/-- `computeJacobian` on an expression the code handles. -/
theorem computeJac_after {w : World α n} {S : Expr α → Prop} (ha : Nodes S) :
    ∀ (e : Expr α) (st : St α n), S e → e.Handled → Good w S st →
      After w S st (computeJac w e st) ∧ (computeJac w e st e.id).jV = true := by
  intro e
  induction e with
  | leaf i k =>
    intro st he _ h
    have hn := h _ he
    unfold computeJac
    split
    · next hv => exact ⟨⟨h, Mono.refl st⟩, hv⟩
    · next hv =>
      refine ⟨⟨h.update ha he (implJac_ok hn hv), Mono.update ?_⟩, by simp [Expr.id]⟩
      match k with
      | .point v => exact ⟨fun x => x, fun _ => rfl, fun x => x⟩
      | .pointIn j l =>
        by_cases hl : l = 0
        · rw [implJac_center w j _ hl]; exact ⟨fun x => x, fun _ => rfl, fun x => x⟩
        · rw [implJac_off w j _ hl]; exact ⟨fun x => x, fun _ => rfl, fun x => x⟩
      | .vectorIn j l => exact ⟨fun x => x, fun _ => rfl, fun x => x⟩
      | .com c => exact ⟨fun x => x, fun _ => rfl, fun x => x⟩
  | bin i op l r ihl ihr =>
    intro st he hh h
    have hl : S l := ha.closed he (Sub.left i op l r (.refl l))
    have hr : S r := ha.closed he (Sub.right i op l r (.refl r))
    have hne : ∀ i' k, Expr.bin i op l r ≠ .leaf i' k := fun _ _ hx => by cases hx
    match op with
    | .cross =>
      obtain ⟨hhl, hhr, hcl, hcr, hol, hor⟩ := hh
      unfold computeJac
      split
      · next hv => exact ⟨⟨h, Mono.refl st⟩, hv⟩
      · dsimp only
        obtain ⟨a1, a2⟩ := computeCross_after ha hl hhl hcl h (fun o => absurd o hol)
        generalize computeCross w l st = s1 at *
        obtain ⟨b1, b2⟩ := computeCross_after ha hr hhr hcr a1.good (fun o => absurd o hor)
        generalize computeCross w r s1 = s2 at *
        obtain ⟨c1, c2⟩ := ihl s2 hl hhl b1.good
        generalize computeJac w l s2 = s3 at *
        obtain ⟨d1, d2⟩ := ihr s3 hr hhr c1.good
        generalize computeJac w r s3 = s4 at *
        have e1 := (d1.good l hl).cross hcl ((((b1.mono.trans c1.mono).trans d1.mono) l.id).2.2 a2)
        have e2 := (d1.good r hr).cross hcr (((c1.mono.trans d1.mono) r.id).2.2 b2)
        have e3 := (d1.good l hl).jac ((d1.mono l.id).2.1 c2)
        have e4 := (d1.good r hr).jac d2
        obtain ⟨f1, f2⟩ := setJac_after (e := .bin i .cross l r)
          (J := (s4 l.id).cross * (s4 r.id).jac - (s4 r.id).cross * (s4 l.id).jac) d1.good ha he hne
          (by rw [e1, e2, e3, e4]; rfl)
        exact ⟨⟨f1.good, ((((a1.mono.trans b1.mono).trans c1.mono).trans d1.mono).trans f1.mono)⟩, f2⟩
    | .diff =>
      obtain ⟨hhl, hhr⟩ := hh
      unfold computeJac
      split
      · next hv => exact ⟨⟨h, Mono.refl st⟩, hv⟩
      · dsimp only
        obtain ⟨a1, a2⟩ := ihl st hl hhl h
        generalize computeJac w l st = s1 at *
        obtain ⟨b1, b2⟩ := ihr s1 hr hhr a1.good
        generalize computeJac w r s1 = s2 at *
        have e1 := (b1.good l hl).jac ((b1.mono l.id).2.1 a2)
        have e2 := (b1.good r hr).jac b2
        obtain ⟨f1, f2⟩ := setJac_after (e := .bin i .diff l r)
          (J := (s2 l.id).jac - (s2 r.id).jac) b1.good ha he hne (by rw [e1, e2]; rfl)
        exact ⟨⟨f1.good, (a1.mono.trans b1.mono).trans f1.mono⟩, f2⟩
    | .sum =>
      obtain ⟨hhl, hhr⟩ := hh
      unfold computeJac
      split
      · next hv => exact ⟨⟨h, Mono.refl st⟩, hv⟩
      · dsimp only
        obtain ⟨a1, a2⟩ := ihl st hl hhl h
        generalize computeJac w l st = s1 at *
        obtain ⟨b1, b2⟩ := ihr s1 hr hhr a1.good
        generalize computeJac w r s1 = s2 at *
        have e1 := (b1.good l hl).jac ((b1.mono l.id).2.1 a2)
        have e2 := (b1.good r hr).jac b2
        obtain ⟨f1, f2⟩ := setJac_after (e := .bin i .sum l r)
          (J := (s2 l.id).jac + (s2 r.id).jac) b1.good ha he hne (by rw [e1, e2]; rfl)
        exact ⟨⟨f1.good, (a1.mono.trans b1.mono).trans f1.mono⟩, f2⟩
  | un i op e ih =>
    intro st he hh h
    have hs : S e := ha.closed he (Sub.arg i op e (.refl e))
    have hne : ∀ i' k, Expr.un i op e ≠ .leaf i' k := fun _ _ hx => by cases hx
    match op with
    | .smul a =>
      unfold computeJac
      split
      · next hv => exact ⟨⟨h, Mono.refl st⟩, hv⟩
      · dsimp only
        obtain ⟨a1, a2⟩ := ih st hs hh h
        generalize computeJac w e st = s1 at *
        have e1 := (a1.good e hs).jac a2
        obtain ⟨f1, f2⟩ := setJac_after (e := .un i (.smul a) e)
          (J := a • (s1 e.id).jac) a1.good ha he hne (by rw [e1]; rfl)
        exact ⟨⟨f1.good, a1.mono.trans f1.mono⟩, f2⟩
    | .rot tr j =>
      obtain ⟨hh, htr, hc⟩ := hh
      subst htr
      unfold computeJac
      split
      · next hv => exact ⟨⟨h, Mono.refl st⟩, hv⟩
      · dsimp only
        obtain ⟨a1, a2⟩ := ih st hs hh h
        generalize computeJac w e st = s1 at *
        obtain ⟨b1, b2⟩ := computeCross_after ha hs hh hc a1.good (fun _ => a2)
        generalize computeCross w e s1 = s2 at *
        have e1 := (b1.good e hs).jac ((b1.mono e.id).2.1 a2)
        have e2 := (b1.good e hs).cross hc b2
        obtain ⟨f1, f2⟩ := setJac_after (e := .un i (.rot true j) e)
          (J := (w.R j)ᵀ * (((s2 e.id).cross * w.R j) * w.Jw j + (s2 e.id).jac)) b1.good ha he hne
          (by rw [e1, e2]; rfl)
        exact ⟨⟨f1.good, (a1.mono.trans b1.mono).trans f1.mono⟩, f2⟩

omit [CommRing α] [DecidableEq α] in
theorem Addressed.nodes {e : Expr α} (h : Addressed e) : Nodes (fun a => Sub a e) :=
  ⟨fun he ha => ha.trans he, fun ha hb => h _ _ ha hb⟩

/-! ### Invalidation -/

omit [CommRing α] [DecidableEq α] in
theorem invalidate_const : ∀ (e : Expr α) (st : St α n) (i : Nat),
    (invalidate e st i).value = (st i).value ∧ (invalidate e st i).jac = (st i).jac := by
  intro e
  induction e with
  | leaf k l =>
    intro st i
    by_cases h : i = k
    · subst h; simp [invalidate, Cache.invalid]
    · simp [invalidate, Function.update_of_ne h]
  | bin k op l r ihl ihr =>
    intro st i
    simp only [invalidate]
    rw [(ihl _ i).1, (ihr _ i).1, (ihl _ i).2, (ihr _ i).2]
    by_cases h : i = k
    · subst h; simp [Cache.invalid]
    · simp [Function.update_of_ne h]
  | un k op e ih =>
    intro st i
    simp only [invalidate]
    rw [(ih _ i).1, (ih _ i).2]
    by_cases h : i = k
    · subst h; simp [Cache.invalid]
    · simp [Function.update_of_ne h]

/-- Not valid -/
def Off (c : Cache α n) : Prop := c.vV = false ∧ c.jV = false ∧ c.cV = false

omit [CommRing α] [DecidableEq α] in
theorem invalidate_off_mono : ∀ (e : Expr α) (st : St α n) (i : Nat), Off (st i) → Off (invalidate e st i) := by
  intro e
  have upd : ∀ (st : St α n) (i k : Nat), Off (st i) → Off (Function.update st k (st k).invalid i) := by
    intro st i k h
    by_cases hk : i = k
    · subst hk; simp [Cache.invalid, Off]
    · rw [Function.update_of_ne hk]; exact h
  induction e with
  | leaf k l => intro st i h; exact upd st i k h
  | bin k op l r ihl ihr => intro st i h; exact ihl _ i (ihr _ i (upd st i k h))
  | un k op e ih => intro st i h; exact ih _ i (upd st i k h)

omit [CommRing α] [DecidableEq α] in
theorem invalidate_off : ∀ (e a : Expr α) (st : St α n), Sub a e → Off (invalidate e st a.id) := by
  intro e a st h
  have self : ∀ (st : St α n) (k : Nat), Off (Function.update st k (st k).invalid k) := by
    intro st k; simp [Cache.invalid, Off]
  induction h generalizing st with
  | refl =>
    match a with
    | .leaf k l => exact self st k
    | .bin k op l r => exact invalidate_off_mono l _ _ (invalidate_off_mono r _ _ (self st k))
    | .un k op e => exact invalidate_off_mono e _ _ (self st k)
  | left i op l r h ih => exact ih _
  | right i op l r h ih => exact invalidate_off_mono l _ _ (ih _)
  | arg i op e h ih => exact ih _

omit [DecidableEq α] in
theorem Constructed.sub {st : St α n} {e : Expr α} (h : Constructed st e) {a : Expr α} (ha : Sub a e) :
    Constructed st a := by
  induction ha with
  | refl => exact h
  | left i op l r _ ih => exact ih h.1
  | right i op l r _ ih => exact ih h.2
  | arg i op e _ ih => exact ih h

omit [DecidableEq α] in
/-- After `invalidate`, the memory is right for any state of the robot. -/
theorem invalidate_good (w : World α n) {e : Expr α} {st : St α n} (h : Constructed st e) :
    Good w (fun a => Sub a e) (invalidate e st) := by
  intro a ha
  obtain ⟨h1, h2, h3⟩ := invalidate_off e a st ha
  refine ⟨fun x => ?_, fun x => ?_, fun _ x => ?_, fun _ x => ?_, fun i v hx => ?_⟩
  · rw [h1] at x; cases x
  · rw [h2] at x; cases x
  · rw [h3] at x; cases x
  · rw [h3] at x; cases x
  · subst hx
    rw [(invalidate_const e st _).1, (invalidate_const e st _).2]
    exact h.sub ha

omit [DecidableEq α] in
theorem Good.constructed {w : World α n} {root : Expr α} {st : St α n} (h : Good w (fun a => Sub a root) st) : ∀ e : Expr α,
    Sub e root → Constructed st e := by
  intro e
  induction e with
  | leaf i k =>
    intro he
    match k with
    | .point v => exact (h _ he).const i v rfl
    | .pointIn _ _ => trivial
    | .vectorIn _ _ => trivial
    | .com _ => trivial
  | bin i op l r ihl ihr =>
    intro he
    exact ⟨ihl ((Sub.left i op l r (.refl l)).trans he), ihr ((Sub.right i op l r (.refl r)).trans he)⟩
  | un i op e ih => intro he; exact ih ((Sub.arg i op e (.refl e)).trans he)

/-! ### Nodes without joint keep their value, whatever the expression -/

omit [DecidableEq α] in
theorem Constructed.update {root : Expr α} {st : St α n} {e : Expr α} {c : Cache α n} (ha : Addressed root)
    (he : Sub e root) (hc : ∀ i v, e = .leaf i (.point v) → c.value = (st i).value ∧ c.jac = (st i).jac) :
    ∀ a : Expr α, Sub a root → Constructed st a → Constructed (Function.update st e.id c) a := by
  intro a
  induction a with
  | leaf i k =>
    intro hs h
    match k, hs, h with
    | .point v, hs, h =>
      by_cases hk : i = e.id
      · have := ha _ _ hs he hk
        subst this
        obtain ⟨h1, h2⟩ := hc i v rfl
        have h : (st i).value = v ∧ (st i).jac = 0 := h
        simp only [Constructed]
        show (Function.update st i c i).value = v ∧ (Function.update st i c i).jac = 0
        rw [Function.update_self]
        exact ⟨h1.trans h.1, h2.trans h.2⟩
      · simp only [Constructed]
        rw [Function.update_of_ne hk]
        exact h
    | .pointIn _ _, _, _ => trivial
    | .vectorIn _ _, _, _ => trivial
    | .com _, _, _ => trivial
  | bin i op l r ihl ihr =>
    intro hs h
    exact ⟨ihl ((Sub.left i op l r (.refl l)).trans hs) h.1, ihr ((Sub.right i op l r (.refl r)).trans hs) h.2⟩
  | un i op e ih => intro hs h; exact ih ((Sub.arg i op e (.refl e)).trans hs) h

omit [DecidableEq α] in
theorem setCross_constructed {root e : Expr α} {st : St α n} (ha : Addressed root) (he : Sub e root)
    (h : Constructed st root) : Constructed (setCross e st) root :=
  Constructed.update ha he (fun i v hx => by subst hx; exact ⟨rfl, rfl⟩) root (.refl root) h

omit [DecidableEq α] in
theorem setValue_constructed {root e : Expr α} {st : St α n} {v : V3 α} (ha : Addressed root) (he : Sub e root)
    (hl : ∀ i k, e ≠ .leaf i k) (h : Constructed st root) : Constructed (setValue e.id v st) root :=
  Constructed.update ha he (fun _ _ hx => absurd hx (hl _ _)) root (.refl root) h

omit [DecidableEq α] in
theorem setJac_constructed {root e : Expr α} {st : St α n} {J : Matrix (Fin 3) (Fin n) α} (ha : Addressed root)
    (he : Sub e root) (hl : ∀ i k, e ≠ .leaf i k) (h : Constructed st root) : Constructed (setJac e.id J st) root :=
  Constructed.update ha he (fun _ _ hx => absurd hx (hl _ _)) root (.refl root) h

omit [DecidableEq α] in
theorem computeValue_constructed {w : World α n} {root : Expr α} (ha : Addressed root) :
    ∀ (e : Expr α) (st : St α n), Sub e root → Constructed st root → Constructed (computeValue w e st) root := by
  intro e
  induction e with
  | leaf i k =>
    intro st he h
    unfold computeValue
    split
    · exact h
    · exact Constructed.update ha he (fun i' v hx => by cases hx; exact ⟨rfl, rfl⟩) root (.refl root) h
  | bin i op l r ihl ihr =>
    intro st he h
    have hl : Sub l root := (Sub.left i op l r (.refl l)).trans he
    have hr : Sub r root := (Sub.right i op l r (.refl r)).trans he
    have hne : ∀ i' k, Expr.bin i op l r ≠ .leaf i' k := fun _ _ hx => by cases hx
    match op with
    | .cross =>
      unfold computeValue
      split
      · exact h
      · refine setValue_constructed (e := .bin i .cross l r) ha he hne (ihr _ hr ?_)
        split
        · exact h
        · exact setCross_constructed ha hl (ihl _ hl h)
    | .diff =>
      unfold computeValue
      split
      · exact h
      · exact setValue_constructed (e := .bin i .diff l r) ha he hne (ihr _ hr (ihl _ hl h))
    | .sum =>
      unfold computeValue
      split
      · exact h
      · exact setValue_constructed (e := .bin i .sum l r) ha he hne (ihr _ hr (ihl _ hl h))
  | un i op e ih =>
    intro st he h
    have hs : Sub e root := (Sub.arg i op e (.refl e)).trans he
    have hne : ∀ i' k, Expr.un i op e ≠ .leaf i' k := fun _ _ hx => by cases hx
    match op with
    | .smul a =>
      unfold computeValue
      split
      · exact h
      · exact setValue_constructed (e := .un i (.smul a) e) ha he hne (ih _ hs h)
    | .rot tr j =>
      unfold computeValue
      split
      · exact h
      · exact setValue_constructed (e := .un i (.rot tr j) e) ha he hne (ih _ hs h)

omit [DecidableEq α] in
theorem computeCross_constructed {w : World α n} {root e : Expr α} {st : St α n} (ha : Addressed root)
    (he : Sub e root) (h : Constructed st root) : Constructed (computeCross w e st) root := by
  unfold computeCross
  split
  · exact h
  · exact setCross_constructed ha he (computeValue_constructed ha e st he h)

theorem computeJac_constructed {w : World α n} {root : Expr α} (ha : Addressed root) :
    ∀ (e : Expr α) (st : St α n), Sub e root → Constructed st root → Constructed (computeJac w e st) root := by
  intro e
  induction e with
  | leaf i k =>
    intro st he h
    unfold computeJac
    split
    · exact h
    · exact Constructed.update ha he (fun i' v hx => by cases hx; exact ⟨rfl, rfl⟩) root (.refl root) h
  | bin i op l r ihl ihr =>
    intro st he h
    have hl : Sub l root := (Sub.left i op l r (.refl l)).trans he
    have hr : Sub r root := (Sub.right i op l r (.refl r)).trans he
    have hne : ∀ i' k, Expr.bin i op l r ≠ .leaf i' k := fun _ _ hx => by cases hx
    match op with
    | .cross =>
      unfold computeJac
      split
      · exact h
      · exact setJac_constructed (e := .bin i .cross l r) ha he hne (ihr _ hr (ihl _ hl
          (computeCross_constructed ha hr (computeCross_constructed ha hl h))))
    | .diff =>
      unfold computeJac
      split
      · exact h
      · exact setJac_constructed (e := .bin i .diff l r) ha he hne (ihr _ hr (ihl _ hl h))
    | .sum =>
      unfold computeJac
      split
      · exact h
      · exact setJac_constructed (e := .bin i .sum l r) ha he hne (ihr _ hr (ihl _ hl h))
  | un i op e ih =>
    intro st he h
    have hs : Sub e root := (Sub.arg i op e (.refl e)).trans he
    have hne : ∀ i' k, Expr.un i op e ≠ .leaf i' k := fun _ _ hx => by cases hx
    match op with
    | .smul a =>
      unfold computeJac
      split
      · exact h
      · exact setJac_constructed (e := .un i (.smul a) e) ha he hne (ih _ hs h)
    | .rot tr j =>
      unfold computeJac
      split
      · exact h
      · exact setJac_constructed (e := .un i (.rot tr j) e) ha he hne (computeCross_constructed ha hs (ih _ hs h))

omit [DecidableEq α] in
theorem invalidate_constructed (e : Expr α) (st : St α n) : ∀ a : Expr α, Constructed st a →
    Constructed (invalidate e st) a := by
  intro a
  induction a with
  | leaf i k =>
    intro h
    match k, h with
    | .point v, h =>
      simp only [Constructed]
      rw [(invalidate_const e st i).1, (invalidate_const e st i).2]
      exact h
    | .pointIn _ _, _ => trivial
    | .vectorIn _ _, _ => trivial
    | .com _, _ => trivial
  | bin i op l r ihl ihr => intro h; exact ⟨ihl h.1, ihr h.2⟩
  | un i op e ih => intro h; exact ih h

/-- Any sequence of calls keeps the memory right. -/
theorem calls_after {w : World α n} {S : Expr α → Prop} {e : Expr α} (ha : Nodes S) (he : S e) (hh : e.Handled) :
    ∀ (cs : List Call) (st : St α n), (Call.cross ∈ cs → ¬ e.isCom ∧ ¬ e.offCenter) → Good w S st →
      Good w S (calls w e cs st) := by
  intro cs
  induction cs with
  | nil => intro st _ h; exact h
  | cons c cs ih =>
    intro st hx h
    refine ih _ (fun hc => hx (List.mem_cons_of_mem _ hc)) ?_
    match c, hx with
    | .value, _ => exact (computeValue_after ha e st he hh h).1.good
    | .cross, hx =>
      obtain ⟨hc, ho⟩ := hx List.mem_cons_self
      exact (computeCross_after ha he hh hc h (fun o => absurd o ho)).1.good
    | .jac, _ => exact (computeJac_after ha e st he hh h).1.good

end Hpp.Sym
