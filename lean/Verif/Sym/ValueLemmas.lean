import Verif.Sym.Deriv

/-! Computation of the value alone, after `invalidate`. -/

namespace Hpp.Sym

open Matrix

variable {α : Type} {n : Nat} [CommRing α]

/-- The left operand of a cross product is not the center of mass. -/
def Expr.ValueHandled : Expr α → Prop
  | .leaf _ _ => True
  | .bin _ .cross l r => l.ValueHandled ∧ r.ValueHandled ∧ ¬ l.isCom
  | .bin _ _ l r => l.ValueHandled ∧ r.ValueHandled
  | .un _ _ e => e.ValueHandled

structure VOk (w : World α n) (e : Expr α) (c : Cache α n) : Prop where
  value : c.vV = true → c.value = e.denote w
  cross : ¬ e.isCom → c.cV = true → c.cross = hat (e.denote w)
  const : ∀ i v, e = .leaf i (.point v) → c.value = v

def VGood (w : World α n) (root : Expr α) (st : St α n) : Prop :=
  ∀ e : Expr α, Sub e root → VOk w e (st e.id)

theorem VGood.update {w : World α n} {root e : Expr α} {st : St α n} {c : Cache α n} (h : VGood w root st)
    (ha : Addressed root) (he : Sub e root) (hc : VOk w e c) : VGood w root (Function.update st e.id c) := by
  intro b hb
  by_cases hk : b.id = e.id
  · have := ha b e hb he hk
    subst this
    simpa using hc
  · rw [Function.update_of_ne hk]
    exact h b hb

theorem setValue_vgood {w : World α n} {root e : Expr α} {st : St α n} {v : V3 α} (h : VGood w root st)
    (ha : Addressed root) (he : Sub e root) (hl : ∀ i k, e ≠ .leaf i k) (hv : v = e.denote w) :
    VGood w root (setValue e.id v st) ∧ Mono st (setValue e.id v st) ∧ (setValue e.id v st e.id).vV = true := by
  have hn := h e he
  refine ⟨h.update ha he ?_, Mono.update ⟨fun _ => rfl, fun x => x, fun x => x⟩, by simp [setValue]⟩
  exact ⟨fun _ => hv, hn.cross, fun i v' h' => absurd h' (hl i _)⟩

theorem setCross_vgood {w : World α n} {root e : Expr α} {st : St α n} (h : VGood w root st) (ha : Addressed root)
    (he : Sub e root) (hc : ¬ e.isCom) (hv : (st e.id).vV = true) :
    VGood w root (setCross e st) ∧ Mono st (setCross e st) ∧ (setCross e st e.id).cV = true := by
  have hn := h e he
  refine ⟨h.update ha he ?_, Mono.update ⟨fun x => x, fun x => x, fun _ => rfl⟩, by simp [setCross]⟩
  exact ⟨hn.value, fun _ _ => by rw [rawValue_eq hc, hn.value hv], hn.const⟩

theorem computeValue_vgood {w : World α n} {root : Expr α} (ha : Addressed root) :
    ∀ (e : Expr α) (st : St α n), Sub e root → e.ValueHandled → VGood w root st →
      VGood w root (computeValue w e st) ∧ Mono st (computeValue w e st) ∧
        (computeValue w e st e.id).vV = true := by
  intro e
  induction e with
  | leaf i k =>
    intro st he _ h
    have hn := h _ he
    unfold computeValue
    split
    · next hv => exact ⟨h, Mono.refl st, hv⟩
    · refine ⟨h.update ha he ?_, Mono.update ?_, by simp [Expr.id]⟩
      · have hn : VOk w (Expr.leaf i k) (st i) := hn
        match k, hn with
        | .point v, hn => exact ⟨fun _ => hn.const i v rfl, hn.cross, hn.const⟩
        | .pointIn j l, hn => exact ⟨fun _ => rfl, hn.cross, fun a b hab => by cases hab⟩
        | .vectorIn j l, hn => exact ⟨fun _ => rfl, hn.cross, fun a b hab => by cases hab⟩
        | .com c, hn => exact ⟨fun _ => rfl, hn.cross, fun a b hab => by cases hab⟩
      · cases k <;> exact ⟨fun _ => rfl, fun x => x, fun x => x⟩
  | bin i op l r ihl ihr =>
    intro st he hh h
    have hl : Sub l root := (Sub.left i op l r (.refl l)).trans he
    have hr : Sub r root := (Sub.right i op l r (.refl r)).trans he
    have hne : ∀ i' k, Expr.bin i op l r ≠ .leaf i' k := fun _ _ hx => by cases hx
    match op with
    | .cross =>
      obtain ⟨hhl, hhr, hcl⟩ := hh
      unfold computeValue
      split
      · next hv => exact ⟨h, Mono.refl st, hv⟩
      · have key : VGood w root (if (st l.id).cV then st else setCross l (computeValue w l st)) ∧
            Mono st (if (st l.id).cV then st else setCross l (computeValue w l st)) ∧
            ((if (st l.id).cV then st else setCross l (computeValue w l st)) l.id).cV = true := by
          split
          · next hc => exact ⟨h, Mono.refl st, hc⟩
          · obtain ⟨a0, a1, a2⟩ := ihl st hl hhl h
            obtain ⟨b0, b1, b2⟩ := setCross_vgood a0 ha hl hcl a2
            exact ⟨b0, a1.trans b1, b2⟩
        generalize (if (st l.id).cV then st else setCross l (computeValue w l st)) = s1 at key ⊢
        obtain ⟨a0, a1, a2⟩ := key
        obtain ⟨b0, b1, b2⟩ := ihr s1 hr hhr a0
        have hx := (b0 l hl).cross hcl ((b1 l.id).2.2 a2)
        have hy := (b0 r hr).value b2
        obtain ⟨c0, c1, c2⟩ := setValue_vgood (e := .bin i .cross l r)
          (v := (computeValue w r s1 l.id).cross *ᵥ (computeValue w r s1 r.id).value) b0 ha he hne
          (by rw [hx, hy, hat_mulVec]; rfl)
        exact ⟨c0, (a1.trans b1).trans c1, c2⟩
    | .diff =>
      obtain ⟨hhl, hhr⟩ := hh
      unfold computeValue
      split
      · next hv => exact ⟨h, Mono.refl st, hv⟩
      · obtain ⟨a0, a1, a2⟩ := ihl st hl hhl h
        obtain ⟨b0, b1, b2⟩ := ihr _ hr hhr a0
        have hx := (b0 l hl).value ((b1 l.id).1 a2)
        have hy := (b0 r hr).value b2
        obtain ⟨c0, c1, c2⟩ := setValue_vgood (e := .bin i .diff l r)
          (v := (computeValue w r (computeValue w l st) l.id).value -
            (computeValue w r (computeValue w l st) r.id).value) b0 ha he hne (by rw [hx, hy]; rfl)
        exact ⟨c0, (a1.trans b1).trans c1, c2⟩
    | .sum =>
      obtain ⟨hhl, hhr⟩ := hh
      unfold computeValue
      split
      · next hv => exact ⟨h, Mono.refl st, hv⟩
      · obtain ⟨a0, a1, a2⟩ := ihl st hl hhl h
        obtain ⟨b0, b1, b2⟩ := ihr _ hr hhr a0
        have hx := (b0 l hl).value ((b1 l.id).1 a2)
        have hy := (b0 r hr).value b2
        obtain ⟨c0, c1, c2⟩ := setValue_vgood (e := .bin i .sum l r)
          (v := (computeValue w r (computeValue w l st) l.id).value +
            (computeValue w r (computeValue w l st) r.id).value) b0 ha he hne (by rw [hx, hy]; rfl)
        exact ⟨c0, (a1.trans b1).trans c1, c2⟩
  | un i op e ih =>
    intro st he hh h
    have hs : Sub e root := (Sub.arg i op e (.refl e)).trans he
    have hne : ∀ i' k, Expr.un i op e ≠ .leaf i' k := fun _ _ hx => by cases hx
    match op with
    | .smul a =>
      unfold computeValue
      split
      · next hv => exact ⟨h, Mono.refl st, hv⟩
      · obtain ⟨a0, a1, a2⟩ := ih st hs hh h
        have hx := (a0 e hs).value a2
        obtain ⟨c0, c1, c2⟩ := setValue_vgood (e := .un i (.smul a) e)
          (v := a • (computeValue w e st e.id).value) a0 ha he hne (by rw [hx]; rfl)
        exact ⟨c0, a1.trans c1, c2⟩
    | .rot tr j =>
      unfold computeValue
      split
      · next hv => exact ⟨h, Mono.refl st, hv⟩
      · obtain ⟨a0, a1, a2⟩ := ih st hs hh h
        have hx := (a0 e hs).value a2
        obtain ⟨c0, c1, c2⟩ := setValue_vgood (e := .un i (.rot tr j) e)
          (v := if tr then (w.R j)ᵀ *ᵥ (computeValue w e st e.id).value
            else w.R j *ᵥ (computeValue w e st e.id).value) a0 ha he hne (by rw [hx]; rfl)
        exact ⟨c0, a1.trans c1, c2⟩

theorem invalidate_vgood (w : World α n) {e : Expr α} {st : St α n} (h : Constructed st e) :
    VGood w e (invalidate e st) := by
  intro a ha
  have hg := invalidate_good w h a ha
  exact ⟨hg.value, hg.cross, fun i v hx => (hg.const i v hx).1⟩

theorem Expr.Handled.value : ∀ {e : Expr α}, e.Handled → e.ValueHandled := by
  intro e
  induction e with
  | leaf i k => intro _; trivial
  | bin i op l r ihl ihr =>
    intro h
    match op with
    | .cross => exact ⟨ihl h.1, ihr h.2.1, h.2.2.1⟩
    | .diff => exact ⟨ihl h.1, ihr h.2⟩
    | .sum => exact ⟨ihl h.1, ihr h.2⟩
  | un i op e ih =>
    intro h
    match op with
    | .smul a => exact ih (show e.Handled from h)
    | .rot tr j => exact ih (show e.Handled from h.1)

theorem Expr.Handled.transposed : ∀ {e : Expr α}, e.Handled → e.Transposed := by
  intro e
  induction e with
  | leaf i k => intro _; trivial
  | bin i op l r ihl ihr =>
    intro h
    match op with
    | .cross => exact ⟨ihl h.1, ihr h.2.1⟩
    | .diff => exact ⟨ihl h.1, ihr h.2⟩
    | .sum => exact ⟨ihl h.1, ihr h.2⟩
  | un i op e ih =>
    intro h
    match op with
    | .smul a => exact ih (show e.Handled from h)
    | .rot tr j => exact ⟨ih (show e.Handled from h.1), h.2.1⟩

end Hpp.Sym
