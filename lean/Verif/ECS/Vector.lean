import Verif.ECS.Spec
import Verif.Common.Lemmas

/-!
# Explicit constraints with values in a vector space

The default `Explicit` constraint (explicit.cc) when its function takes values in a vector space.
-/

namespace Hpp

variable {α κ : Type}

/-- Explicit constraint `q_out = f(q_in) + rhs` on a vector space.  `h` is the implicit function
`q_out - f(q_in)` (explicit/implicit-function.cc:209-224), `outVal` is explicit.cc:106-111; `D` is the
matrix returned by the Jacobian of `f` (on a vector space explicit.cc:113-125 returns it unchanged,
whatever `f_value` is). -/
def vecCon [Zero α] [Add α] [Sub α] (key : κ) (inQ outQ inV outV : Segs) (comp : List Comp)
    (f : List α → List α) (D : List α → Nat → Nat → α) : ECon α κ where
  key := key
  inQ := inQ
  outQ := outQ
  inV := inV
  outV := outV
  comp := comp
  space := vectorSpace α (indices outQ).length
  h q := List.zipWith (· - ·) (rview q outQ) (f (rview q inQ))
  outVal x r := List.zipWith (· + ·) (f x) r
  jac x _ _ := D x

/-- The implicit formulation and the explicit one say the same thing. -/
def ECon.Consistent (c : ECon α κ) (El : List α → Prop) : Prop :=
  ∀ q rhs, El rhs → (c.h q = rhs ↔ rview q c.outQ = c.outVal (rview q c.inQ) rhs)

theorem zipWith_sub_eq [AddGroup α] (a b r : List α) (h1 : a.length = b.length)
    (h2 : r.length = b.length) (hcomm : ∀ x y : α, x + y = y + x) :
    List.zipWith (· - ·) a b = r ↔ a = List.zipWith (· + ·) b r := by
  induction a generalizing b r with
  | nil => cases b <;> cases r <;> simp_all
  | cons x a ih =>
    cases b with
    | nil => simp at h1
    | cons y b => cases r with
      | nil => simp at h2
      | cons z r =>
        simp only [List.length_cons, Nat.add_right_cancel_iff] at h1 h2
        simp only [List.zipWith_cons_cons, List.cons.injEq, ih b r h1 h2]
        constructor
        · rintro ⟨rfl, h⟩
          exact ⟨by rw [hcomm]; simp, h⟩
        · rintro ⟨rfl, h⟩
          exact ⟨by rw [hcomm]; simp, h⟩

theorem vecCon_consistent [AddCommGroup α] (key : κ) (inQ outQ inV outV : Segs) (comp : List Comp)
    (f : List α → List α) (D : List α → Nat → Nat → α)
    (hf : ∀ x, (f x).length = (indices outQ).length) :
    (vecCon key inQ outQ inV outV comp f D).Consistent (fun v => v.length = (indices outQ).length) := by
  intro q rhs hr
  exact zipWith_sub_eq _ _ _ (by rw [rview_length, hf]) (by rw [hr, hf]) add_comm

end Hpp
