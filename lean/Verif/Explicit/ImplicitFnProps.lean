import Verif.Explicit.ImplicitFnLemmas
import Mathlib.Analysis.SpecialFunctions.Trigonometric.Deriv

/-!
# C56: the implicit function of an explicit constraint

*The implicit function associated with an explicit constraint vanishes at a configuration if and only if the output
variables are the image of the input variables, and its Jacobian is the derivative of its value (on vector spaces:
identity on the output columns, opposite of the Jacobian of the explicit function on the input columns, zero elsewhere),
for every number of factors in the output space.*
-/

namespace Hpp.Explicit

open Matrix Hpp.Sym Hpp.Pose

variable {α : Type} [CommRing α]

/-! ### Value -/

omit [CommRing α] in
theorem append_eq_iff {a b c d : List α} (h : a.length = c.length) : a ++ b = c ++ d ↔ a = c ∧ b = d :=
  ⟨fun e => List.append_inj e h, fun e => by rw [e.1, e.2]⟩

/-- Specification: components of factor `r` in an element of the output space. -/
def factorOf (kinds : List LieKind) (l : List α) (r : Nat) : List α :=
  (l.drop ((kinds.take r).map LieKind.nq).sum).take ((kinds[r]?).elim 0 LieKind.nq)

/-- C56. The implicit function vanishes if and only if, in every factor of the output space, the output variables and the
image of the input variables are the same element.  `Same` is the equality of elements (for unit quaternions: up to the
sign), `El` recognises the vectors that represent an element; the assumption on the differences is that of every Lie
group, factor by factor. -/
theorem C56_zero (ops : LieOps α) (F : ImplicitFn α) (El : LieKind → List α → Prop) (Same : LieKind → List α → List α → Prop)
    (hsub : ∀ k a b, El k a → El k b → (ops.sub k a b).length = k.nv ∧
      (ops.sub k a b = List.replicate k.nv 0 ↔ Same k a b)) (q : Nat → α)
    (hout : ∀ r k, F.kinds[r]? = some k → El k (factorOf F.kinds (rview q F.outConf) r))
    (hf : ∀ r k, F.kinds[r]? = some k → El k (factorOf F.kinds (F.f (rview q F.inConf)) r)) :
    F.value ops q = List.replicate (F.kinds.map LieKind.nv).sum 0 ↔
      ∀ r k, F.kinds[r]? = some k →
        Same k (factorOf F.kinds (rview q F.outConf) r) (factorOf F.kinds (F.f (rview q F.inConf)) r) := by
  have key : ∀ (ks : List LieKind) (a b : List α),
      (∀ r k, ks[r]? = some k → El k (factorOf ks a r)) → (∀ r k, ks[r]? = some k → El k (factorOf ks b r)) →
      (ops.subAll ks a b = List.replicate (ks.map LieKind.nv).sum 0 ↔
        ∀ r k, ks[r]? = some k → Same k (factorOf ks a r) (factorOf ks b r)) := by
    intro ks
    induction ks with
    | nil => intro a b _ _; simp [LieOps.subAll]
    | cons k ks ih =>
      intro a b ha hb
      have h0 : ∀ l : List α, factorOf (k :: ks) l 0 = l.take k.nq := by intro l; simp [factorOf]
      have hs : ∀ (l : List α) r, factorOf (k :: ks) l (r + 1) = factorOf ks (l.drop k.nq) r := by
        intro l r
        simp [factorOf, List.drop_drop]
      have ha0 := ha 0 k rfl
      have hb0 := hb 0 k rfl
      rw [h0] at ha0 hb0
      obtain ⟨hl, hz⟩ := hsub k _ _ ha0 hb0
      have hi := ih (a.drop k.nq) (b.drop k.nq) (fun r k' hr => by rw [← hs]; exact ha (r + 1) k' hr)
        (fun r k' hr => by rw [← hs]; exact hb (r + 1) k' hr)
      simp only [LieOps.subAll, List.map_cons, List.sum_cons, ← List.replicate_append_replicate]
      rw [append_eq_iff (by simp [hl]), hz, hi]
      constructor
      · rintro ⟨p1, p2⟩ r k' hr
        cases r with
        | zero =>
          simp at hr; subst hr
          rw [h0, h0]; exact p1
        | succ r => rw [hs, hs]; exact p2 r k' hr
      · intro p
        refine ⟨by have := p 0 k rfl; rwa [h0, h0] at this, fun r k' hr => ?_⟩
        have := p (r + 1) k' hr
        rwa [hs, hs] at this
  exact key F.kinds _ _ hout hf

/-- Differences in vector spaces are differences of vectors. -/
def LieOps.Vector (ops : LieOps α) : Prop := ∀ n a b, ops.subOther n n a b = List.zipWith (· - ·) a b

/-- C56. On vector spaces: the implicit function vanishes if and only if the output variables are the image of the input
variables. -/
theorem C56_zero_vector (ops : LieOps α) (hops : ops.Vector) (F : ImplicitFn α) (ns : List Nat)
    (hk : F.kinds = ns.map fun n => .other n n) (q : Nat → α)
    (hout : (rview q F.outConf).length = ns.sum) (hf : (F.f (rview q F.inConf)).length = ns.sum) :
    F.value ops q = List.replicate ns.sum 0 ↔ rview q F.outConf = F.f (rview q F.inConf) := by
  have zero : ∀ a b : List α, a.length = b.length → (List.zipWith (· - ·) a b = List.replicate a.length 0 ↔ a = b) := by
    intro a
    induction a with
    | nil => intro b h; cases b <;> simp_all
    | cons x a ih =>
      intro b h
      cases b with
      | nil => simp at h
      | cons y b =>
        have := ih b (by simpa using h)
        simp [List.replicate_succ, this, sub_eq_zero]
  have key : ∀ (ns : List Nat) (a b : List α), a.length = ns.sum → b.length = ns.sum →
      (ops.subAll (ns.map fun n => .other n n) a b = List.replicate ns.sum 0 ↔ a = b) := by
    intro ns
    induction ns with
    | nil => intro a b ha hb; simp at ha hb; simp [ha, hb, LieOps.subAll]
    | cons n ns ih =>
      intro a b ha hb
      simp only [List.sum_cons] at ha hb
      simp only [List.map_cons, LieOps.subAll, LieOps.sub, LieKind.nq, List.sum_cons, ← List.replicate_append_replicate]
      have hz := zero (a.take n) (b.take n) (by simp; omega)
      rw [show (a.take n).length = n by simp; omega] at hz
      rw [hops, append_eq_iff (by simp; omega), hz, ih _ _ (by simp; omega) (by simp; omega)]
      constructor
      · rintro ⟨h1, h2⟩
        rw [← List.take_append_drop n a, ← List.take_append_drop n b, h1, h2]
      · rintro rfl; exact ⟨rfl, rfl⟩
  unfold ImplicitFn.value
  rw [hk]
  exact key ns _ _ hout hf

/-! ### Jacobian -/

/-- C56 (partial: one factor). On a vector space of any dimension, the Jacobian is computed without access out of
bounds and contains the identity in the columns of the output variables, the opposite of the Jacobian of the explicit
function in the columns of the input variables and zero in all the other columns. -/
theorem C56_jacobian_vector_partial (ops : LieOps α) (F : ImplicitFn α) (n : Nat) (hF : F.OneFactor (.other n n)) (q : Nat → α)
    (hout : (rview q F.outConf).length = n) (hf : (F.f (rview q F.inConf)).length = n) :
    ∃ J, F.jacobian ops q = some J ∧ J.rows = n ∧ J.cols = F.nv ∧
      (∀ k l j, k < n → (indices F.outVel)[l]? = some j → J.coeff k j = if k = l then 1 else 0) ∧
      (∀ k l j, k < n → (indices F.inVel)[l]? = some j → J.coeff k j = -F.Jf (rview q F.inConf) k l) ∧
      (∀ k j, k < n → j ∉ indices F.outVel → j ∉ indices F.inVel → J.coeff k j = 0) := by
  obtain ⟨J, e, h⟩ := jacobian_one ops hF q _ _ hout hf fun b hb _ => visitOther_fill hb (F.Jf (rview q F.inConf))
  exact ⟨J, e, h.rows, h.cols, h.out, h.inp, h.zero⟩

/-- Specification: variables with indices `l` of a velocity. -/
def velAt (l : Segs) (qd : Nat → ℝ) (i : Nat) : ℝ := qd ((indices l).getD i 0)

/-- Specification: product of the Jacobian of the explicit function by the velocity of the input variables. -/
def velF (F : ImplicitFn ℝ) (q : Nat → ℝ) (qd : Nat → ℝ) (k : Nat) : ℝ :=
  ∑ l ∈ Finset.range (indices F.inVel).length, F.Jf (rview q F.inConf) k l * velAt F.inVel qd l

/-- Specification: product of a matrix by a velocity. -/
def Mat.mulVel (J : Mat ℝ) (qd : Nat → ℝ) (k : Nat) : ℝ := ∑ j ∈ Finset.range J.cols, J.coeff k j * qd j

/-- C56 (partial: one factor). On a vector space, along any motion of the robot such that the explicit function has the
announced derivative, the Jacobian times the velocity is the derivative of the value. -/
theorem C56_derivative_vector_partial (ops : LieOps ℝ) (hops : ops.Vector) (F : ImplicitFn ℝ) (n : Nat)
    (hF : F.OneFactor (.other n n)) (q : ℝ → Nat → ℝ) (qd : Nat → ℝ) (t : ℝ)
    (hout : (indices F.outConf).length = n) (hf : ∀ x, (F.f x).length = n)
    (hq : ∀ k, k < n → HasDerivAt (fun t => (rview (q t) F.outConf).getD k 0) (velAt F.outVel qd k) t)
    (hJ : ∀ k, k < n → HasDerivAt (fun t => (F.f (rview (q t) F.inConf)).getD k 0) (velF F (q t) qd k) t) :
    ∃ J, F.jacobian ops (q t) = some J ∧
      ∀ k, k < n → HasDerivAt (fun t => (F.value ops (q t)).getD k 0) (Mat.mulVel J qd k) t := by
  obtain ⟨J, e, h⟩ := jacobian_one ops hF (q t) _ _ (by simpa [rview, LieKind.nq] using hout) (hf _)
    fun b hb _ => visitOther_fill hb (F.Jf (rview (q t) F.inConf))
  refine ⟨J, e, fun k hk => ?_⟩
  have hv : ∀ t, (F.value ops (q t)).getD k 0
      = (rview (q t) F.outConf).getD k 0 - (F.f (rview (q t) F.inConf)).getD k 0 := by
    intro t
    have h1 : (rview (q t) F.outConf).length = n := by simpa [rview] using hout
    have h2 := hf (rview (q t) F.inConf)
    have hl : (List.zipWith (· - ·) (rview (q t) F.outConf) (F.f (rview (q t) F.inConf))).length = n := by simp [h1, h2]
    simp only [ImplicitFn.value, hF.kinds, LieOps.subAll, LieOps.sub, LieKind.nq, List.append_nil]
    rw [hops, List.take_of_length_le h1.le, List.take_of_length_le h2.le]
    simp [List.getD, hk, h1, h2]
  simp only [hv]
  refine ((hq k hk).sub (hJ k hk)).congr_deriv ?_
  rw [Mat.mulVel, h.mul hF.wout hF.win hF.nodup qd hk]
  have hlen : (indices F.outVel).length = n := by rw [← cardinal_eq_length]; exact hF.out
  rw [hlen, Finset.sum_eq_single k]
  · simp [velAt, velF, sub_eq_add_neg]
  · intro b _ hb; simp [hb.symm]
  · intro hn; exact absurd (Finset.mem_range.2 hk) hn

/-- The logarithm of SO(3) has the announced derivative along all the motions of an orientation. -/
def LieOps.Log3At (ops : LieOps ℝ) (R : M3 ℝ) : Prop :=
  ∀ (M : ℝ → M3 ℝ) (w : V3 ℝ) (t : ℝ), M t = R → IsRot R →
    (∀ a b, HasDerivAt (fun t => M t a b) ((R * hat w) a b) t) → VDeriv (fun t => ops.log3 (M t)) (ops.Jlog3 R *ᵥ w) t

/-- The logarithm of SE(3) has the announced derivative along all the motions of a frame. -/
def LieOps.Log6At (ops : LieOps ℝ) (A : SE3 ℝ) : Prop :=
  ∀ (M : ℝ → SE3 ℝ) (v w : V3 ℝ) (t : ℝ), M t = A → SE3.Moves M v w t →
    ∀ i, HasDerivAt (fun t => ops.log6 (M t) i) ((ops.Jlog6 A *ᵥ Sum.elim v w) i) t

/-- Velocity of the output variables, of the explicit function: linear and angular parts. -/
def lin (v : Nat → ℝ) : V3 ℝ := fun i => v i
def ang (v : Nat → ℝ) : V3 ℝ := fun i => v (3 + i)

theorem sum_six (g : Six → ℝ) (v : Nat → ℝ) :
    ∑ l ∈ Finset.range 6, g (six l) * v l = ∑ i, g i * Sum.elim (lin v) (ang v) i := by
  simp only [Finset.sum_range_succ, Finset.sum_range_zero, Fintype.sum_sum_type, Fin.sum_univ_three]
  simp [six, lin, ang, Fin.ofNat]
  ring

theorem top3_mul (J : Nat → Nat → ℝ) (n : Nat) (v : Nat → ℝ) :
    top3 J n *ᵥ (fun i : Fin n => v i) = lin (fun k => ∑ l ∈ Finset.range n, J k l * v l) := by
  funext i
  simp [top3, lin, mulVec, dotProduct, Finset.sum_range]

theorem bottom3_mul (J : Nat → Nat → ℝ) (n : Nat) (v : Nat → ℝ) :
    bottom3 J n *ᵥ (fun i : Fin n => v i) = ang (fun k => ∑ l ∈ Finset.range n, J k l * v l) := by
  funext i
  simp [bottom3, ang, mulVec, dotProduct, Finset.sum_range]

/-- C56 (partial: one factor). Output space SE(3): along any motion of the robot in which the pose stored in the output
variables and the pose computed by the explicit function move as announced by the velocity and by the Jacobian of the
explicit function, the Jacobian times the velocity is the derivative of the value. -/
theorem C56_derivative_se3_partial (ops : LieOps ℝ) (F : ImplicitFn ℝ) (hF : F.OneFactor .se3)
    (q : ℝ → Nat → ℝ) (qd : Nat → ℝ) (t : ℝ)
    (hout : (indices F.outConf).length = 7) (hf : ∀ x, (F.f x).length = 7)
    (hq : SE3.Moves (fun t => ops.pose (rview (q t) F.outConf)) (lin (velAt F.outVel qd)) (ang (velAt F.outVel qd)) t)
    (hJ : SE3.Moves (fun t => ops.pose (F.f (rview (q t) F.inConf))) (lin (velF F (q t) qd)) (ang (velF F (q t) qd)) t)
    (hlog : ops.Log6At ((ops.pose (F.f (rview (q t) F.inConf))).inv.mul (ops.pose (rview (q t) F.outConf)))) :
    ∃ J, F.jacobian ops (q t) = some J ∧
      ∀ k, k < 6 → HasDerivAt (fun t => (F.value ops (q t)).getD k 0) (Mat.mulVel J qd k) t := by
  obtain ⟨J, e, h⟩ := jacobian_one ops hF (q t) _ _ (by simpa [rview, LieKind.nq] using hout) (hf _)
    fun b hb hbi => by
      have := visitSE3_fill ops (rview (q t) F.outConf) (F.f (rview (q t) F.inConf)) hb (F.Jf (rview (q t) F.inConf))
      rw [hbi] at this
      exact this
  refine ⟨J, e, fun k hk => ?_⟩
  have hv : ∀ t, (F.value ops (q t)).getD k 0
      = ops.log6 ((ops.pose (F.f (rview (q t) F.inConf))).inv.mul (ops.pose (rview (q t) F.outConf))) (six k) := by
    intro t
    have h1 : (rview (q t) F.outConf).length = 7 := by simpa [rview] using hout
    have h2 := hf (rview (q t) F.inConf)
    simp only [ImplicitFn.value, hF.kinds, LieOps.subAll, LieOps.sub, LieKind.nq, List.append_nil]
    rw [List.take_of_length_le h1.le, List.take_of_length_le h2.le]
    have : k = 0 ∨ k = 1 ∨ k = 2 ∨ k = 3 ∨ k = 4 ∨ k = 5 := by omega
    rcases this with rfl | rfl | rfl | rfl | rfl | rfl <;> simp [six, List.getD, Fin.ofNat]
  simp only [hv]
  have hm := hJ.actInv hq
  simp only [SE3.actInv_eq] at hm
  refine (hlog _ _ _ t rfl hm (six k)).congr_deriv ?_
  rw [Mat.mulVel, h.mul hF.wout hF.win hF.nodup qd hk]
  have hlen : (indices F.outVel).length = 6 := by rw [← cardinal_eq_length]; exact hF.out
  rw [hlen]
  set Jl := ops.Jlog6 ((ops.pose (F.f (rview (q t) F.inConf))).inv.mul (ops.pose (rview (q t) F.outConf)))
  have h1 := sum_six (fun i => Jl (six k) i) (velAt F.outVel qd)
  rw [show ∑ l ∈ Finset.range 6, Jl (six k) (six l) * qd ((indices F.outVel).getD l 0)
    = ∑ l ∈ Finset.range 6, Jl (six k) (six l) * velAt F.outVel qd l from rfl, h1]
  have h2 : ∀ (B : Matrix Six (Fin (cardinal F.inVel)) ℝ),
      ∑ l ∈ Finset.range (indices F.inVel).length,
        (if h : l < cardinal F.inVel then B (six k) ⟨l, h⟩ else 0) * qd ((indices F.inVel).getD l 0)
      = (B *ᵥ fun i : Fin (cardinal F.inVel) => velAt F.inVel qd i) (six k) := by
    intro B
    rw [← cardinal_eq_length, Finset.sum_range]
    simp [mulVec, dotProduct, velAt]
  rw [h2, ← mulVec_mulVec]
  rw [show ∑ i, Jl (six k) i * Sum.elim (lin (velAt F.outVel qd)) (ang (velAt F.outVel qd)) i
    = (Jl *ᵥ Sum.elim (lin (velAt F.outVel qd)) (ang (velAt F.outVel qd))) (six k) from rfl,
    ← Pi.add_apply, ← mulVec_add]
  congr 2
  have ht := top3_mul (F.Jf (rview (q t) F.inConf)) (cardinal F.inVel) (velAt F.inVel qd)
  have hb := bottom3_mul (F.Jf (rview (q t) F.inConf)) (cardinal F.inVel) (velAt F.inVel qd)
  have e1 : (fun k => ∑ l ∈ Finset.range (cardinal F.inVel), F.Jf (rview (q t) F.inConf) k l * velAt F.inVel qd l)
      = velF F (q t) qd := by funext k; rw [velF, cardinal_eq_length]
  rw [e1] at ht hb
  funext i
  cases i with
  | inl i =>
    have : (inJSE3 ops (rview (q t) F.outConf) (F.f (rview (q t) F.inConf)) (F.Jf (rview (q t) F.inConf)) (cardinal F.inVel)
        *ᵥ fun i : Fin (cardinal F.inVel) => velAt F.inVel qd i) (.inl i)
        = ((((ops.pose (rview (q t) F.outConf)).Rᵀ * hat ((ops.pose (rview (q t) F.outConf)).p
          - (ops.pose (F.f (rview (q t) F.inConf))).p) * (ops.pose (F.f (rview (q t) F.inConf))).R)
          * bottom3 (F.Jf (rview (q t) F.inConf)) (cardinal F.inVel)
          - ((ops.pose (rview (q t) F.outConf)).Rᵀ * (ops.pose (F.f (rview (q t) F.inConf))).R)
          * top3 (F.Jf (rview (q t) F.inConf)) (cardinal F.inVel)) *ᵥ fun i : Fin (cardinal F.inVel) => velAt F.inVel qd i) i := rfl
    rw [Pi.add_apply, this]
    simp only [Sum.elim_inl, sub_mulVec, ← mulVec_mulVec, ht, hb, hat_mulVec, Pi.add_apply, Pi.sub_apply]
    ring
  | inr i =>
    have : (inJSE3 ops (rview (q t) F.outConf) (F.f (rview (q t) F.inConf)) (F.Jf (rview (q t) F.inConf)) (cardinal F.inVel)
        *ᵥ fun i : Fin (cardinal F.inVel) => velAt F.inVel qd i) (.inr i)
        = (((-(ops.pose (rview (q t) F.outConf)).Rᵀ * (ops.pose (F.f (rview (q t) F.inConf))).R)
          * bottom3 (F.Jf (rview (q t) F.inConf)) (cardinal F.inVel)) *ᵥ fun i : Fin (cardinal F.inVel) => velAt F.inVel qd i) i := rfl
    rw [Pi.add_apply, this]
    simp only [Sum.elim_inr, Matrix.neg_mul, neg_mulVec, ← mulVec_mulVec, hb, Pi.sub_apply, Pi.neg_apply]
    ring

/-- C56 (partial: one factor, at least one input variable). Output space R³×SO(3): along any motion of the robot in which
the pose stored in the output variables and the one computed by the explicit function move as announced (positions with
their velocity in the fixed frame, orientations with their velocity in the moving frame), the Jacobian times the velocity
is the derivative of the value. -/
theorem C56_derivative_r3so3_partial (ops : LieOps ℝ) (F : ImplicitFn ℝ) (hF : F.OneFactor .r3so3)
    (hin : 0 < cardinal F.inVel) (q : ℝ → Nat → ℝ) (qd : Nat → ℝ) (t : ℝ)
    (hout : (indices F.outConf).length = 7) (hf : ∀ x, (F.f x).length = 7)
    (hrot : IsRot (ops.pose (rview (q t) F.outConf)).R) (hrotf : IsRot (ops.pose (F.f (rview (q t) F.inConf))).R)
    (hq : VDeriv (fun t => (ops.pose (rview (q t) F.outConf)).p) (lin (velAt F.outVel qd)) t)
    (hq' : ∀ a b, HasDerivAt (fun t => (ops.pose (rview (q t) F.outConf)).R a b)
      (((ops.pose (rview (q t) F.outConf)).R * hat (ang (velAt F.outVel qd))) a b) t)
    (hJ : VDeriv (fun t => (ops.pose (F.f (rview (q t) F.inConf))).p) (lin (velF F (q t) qd)) t)
    (hJ' : ∀ a b, HasDerivAt (fun t => (ops.pose (F.f (rview (q t) F.inConf))).R a b)
      (((ops.pose (F.f (rview (q t) F.inConf))).R * hat (ang (velF F (q t) qd))) a b) t)
    (hlog : ops.Log3At ((ops.pose (F.f (rview (q t) F.inConf))).Rᵀ * (ops.pose (rview (q t) F.outConf)).R)) :
    ∃ J, F.jacobian ops (q t) = some J ∧
      ∀ k, k < 6 → HasDerivAt (fun t => (F.value ops (q t)).getD k 0) (Mat.mulVel J qd k) t := by
  obtain ⟨J, e, h⟩ := jacobian_one ops hF (q t) _ _ (by simpa [rview, LieKind.nq] using hout) (hf _)
    fun b hb hbi => by
      have := visitR3SO3_fill ops (rview (q t) F.outConf) (F.f (rview (q t) F.inConf)) hb (by rw [hbi]; exact hin)
        (F.Jf (rview (q t) F.inConf))
      rw [hbi] at this
      exact this
  refine ⟨J, e, fun k hk => ?_⟩
  have hv : ∀ t (i : Fin 3), (F.value ops (q t)).getD i 0
      = (ops.pose (rview (q t) F.outConf)).p i - (ops.pose (F.f (rview (q t) F.inConf))).p i ∧
      (F.value ops (q t)).getD (3 + i) 0 = ops.log3 ((ops.pose (F.f (rview (q t) F.inConf))).Rᵀ *
        (ops.pose (rview (q t) F.outConf)).R) i := by
    intro t i
    have h1 : (rview (q t) F.outConf).length = 7 := by simpa [rview] using hout
    have h2 := hf (rview (q t) F.inConf)
    simp only [ImplicitFn.value, hF.kinds, LieOps.subAll, LieOps.sub, LieKind.nq, List.append_nil]
    rw [List.take_of_length_le h1.le, List.take_of_length_le h2.le]
    fin_cases i <;> simp [List.getD]
  have hlen : (indices F.outVel).length = 6 := by rw [← cardinal_eq_length]; exact hF.out
  have hsum := h.mul hF.wout hF.win hF.nodup qd hk
  rw [hlen] at hsum
  have ht := top3_mul (F.Jf (rview (q t) F.inConf)) (cardinal F.inVel) (velAt F.inVel qd)
  have hb := bottom3_mul (F.Jf (rview (q t) F.inConf)) (cardinal F.inVel) (velAt F.inVel qd)
  have e1 : (fun k => ∑ l ∈ Finset.range (cardinal F.inVel), F.Jf (rview (q t) F.inConf) k l * velAt F.inVel qd l)
      = velF F (q t) qd := by funext k; rw [velF, cardinal_eq_length]
  rw [e1] at ht hb
  by_cases hk3 : k < 3
  · have hvk : ∀ t, (F.value ops (q t)).getD k 0
        = (ops.pose (rview (q t) F.outConf)).p ⟨k, hk3⟩ - (ops.pose (F.f (rview (q t) F.inConf))).p ⟨k, hk3⟩ :=
      fun t => (hv t ⟨k, hk3⟩).1
    simp only [hvk]
    refine ((hq ⟨k, hk3⟩).sub (hJ ⟨k, hk3⟩)).congr_deriv ?_
    rw [Mat.mulVel, hsum]
    have a1 : ∑ l ∈ Finset.range 6, outR3SO3 ops (rview (q t) F.outConf) (F.f (rview (q t) F.inConf)) k l *
        qd ((indices F.outVel).getD l 0) = velAt F.outVel qd k := by
      rw [Finset.sum_eq_single k]
      · simp [outR3SO3, hk3, velAt]
      · intro b _ hb; simp [outR3SO3, hk3, hb.symm]
      · intro hn; exact absurd (Finset.mem_range.2 hk) hn
    have a2 : ∑ l ∈ Finset.range (indices F.inVel).length, inR3SO3 ops (rview (q t) F.outConf) (F.f (rview (q t) F.inConf))
        (F.Jf (rview (q t) F.inConf)) (cardinal F.inVel) k l * qd ((indices F.inVel).getD l 0) = -velF F (q t) qd k := by
      rw [velF, ← Finset.sum_neg_distrib]
      refine Finset.sum_congr rfl fun l hl => ?_
      have hl' : l < cardinal F.inVel := by rw [cardinal_eq_length]; exact Finset.mem_range.1 hl
      simp [inR3SO3, hl', hk3, velAt]
    rw [a1, a2]
    simp [lin, sub_eq_add_neg]
  · have hkk : k = 3 + (⟨k - 3, by omega⟩ : Fin 3).val := by simp; omega
    have hvk : ∀ t, (F.value ops (q t)).getD k 0 = ops.log3 ((ops.pose (F.f (rview (q t) F.inConf))).Rᵀ *
        (ops.pose (rview (q t) F.outConf)).R) ⟨k - 3, by omega⟩ := fun t => by
      rw [← (hv t ⟨k - 3, by omega⟩).2, ← hkk]
    simp only [hvk]
    have hm : ∀ a b, HasDerivAt (fun t => ((ops.pose (F.f (rview (q t) F.inConf))).Rᵀ *
        (ops.pose (rview (q t) F.outConf)).R) a b) _ t := deriv_mul (fun a b => hJ' b a) hq'
    set Rf := (ops.pose (F.f (rview (q t) F.inConf))).R with hRf
    set Ro := (ops.pose (rview (q t) F.outConf)).R with hRo
    have hdd : (Rf * hat (ang (velF F (q t) qd)))ᵀ * Ro + Rfᵀ * (Ro * hat (ang (velAt F.outVel qd)))
        = Rfᵀ * Ro * hat (ang (velAt F.outVel qd) - Roᵀ *ᵥ (Rf *ᵥ ang (velF F (q t) qd))) := by
      rw [hat_sub, Matrix.mul_sub, ← Matrix.mul_assoc, Matrix.mul_assoc Rfᵀ Ro (hat (Roᵀ *ᵥ _)), ← hrot.hat_mul,
        ← Matrix.mul_assoc Rfᵀ (hat _), transpose_mul, hat_transpose]
      rw [show Rfᵀ * hat (Rf *ᵥ ang (velF F (q t) qd)) = hat (ang (velF F (q t) qd)) * Rfᵀ by
        rw [hrotf.transpose.mul_hat, mulVec_mulVec, hrotf.1, one_mulVec]]
      rw [Matrix.neg_mul, Matrix.neg_mul]
      abel
    have hd := hlog _ (ang (velAt F.outVel qd) - Roᵀ *ᵥ (Rf *ᵥ ang (velF F (q t) qd))) t rfl
      (IsRot.mul hrotf.transpose hrot) (fun a b => (hm a b).congr_deriv (by rw [← hdd]; rfl))
    refine (hd ⟨k - 3, by omega⟩).congr_deriv ?_
    rw [Mat.mulVel, hsum, mulVec_sub, Pi.sub_apply, sub_eq_add_neg]
    congr 1
    · set Jl := ops.Jlog3 (Rfᵀ * Ro) with hJl
      have : k = 3 ∨ k = 4 ∨ k = 5 := by omega
      rcases this with rfl | rfl | rfl <;>
      · simp [Finset.sum_range_succ, outR3SO3, mulVec, dotProduct, Fin.sum_univ_three, ang, velAt, ← hRf, ← hRo,
          ← hJl, Fin.ofNat]
    · have a2 : ∀ B : Matrix (Fin 3) (Fin (cardinal F.inVel)) ℝ, ∑ l ∈ Finset.range (indices F.inVel).length,
          (if h : l < cardinal F.inVel then B (Fin.ofNat 3 (k - 3)) ⟨l, h⟩ else 0) * qd ((indices F.inVel).getD l 0)
          = (B *ᵥ fun i : Fin (cardinal F.inVel) => velAt F.inVel qd i) ⟨k - 3, by omega⟩ := by
        intro B
        rw [← cardinal_eq_length, Finset.sum_range]
        have : Fin.ofNat 3 (k - 3) = (⟨k - 3, by omega⟩ : Fin 3) := by
          exact Fin.ext (Nat.mod_eq_of_lt (by omega))
        rw [this]
        simp [mulVec, dotProduct, velAt]
      have a3 := a2 (-ops.Jlog3 (Rfᵀ * Ro) * Roᵀ * Rf * bottom3 (F.Jf (rview (q t) F.inConf)) (cardinal F.inVel))
      simp only [inR3SO3, hk3, if_false]
      rw [a3, Matrix.neg_mul, Matrix.neg_mul, Matrix.neg_mul, neg_mulVec, Pi.neg_apply]
      simp only [← mulVec_mulVec, hb]

/-! ### Several factors -/

theorem jacVisit_none (ops : LieOps α) {k : LieKind} (hk : 0 < k.nv) (qOut fq : List α) (Jf : Nat → Nat → α) (b : JBlocks)
    {iv : Nat} (hiv : 0 < iv) (hb : b.rows = [⟨iv, k.nv⟩]) (hc : 0 < cardinal b.outCols) (m : Mat α) (hm : m.rows = k.nv) :
    jacVisit ops k qOut fq Jf b m = none := by
  have hne : b.outCols ≠ [] := by intro h; simp [h] at hc
  cases k with
  | other nq nv =>
    simp only [LieKind.nv] at hb hm
    simp only [jacVisit, visitOther, hb]
    rw [writeRows_none (by omega) hne]
    rfl
  | se3 =>
    simp only [LieKind.nv] at hb hm
    simp only [jacVisit, visitSE3, hb]
    rw [writeRows_none (by omega) hne]
    rfl
  | r3so3 =>
    simp only [LieKind.nv] at hb hm
    have keep : ∀ (i j ni nj : Nat) (c : Segs) (m s m' : Mat α), writeSub (b.rows, c) i j ni nj m s = some m' → m'.rows = m.rows := by
      intro i j ni nj c m s m' h
      have aux : ∀ (bs : List Blk) (m m' : Mat α), writeBlocks s bs m = some m' → m'.rows = m.rows := by
        intro bs
        induction bs with
        | nil => intro m m' h; simp [writeBlocks] at h; rw [h]
        | cons x bs ih =>
          intro m m' h
          simp only [writeBlocks, Option.bind_eq_bind, Option.bind_eq_some_iff, Mat.setBlock] at h
          obtain ⟨v, -, d, hd, h⟩ := h
          split at hd
          · simp at hd
            rw [ih _ _ h, ← hd]
          · simp at hd
      simp only [writeSub, writeView, Option.bind_eq_bind, Option.bind_eq_some_iff] at h
      obtain ⟨r, -, c, -, bs, -, h⟩ := h
      exact aux _ _ _ h
    simp only [jacVisit, visitR3SO3, Option.bind_eq_bind]
    cases h1 : writeSub (b.rows, b.outCols) 0 0 3 3 m (mat3 (1 : M3 α)) with
    | none => rfl
    | some m1 =>
      simp only [Option.bind_some]
      cases h2 : writeSub (b.rows, b.inCols) 0 0 3 (cardinal b.inCols) m1 (mat3 (-top3 Jf (cardinal b.inCols))) with
      | none => rfl
      | some m2 =>
        simp only [Option.bind_some]
        have hm2 : m2.rows = 6 := by rw [keep _ _ _ _ _ _ _ _ h2, keep _ _ _ _ _ _ _ _ h1, hm]
        have h3 : ∀ s : Mat α, writeSub (b.rows, b.outCols) 3 3 3 3 m2 s = none := by
          intro s
          unfold writeSub
          rw [hb]
          have er : extract? [⟨iv, 6⟩] 3 3 = some [⟨iv + 3, 3⟩] := by simp [extract?]
          simp only [er, Option.bind_eq_bind, Option.bind_some]
          cases hcc : extract? b.outCols 3 3 with
          | none => rfl
          | some c =>
            simp only [Option.bind_some]
            refine writeRows_none (by rw [hm2]; omega) fun hnil => ?_
            by_cases hh : 3 < cardinal b.outCols ∧ 3 + 3 ≤ cardinal b.outCols
            · obtain ⟨r, hr, hi⟩ := (extract?_spec b.outCols 3 3).1 hh.1 hh.2
              rw [hcc] at hr
              simp at hr
              subst hr
              rw [hnil] at hi
              have := congrArg List.length hi
              simp only [List.length_take, List.length_drop, ← cardinal_eq_length, cardinal_nil] at this
              omega
            · rw [(extract?_spec b.outCols 3 3).2 (by omega)] at hcc
              simp at hcc
        rw [h3]
        rfl

/-- C56 (refuted for several factors). As soon as the output space is a product of which the first two factors have at least
one degree of freedom, the computation of the Jacobian accesses rows that do not exist: the blocks in which the factor of
rank 1 is written start at its first row, and are applied to a matrix that already starts at this row. -/
theorem C56_several_factors_refuted (ops : LieOps α) (F : ImplicitFn α) (k₁ k₂ : LieKind) (ks : List LieKind)
    (hk : F.kinds = k₁ :: k₂ :: ks) (h₁ : 0 < k₁.nv) (h₂ : 0 < k₂.nv)
    (hout : cardinal F.outVel = (F.kinds.map LieKind.nv).sum) (q : Nat → α) : F.jacobian ops q = none := by
  simp only [ImplicitFn.jacobian, hk, jacobianBlocks, List.zip_cons_cons, jacobianLoop, Option.bind_eq_bind, Nat.zero_add]
  cases jacVisit ops k₁ _ _ _ _ _ with
  | none => rfl
  | some m =>
    simp only [Option.bind_some]
    rw [jacVisit_none ops h₂ _ _ _ _ h₁ rfl]
    · rfl
    · have hi := split_indices (split F.outVel k₁.nv).2 k₂.nv
      have hi' := split_indices F.outVel k₁.nv
      rw [hk] at hout
      simp only [List.map_cons, List.sum_cons] at hout
      rw [cardinal_eq_length] at hout ⊢
      simp only
      rw [hi.1, hi'.2]
      simp
      omega
    · rfl

/-! ### The hypotheses are met -/

/-- Rotations about the vertical axis, with the angle as first coefficient: the vectors of size 7 contain a position then
the sine, the cosine and two unused coefficients. -/
def exOps : LieOps ℝ where
  subOther _ _ a b := List.zipWith (· - ·) a b
  quat c := !![c.getD 1 0, -c.getD 0 0, 0; c.getD 0 0, c.getD 1 0, 0; 0, 0, 1]
  log3 R := ![R 2 1, R 0 2, R 1 0]
  Jlog3 R := fun i j => match i, j with
    | 0, 0 => R 2 2 | 0, 1 => 0 | 0, 2 => -R 2 0
    | 1, 0 => -R 0 1 | 1, 1 => R 0 0 | 1, 2 => 0
    | 2, 0 => 0 | 2, 1 => -R 1 2 | 2, 2 => R 1 1
  log6 A := Sum.elim A.p ![A.R 2 1, A.R 0 2, A.R 1 0]
  Jlog6 A := fun i j => match i, j with
    | .inl i, .inl j => A.R i j
    | .inl _, .inr _ => 0
    | .inr _, .inl _ => 0
    | .inr i, .inr j => (match i, j with
    | 0, 0 => A.R 2 2 | 0, 1 => 0 | 0, 2 => -A.R 2 0
    | 1, 0 => -A.R 0 1 | 1, 1 => A.R 0 0 | 1, 2 => 0
    | 2, 0 => 0 | 2, 1 => -A.R 1 2 | 2, 2 => A.R 1 1)

/-- The condition on the logarithms is met, at every orientation, by the antisymmetric part of the rotation. -/
theorem exOps_log3 (R : M3 ℝ) : exOps.Log3At R := by
  intro M w t hM _ hd i
  subst hM
  fin_cases i
  · refine (hd 2 1).congr_deriv ?_
    simp [exOps, mulVec, dotProduct, Matrix.mul_apply, Fin.sum_univ_three, hat]; ring
  · refine (hd 0 2).congr_deriv ?_
    simp [exOps, mulVec, dotProduct, Matrix.mul_apply, Fin.sum_univ_three, hat]; ring
  · refine (hd 1 0).congr_deriv ?_
    simp [exOps, mulVec, dotProduct, Matrix.mul_apply, Fin.sum_univ_three, hat]; ring

theorem exOps_log6 (A : SE3 ℝ) : exOps.Log6At A := by
  intro M v w t hM hd i
  subst hM
  cases i with
  | inl i =>
    refine (hd.p i).congr_deriv ?_
    simp [exOps, mulVec, dotProduct]
  | inr i =>
    fin_cases i
    · refine (hd.R 2 1).congr_deriv ?_
      simp [exOps, mulVec, dotProduct, Matrix.mul_apply, Fin.sum_univ_three, hat]; ring
    · refine (hd.R 0 2).congr_deriv ?_
      simp [exOps, mulVec, dotProduct, Matrix.mul_apply, Fin.sum_univ_three, hat]; ring
    · refine (hd.R 1 0).congr_deriv ?_
      simp [exOps, mulVec, dotProduct, Matrix.mul_apply, Fin.sum_univ_three, hat]; ring

/-- A robot with a pose (variables 1 to 7, velocities 1 to 6) and a joint (variable and velocity 0).  The explicit function
moves the pose along the first axis. -/
def exFn (k : LieKind) : ImplicitFn ℝ where
  nv := 7
  inConf := [⟨0, 1⟩]
  outConf := [⟨1, 7⟩]
  inVel := [⟨0, 1⟩]
  outVel := [⟨1, 6⟩]
  kinds := [k]
  f x := [2 * x.getD 0 0, 0, 0, 0, 1, 0, 0]
  Jf _ i _ := if i = 0 then 2 else 0

/-- The configuration moves: the joint with velocity 1, the pose turns about the vertical axis. -/
noncomputable def exCurve (t : ℝ) (i : Nat) : ℝ :=
  if i = 0 then t else if i = 1 then 3 else if i = 4 then Real.sin t else if i = 5 then Real.cos t else 0

def exVel (i : Nat) : ℝ := if i = 0 then 1 else if i = 6 then 1 else 0

theorem exOut (t : ℝ) : exOps.pose (rview (exCurve t) [⟨1, 7⟩]) = ⟨!![Real.cos t, -Real.sin t, 0; Real.sin t, Real.cos t, 0; 0, 0, 1], ![3, 0, 0]⟩ := by
  refine SE3.ext' ?_ ?_
  · simp [LieOps.pose, exOps, rview, indices, exCurve, List.range']
  · funext i
    fin_cases i <;> simp [LieOps.pose, rview, indices, exCurve, List.range']

theorem exIn (t : ℝ) : exOps.pose ((exFn .se3).f (rview (exCurve t) [⟨0, 1⟩])) = ⟨1, ![2 * t, 0, 0]⟩ := by
  refine SE3.ext' ?_ ?_
  · ext a b
    fin_cases a <;> fin_cases b <;> simp [LieOps.pose, exOps, exFn]
  · funext i
    fin_cases i <;> simp [LieOps.pose, exFn, rview, indices, exCurve, List.range']

example (t : ℝ) : ∃ J, (exFn .se3).jacobian exOps (exCurve t) = some J ∧
    ∀ k, k < 6 → HasDerivAt (fun t => ((exFn .se3).value exOps (exCurve t)).getD k 0) (Mat.mulVel J exVel k) t := by
  have hv : lin (velF (exFn .se3) (exCurve t) exVel) = ![2, 0, 0] ∧ ang (velF (exFn .se3) (exCurve t) exVel) = 0 := by
    constructor <;> funext i <;> fin_cases i <;>
      simp [lin, ang, velF, velAt, exFn, exVel, indices, List.range', List.getD]
  have hw : lin (velAt [⟨1, 6⟩] exVel) = 0 ∧ ang (velAt [⟨1, 6⟩] exVel) = ![0, 0, 1] := by
    constructor <;> funext i <;> fin_cases i <;>
      simp [lin, ang, velAt, exVel, indices, List.range', List.getD]
  refine C56_derivative_se3_partial exOps (exFn .se3) ⟨rfl, by decide, by simp [Within, exFn], by simp [Within, exFn], by decide⟩ exCurve exVel t
    (by decide) (fun x => rfl) ?_ ?_ (exOps_log6 _)
  · rw [show (exFn .se3).outVel = [⟨1, 6⟩] from rfl, hw.1, hw.2]
    simp only [show (exFn .se3).outConf = [⟨1, 7⟩] from rfl, exOut]
    refine ⟨?_, ?_, ?_⟩
    · refine ⟨?_, ?_⟩
      · ext a b
        fin_cases a <;> fin_cases b <;> simp [Matrix.mul_apply, Fin.sum_univ_three] <;>
          nlinarith [Real.sin_sq_add_cos_sq t]
      · simp [Matrix.det_fin_three]; nlinarith [Real.sin_sq_add_cos_sq t]
    · intro a b
      fin_cases a <;> fin_cases b <;>
        simp [Matrix.mul_apply, Fin.sum_univ_three, hat, hasDerivAt_const, Real.hasDerivAt_sin, Real.hasDerivAt_cos]
      exact (Real.hasDerivAt_sin t).neg
    · intro i
      simpa using hasDerivAt_const t _
  · rw [hv.1, hv.2]
    simp only [show (exFn .se3).inConf = [⟨0, 1⟩] from rfl, exIn]
    refine ⟨⟨by simp, by simp⟩, ?_, ?_⟩
    · intro a b
      rw [hat_zero, Matrix.mul_zero]
      exact hasDerivAt_const t _
    · intro i
      fin_cases i
      · simpa using (hasDerivAt_id t).const_mul 2
      · simpa using hasDerivAt_const t (0 : ℝ)
      · simpa using hasDerivAt_const t (0 : ℝ)

/-- The same explicit function with values in two vector spaces of dimensions 1 and 2 over the rationals. -/
def exTwo (kinds : List LieKind) : ImplicitFn ℚ where
  nv := 4
  inConf := [⟨0, 1⟩]
  outConf := [⟨1, 3⟩]
  inVel := [⟨0, 1⟩]
  outVel := [⟨1, 3⟩]
  kinds := kinds
  f x := [2 * x.getD 0 0, 1, 0]
  Jf _ i _ := if i = 0 then 2 else 0

def exOpsQ : LieOps ℚ where
  subOther _ _ a b := List.zipWith (· - ·) a b
  quat _ := 1
  log3 _ := 0
  Jlog3 _ := 1
  log6 _ := 0
  Jlog6 _ := 1

example : (exTwo [.other 1 1, .other 2 2]).jacobian exOpsQ (fun _ => 0) = none :=
  C56_several_factors_refuted exOpsQ _ _ _ [] rfl (by decide) (by decide) (by decide) _

example : (exTwo [.other 1 1, .other 2 2]).value exOpsQ (fun i => if i = 0 then 3 else if i = 1 then 6 else if i = 2 then 1 else 0)
    = [0, 0, 0] :=
  (C56_zero_vector exOpsQ (fun _ _ _ => rfl) (exTwo [.other 1 1, .other 2 2]) [1, 2] rfl _ (by decide) (by decide)).2
    (by decide +kernel)

example : ∃ J, (exTwo [.other 3 3]).jacobian exOpsQ (fun _ => 0) = some J ∧ J.coeff 0 0 = -2 ∧ J.coeff 1 2 = 1 := by
  obtain ⟨J, e, -, -, h1, h2, -⟩ := C56_jacobian_vector_partial exOpsQ (exTwo [.other 3 3]) 3
    ⟨rfl, by decide, by simp [Within, exTwo], by simp [Within, exTwo], by decide⟩ (fun _ => 0) (by decide) (by decide)
  exact ⟨J, e, by rw [h2 0 0 0 (by omega) (by decide)]; rfl, by rw [h1 1 1 2 (by omega) (by decide)]; rfl⟩

end Hpp.Explicit
