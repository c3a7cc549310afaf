import Verif.Stab.StaticProps
import Verif.Stab.QpProps
import Verif.Stab.QpExists
import Verif.Stab.QpDiff

/-!
# C149: `StaticStability` and the existence of non-negative contact forces

`StaticStability` corrects the forces of least norm by the projection on the kernel of their negative part
(static-stability.cc:176-191).
-/

namespace Hpp.Stab

open Matrix Hpp.Sym

variable {n : Nat} {com : Nat} {l : List Col} {svdOf : SvdOf l.length} {prec : ℝ}

/-- Specification: the forces balance gravity and are the smallest ones that do. -/
def LeastBalanced (com : Nat) (l : List Col) (w : World ℝ n) (F : Fin l.length → ℝ) : Prop :=
  Balanced com l w F ∧ ∀ G, Balanced com l w G → F ⬝ᵥ F ≤ G ⬝ᵥ G

theorem balanced_iff (w : World ℝ n) (F : Fin l.length → ℝ) :
    Balanced com l w F ↔ (phi com l).mat w *ᵥ F = -gravity := by
  rw [eq_neg_iff_add_eq_zero, add_comm]
  constructor
  · rintro ⟨h1, h2⟩
    have h : (gravity + (phi com l).mat w *ᵥ F) ⬝ᵥ (gravity + (phi com l).mat w *ᵥ F) = 0 := by
      unfold dotProduct
      rw [sum_rows]
      simp only [(phi_wrench com l w F _).1, (phi_wrench com l w F _).2, h1, h2]
      simp
    exact dotProduct_self_eq_zero.1 h
  · intro h
    refine ⟨funext fun a => ?_, funext fun a => ?_⟩
    · rw [← (phi_wrench com l w F a).1, h]; rfl
    · have := (phi_wrench com l w F a).2
      rw [h] at this
      exact neg_eq_zero.1 this.symm

theorem uMinusOf_dot {nb : Nat} (u : Fin nb → ℝ) : u ⬝ᵥ uMinusOf u = -(uMinusOf u ⬝ᵥ uMinusOf u) := by
  unfold dotProduct
  rw [← Finset.sum_neg_distrib]
  refine Finset.sum_congr rfl fun i _ => ?_
  unfold uMinusOf
  split <;> simp

theorem uMinusOf_eq_zero {nb : Nat} {u : Fin nb → ℝ} : uMinusOf u = 0 ↔ ∀ i, 0 ≤ u i := by
  constructor
  · intro h i
    by_contra hi
    have := congrFun h i
    unfold uMinusOf at this
    rw [if_neg hi] at this
    exact hi (by simp at this; linarith)
  · intro h
    funext i
    unfold uMinusOf
    rw [if_pos (h i)]
    rfl

/-- The projection on the kernel does not make forces orthogonal to the kernel non-negative. -/
theorem correction_nonneg (hs : SvdContract svdOf) (A : Matrix (Fin (2 * 3)) (Fin l.length) ℝ) (b : Fin (2 * 3) → ℝ)
    (h : ∀ i, 0 ≤ ((svdOf A).pinv *ᵥ b + (computeV prec (svdOf A) ((svdOf A).pinv *ᵥ b)).getD 0) i) :
    ∀ i, 0 ≤ ((svdOf A).pinv *ᵥ b) i := by
  by_cases hz : isZeroVec prec (uMinusOf ((svdOf A).pinv *ᵥ b))
  · rw [computeV_none hz] at h
    simpa using h
  · rw [computeV_some hz, Option.getD_some, mulVec_mulVec _ (svdOf A).V2, hs.v2] at h
    have hP := hs.isPinv A
    have hu : ∀ x, ((svdOf A).pinv *ᵥ b) ⬝ᵥ ((1 - (svdOf A).pinv * A) *ᵥ x) = 0 := by
      intro x
      rw [dotProduct_mulVec, ← mulVec_transpose, transpose_sub, transpose_one, hP.symR, mulVec_mulVec, Matrix.sub_mul,
        Matrix.one_mul, hP.pap, sub_self, zero_mulVec, zero_dotProduct]
    generalize hue : (svdOf A).pinv *ᵥ b = u at *
    generalize hPe : 1 - (svdOf A).pinv * A = P at *
    have hid : P * P = P := by
      rw [← hPe, Matrix.sub_mul, Matrix.one_mul, Matrix.mul_sub, Matrix.mul_one, ← Matrix.mul_assoc, hP.pap, sub_self, sub_zero]
    have hsy : Pᵀ = P := by rw [← hPe, transpose_sub, transpose_one, hP.symR]
    rw [← uMinusOf_eq_zero]
    set um := uMinusOf u with hum
    have hn : ∀ i, 0 ≤ um i := by
      intro i
      rw [hum]
      unfold uMinusOf
      split
      · exact le_rfl
      · linarith
    have h1 : 0 ≤ (u + P *ᵥ um) ⬝ᵥ um := Finset.sum_nonneg fun i _ => mul_nonneg (h i) (hn i)
    have h2 : (P *ᵥ um) ⬝ᵥ um = (P *ᵥ um) ⬝ᵥ (P *ᵥ um) := by
      rw [dotProduct_comm, dotProduct_mulVec um P um, dotProduct_mulVec (P *ᵥ um), ← mulVec_transpose, ← mulVec_transpose, hsy,
        mulVec_mulVec, hid]
    have h3 : (um - P *ᵥ um) ⬝ᵥ (um - P *ᵥ um) = um ⬝ᵥ um - (P *ᵥ um) ⬝ᵥ um := by
      rw [sub_dotProduct, dotProduct_sub, dotProduct_sub, ← h2, dotProduct_comm um (P *ᵥ um)]
      ring
    rw [add_dotProduct, uMinusOf_dot] at h1
    have h4 : (um - P *ᵥ um) ⬝ᵥ (um - P *ᵥ um) = 0 :=
      le_antisymm (by rw [h3]; linarith) (Finset.sum_nonneg fun _ _ => mul_self_nonneg _)
    have h5 : um = P *ᵥ um := sub_eq_zero.1 (dotProduct_self_eq_zero.1 h4)
    have h6 := hu um
    rw [← h5, uMinusOf_dot] at h6
    exact dotProduct_self_eq_zero.1 (neg_eq_zero.1 h6)

/-- C149. If the forces returned are all non-negative, they are the forces of least norm among those whose residual is not larger. -/
theorem C149_forces (hl : Grouped l) (hs : SvdContract svdOf) (prec : ℝ) (w : World ℝ n) (m : MMem n 2 l.length)
    (h : ∀ i, 0 ≤ (staticCompute com l svdOf prec w m).2.1 i) (G : Fin l.length → ℝ)
    (hG : resultant l w G ⬝ᵥ resultant l w G + moment com l w G ⬝ᵥ moment com l w G ≤
      resultant l w (staticCompute com l svdOf prec w m).2.1 ⬝ᵥ resultant l w (staticCompute com l svdOf prec w m).2.1 +
      moment com l w (staticCompute com l svdOf prec w m).2.1 ⬝ᵥ moment com l w (staticCompute com l svdOf prec w m).2.1) :
    (staticCompute com l svdOf prec w m).2.1 ⬝ᵥ (staticCompute com l svdOf prec w m).2.1 ≤ G ⬝ᵥ G := by
  revert h G
  generalize hre : (staticCompute com l svdOf prec w m).2 = r
  intro h
  have e : r.1 = (svdOf ((phi com l).mat w)).pinv *ᵥ (-gravity) +
      (computeV prec (svdOf ((phi com l).mat w)) ((svdOf ((phi com l).mat w)).pinv *ᵥ (-gravity))).getD 0 := by
    simp only [← hre, staticCompute_eq hl]
  have hu := correction_nonneg hs ((phi com l).mat w) (-gravity) (prec := prec) (by rw [← e]; exact h)
  have hr : r.1 = (svdOf ((phi com l).mat w)).pinv *ᵥ (-gravity) := by
    rw [e]
    unfold computeV
    rw [uMinusOf_eq_zero.2 hu]
    split <;> simp
  rw [hr]
  intro G hG
  rw [← res2_wrench, ← res2_wrench] at hG
  generalize (phi com l).mat w = A at *
  have hP := hs.isPinv A
  generalize (svdOf A).pinv = P at *
  have h0 : Aᵀ *ᵥ (gravity + A *ᵥ (P *ᵥ -gravity)) = 0 := by
    have h : Aᵀ * (A * P) = Aᵀ := by
      rw [← hP.symL, ← transpose_mul, hP.apa]
    rw [mulVec_add, mulVec_mulVec, mulVec_mulVec, Matrix.mul_assoc, h, mulVec_neg, add_neg_cancel]
  obtain ⟨d, rfl⟩ : ∃ d, G = P *ᵥ -gravity + d := ⟨G - P *ᵥ -gravity, by abel⟩
  have hk : A *ᵥ d = 0 := by
    unfold res2 at hG
    rw [mulVec_add, ← add_assoc] at hG
    generalize gravity + A *ᵥ (P *ᵥ -gravity) = y at *
    have hc : y ⬝ᵥ (A *ᵥ d) = 0 := by
      rw [dotProduct_mulVec, ← mulVec_transpose, h0, zero_dotProduct]
    rw [add_dotProduct y (A *ᵥ d), dotProduct_add, dotProduct_add, hc, dotProduct_comm (A *ᵥ d) y, hc] at hG
    have : 0 ≤ (A *ᵥ d) ⬝ᵥ (A *ᵥ d) := Finset.sum_nonneg fun i _ => mul_self_nonneg _
    exact dotProduct_self_eq_zero.1 (le_antisymm (by linarith) this)
  have hd : (P *ᵥ -gravity) ⬝ᵥ d = 0 := by
    have : P *ᵥ -gravity = (P * A) *ᵥ (P *ᵥ -gravity) := by rw [mulVec_mulVec, hP.pap]
    rw [this, dotProduct_comm, dotProduct_mulVec, ← mulVec_transpose, hP.symR, ← mulVec_mulVec, hk, mulVec_zero, zero_dotProduct]
  rw [add_dotProduct _ d, dotProduct_add, dotProduct_add, hd, dotProduct_comm d, hd]
  have : 0 ≤ d ⬝ᵥ d := Finset.sum_nonneg fun i _ => mul_self_nonneg _
  linarith

/-- C149. The residual is zero and the forces returned are non-negative if and only if the smallest forces that balance gravity are
non-negative: the correction by the projection on the kernel never makes the forces non-negative. -/
theorem C149_iff (hl : Grouped l) (hs : SvdContract svdOf) (prec : ℝ) (w : World ℝ n) (m : MMem n 2 l.length) :
    let r := (staticCompute com l svdOf prec w m).2
    (r.2 = 0 ∧ ∀ i, 0 ≤ r.1 i) ↔ ∃ F, LeastBalanced com l w F ∧ ∀ i, 0 ≤ F i := by
  intro r
  constructor
  · rintro ⟨h1, h2⟩
    have hb := C82_equilibrium (com := com) hl hs prec w m h1
    refine ⟨r.1, ⟨hb, fun G hG => ?_⟩, h2⟩
    refine C149_forces hl hs prec w m h2 G ?_
    rw [hG.1, hG.2, zero_dotProduct, add_zero]
    exact add_nonneg (Finset.sum_nonneg fun _ _ => mul_self_nonneg _) (Finset.sum_nonneg fun _ _ => mul_self_nonneg _)
  · rintro ⟨F, ⟨hb, hmin⟩, h0⟩
    have hz : r.2 = 0 := (C82_zero_iff hl hs prec w m).2 ⟨F, hb⟩
    refine ⟨hz, ?_⟩
    have e : r.1 = (svdOf ((phi com l).mat w)).pinv *ᵥ (-gravity) +
        (computeV prec (svdOf ((phi com l).mat w)) ((svdOf ((phi com l).mat w)).pinv *ᵥ (-gravity))).getD 0 := by
      simp only [r, staticCompute_eq hl]
    have e2 : r.2 = gravity + (phi com l).mat w *ᵥ ((svdOf ((phi com l).mat w)).pinv *ᵥ (-gravity)) := by
      simp only [r, staticCompute_eq hl]
    have hP := hs.isPinv ((phi com l).mat w)
    have hub : Balanced com l w ((svdOf ((phi com l).mat w)).pinv *ᵥ (-gravity)) := by
      rw [balanced_iff, eq_neg_iff_add_eq_zero, add_comm, ← e2, hz]
    have hF := (balanced_iff w F).1 hb
    have hm := hmin _ hub
    have hu : F = (svdOf ((phi com l).mat w)).pinv *ᵥ (-gravity) := by
      rw [balanced_iff] at hub
      obtain ⟨d, rfl⟩ : ∃ d, F = (svdOf ((phi com l).mat w)).pinv *ᵥ -gravity + d :=
        ⟨F - (svdOf ((phi com l).mat w)).pinv *ᵥ -gravity, by abel⟩
      generalize (phi com l).mat w = A at *
      generalize (svdOf A).pinv = P at *
      have hk : A *ᵥ d = 0 := by
        rw [mulVec_add, hub] at hF
        exact left_eq_add.1 hF.symm
      have hd : (P *ᵥ -gravity) ⬝ᵥ d = 0 := by
        have : P *ᵥ -gravity = (P * A) *ᵥ (P *ᵥ -gravity) := by rw [mulVec_mulVec, hP.pap]
        rw [this, dotProduct_comm, dotProduct_mulVec, ← mulVec_transpose, hP.symR, ← mulVec_mulVec, hk, mulVec_zero, zero_dotProduct]
      rw [add_dotProduct _ d, dotProduct_add, dotProduct_add, hd, dotProduct_comm d, hd] at hm
      have h6 : d ⬝ᵥ d = 0 := le_antisymm (by linarith) (Finset.sum_nonneg fun i _ => mul_self_nonneg _)
      rw [dotProduct_self_eq_zero.1 h6, add_zero]
    intro i
    have hr : r.1 = F := by
      rw [e, ← hu]
      unfold computeV
      rw [uMinusOf_eq_zero.2 h0]
      split <;> simp
    rw [hr]
    exact h0 i

/-- C149. Then `QPStaticStability` for the same contacts has value zero. -/
theorem C149_sufficient (hl : Grouped l) (hs : SvdContract svdOf) (prec : ℝ) (w : World ℝ n) (m : MMem n 2 l.length)
    {solver : QpSolver l.length} (hq : QpContract solver) (m' : MMem n 2 l.length)
    (h0 : (staticCompute com l svdOf prec w m).2.2 = 0) (h : ∀ i, 0 ≤ (staticCompute com l svdOf prec w m).2.1 i) :
    (qpCompute com l solver w m').2 = 0 :=
  (C59_zero_iff hl hq w m').2 ⟨_, h, C82_equilibrium hl hs prec w m h0⟩

/-- C149. When forces along the normals of the contacts have a zero wrench only if they are zero, the two functions agree: the value of
`QPStaticStability` is zero if and only if the residual of `StaticStability` is zero and its forces are non-negative. -/
theorem C149_independent (hl : Grouped l) (hs : SvdContract svdOf) (prec : ℝ) (w : World ℝ n) (m : MMem n 2 l.length)
    {solver : QpSolver l.length} (hq : QpContract solver) (m' : MMem n 2 l.length)
    (hind : ∀ F G : Fin l.length → ℝ, resultant l w F = resultant l w G → moment com l w F = moment com l w G → F = G) :
    (qpCompute com l solver w m').2 = 0 ↔
      (staticCompute com l svdOf prec w m).2.2 = 0 ∧ ∀ i, 0 ≤ (staticCompute com l svdOf prec w m).2.1 i := by
  rw [C59_zero_iff hl hq w m']
  refine Iff.trans ?_ (C149_iff hl hs prec w m).symm
  constructor
  · rintro ⟨F, h1, h2⟩
    refine ⟨F, ⟨h2, fun G hG => ?_⟩, h1⟩
    rw [hind F G (h2.1.trans hG.1.symm) (h2.2.trans hG.2.symm)]
  · rintro ⟨F, h1, h2⟩
    exact ⟨F, h2, h1.1⟩

/-! ### Three contacts on a line -/

/-- Vertical normals, contact points at abscissas -1, 4 and 8; the center of mass is at abscissa 0. -/
noncomputable def exLine : List Col :=
  colsOfContacts [⟨0, ![-1, 0, 0], ![0, 0, 1]⟩, ⟨0, ![4, 0, 0], ![0, 0, 1]⟩, ⟨0, ![8, 0, 0], ![0, 0, 1]⟩]

noncomputable def exLineWorld : World ℝ 1 where
  R := fun _ => 1
  p := fun _ => 0
  Jv := fun _ => 0
  Jw := fun _ => 0
  com := fun _ => 0
  Jcom := fun _ => 0

theorem exLine_balanced (F : Fin exLine.length → ℝ) : Balanced 0 exLine exLineWorld F ↔
    F ⟨0, by decide⟩ + F ⟨1, by decide⟩ + F ⟨2, by decide⟩ = 1 ∧
    -F ⟨0, by decide⟩ + 4 * F ⟨1, by decide⟩ + 8 * F ⟨2, by decide⟩ = 0 := by
  have e1 : resultant exLine exLineWorld F = ![0, 0, F ⟨0, by decide⟩ + F ⟨1, by decide⟩ + F ⟨2, by decide⟩ - 1] := by
    unfold resultant
    have : ∑ j, F j • exLine[j].contact.nrm exLineWorld =
        F ⟨0, by decide⟩ • ((1 : M3 ℝ) *ᵥ ![0, 0, 1]) + F ⟨1, by decide⟩ • ((1 : M3 ℝ) *ᵥ ![0, 0, 1]) +
          F ⟨2, by decide⟩ • ((1 : M3 ℝ) *ᵥ ![0, 0, 1]) :=
      Fin.sum_univ_three _
    rw [this]
    funext a
    fin_cases a <;> simp
  have e2 : moment 0 exLine exLineWorld F =
      ![0, -(-F ⟨0, by decide⟩ + 4 * F ⟨1, by decide⟩ + 8 * F ⟨2, by decide⟩), 0] := by
    unfold moment
    have : ∑ j, F j • crossProduct (exLine[j].contact.pos exLineWorld - exLineWorld.com 0) (exLine[j].contact.nrm exLineWorld) =
        F ⟨0, by decide⟩ • crossProduct ((1 : M3 ℝ) *ᵥ ![-1, 0, 0] + 0 - 0) ((1 : M3 ℝ) *ᵥ ![0, 0, 1]) +
        F ⟨1, by decide⟩ • crossProduct ((1 : M3 ℝ) *ᵥ ![4, 0, 0] + 0 - 0) ((1 : M3 ℝ) *ᵥ ![0, 0, 1]) +
        F ⟨2, by decide⟩ • crossProduct ((1 : M3 ℝ) *ᵥ ![8, 0, 0] + 0 - 0) ((1 : M3 ℝ) *ᵥ ![0, 0, 1]) :=
      Fin.sum_univ_three _
    rw [this]
    funext a
    fin_cases a <;> simp [crossProduct]
    ring
  unfold Balanced
  rw [e1, e2]
  constructor
  · rintro ⟨h1, h2⟩
    have g1 := congrFun h1 2
    have g2 := congrFun h2 1
    simp at g1 g2
    exact ⟨by linarith, by linarith⟩
  · rintro ⟨h1, h2⟩
    constructor
    · funext a
      fin_cases a <;> simp [h1]
    · funext a
      fin_cases a <;> simp
      linarith

theorem exLine_dot (F : Fin exLine.length → ℝ) :
    F ⬝ᵥ F = F ⟨0, by decide⟩ * F ⟨0, by decide⟩ + F ⟨1, by decide⟩ * F ⟨1, by decide⟩ + F ⟨2, by decide⟩ * F ⟨2, by decide⟩ :=
  Fin.sum_univ_three _

/-- The smallest forces that balance gravity are 92/122, 37/122 and -7/122. -/
theorem exLine_least (F : Fin exLine.length → ℝ) (h : LeastBalanced 0 exLine exLineWorld F) : F ⟨2, by decide⟩ = -7 / 122 := by
  obtain ⟨hb, hmin⟩ := h
  obtain ⟨h1, h2⟩ := (exLine_balanced F).1 hb
  have h3 := hmin (fun i => if i.val = 0 then 92 / 122 else if i.val = 1 then 37 / 122 else -7 / 122)
    ((exLine_balanced _).2 ⟨by norm_num, by norm_num⟩)
  rw [exLine_dot, exLine_dot] at h3
  norm_num at h3
  generalize F ⟨0, by decide⟩ = a at *
  generalize F ⟨1, by decide⟩ = b at *
  generalize F ⟨2, by decide⟩ = c at *
  have ha : a = 92 / 122 + 4 / 5 * (c + 7 / 122) := by linarith
  have hb' : b = 37 / 122 - 9 / 5 * (c + 7 / 122) := by linarith
  rw [ha, hb'] at h3
  have : (c + 7 / 122) ^ 2 ≤ 0 := by nlinarith
  have h0 := pow_eq_zero_iff (two_ne_zero) |>.1 (le_antisymm this (sq_nonneg _))
  linarith

/-- C149. In general the two functions disagree: here the robot is in equilibrium with non-negative forces 4/5, 1/5 and 0, the value of
`QPStaticStability` is zero, and `StaticStability` returns a zero residual with a negative force. -/
theorem C149_disagree : ∃ (l : List Col) (w : World ℝ 1), Grouped l ∧
    (∃ F, (∀ i, 0 ≤ F i) ∧ Balanced 0 l w F) ∧
    (∀ solver : QpSolver l.length, QpContract solver → ∀ m, (qpCompute 0 l solver w m).2 = 0) ∧
    ∀ svdOf : SvdOf l.length, SvdContract svdOf → ∀ prec m,
      (staticCompute 0 l svdOf prec w m).2.2 = 0 ∧ ∃ i, (staticCompute 0 l svdOf prec w m).2.1 i < 0 := by
  have hl : Grouped exLine := colsOfContacts_grouped _
  have hF : ∃ F : Fin exLine.length → ℝ, (∀ i, 0 ≤ F i) ∧ Balanced 0 exLine exLineWorld F := by
    refine ⟨fun i => if i.val = 0 then 4 / 5 else if i.val = 1 then 1 / 5 else 0, fun i => ?_, (exLine_balanced _).2 ?_⟩
    · dsimp only
      split_ifs <;> norm_num
    · norm_num
  refine ⟨exLine, exLineWorld, hl, hF, fun solver hq m => (C59_zero_iff hl hq _ m).2 hF, fun svdOf hs prec m => ?_⟩
  have hz : (staticCompute 0 exLine svdOf prec exLineWorld m).2.2 = 0 := (C82_zero_iff hl hs prec _ m).2 ⟨_, hF.choose_spec.2⟩
  refine ⟨hz, ?_⟩
  by_contra hn
  push Not at hn
  obtain ⟨F, h1, h2⟩ := (C149_iff hl hs prec exLineWorld m).1 ⟨hz, hn⟩
  have := h2 ⟨2, by decide⟩
  rw [exLine_least F h1] at this
  norm_num at this

/-- Vertical normals, contact points at abscissas -1 and 4. -/
noncomputable def exPair : List Col := colsOfContacts [⟨0, ![-1, 0, 0], ![0, 0, 1]⟩, ⟨0, ![4, 0, 0], ![0, 0, 1]⟩]

theorem exPair_wrench (F : Fin exPair.length → ℝ) :
    resultant exPair exLineWorld F = ![0, 0, F ⟨0, by decide⟩ + F ⟨1, by decide⟩ - 1] ∧
    moment 0 exPair exLineWorld F = ![0, F ⟨0, by decide⟩ - 4 * F ⟨1, by decide⟩, 0] := by
  constructor
  · unfold resultant
    have : ∑ j, F j • exPair[j].contact.nrm exLineWorld =
        F ⟨0, by decide⟩ • ((1 : M3 ℝ) *ᵥ ![0, 0, 1]) + F ⟨1, by decide⟩ • ((1 : M3 ℝ) *ᵥ ![0, 0, 1]) :=
      Fin.sum_univ_two _
    rw [this]
    funext a
    fin_cases a <;> simp
  · unfold moment
    have : ∑ j, F j • crossProduct (exPair[j].contact.pos exLineWorld - exLineWorld.com 0) (exPair[j].contact.nrm exLineWorld) =
        F ⟨0, by decide⟩ • crossProduct ((1 : M3 ℝ) *ᵥ ![-1, 0, 0] + 0 - 0) ((1 : M3 ℝ) *ᵥ ![0, 0, 1]) +
        F ⟨1, by decide⟩ • crossProduct ((1 : M3 ℝ) *ᵥ ![4, 0, 0] + 0 - 0) ((1 : M3 ℝ) *ᵥ ![0, 0, 1]) :=
      Fin.sum_univ_two _
    rw [this]
    funext a
    fin_cases a <;> simp [crossProduct]
    ring

/-- The hypotheses of `C149_independent` hold for two contacts on both sides of the center of mass; both functions accept them. -/
example (svdOf : SvdOf exPair.length) (hs : SvdContract svdOf) (solver : QpSolver exPair.length) (hq : QpContract solver)
    (prec : ℝ) (m m' : MMem 1 2 exPair.length) :
    (qpCompute 0 exPair solver exLineWorld m').2 = 0 ∧
    (staticCompute 0 exPair svdOf prec exLineWorld m).2.2 = 0 ∧
    ∀ i, 0 ≤ (staticCompute 0 exPair svdOf prec exLineWorld m).2.1 i := by
  have hl : Grouped exPair := colsOfContacts_grouped _
  have h0 : (qpCompute 0 exPair solver exLineWorld m').2 = 0 := by
    rw [C59_zero_iff hl hq]
    refine ⟨fun i => if i.val = 0 then 4 / 5 else 1 / 5, fun i => by dsimp only; split_ifs <;> norm_num, ?_⟩
    unfold Balanced
    rw [(exPair_wrench _).1, (exPair_wrench _).2]
    constructor <;> funext a <;> fin_cases a <;> norm_num
  refine ⟨h0, (C149_independent hl hs prec _ m hq m' fun F G h1 h2 => ?_).1 h0⟩
  rw [(exPair_wrench _).1, (exPair_wrench _).1] at h1
  rw [(exPair_wrench _).2, (exPair_wrench _).2] at h2
  have g1 := congrFun h1 2
  have g2 := congrFun h2 1
  simp at g1 g2
  funext i
  obtain ⟨i, hi⟩ := i
  have hi2 : i < 2 := hi
  interval_cases i
  · linarith
  · linarith

/-- Such decompositions and solvers exist. -/
example : ∃ (svdOf : SvdOf exLine.length) (solver : QpSolver exLine.length), SvdContract svdOf ∧ QpContract solver := by
  obtain ⟨s, hs⟩ := exists_svdOf 2 exLine.length
  obtain ⟨q, hq⟩ := exists_qpSolver exLine.length
  exact ⟨s, q, hs, hq⟩

end Hpp.Stab
