import Verif.Contact.FuncNear

/-!
# Properties of contact functions (C83)
-/

namespace Hpp.Contact

open Matrix Hpp.Sym Hpp.Pose Hpp.Log Filter Topology

/-! ### Specification -/

/-- Frame attached to a surface, in the frame of its joint.  A point: the frame of the joint.  A polygon: the first axis is the
normal on the side where the points are seen counterclockwise, the third one goes from the first point to the second one. -/
inductive FrameOf : List (V3 ℝ) → M3 ℝ → Prop where
  | point (p : V3 ℝ) : FrameOf [p] 1
  | polygon (P : List (V3 ℝ)) (L : M3 ℝ) (p q : V3 ℝ) (c : ℝ) : ConvexFor P (fun i => L i 0) → IsRot L → P[0]? = some p →
      P[1]? = some q → 0 < c → (q - p = c • fun i => L i 2) → FrameOf P L

/-- Orientation of a joint -/
def jointR (M : Nat → SE3 ℝ) : Option Nat → M3 ℝ
  | none => 1
  | some j => (M j).R

/-- The logarithm of the orientation of the object with respect to the floor is computed with its exact formula.  The points of the
floor are taken in the reverse order: in contact, the two surfaces face each other. -/
def LogExact (M : Nat → SE3 ℝ) (F O : JShape) : Prop :=
  ∀ A B, FrameOf F.2.reverse A → FrameOf O.2 B →
    (jointR M F.1 * A)ᵀ * (jointR M O.1 * B) = 1 ∨
    1e-6 < angle ((jointR M F.1 * A)ᵀ * (jointR M O.1 * B)) ∧ angle ((jointR M F.1 * A)ᵀ * (jointR M O.1 * B)) < Real.pi

/-! ### The relative pose of the selected surfaces -/

theorem new_frame {P : List (V3 ℝ)} (hP : IsConvexPolygon P) {s : Shape} (hs : Shape.new P = some s) :
    FrameOf P s.positionInJoint.R := by
  obtain ⟨m, hm⟩ := hP
  obtain ⟨-, -, hN, g⟩ := hm.geo hs
  have h3 := g.three
  have hmm : 0 < m ⬝ᵥ m := by
    refine dot_self_pos ?_
    rintro rfl
    have := hm.left 0 1 2 (by rw [Nat.mod_eq_of_lt (by omega)]) (by omega) (by omega) (by omega) (by omega) _ _ _
      (List.getElem?_eq_getElem (show 0 < P.length by omega)) (List.getElem?_eq_getElem (show 1 < P.length by omega))
      (List.getElem?_eq_getElem (show 2 < P.length by omega))
    rw [zero_dotProduct] at this
    exact lt_irrefl _ this
  have hcol : (fun i => s.positionInJoint.R i 0) = (norm3 m)⁻¹ • m := by
    change s.N = _
    rw [hN]
    unfold normalize
    rw [if_pos hmm]
  have hpos : 0 < (norm3 m)⁻¹ := inv_pos.2 (Real.sqrt_pos.2 hmm)
  refine .polygon P _ (at3 P 0) (at3 P 1) (s.Ls.getD 0 0) ?_ (polygon_frame ⟨m, hm⟩ hs) ?_ ?_ (g.len 0 (by omega)) ?_
  · rw [hcol]
    exact ⟨hm.three, fun p hp q hq => by rw [smul_dotProduct, hm.plane p hp q hq, smul_zero],
      fun i j k h1 h2 h3 h4 h5 p q r h6 h7 h8 => by
        rw [smul_dotProduct]
        exact mul_pos hpos (hm.left i j k h1 h2 h3 h4 h5 p q r h6 h7 h8)⟩
  · exact at3_some (by omega)
  · exact at3_some (by omega)
  · change _ = _ • at3 s.Us 0
    have := g.step 0 (by omega)
    rw [Nat.mod_eq_of_lt (by omega)] at this
    rw [this, add_sub_cancel_left]

variable {M : Nat → SE3 ℝ} {F O : JShape} {c co : CShape}

theorem relModel_ok (hF : IsConvexPolygon F.2) (hO : IsObject O.2) (k1 : Shape.new F.2.reverse = some c.shape)
    (k3 : Shape.new O.2 = some co.shape) : (relModel c co).Ok :=
  ⟨rfl, .inl rfl, (fun h => by cases h), polygon_frame hF.reverse k1, object_frame hO k3⟩

theorem relModel_j1 (h : c.joint ≠ some 0) : (relModel c co).j1 = c.joint := by
  unfold GT.j1 relModel
  rw [if_pos rfl]
  dsimp only
  cases hj : c.joint with
  | none => rfl
  | some j =>
    have : 0 < j := by
      rcases Nat.eq_zero_or_pos j with h0 | h0
      · rw [hj, h0] at h; exact absurd rfl h
      · exact h0
    simp [this]

theorem relModel_R (h : c.joint ≠ some 0) : ((relModel c co).relative M).R =
    (jointR M c.joint * c.shape.positionInJoint.R)ᵀ * (jointR M co.joint * co.shape.positionInJoint.R) := by
  unfold GT.relative GT.frame1 GT.frame2
  rw [relModel_j1 h]
  have e2 : (relModel c co).joint2 = co.joint := rfl
  rw [e2]
  cases c.joint <;> cases co.joint <;> simp [SE3.mul, SE3.inv, jointR, relModel]

theorem log_exact (hS : F.1 ≠ some 0) (hF : IsConvexPolygon F.2) (hO : IsObject O.2) (h2 : O.2.length ≠ 2)
    (k1 : Shape.new F.2.reverse = some c.shape) (k2 : c.joint = F.1)
    (k3 : Shape.new O.2 = some co.shape) (k4 : co.joint = O.1) (hl : LogExact M F O) :
    ((relModel c co).relative M).R = 1 ∨
      1e-6 < angle ((relModel c co).relative M).R ∧ angle ((relModel c co).relative M).R < Real.pi := by
  rw [relModel_R (k2 ▸ hS), k2, k4]
  refine hl _ _ (new_frame hF.reverse k1) ?_
  obtain ⟨jo, P⟩ := O
  dsimp only at *
  cases hO with
  | point p =>
    have hk := Option.some.inj k3
    rw [← hk]
    have e : (Shape.positionInJoint ⟨[p], p, ![1, 0, 0], [] ++ [![0, 1, 0]], [] ++ [![0, 0, 1]], []⟩).R = 1 := by
      ext i j
      fin_cases i <;> fin_cases j <;> rfl
    rw [e]
    exact .point p
  | segment p q _ => exact absurd rfl h2
  | polygon _ hP => exact new_frame hP k3

/-- Components of the relative pose -/
theorem error_eq (ok : (relModel c co).Ok) (hM : ∀ j, IsRot (M j).R) :
    (fun i : Fin 6 => ((relModel c co).rawValue (fun _ => []) M).getD i 0) =
      ![((relModel c co).relative M).p 0, ((relModel c co).relative M).p 1, ((relModel c co).relative M).p 2,
        logSO3 ((relModel c co).relative M).R 0, logSO3 ((relModel c co).relative M).R 1,
        logSO3 ((relModel c co).relative M).R 2] := by
  rw [GT.rawValue_eq ok _ hM]
  have e : (relModel c co).full (fun _ => []) M = list3 ((relModel c co).relative M).p ++ list3 (logSO3 ((relModel c co).relative M).R) := rfl
  rw [e]
  funext i
  fin_cases i <;> rfl

variable {n e : Nat} {K : ℝ → Kin n} {qd : Fin n → ℝ} {t : ℝ}

/-- Derivative of the components of the relative pose -/
theorem error_deriv (ok : (relModel c co).Ok) (hK : KMoves K qd t) {C : Rows n} {T T' : Rows2 n e}
    (hT : (relModel c co).jacobian (K t) C T = some T') (k : Fin 6)
    (hlog : 3 ≤ k.val → ((relModel c co).relative (K t).M).R = 1 ∨
      1e-6 < angle ((relModel c co).relative (K t).M).R ∧ angle ((relModel c co).relative (K t).M).R < Real.pi) :
    HasDerivAt (fun s => ((relModel c co).rawValue (fun _ => []) (K s).M).getD k 0) (∑ a, T' k (.inl a) * qd a) t := by
  obtain ⟨Bp, Bo, hp, ho, hrows⟩ := GT.jacobian_rows ok hT
  have hr : (relModel c co).rows[k.val]? = some k.val := by
    have e : (relModel c co).rows = [0, 1, 2, 3, 4, 5] := by
      have : (relModel c co).m = fun i => (List.replicate 6 true).getD i false := rfl
      unfold GT.rows
      rw [this]
      rfl
    rw [e]
    fin_cases k <;> rfl
  obtain ⟨h1, -⟩ := hrows k k hr
  have hl : (relModel c co).lPos = 3 := rfl
  rw [hl] at h1
  have hev : (fun s => ((relModel c co).rawValue (fun _ => []) (K s).M).getD k 0) =
      fun s => (![((relModel c co).relative (K s).M).p 0, ((relModel c co).relative (K s).M).p 1, ((relModel c co).relative (K s).M).p 2,
        logSO3 ((relModel c co).relative (K s).M).R 0, logSO3 ((relModel c co).relative (K s).M).R 1,
        logSO3 ((relModel c co).relative (K s).M).R 2] : Fin 6 → ℝ) k := by
    funext s
    exact congrFun (error_eq ok (hK.rot s)) k
  rw [hev]
  by_cases h3 : k.val < 3
  · have hd := GT.deriv_pos ok hK (hp rfl) ⟨k.val, h3⟩
    have e1 : ∑ a, T' k (.inl a) * qd a = (Bp *ᵥ qd) ⟨k.val, h3⟩ := by
      rw [← blockRow_sum Bp qd ⟨k.val, h3⟩]
      refine Finset.sum_congr rfl fun a _ => ?_
      rw [h1, if_pos h3]
    rw [e1]
    fin_cases k
    · exact hd
    · exact hd
    · exact hd
    all_goals exact absurd h3 (by decide)
  · have h3' : k.val - 3 < 3 := by have := k.isLt; omega
    have hd := GT.deriv_log ok rfl hK (hlog (by omega)) (ho rfl) ⟨k.val - 3, h3'⟩
    have e1 : ∑ a, T' k (.inl a) * qd a = (Bo *ᵥ qd) ⟨k.val - 3, h3'⟩ := by
      rw [← blockRow_sum Bo qd ⟨k.val - 3, h3'⟩]
      refine Finset.sum_congr rfl fun a _ => ?_
      rw [h1, if_neg h3]
    rw [e1]
    fin_cases k
    · exact absurd (show (0 : Nat) < 3 by decide) h3
    · exact absurd (show (1 : Nat) < 3 by decide) h3
    · exact absurd (show (2 : Nat) < 3 by decide) h3
    · exact hd
    · exact hd
    · exact hd

theorem error_zero (ok : (relModel c co).Ok) {C : Rows n} {T T' : Rows2 n e} {K : Kin n}
    (hT : (relModel c co).jacobian K C T = some T') (k : Fin 6) (a : Fin e) : T' k (.inr a) = 0 := by
  obtain ⟨Bp, Bo, hp, ho, hrows⟩ := GT.jacobian_rows ok hT
  have hr : (relModel c co).rows[k.val]? = some k.val := by
    have e : (relModel c co).rows = [0, 1, 2, 3, 4, 5] := by
      have : (relModel c co).m = fun i => (List.replicate 6 true).getD i false := rfl
      unfold GT.rows
      rw [this]
      rfl
    rw [e]
    fin_cases k <;> rfl
  exact (hrows k k hr).2 a

theorem typeOf_ne {P : List (V3 ℝ)} (hP : IsObject P) (h2 : P.length ≠ 2) :
    (P.length = 1 ∧ typeOf P = .pointOnPlane) ∨ (P.length ≠ 1 ∧ typeOf P = .planeOnPlane) := by
  have h0 := hP.ne_nil
  unfold typeOf
  rcases P with _ | ⟨p, _ | ⟨q, _ | ⟨r, l⟩⟩⟩
  · exact absurd rfl h0
  · exact .inl ⟨rfl, rfl⟩
  · exact absurd rfl h2
  · right
    simp

/-- Results that do not depend on the function considered -/
theorem near_facts {fs os : List JShape} {margin : ℝ} {f : Fn} (hf : Fn.build fs os margin = some f) (hS : Surfaces fs os)
    (hK : KMoves K qd t) {j i : Nat} (hc : Clear fs os (K t).M j i F O) (hj : F.1 ≠ none ∨ O.1 ≠ none) :
    ∃ p, f.pick (K t).M = .ok p ∧ p.type = typeOf O.2 ∧ (relModel p.floor p.object).Ok ∧
      (O.2.length ≠ 2 → LogExact (K t).M F O → ((relModel p.floor p.object).relative (K t).M).R = 1 ∨
        1e-6 < angle ((relModel p.floor p.object).relative (K t).M).R ∧
        angle ((relModel p.floor p.object).relative (K t).M).R < Real.pi) ∧
      (∀ (C : Rows n) (T : Rows2 n e), ∃ T', (relModel p.floor p.object).jacobian (K t) C T = some T') ∧
      ∀ᶠ s in 𝓝 t, ∃ p', f.pick (K s).M = .ok p' ∧ poseError p' (K s).M = poseError p (K s).M ∧ p'.type = p.type ∧
        p'.sel.isInside = p.sel.isInside ∧ p'.sel.ifloor = p.sel.ifloor ∧ p'.sel.iobject = p.sel.iobject := by
  obtain ⟨hb, -⟩ := build_built hf
  obtain ⟨p, hp, hpk, e1, e2, hnear⟩ := hb.pick_near hS hK hc
  obtain ⟨k1, k2⟩ := hb.floor _ F p.floor hpk.ffl hpk.floor
  obtain ⟨k3, k4⟩ := hb.object _ O p.object hpk.oob hpk.object
  obtain ⟨hF, hF0⟩ := hS.floor F (List.mem_of_getElem? hc.floor)
  obtain ⟨hO, hO0⟩ := hS.object O (List.mem_of_getElem? hc.object)
  have ok := relModel_ok hF hO k1 k3
  refine ⟨p, hp, hpk.type, ok, fun h2 hl => log_exact hF0 hF hO h2 k1 k2 k3 k4 hl, fun C T => ?_, ?_⟩
  · refine (C52_defined ok (K t) C T).2 ?_
    rw [relModel_j1 (k2 ▸ hF0), k2]
    have e : (relModel p.floor p.object).joint2 = O.1 := k4
    rw [e]
    exact hj
  · filter_upwards [hnear] with s hs
    obtain ⟨p', h1, h2, h3, h4, h5, h6, h7⟩ := hs
    refine ⟨p', h1, ?_, h4, h5, by rw [h6, e1], by rw [h7, e2]⟩
    unfold poseError
    rw [h2, h3]

/-! ### C83 -/

theorem sum_zero_row (qd : Fin n → ℝ) : ∑ a, (0 : Fin n ⊕ Fin e → ℝ) (.inl a) * qd a = 0 := by simp

/-- Contact constraint, contact of a point or of a polygon with a floor: in a neighbourhood the value is computed, and the Jacobian
computed is its derivative, whatever the initial content of the temporary matrices; the columns of the extra configuration variables
are zero. -/
theorem C83_contact_partial {fs os : List JShape} {margin : ℝ} {f : Fn} (hf : Fn.build fs os margin = some f) (hS : Surfaces fs os)
    (hK : KMoves K qd t) {j i : Nat} (hc : Clear fs os (K t).M j i F O) (hj : F.1 ≠ none ∨ O.1 ≠ none) (h2 : O.2.length ≠ 2)
    (hlog : O.2.length ≠ 1 → LogExact (K t).M F O) (C : Rows n) (T : Rows2 n e) :
    ∃ (v : ℝ → Fin 5 → ℝ) (J : Matrix (Fin 5) (Fin n ⊕ Fin e) ℝ), (∀ᶠ s in 𝓝 t, f.value (K s).M = .ok (v s)) ∧
      f.jacobian (K t) C T = .ok J ∧
      ∀ r, HasDerivAt (fun s => v s r) (∑ a, J r (.inl a) * qd a) t ∧ ∀ a, J r (.inr a) = 0 := by
  obtain ⟨p, hp, ht, ok, hl, hT, hnear⟩ := near_facts (e := e) hf hS hK hc hj
  obtain ⟨T', hT'⟩ := hT C T
  have hint : f.internalJacobian (K t) C T = .ok (p, T') := by
    unfold Fn.internalJacobian
    rw [hp]
    simp only [hT']
  have hd : ∀ k : Fin 6, (3 ≤ k.val → O.2.length ≠ 1) →
      HasDerivAt (fun s => poseError p (K s).M k) (∑ a, T' k (.inl a) * qd a) t := fun k hk =>
    error_deriv ok hK hT' k fun h => hl h2 (hlog (hk h))
  have hz := error_zero ok hT'
  refine ⟨fun s => contactValue f.margin p.sel.isInside p.type (poseError p (K s).M),
    ![T' 0, if p.sel.isInside then 0 else T' 1, if p.sel.isInside then 0 else T' 2,
      if p.type = .pointOnPlane then 0 else T' 4, if p.type = .pointOnPlane then 0 else T' 5], ?_, ?_, ?_⟩
  · filter_upwards [hnear] with s hs
    obtain ⟨p', h1, h2, h3, h4, -, -⟩ := hs
    unfold Fn.value
    rw [h1]
    simp only [h2, h3, h4]
  · unfold Fn.jacobian
    rw [hint]
    rcases typeOf_ne (hS.object O (List.mem_of_getElem? hc.object)).1 h2 with ⟨-, h⟩ | ⟨-, h⟩ <;>
    · rw [h] at ht
      simp only [ht]
      cases p.sel.isInside <;> simp
  · have d0 := (hd 0 (fun h => absurd h (by decide))).add_const f.margin
    have d1 := hd 1 (fun h => absurd h (by decide))
    have d2 := hd 2 (fun h => absurd h (by decide))
    rcases typeOf_ne (hS.object O (List.mem_of_getElem? hc.object)).1 h2 with ⟨hn, h⟩ | ⟨hn, h⟩
    · rw [h] at ht
      simp only [ht, if_true]
      intro r
      cases p.sel.isInside <;> fin_cases r
      · exact ⟨d0, hz 0⟩
      · exact ⟨d1, hz 1⟩
      · exact ⟨d2, hz 2⟩
      · exact ⟨by simpa [contactValue] using hasDerivAt_const t (0 : ℝ), fun _ => rfl⟩
      · exact ⟨by simpa [contactValue] using hasDerivAt_const t (0 : ℝ), fun _ => rfl⟩
      · exact ⟨d0, hz 0⟩
      · exact ⟨by simpa [contactValue] using hasDerivAt_const t (0 : ℝ), fun _ => rfl⟩
      · exact ⟨by simpa [contactValue] using hasDerivAt_const t (0 : ℝ), fun _ => rfl⟩
      · exact ⟨by simpa [contactValue] using hasDerivAt_const t (0 : ℝ), fun _ => rfl⟩
      · exact ⟨by simpa [contactValue] using hasDerivAt_const t (0 : ℝ), fun _ => rfl⟩
    · have d4 := hd 4 fun _ => hn
      have d5 := hd 5 fun _ => hn
      rw [h] at ht
      have hne : (CType.planeOnPlane = CType.pointOnPlane) = False := by simp
      simp only [ht, hne, if_false]
      intro r
      cases p.sel.isInside <;> fin_cases r
      · exact ⟨d0, hz 0⟩
      · exact ⟨d1, hz 1⟩
      · exact ⟨d2, hz 2⟩
      · exact ⟨d4, hz 4⟩
      · exact ⟨d5, hz 5⟩
      · exact ⟨d0, hz 0⟩
      · exact ⟨by simpa [contactValue] using hasDerivAt_const t (0 : ℝ), fun _ => rfl⟩
      · exact ⟨by simpa [contactValue] using hasDerivAt_const t (0 : ℝ), fun _ => rfl⟩
      · exact ⟨d4, hz 4⟩
      · exact ⟨d5, hz 5⟩

/-- Complement -/
theorem C83_complement_partial {fs os : List JShape} {margin : ℝ} {f : Fn} (hf : Fn.build fs os margin = some f) (hS : Surfaces fs os)
    (hK : KMoves K qd t) {j i : Nat} (hc : Clear fs os (K t).M j i F O) (hj : F.1 ≠ none ∨ O.1 ≠ none) (h2 : O.2.length ≠ 2)
    (hlog : LogExact (K t).M F O) (C : Rows n) (T : Rows2 n e) :
    ∃ (v : ℝ → V3 ℝ) (J : Matrix (Fin 3) (Fin n ⊕ Fin e) ℝ), (∀ᶠ s in 𝓝 t, f.complement (K s).M = .ok (v s)) ∧
      f.complementJacobian (K t) C T = .ok J ∧
      ∀ r, HasDerivAt (fun s => v s r) (∑ a, J r (.inl a) * qd a) t ∧ ∀ a, J r (.inr a) = 0 := by
  obtain ⟨p, hp, ht, ok, hl, hT, hnear⟩ := near_facts (e := e) hf hS hK hc hj
  obtain ⟨T', hT'⟩ := hT C T
  have hint : f.internalJacobian (K t) C T = .ok (p, T') := by
    unfold Fn.internalJacobian
    rw [hp]
    simp only [hT']
  have hd : ∀ k : Fin 6, HasDerivAt (fun s => poseError p (K s).M k) (∑ a, T' k (.inl a) * qd a) t := fun k =>
    error_deriv ok hK hT' k fun _ => hl h2 hlog
  have hz := error_zero ok hT'
  refine ⟨fun s => complementValue f.radius p.sel.isInside (poseError p (K s).M) p.sel.ifloor p.sel.iobject,
    ![if p.sel.isInside then T' 1 else 0, if p.sel.isInside then T' 2 else 0, T' 3], ?_, ?_, ?_⟩
  · filter_upwards [hnear] with s hs
    obtain ⟨p', h1, h2, h3, h4, h5, h6⟩ := hs
    unfold Fn.complement
    rw [h1]
    simp only [h2, h4, h5, h6]
  · unfold Fn.complementJacobian
    rw [hint]
    cases hi : p.sel.isInside <;> simp only [hi, if_true, Bool.false_eq_true, if_false]
  · have d1 := (hd 1).add_const ((2 * p.sel.ifloor : ℕ) * f.radius)
    have d2 := (hd 2).add_const ((2 * p.sel.iobject : ℕ) * f.radius)
    have d3 := hd 3
    intro r
    cases p.sel.isInside <;> fin_cases r
    · exact ⟨by simpa [complementValue] using hasDerivAt_const t _, fun _ => rfl⟩
    · exact ⟨by simpa [complementValue] using hasDerivAt_const t _, fun _ => rfl⟩
    · exact ⟨d3, hz 3⟩
    · exact ⟨d1, hz 1⟩
    · exact ⟨d2, hz 2⟩
    · exact ⟨d3, hz 3⟩

/-- Both together -/
theorem C83_hold_partial {fs os : List JShape} {margin : ℝ} {f : Fn} (hf : Fn.build fs os margin = some f) (hS : Surfaces fs os)
    (hK : KMoves K qd t) {j i : Nat} (hc : Clear fs os (K t).M j i F O) (hj : F.1 ≠ none ∨ O.1 ≠ none) (h2 : O.2.length ≠ 2)
    (hlog : LogExact (K t).M F O) (C C' : Rows n) (T T' : Rows2 n e) :
    ∃ (v : ℝ → Fin 8 → ℝ) (J : Matrix (Fin 8) (Fin n ⊕ Fin e) ℝ), (∀ᶠ s in 𝓝 t, f.hold (K s).M = .ok (v s)) ∧
      f.holdJacobian (K t) C C' T T' = .ok J ∧
      ∀ r, HasDerivAt (fun s => v s r) (∑ a, J r (.inl a) * qd a) t ∧ ∀ a, J r (.inr a) = 0 := by
  obtain ⟨v, J, a1, a2, a3⟩ := C83_contact_partial hf hS hK hc hj h2 (fun _ => hlog) C T
  obtain ⟨w, J', b1, b2, b3⟩ := C83_complement_partial hf hS hK hc hj h2 hlog C' T'
  refine ⟨fun s => ![v s 0, v s 1, v s 2, v s 3, v s 4, w s 0, w s 1, w s 2],
    ![J 0, J 1, J 2, J 3, J 4, J' 0, J' 1, J' 2], ?_, ?_, ?_⟩
  · filter_upwards [a1, b1] with s h1 h2
    unfold Fn.hold
    simp only [h1, h2]
  · unfold Fn.holdJacobian
    simp only [a2, b2]
  · intro r
    fin_cases r
    · exact a3 0
    · exact a3 1
    · exact a3 2
    · exact a3 3
    · exact a3 4
    · exact b3 0
    · exact b3 1
    · exact b3 2

/-- Contact of a segment: the value is computed but the Jacobian never is, an exception is thrown. -/
theorem C83_line_refuted {fs os : List JShape} {margin : ℝ} {f : Fn} (hf : Fn.build fs os margin = some f) (hS : Surfaces fs os)
    (hK : KMoves K qd t) {j i : Nat} (hc : Clear fs os (K t).M j i F O) (hj : F.1 ≠ none ∨ O.1 ≠ none) (h2 : O.2.length = 2)
    (C : Rows n) (T : Rows2 n e) :
    (∃ v, f.value (K t).M = .ok v) ∧ f.jacobian (K t) C T = .error .exn := by
  obtain ⟨p, hp, ht, ok, hl, hT, -⟩ := near_facts (e := e) hf hS hK hc hj
  obtain ⟨T', hT'⟩ := hT C T
  have ht2 : p.type = .lineOnPlane := by
    rw [ht]
    unfold typeOf
    rw [h2]
    rfl
  constructor
  · unfold Fn.value
    rw [hp]
    exact ⟨_, rfl⟩
  · unfold Fn.jacobian Fn.internalJacobian
    rw [hp]
    simp only [hT', ht2]

end Hpp.Contact
