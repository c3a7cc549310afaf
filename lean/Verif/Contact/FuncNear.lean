import Verif.Contact.FuncLemmas

/-!
# The surfaces selected by a contact function do not change near a configuration where the nearest pair is unique
-/

namespace Hpp.Contact

open Matrix Hpp.Sym Hpp.Pose Hpp.Log Filter Topology

/-! ### The selection -/

theorem get_map_at {l : List CShape} {M : Nat → SE3 ℝ} {i : Nat} {s : Surface} (h : (l.map (·.at M))[i]? = some s) :
    ∃ c, l[i]? = some c ∧ s = c.at M := by
  rw [List.getElem?_map] at h
  obtain ⟨c, hc, rfl⟩ := Option.map_eq_some_iff.1 h
  exact ⟨c, hc, rfl⟩

theorem get_of_lt {α β : Type} {l : List α} {l' : List β} (h : l.length = l'.length) {i : Nat} {a : α} (ha : l[i]? = some a) :
    ∃ b, l'[i]? = some b := by
  have := (List.getElem?_eq_some_iff.1 ha).1
  exact ⟨_, List.getElem?_eq_getElem (by omega)⟩

/-- Type of the contact with a floor polygon -/
def typeOf (P : List (V3 ℝ)) : CType :=
  match P.length with
  | 1 => .pointOnPlane
  | 2 => .lineOnPlane
  | _ => .planeOnPlane

theorem contactType_polygon {o f : Shape} (h : 3 ≤ f.Pts.length) : contactType o f = some (typeOf o.Pts) := by
  unfold contactType typeOf
  split
  · omega
  · omega
  · omega
  · rcases h : o.Pts.length with _ | _ | _ | k <;> rfl

variable {fs os : List JShape} {f : Fn} {M : Nat → SE3 ℝ}

/-- What is selected, in terms of the surfaces given to the constructor -/
structure Picked (fs os : List JShape) (f : Fn) (M : Nat → SE3 ℝ) (p : Pick) (F O : JShape) : Prop where
  ffl : fs[p.sel.ifloor]? = some F
  oob : os[p.sel.iobject]? = some O
  floor : f.floors[p.sel.ifloor]? = some p.floor
  object : f.objects[p.sel.iobject]? = some p.object
  type : p.type = typeOf O.2
  dist : F.IsSqDist M O p.sel.minDist
  least : ∀ (j i : Nat) (F' O' : JShape) (d : ℝ), fs[j]? = some F' → os[i]? = some O' → F'.IsSqDist M O' d →
    p.sel.minDist ≤ d ∧ ((j < p.sel.ifloor ∨ (j = p.sel.ifloor ∧ i < p.sel.iobject)) → p.sel.minDist < d)
  inside : p.sel.isInside = true ↔ ∀ y, F.IsProj M (O.center M) y → y ∈ F.polygon M ∧ y ∉ F.outline M

theorem Built.floors_valid (hb : Built fs os f) (hS : Surfaces fs os) (hM : ∀ j, IsRot (M j).R) :
    ∀ s ∈ f.floors.map (·.at M), s.Valid := by
  intro s hs
  obtain ⟨c, hc, rfl⟩ := List.mem_map.1 hs
  obtain ⟨j, hj⟩ := List.mem_iff_getElem?.1 hc
  obtain ⟨F, hF⟩ := get_of_lt hb.flen hj
  exact floor_valid hM (hS.floor F (List.mem_of_getElem? hF)).1 (hb.floor j F c hF hj).1

/-- The selection always succeeds if there is at least one floor and one object. -/
theorem Built.pick (hb : Built fs os f) (hS : Surfaces fs os) (hM : ∀ j, IsRot (M j).R) (hf : fs ≠ []) (ho : os ≠ []) :
    ∃ p F O, f.pick M = .ok p ∧ Picked fs os f M p F O := by
  have hv := hb.floors_valid hS hM
  cases hsel : Hpp.Contact.select (f.floors.map (·.at M)) (f.objects.map (·.at M)) with
  | none =>
    exfalso
    rcases (C54_defined hv).1 hsel with h | h
    · have := hb.flen
      rw [List.map_eq_nil_iff.1 h] at this
      exact hf (List.length_eq_zero_iff.1 this.symm)
    · have := hb.olen
      rw [List.map_eq_nil_iff.1 h] at this
      exact ho (List.length_eq_zero_iff.1 this.symm)
  | some s =>
    obtain ⟨fl, ob, hfl, hob, hd, hmin⟩ := C54_minimal hv hsel
    have hin := (C54_contact_partial hv hsel hfl hob).1
    obtain ⟨c, hc, rfl⟩ := get_map_at hfl
    obtain ⟨co, hco, rfl⟩ := get_map_at hob
    obtain ⟨F, hF⟩ := get_of_lt hb.flen hc
    obtain ⟨O, hO⟩ := get_of_lt hb.olen hco
    obtain ⟨k1, k2⟩ := hb.floor _ F c hF hc
    obtain ⟨k3, k4⟩ := hb.object _ O co hO hco
    have hP := (hS.floor F (List.mem_of_getElem? hF)).1
    have hnew : Shape.new c.shape.Pts = some c.shape := by rw [init_pts k1]; exact k1
    have htype : contactType co.shape c.shape = some (typeOf O.2) := by
      rw [contactType_polygon, init_pts k3]
      rw [init_pts k1]
      obtain ⟨m, hm⟩ := hP.reverse
      exact hm.three
    refine ⟨⟨s, c, co, typeOf O.2⟩, F, O, ?_, ⟨hF, hO, hc, hco, rfl, (sqDist_iff k1 k2 k3 k4 _).1 hd, ?_, ?_⟩⟩
    · unfold Fn.pick
      simp only [hsel, hc, hco, hnew, htype]
    · intro j i F' O' d hF' hO' hd'
      obtain ⟨c', hc'⟩ := get_of_lt hb.flen.symm hF'
      obtain ⟨co', hco'⟩ := get_of_lt hb.olen.symm hO'
      obtain ⟨l1, l2⟩ := hb.floor _ F' c' hF' hc'
      obtain ⟨l3, l4⟩ := hb.object _ O' co' hO' hco'
      exact hmin j i (c'.at M) (co'.at M) d (by rw [List.getElem?_map, hc']; rfl) (by rw [List.getElem?_map, hco']; rfl)
        ((sqDist_iff l1 l2 l3 l4 d).2 hd')
    · change s.isInside = true ↔ _
      rw [hin, floor_polygon k1 k2, floor_outline k1 k2]
      simp only [foot_iff hP k1 k2 k3 k4]

/-! ### Distances are continuous -/

theorem dot_sq_le (u v : V3 ℝ) : (u ⬝ᵥ v) ^ 2 ≤ (u ⬝ᵥ u) * (v ⬝ᵥ v) := by
  simp only [dotProduct, Fin.sum_univ_three]
  nlinarith [sq_nonneg (u 0 * v 1 - u 1 * v 0), sq_nonneg (u 0 * v 2 - u 2 * v 0), sq_nonneg (u 1 * v 2 - u 2 * v 1)]

theorem norm3_add_le (u v : V3 ℝ) : norm3 (u + v) ≤ norm3 u + norm3 v := by
  have hu := norm3_nonneg u
  have hv := norm3_nonneg v
  refine Real.sqrt_le_iff.2 ⟨by linarith, ?_⟩
  have h := dot_sq_le u v
  have h2 : u ⬝ᵥ v ≤ norm3 u * norm3 v := by
    refine le_trans (le_abs_self _) (abs_le_of_sq_le_sq ?_ (mul_nonneg hu hv))
    rw [mul_pow, norm3_sq, norm3_sq]
    exact h
  rw [add_dotProduct, dotProduct_add, dotProduct_add, dotProduct_comm v u, ← norm3_sq, ← norm3_sq]
  nlinarith

theorem edist_triangle (a b c : V3 ℝ) : edist a c ≤ edist a b + edist b c := by
  rw [edist_eq, edist_eq, edist_eq]
  have := norm3_add_le (a - b) (b - c)
  rwa [sub_add_sub_cancel] at this

theorem edist_comm' (a b : V3 ℝ) : edist a b = edist b a := by
  unfold edist
  rw [← neg_sub, neg_dotProduct, dotProduct_neg, neg_neg]

/-- The distance to a set does not change faster than the point. -/
theorem least_lip {S : Set (V3 ℝ)} {a b : V3 ℝ} {d d' : ℝ} (h : IsLeast { r | ∃ x ∈ S, r = edist a x ^ 2 } d)
    (h' : IsLeast { r | ∃ x ∈ S, r = edist b x ^ 2 } d') : √d' ≤ √d + edist b a := by
  obtain ⟨x, hx, rfl⟩ := h.1
  have h1 := h'.2 ⟨x, hx, rfl⟩
  have h0 : 0 ≤ edist a x := Real.sqrt_nonneg _
  have h0' : 0 ≤ edist b x := Real.sqrt_nonneg _
  rw [Real.sqrt_sq h0]
  have h2 := Real.sqrt_le_sqrt h1
  rw [Real.sqrt_sq h0'] at h2
  have := edist_triangle b a x
  linarith

/-- Center of the object in the frame of the joint of the floor -/
def localCenter (c co : CShape) (M : Nat → SE3 ℝ) : V3 ℝ := actInv (c.joint.map M) (co.at M).center

theorem sqDist_local {c co : CShape} (hM : ∀ j, IsRot (M j).R) {d : ℝ} (h : Hpp.Contact.IsSqDist (c.at M) (co.at M) d) :
    IsLeast { r | ∃ x ∈ region c.shape.Pts, r = edist (localCenter c co M) x ^ 2 } d := by
  unfold Hpp.Contact.IsSqDist at h
  convert h using 1
  ext r
  have e : ∀ x, edist (localCenter c co M) x = edist (co.at M).center (act (c.at M).pose x) := by
    intro x
    have h1 := edist_act (pose_rot hM c.joint) (localCenter c co M) x
    unfold localCenter at h1 ⊢
    rw [act_actInv (pose_rot hM c.joint)] at h1
    exact h1.symm
  constructor
  · rintro ⟨x, hx, hr⟩
    exact ⟨_, ⟨x, hx, rfl⟩, by rw [hr, e]⟩
  · rintro ⟨_, ⟨x, hx, rfl⟩, hr⟩
    exact ⟨x, hx, by rw [hr, e]⟩

variable {n : Nat} {K : ℝ → Kin n} {qd : Fin n → ℝ} {t : ℝ}

theorem VDeriv.tendsto {g : ℝ → V3 ℝ} {d : V3 ℝ} (h : VDeriv g d t) : Tendsto g (𝓝 t) (𝓝 (g t)) :=
  tendsto_pi_nhds.2 fun i => (h i).continuousAt

theorem localCenter_tendsto (hK : KMoves K qd t) (c co : CShape) :
    Tendsto (fun s => localCenter c co (K s).M) (𝓝 t) (𝓝 (localCenter c co (K t).M)) := by
  have h1 : ∃ d, VDeriv (fun s => (co.at (K s).M).center) d t := by
    cases hj : co.joint with
    | none =>
      refine ⟨0, VDeriv.congr (f := fun s => (co.at (K s).M).center) ?_ rfl⟩
      simp only [Surface.center, CShape.at, hj, Option.map_none, act]
      exact VDeriv.const _ t
    | some j =>
      simp only [Surface.center, CShape.at, hj, Option.map_some, act]
      exact ⟨_, (VDeriv.mulVec (hK.moves j).R (VDeriv.const _ t)).add (hK.moves j).p⟩
  obtain ⟨d, hd⟩ := h1
  unfold localCenter
  cases hj : c.joint with
  | none =>
    simp only [Option.map_none, actInv]
    exact VDeriv.tendsto hd
  | some j =>
    simp only [Option.map_some, actInv]
    have hT : ∀ a b, HasDerivAt (fun s => ((K s).M j).Rᵀ a b) (((((K t).M j).R * hat ((K t).Jw j *ᵥ qd))ᵀ) a b) t :=
      fun a b => (hK.moves j).R b a
    exact VDeriv.tendsto (VDeriv.mulVec hT (hd.sub (hK.moves j).p))

theorem edist_tendsto {g : ℝ → V3 ℝ} (h : Tendsto g (𝓝 t) (𝓝 (g t))) {ε : ℝ} (hε : 0 < ε) :
    ∀ᶠ s in 𝓝 t, edist (g s) (g t) < ε := by
  have h2 : ∀ i, Tendsto (fun s => g s i - g t i) (𝓝 t) (𝓝 0) := by
    intro i
    have := (tendsto_pi_nhds.1 h i).sub_const (g t i)
    rwa [sub_self] at this
  have h3 : Tendsto (fun s => edist (g s) (g t)) (𝓝 t) (𝓝 0) := by
    have h4 : Tendsto (fun s => (g s - g t) ⬝ᵥ (g s - g t)) (𝓝 t) (𝓝 0) := by
      simp only [dotProduct, Fin.sum_univ_three, Pi.sub_apply]
      have := (((h2 0).mul (h2 0)).add ((h2 1).mul (h2 1))).add ((h2 2).mul (h2 2))
      simpa using this
    have := (Real.continuous_sqrt.tendsto 0).comp h4
    rwa [Real.sqrt_zero] at this
  exact h3.eventually_lt_const hε

/-- A pair strictly nearer than another one remains so. -/
theorem nearer_near (hK : KMoves K qd t) {c co c' co' : CShape} {d d' : ℝ} (hd : Hpp.Contact.IsSqDist (c.at (K t).M) (co.at (K t).M) d)
    (hd' : Hpp.Contact.IsSqDist (c'.at (K t).M) (co'.at (K t).M) d') (hlt : d < d') :
    ∀ᶠ s in 𝓝 t, ∀ e e', Hpp.Contact.IsSqDist (c.at (K s).M) (co.at (K s).M) e →
      Hpp.Contact.IsSqDist (c'.at (K s).M) (co'.at (K s).M) e' → e < e' := by
  have h0 : 0 ≤ d := by
    obtain ⟨x, -, rfl⟩ := hd.1
    exact sq_nonneg _
  have hs := Real.sqrt_lt_sqrt h0 hlt
  have hε : 0 < (√d' - √d) / 2 := by linarith
  filter_upwards [edist_tendsto (localCenter_tendsto hK c co) hε, edist_tendsto (localCenter_tendsto hK c' co') hε]
    with s h1 h2 e e' he he'
  have l1 := least_lip (sqDist_local (hK.rot t) hd) (sqDist_local (hK.rot s) he)
  have l2 := least_lip (sqDist_local (hK.rot s) he') (sqDist_local (hK.rot t) hd')
  rw [edist_comm'] at l2
  have h3 : √e < √e' := by linarith
  exact lt_of_not_ge fun hge => absurd (Real.sqrt_le_sqrt hge) (not_le.2 h3)

/-! ### Being inside does not change -/

/-- The projection of the center of the object in the frame of the joint of the floor -/
noncomputable def localFoot (c co : CShape) (M : Nat → SE3 ℝ) : V3 ℝ :=
  localCenter c co M - (c.shape.N ⬝ᵥ (localCenter c co M - c.shape.C)) • c.shape.N

theorem localFoot_tendsto (hK : KMoves K qd t) (c co : CShape) :
    Tendsto (fun s => localFoot c co (K s).M) (𝓝 t) (𝓝 (localFoot c co (K t).M)) := by
  have h := localCenter_tendsto hK c co
  have h2 := tendsto_pi_nhds.1 h
  have h3 : Tendsto (fun s => c.shape.N ⬝ᵥ (localCenter c co (K s).M - c.shape.C)) (𝓝 t)
      (𝓝 (c.shape.N ⬝ᵥ (localCenter c co (K t).M - c.shape.C))) := by
    simp only [dotProduct, Fin.sum_univ_three, Pi.sub_apply]
    exact ((((h2 0).sub_const _).const_mul _).add (((h2 1).sub_const _).const_mul _)).add (((h2 2).sub_const _).const_mul _)
  exact h.sub (h3.smul_const _)

theorem dot_tendsto {g : ℝ → V3 ℝ} (h : Tendsto g (𝓝 t) (𝓝 (g t))) (u p : V3 ℝ) :
    Tendsto (fun s => u ⬝ᵥ (g s - p)) (𝓝 t) (𝓝 (u ⬝ᵥ (g t - p))) := by
  have h2 := tendsto_pi_nhds.1 h
  simp only [dotProduct, Fin.sum_univ_three, Pi.sub_apply]
  exact ((((h2 0).sub_const _).const_mul _).add (((h2 1).sub_const _).const_mul _)).add (((h2 2).sub_const _).const_mul _)

section Inside

variable {P : List (V3 ℝ)} {U E : Nat → V3 ℝ} {L : Nat → ℝ} {N : V3 ℝ}

/-- Points of the polygon that are not on the outline -/
theorem Geo.interior_iff (g : Geo P.length (at3 P) U E L N) {a : V3 ℝ} (ha : ∀ i, i < P.length → N ⬝ᵥ (a - at3 P i) = 0) :
    (a ∈ region P ∧ a ∉ boundary P) ↔ ∀ i, i < P.length → E i ⬝ᵥ (a - at3 P i) < 0 := by
  constructor
  · rintro ⟨h1, h2⟩ i hi
    rw [g.region_eq rfl] at h1
    rcases (h1.1 i hi).lt_or_eq with h | h
    · exact h
    · obtain ⟨c, c0, cL, hc⟩ := g.on_edge hi (ha i hi) h h1.1
      exact absurd ((g.boundary_iff rfl a).2 ⟨i, c, hi, c0, cL, hc⟩) h2
  · intro h
    refine ⟨?_, fun hb => ?_⟩
    · rw [g.region_eq rfl]
      exact ⟨fun i hi => (h i hi).le, ha⟩
    · obtain ⟨i, c, hi, -, -, rfl⟩ := (g.boundary_iff rfl a).1 hb
      have := h i hi
      rw [add_sub_cancel_left, dotProduct_smul, g.EU hi, smul_zero] at this
      exact lt_irrefl _ this

/-- Near a point that is not on the outline, points of the plane are inside or outside together. -/
theorem Geo.interior_near (g : Geo P.length (at3 P) U E L N) {a : ℝ → V3 ℝ} (h : Tendsto a (𝓝 t) (𝓝 (a t)))
    (ha : ∀ s i, i < P.length → N ⬝ᵥ (a s - at3 P i) = 0) (hb : a t ∉ boundary P) :
    ∀ᶠ s in 𝓝 t, (a s ∈ region P ∧ a s ∉ boundary P) ↔ (a t ∈ region P ∧ a t ∉ boundary P) := by
  by_cases hin : a t ∈ region P
  · have h1 := (g.interior_iff (ha t)).1 ⟨hin, hb⟩
    have h2 : ∀ᶠ s in 𝓝 t, ∀ i ∈ Finset.range P.length, E i ⬝ᵥ (a s - at3 P i) < 0 := by
      rw [Filter.eventually_all_finset]
      intro i hi
      exact (dot_tendsto h _ _).eventually_lt_const (h1 i (Finset.mem_range.1 hi))
    filter_upwards [h2] with s hs
    exact ⟨fun _ => ⟨hin, hb⟩, fun _ => (g.interior_iff (ha s)).2 fun i hi => hs i (Finset.mem_range.2 hi)⟩
  · have h1 : ∃ i, i < P.length ∧ 0 < E i ⬝ᵥ (a t - at3 P i) := by
      by_contra hno
      push Not at hno
      exact hin (by rw [g.region_eq rfl]; exact ⟨hno, ha t⟩)
    obtain ⟨i, hi, hpos⟩ := h1
    filter_upwards [(dot_tendsto h (E i) (at3 P i)).eventually_const_lt hpos] with s hs
    refine ⟨fun hr => ?_, fun hr => absurd hr.1 hin⟩
    have h3 := hr.1
    rw [g.region_eq rfl] at h3
    exact absurd (h3.1 i hi) (not_le.2 hs)

end Inside

/-- Feet in the frame of the joint of the floor -/
theorem localFoot_spec {F O : JShape} {c co : CShape} (hM : ∀ j, IsRot (M j).R) (hP : IsConvexPolygon F.2)
    (k1 : Shape.new F.2.reverse = some c.shape) (k2 : c.joint = F.1) (k3 : Shape.new O.2 = some co.shape) (k4 : co.joint = O.1) :
    (∀ i, i < F.2.reverse.length → c.shape.N ⬝ᵥ (localFoot c co M - at3 F.2.reverse i) = 0) ∧
    F.IsProj M (O.center M) (place M F.1 (localFoot c co M)) ∧
    ((∀ y, F.IsProj M (O.center M) y → y ∈ F.polygon M ∧ y ∉ F.outline M) ↔
      (localFoot c co M ∈ region F.2.reverse ∧ localFoot c co M ∉ boundary F.2.reverse)) ∧
    ((∀ y, F.IsProj M (O.center M) y → y ∉ F.outline M) → localFoot c co M ∉ boundary F.2.reverse) ∧
    (c.at M).intersection (co.at M).center (c.at M).normal = place M F.1 (localFoot c co M) ∧
    ((∀ y, F.IsProj M (O.center M) y → y ∈ F.polygon M) ↔ localFoot c co M ∈ region F.2.reverse) := by
  have hv := floor_valid (c := c) hM hP k1
  obtain ⟨m, hm⟩ := hP.reverse
  obtain ⟨hPts, hC, -, g⟩ := hm.geo k1
  have hR := pose_rot hM c.joint
  have hcc : act (c.joint.map M) (localCenter c co M) = (co.at M).center := act_actInv hR _
  have hNN : (c.at M).normal ⬝ᵥ (c.at M).normal = 1 := by
    change rotate (c.joint.map M) c.shape.N ⬝ᵥ rotate (c.joint.map M) c.shape.N = 1
    rw [rotate_dot hR, g.NN]
  have hint : (c.at M).intersection (co.at M).center (c.at M).normal = place M F.1 (localFoot c co M) := by
    unfold Surface.intersection linePlaneIntersection
    rw [hNN, div_one, ← act_place, ← k2]
    unfold localFoot
    rw [act_sub_smul, hcc]
    have e : (c.at M).normal ⬝ᵥ ((c.at M).center - (co.at M).center) = -(c.shape.N ⬝ᵥ (localCenter c co M - c.shape.C)) := by
      rw [← hcc]
      change rotate (c.joint.map M) c.shape.N ⬝ᵥ (act (c.joint.map M) c.shape.C - act (c.joint.map M) (localCenter c co M)) = _
      rw [act_sub, rotate_dot hR, ← neg_sub, dotProduct_neg]
    rw [e, neg_smul, ← sub_eq_add_neg]
    rfl
  have hpl : ∀ i, i < F.2.reverse.length → c.shape.N ⬝ᵥ (localFoot c co M - at3 F.2.reverse i) = 0 := by
    intro i hi
    have h2 := g.center_plane hi
    rw [← hC] at h2
    unfold localFoot
    generalize localCenter c co M = x
    have e : x - (c.shape.N ⬝ᵥ (x - c.shape.C)) • c.shape.N - at3 F.2.reverse i =
        (x - c.shape.C) + (c.shape.C - at3 F.2.reverse i) - (c.shape.N ⬝ᵥ (x - c.shape.C)) • c.shape.N := by abel
    rw [e, dotProduct_sub, dotProduct_add, h2, dotProduct_smul, g.NN]
    simp
  obtain ⟨dp, -, -, q3, q4⟩ := select_quantities (o := co.at M) hv
  rw [hint] at q4
  have hproj := (foot_iff hP k1 k2 k3 k4 _).1 q4
  have hinj : ∀ x y, place M F.1 x = place M F.1 y → x = y := by
    intro x y h
    rw [← act_place, ← act_place, ← k2] at h
    have := congrArg (actInv (c.joint.map M)) h
    rwa [actInv_act hR, actInv_act hR] at this
  have e1 : ∀ x, place M F.1 x ∈ F.polygon M ↔ x ∈ region F.2.reverse := by
    intro x
    rw [region_reverse]
    exact ⟨fun ⟨y, hy, e⟩ => hinj _ _ e ▸ hy, fun h => ⟨x, h, rfl⟩⟩
  have e2 : ∀ x, place M F.1 x ∈ F.outline M ↔ x ∈ boundary F.2.reverse := by
    intro x
    rw [boundary_reverse]
    exact ⟨fun ⟨y, hy, e⟩ => hinj _ _ e ▸ hy, fun h => ⟨x, h, rfl⟩⟩
  -- the projection is unique
  have huniq : ∀ y, F.IsProj M (O.center M) y → y = place M F.1 (localFoot c co M) := by
    intro y hy
    obtain ⟨y', rfl⟩ : ∃ y', y = place M F.1 y' := ⟨actInv (c.joint.map M) y, by rw [← act_place, ← k2, act_actInv hR]⟩
    have hu : y' = localFoot c co M := by
      refine hinj _ _ ?_
      have hf := (foot_iff (c := c) (co := co) hP k1 k2 k3 k4 _).2 hy
      obtain ⟨hp1, hp2⟩ := hf
      -- both are in the plane and the difference is normal
      have hd : ∀ p ∈ F.2, ∀ q ∈ F.2, (place M F.1 y' - place M F.1 (localFoot c co M)) ⬝ᵥ (place M F.1 p - place M F.1 q) = 0 := by
        intro p hp q hq
        have a1 := hy.orth p hp q hq
        have a2 := hproj.orth p hp q hq
        have e : place M F.1 y' - place M F.1 (localFoot c co M) =
            (O.center M - place M F.1 (localFoot c co M)) - (O.center M - place M F.1 y') := by abel
        rw [e, sub_dotProduct, a1, a2, sub_zero]
      have hp0 : ∃ p0, p0 ∈ F.2 := by
        obtain ⟨m', hm'⟩ := hP
        exact ⟨_, at3_mem (show 0 < F.2.length by have := hm'.three; omega)⟩
      obtain ⟨p0, hp0⟩ := hp0
      have hz : ∀ p ∈ F.2.map (place M F.1), ∀ q ∈ F.2.map (place M F.1),
          (place M F.1 y' - place M F.1 (localFoot c co M)) ⬝ᵥ (p - q) = 0 := by
        intro p hp q hq
        obtain ⟨p', hp', rfl⟩ := List.mem_map.1 hp
        obtain ⟨q', hq', rfl⟩ := List.mem_map.1 hq
        exact hd p' hp' q' hq'
      have b1 := hy.plane _ hz _ (List.mem_map.2 ⟨p0, hp0, rfl⟩)
      have b2 := hproj.plane _ hz _ (List.mem_map.2 ⟨p0, hp0, rfl⟩)
      have b3 : (place M F.1 y' - place M F.1 (localFoot c co M)) ⬝ᵥ (place M F.1 y' - place M F.1 (localFoot c co M)) = 0 := by
        have e : place M F.1 y' - place M F.1 (localFoot c co M) =
          (place M F.1 y' - place M F.1 p0) - (place M F.1 (localFoot c co M) - place M F.1 p0) := by abel
        nth_rewrite 2 [e]
        rw [dotProduct_sub, b1, b2, sub_zero]
      by_contra hne
      exact absurd (dot_self_pos (sub_ne_zero.2 hne)) (by rw [b3]; exact lt_irrefl _)
    rw [hu]
  refine ⟨hpl, hproj, ?_, fun h => by rw [← e2]; exact h _ hproj, hint, ?_⟩
  · constructor
    · intro h
      have := h _ hproj
      rwa [e1, e2] at this
    · intro h y hy
      rw [huniq y hy, e1, e2]
      exact h
  · constructor
    · intro h
      have := h _ hproj
      rwa [e1] at this
    · intro h y hy
      rw [huniq y hy, e1]
      exact h

/-! ### The selection does not change -/

/-- The pair `(j, i)` is strictly nearer than all others, and the projection of the center of the object is not on the outline of
the floor. -/
structure Clear (fs os : List JShape) (M : Nat → SE3 ℝ) (j i : Nat) (F O : JShape) : Prop where
  floor : fs[j]? = some F
  object : os[i]? = some O
  nearest : ∀ (j' i' : Nat) (F' O' : JShape) (d d' : ℝ), (j', i') ≠ (j, i) → fs[j']? = some F' → os[i']? = some O' →
    F.IsSqDist M O d → F'.IsSqDist M O' d' → d < d'
  outline : ∀ y, F.IsProj M (O.center M) y → y ∉ F.outline M

theorem Clear.sel {F O F1 O1 : JShape} {j i : Nat} (h : Clear fs os M j i F O) {p : Pick} (hp : Picked fs os f M p F1 O1)
    {d : ℝ} (hd : F.IsSqDist M O d) : p.sel.ifloor = j ∧ p.sel.iobject = i := by
  by_contra hne
  have hne' : (p.sel.ifloor, p.sel.iobject) ≠ (j, i) := fun e => hne ⟨congrArg Prod.fst e, congrArg Prod.snd e⟩
  have h1 := h.nearest _ _ _ _ _ _ hne' hp.ffl hp.oob hd hp.dist
  have h2 := (hp.least j i F O d h.floor h.object hd).1
  linarith

theorem Built.pick_near (hb : Built fs os f) (hS : Surfaces fs os) (hK : KMoves K qd t) {j i : Nat} {F O : JShape}
    (hc : Clear fs os (K t).M j i F O) :
    ∃ p, f.pick (K t).M = .ok p ∧ Picked fs os f (K t).M p F O ∧ p.sel.ifloor = j ∧ p.sel.iobject = i ∧
      ∀ᶠ s in 𝓝 t, ∃ p', f.pick (K s).M = .ok p' ∧ p'.floor = p.floor ∧ p'.object = p.object ∧ p'.type = p.type ∧
        p'.sel.isInside = p.sel.isInside ∧ p'.sel.ifloor = j ∧ p'.sel.iobject = i := by
  have hf0 : fs ≠ [] := by
    rintro rfl
    have := hc.floor
    simp at this
  have ho0 : os ≠ [] := by
    rintro rfl
    have := hc.object
    simp at this
  obtain ⟨c, hcf⟩ := get_of_lt hb.flen.symm hc.floor
  obtain ⟨co, hco⟩ := get_of_lt hb.olen.symm hc.object
  obtain ⟨k1, k2⟩ := hb.floor j F c hc.floor hcf
  obtain ⟨k3, k4⟩ := hb.object i O co hc.object hco
  have hP := (hS.floor F (List.mem_of_getElem? hc.floor)).1
  have hdist : ∀ s, ∃ d, F.IsSqDist (K s).M O d := by
    intro s
    obtain ⟨dp, -, q, -⟩ := select_quantities (o := co.at (K s).M) (floor_valid (hK.rot s) hP k1)
    exact ⟨_, (sqDist_iff k1 k2 k3 k4 _).1 q⟩
  obtain ⟨p, F1, O1, hp, hpk⟩ := hb.pick (M := (K t).M) hS (hK.rot t) hf0 ho0
  obtain ⟨d0, hd0⟩ := hdist t
  obtain ⟨hj, hi⟩ := hc.sel hpk hd0
  have hF1 : F1 = F := by
    have := hpk.ffl
    rw [hj, hc.floor] at this
    exact (Option.some.inj this).symm
  have hO1 : O1 = O := by
    have := hpk.oob
    rw [hi, hc.object] at this
    exact (Option.some.inj this).symm
  rw [hF1, hO1] at hpk
  refine ⟨p, hp, hpk, hj, hi, ?_⟩
  -- near `t` the pair remains the nearest one
  have hnear : ∀ᶠ s in 𝓝 t, ∀ x ∈ Finset.range fs.length ×ˢ Finset.range os.length, x ≠ (j, i) → ∀ F' O' e e',
      fs[x.1]? = some F' → os[x.2]? = some O' → F.IsSqDist (K s).M O e → F'.IsSqDist (K s).M O' e' → e < e' := by
    rw [Filter.eventually_all_finset]
    rintro ⟨j', i'⟩ hx
    by_cases hx0 : (j', i') = (j, i)
    · exact Eventually.of_forall fun s h => absurd hx0 h
    · obtain ⟨hx1, hx2⟩ := Finset.mem_product.1 hx
      rw [Finset.mem_range] at hx1 hx2
      have g1 : fs[j']? = some (fs[j']'hx1) := List.getElem?_eq_getElem hx1
      have g2 : os[i']? = some (os[i']'hx2) := List.getElem?_eq_getElem hx2
      generalize (fs[j']'hx1) = F' at g1
      generalize (os[i']'hx2) = O' at g2
      obtain ⟨c', hc'⟩ := get_of_lt hb.flen.symm g1
      obtain ⟨co', hco'⟩ := get_of_lt hb.olen.symm g2
      obtain ⟨l1, l2⟩ := hb.floor _ F' c' g1 hc'
      obtain ⟨l3, l4⟩ := hb.object _ O' co' g2 hco'
      have hP' := (hS.floor F' (List.mem_of_getElem? g1)).1
      obtain ⟨dp, -, q, -⟩ := select_quantities (o := co'.at (K t).M) (floor_valid (hK.rot t) hP' l1)
      have hlt := hc.nearest j' i' F' O' _ _ hx0 g1 g2 hd0 ((sqDist_iff l1 l2 l3 l4 _).1 q)
      filter_upwards [nearer_near hK ((sqDist_iff k1 k2 k3 k4 _).2 hd0) q hlt] with s hs _ F2 O2 e e' hF2 hO2 he he'
      have e1 : F2 = F' := Option.some.inj (hF2.symm.trans g1)
      have e2 : O2 = O' := Option.some.inj (hO2.symm.trans g2)
      rw [e1, e2] at he'
      exact hs e e' ((sqDist_iff k1 k2 k3 k4 _).2 he) ((sqDist_iff l1 l2 l3 l4 _).2 he')
  -- near `t` the projection remains inside or outside
  obtain ⟨m, hm⟩ := hP.reverse
  obtain ⟨-, -, -, g⟩ := hm.geo k1
  have hin := g.interior_near (localFoot_tendsto hK c co) (fun s => (localFoot_spec (hK.rot s) hP k1 k2 k3 k4).1)
    ((localFoot_spec (hK.rot t) hP k1 k2 k3 k4).2.2.2.1 hc.outline)
  filter_upwards [hnear, hin] with s hs1 hs2
  obtain ⟨p', F2, O2, hp', hpk'⟩ := hb.pick (M := (K s).M) hS (hK.rot s) hf0 ho0
  obtain ⟨e, he⟩ := hdist s
  have hsel : p'.sel.ifloor = j ∧ p'.sel.iobject = i := by
    by_contra hne
    have hne' : (p'.sel.ifloor, p'.sel.iobject) ≠ (j, i) := fun e => hne ⟨congrArg Prod.fst e, congrArg Prod.snd e⟩
    have h1 := hs1 (p'.sel.ifloor, p'.sel.iobject) (Finset.mem_product.2
      ⟨Finset.mem_range.2 (List.getElem?_eq_some_iff.1 hpk'.ffl).1, Finset.mem_range.2 (List.getElem?_eq_some_iff.1 hpk'.oob).1⟩)
      hne' F2 O2 e _ hpk'.ffl hpk'.oob he hpk'.dist
    have h2 := (hpk'.least j i F O e hc.floor hc.object he).1
    linarith
  obtain ⟨hj', hi'⟩ := hsel
  have hF2 : F2 = F := by
    have := hpk'.ffl
    rw [hj', hc.floor] at this
    exact (Option.some.inj this).symm
  have hO2 : O2 = O := by
    have := hpk'.oob
    rw [hi', hc.object] at this
    exact (Option.some.inj this).symm
  rw [hF2, hO2] at hpk'
  refine ⟨p', hp', ?_, ?_, ?_, ?_, hj', hi'⟩
  · have h1 := hpk'.floor
    have h2 := hpk.floor
    rw [hj'] at h1
    rw [hj] at h2
    exact Option.some.inj (h1.symm.trans h2)
  · have h1 := hpk'.object
    have h2 := hpk.object
    rw [hi'] at h1
    rw [hi] at h2
    exact Option.some.inj (h1.symm.trans h2)
  · rw [hpk'.type, hpk.type]
  · refine Bool.eq_iff_iff.2 ?_
    rw [hpk'.inside, hpk.inside, (localFoot_spec (hK.rot s) hP k1 k2 k3 k4).2.2.1, hs2,
      (localFoot_spec (hK.rot t) hP k1 k2 k3 k4).2.2.1]

end Hpp.Contact
