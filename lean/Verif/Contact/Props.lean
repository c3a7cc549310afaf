import Verif.Contact.SelectLemmas

/-!
# Properties of contact constraints (C54, C55)
-/

namespace Hpp.Contact

open Matrix Hpp.Sym Hpp.Pose

theorem valid_pairs {floors objects : List Surface} (hf : ∀ f ∈ floors, f.Valid) :
    ∀ p ∈ pairs floors objects, ∃ d, pairDp p = some d := by
  rintro ⟨⟨f, j⟩, ⟨o, i⟩⟩ hp
  obtain ⟨h1, -⟩ := mem_pairs.1 hp
  obtain ⟨dp, k1, -⟩ := select_quantities (o := o) (hf f (List.mem_of_getElem? h1))
  exact ⟨dp, k1⟩

/-- A pair is always selected if there is one; no pair: the indices are not initialized. -/
theorem C54_defined {floors objects : List Surface} (hf : ∀ f ∈ floors, f.Valid) :
    select floors objects = none ↔ floors = [] ∨ objects = [] := by
  have hnil : pairs floors objects = [] ↔ floors = [] ∨ objects = [] := by
    unfold pairs
    rw [List.flatMap_eq_nil_iff]
    constructor
    · intro h
      cases floors with
      | nil => exact Or.inl rfl
      | cons f l =>
        right
        have := h (f, 0) (by simp)
        simpa using this
    · rintro (rfl | rfl)
      · simp
      · simp
  rw [select_eq, ← hnil]
  rcases select_fold _ (valid_pairs hf (objects := objects)) with ⟨h1, h2⟩ | ⟨l1, p, l2, dp, h1, h2, h3, -⟩
  · rw [h2, h1]
    simp
  · rw [h3, h1]
    simp

/-- The selected pair is of minimal squared distance between the center of the object surface and the floor polygon, and is the
first such pair. -/
theorem C54_minimal {floors objects : List Surface} (hf : ∀ f ∈ floors, f.Valid) {s : Sel} (hs : select floors objects = some s) :
    ∃ f o, floors[s.ifloor]? = some f ∧ objects[s.iobject]? = some o ∧ IsSqDist f o s.minDist ∧
      ∀ (j i : Nat) (f' o' : Surface) (d : ℝ), floors[j]? = some f' → objects[i]? = some o' → IsSqDist f' o' d →
        s.minDist ≤ d ∧ ((j < s.ifloor ∨ (j = s.ifloor ∧ i < s.iobject)) → s.minDist < d) := by
  rw [select_eq] at hs
  rcases select_fold _ (valid_pairs hf (objects := objects)) with ⟨h1, h2⟩ | ⟨l1, p, l2, dp, h1, h2, h3, h4, h5⟩
  · rw [h2] at hs
    cases hs
  · rw [h3] at hs
    cases hs
    obtain ⟨⟨f, jf⟩, ⟨o, io⟩⟩ := p
    obtain ⟨m1, m2⟩ := mem_pairs.1 (show ((f, jf), (o, io)) ∈ pairs floors objects by rw [h1]; simp)
    refine ⟨f, o, m1, m2, ?_, ?_⟩
    · obtain ⟨d, k1, k2, -⟩ := select_quantities (o := o) (hf f (List.mem_of_getElem? m1))
      have e : d = dp := Option.some.inj (k1.symm.trans h2)
      rw [e] at k2
      exact k2
    · intro j i f' o' d hj hi hd
      obtain ⟨d', k1, k2, -⟩ := select_quantities (o := o') (hf f' (List.mem_of_getElem? hj))
      have e : d = pairDist ((f', j), (o', i)) d' := hd.unique k2
      have hmem : ((f', j), (o', i)) ∈ pairs floors objects := mem_pairs.2 ⟨hj, hi⟩
      rw [h1] at hmem
      have hsort := pairs_sorted floors objects
      rw [h1, List.pairwise_append] at hsort
      rcases List.mem_append.1 hmem with hm | hm
      · have := h4 _ hm d' k1
        rw [e]
        exact ⟨this.le, fun _ => this⟩
      · rcases List.mem_cons.1 hm with heq | hm
        · cases heq
          refine ⟨?_, ?_⟩
          · rw [e, Option.some.inj (k1.symm.trans h2)]
          · dsimp only
            omega
        · have := h5 _ hm d' k1
          rw [e]
          refine ⟨this, fun hb => ?_⟩
          exfalso
          have hs2 := (List.pairwise_cons.1 hsort.2.1).1 _ hm
          unfold Before2 at hs2
          dsimp only at hs2 hb
          omega

/-- The pair is reported as in contact exactly if the projection of the center of the object surface on the plane of the floor lies
inside the floor, its outline excluded. -/
theorem C54_contact_partial {floors objects : List Surface} (hf : ∀ f ∈ floors, f.Valid) {s : Sel}
    (hs : select floors objects = some s) {f o : Surface} (hfl : floors[s.ifloor]? = some f) (hob : objects[s.iobject]? = some o) :
    (s.isInside = true ↔ ∀ p, IsFoot f o p → p ∈ f.polygon ∧ p ∉ f.outline) ∧ ∃ p, IsFoot f o p := by
  obtain ⟨d, k1, -, k3, k4⟩ := select_quantities (o := o) (hf f (List.mem_of_getElem? hfl))
  refine ⟨?_, _, k4⟩
  rw [← k3]
  rw [select_eq] at hs
  rcases select_fold _ (valid_pairs hf (objects := objects)) with ⟨h1, h2⟩ | ⟨l1, p, l2, dp, h1, h2, h3, -⟩
  · rw [h2] at hs
    cases hs
  · rw [h3] at hs
    cases hs
    obtain ⟨⟨f0, jf⟩, ⟨o0, io⟩⟩ := p
    obtain ⟨m1, m2⟩ := mem_pairs.1 (show ((f0, jf), (o0, io)) ∈ pairs floors objects by rw [h1]; simp)
    dsimp only at hfl hob
    rw [m1] at hfl
    rw [m2] at hob
    cases hfl
    cases hob
    have e : dp = d := Option.some.inj (h2.symm.trans k1)
    rw [e]
    simp

/-! ### C55 -/

theorem floor_index {M y : ℝ} (hM : 0 < M) (hy : |y| < M) (k : Nat) : ⌊(y + (2 * k : ℕ) * M) / (2 * M) + 0.5⌋ = (k : ℤ) := by
  obtain ⟨h1, h2⟩ := abs_lt.1 hy
  have e : (y + (2 * k : ℕ) * M) / (2 * M) + 0.5 = k + (y / (2 * M) + 0.5) := by
    push_cast
    field_simp
    ring
  rw [e, Int.floor_eq_iff]
  have h3 : y / (2 * M) < 0.5 := by
    rw [div_lt_iff₀ (by linarith)]
    linarith
  have h4 : -0.5 < y / (2 * M) := by
    rw [lt_div_iff₀ (by linarith)]
    linarith
  push_cast
  constructor <;> linarith

/-- For each pair of surfaces, plane contact, each relative pose whose offsets are smaller than the radius (inside), or any
relative pose (outside): decoding the right hand side gives the pair and the pose.  For a zero margin. -/
theorem C55_round_trip_partial {M : ℝ} (hM : 0 < M) (isInside : Bool) (type : CType) (ht : type ≠ .pointOnPlane) (v : Fin 6 → ℝ)
    (ifloor iobject : Nat) (hv : isInside = true → |v 1| < M ∧ |v 2| < M) :
    decode M (holdValue 0 M isInside type v ifloor iobject) = some (ifloor, iobject, v) := by
  have r0 : holdValue 0 M isInside type v ifloor iobject 0 = v 0 := by
    cases type <;> cases isInside <;> simp [holdValue, contactValue]
  have r1 : holdValue 0 M isInside type v ifloor iobject 1 = if isInside = true then 0 else v 1 := by
    cases type <;> cases isInside <;> simp [holdValue, contactValue]
  have r2 : holdValue 0 M isInside type v ifloor iobject 2 = if isInside = true then 0 else v 2 := by
    cases type <;> cases isInside <;> simp [holdValue, contactValue]
  have r3 : holdValue 0 M isInside type v ifloor iobject 3 = v 4 := by
    cases type with
    | pointOnPlane => exact absurd rfl ht
    | _ => rfl
  have r4 : holdValue 0 M isInside type v ifloor iobject 4 = v 5 := by
    cases type with
    | pointOnPlane => exact absurd rfl ht
    | _ => rfl
  have r5 : holdValue 0 M isInside type v ifloor iobject 5 = (if isInside = true then v 1 else 0) + (2 * ifloor : ℕ) * M := by
    cases isInside <;> simp [holdValue, complementValue]
  have r6 : holdValue 0 M isInside type v ifloor iobject 6 = (if isInside = true then v 2 else 0) + (2 * iobject : ℕ) * M := by
    cases isInside <;> simp [holdValue, complementValue]
  have r7 : holdValue 0 M isInside type v ifloor iobject 7 = v 3 := rfl
  generalize holdValue 0 M isInside type v ifloor iobject = R at *
  have f1 := floor_index (y := if isInside = true then v 1 else 0) hM (by
    split
    · rename_i h; exact (hv h).1
    · rw [abs_zero]; exact hM) ifloor
  have f2 := floor_index (y := if isInside = true then v 2 else 0) hM (by
    split
    · rename_i h; exact (hv h).2
    · rw [abs_zero]; exact hM) iobject
  unfold decode
  dsimp only
  rw [r5, r6, f1, f2, if_neg (show ¬ ((ifloor : ℤ) < 0 ∨ (iobject : ℤ) < 0) by omega), Int.toNat_natCast, Int.toNat_natCast]
  refine congrArg some (congrArg (Prod.mk ifloor) (congrArg (Prod.mk iobject) ?_))
  rw [add_sub_cancel_right, add_sub_cancel_right, r0, r3, r4, r7]
  have hyz : (if R 1 = 0 ∧ R 2 = 0 then ![if isInside = true then v 1 else 0, if isInside = true then v 2 else 0] else ![R 1, R 2]) =
      ![v 1, v 2] := by
    cases isInside with
    | true =>
      rw [if_pos (show R 1 = 0 ∧ R 2 = 0 from ⟨r1, r2⟩)]
      rfl
    | false =>
      replace r1 : R 1 = v 1 := r1
      replace r2 : R 2 = v 2 := r2
      rw [r1, r2]
      by_cases h0 : v 1 = 0 ∧ v 2 = 0
      · rw [if_pos h0, h0.1, h0.2]
        rfl
      · rw [if_neg h0]
  rw [hyz]
  funext i
  fin_cases i <;> rfl

/-- With a non zero margin the pose is not the one that was encoded. -/
theorem C55_margin_refuted {M margin : ℝ} (hm : margin ≠ 0) (isInside : Bool) (type : CType) (v w : Fin 6 → ℝ) (ifloor iobject i j : Nat)
    (h : decode M (holdValue margin M isInside type v ifloor iobject) = some (i, j, w)) : w 0 = v 0 + margin ∧ w ≠ v := by
  have h0 : holdValue margin M isInside type v ifloor iobject 0 = v 0 + margin := by
    cases type <;> cases isInside <;> simp [holdValue, contactValue]
  unfold decode at h
  dsimp only at h
  split at h
  · cases h
  · have hw := congrArg (fun x => x.map fun y => y.2.2 0) h
    simp only [Option.map_some, cons_val_zero, Option.some.injEq] at hw
    rw [h0] at hw
    refine ⟨hw.symm, fun e => hm ?_⟩
    rw [e] at hw
    linarith

/-- For a contact of a point the orientation is lost. -/
theorem C55_point_refuted {M margin : ℝ} (isInside : Bool) (v w : Fin 6 → ℝ) (ifloor iobject i j : Nat)
    (h : decode M (holdValue margin M isInside .pointOnPlane v ifloor iobject) = some (i, j, w)) : w 4 = 0 ∧ w 5 = 0 := by
  have h3 : holdValue margin M isInside .pointOnPlane v ifloor iobject 3 = 0 := by
    cases isInside <;> simp [holdValue, contactValue]
  have h4 : holdValue margin M isInside .pointOnPlane v ifloor iobject 4 = 0 := by
    cases isInside <;> simp [holdValue, contactValue]
  unfold decode at h
  dsimp only at h
  split at h
  · cases h
  · rw [h3, h4] at h
    have hw := congrArg (fun x => x.map fun y => (y.2.2 4, y.2.2 5)) h
    simp only [Option.map_some, Option.some.injEq, Prod.mk.injEq] at hw
    exact ⟨hw.1.symm, hw.2.symm⟩

/-- Position of the object surface in the frame of the floor surface: the three first components of the value used by the contact
(`computeInternalValue`, convex-shape-contact.cc:165-190, with the frames of the selected surfaces) -/
def relPos (f o : Surface) : V3 ℝ := f.shape.positionInJoint.Rᵀ *ᵥ (actInv f.pose o.center - f.shape.C)

theorem fold_max_ge (l : List ℝ) (M : ℝ) :
    M ≤ l.foldl (fun M r => if M < r then r else M) M ∧ ∀ r ∈ l, r ≤ l.foldl (fun M r => if M < r then r else M) M := by
  induction l generalizing M with
  | nil => simp
  | cons a l ih =>
    rw [List.foldl_cons]
    obtain ⟨h1, h2⟩ := ih (if M < a then a else M)
    have h3 : M ≤ (if M < a then a else M) ∧ a ≤ (if M < a then a else M) := by
      split
      · rename_i h; exact ⟨h.le, le_refl _⟩
      · rename_i h; exact ⟨le_refl _, not_lt.1 h⟩
    refine ⟨h3.1.trans h1, fun r hr => ?_⟩
    rcases List.mem_cons.1 hr with rfl | hr
    · exact h3.2.trans h1
    · exact h2 r hr

theorem radius_ge (floors : List Surface) : 1 ≤ radius floors ∧
    ∀ f ∈ floors, ∀ v ∈ f.shape.Pts, norm3 (v - f.shape.C) + 1 ≤ radius floors := by
  have key : ∀ (l : List Surface) (M : ℝ), M ≤ l.foldl (fun M f => f.shape.Pts.foldl
      (fun M v => if M < norm3 (v - f.shape.C) then norm3 (v - f.shape.C) else M) M) M ∧
      ∀ f ∈ l, ∀ v ∈ f.shape.Pts, norm3 (v - f.shape.C) ≤ l.foldl (fun M f => f.shape.Pts.foldl
      (fun M v => if M < norm3 (v - f.shape.C) then norm3 (v - f.shape.C) else M) M) M := by
    intro l
    induction l with
    | nil => simp
    | cons a l ih =>
      intro M
      rw [List.foldl_cons]
      have e : ∀ M, a.shape.Pts.foldl (fun M v => if M < norm3 (v - a.shape.C) then norm3 (v - a.shape.C) else M) M =
          (a.shape.Pts.map fun v => norm3 (v - a.shape.C)).foldl (fun M r => if M < r then r else M) M := by
        intro M
        rw [List.foldl_map]
      obtain ⟨h1, h2⟩ := ih (a.shape.Pts.foldl (fun M v => if M < norm3 (v - a.shape.C) then norm3 (v - a.shape.C) else M) M)
      obtain ⟨h3, h4⟩ := fold_max_ge (a.shape.Pts.map fun v => norm3 (v - a.shape.C)) M
      rw [← e] at h3 h4
      refine ⟨h3.trans h1, fun f hf v hv => ?_⟩
      rcases List.mem_cons.1 hf with rfl | hf
      · exact (h4 _ (List.mem_map.2 ⟨v, hv, rfl⟩)).trans h1
      · exact h2 f hf v hv
  obtain ⟨h1, h2⟩ := key floors 0
  unfold radius
  refine ⟨by linarith, fun f hf v hv => by linarith [h2 f hf v hv]⟩

theorem ball_convex (c : V3 ℝ) (r : ℝ) : Convex ℝ { x : V3 ℝ | norm3 (x - c) ≤ r } := by
  intro x hx y hy a b ha hb hab
  change norm3 _ ≤ r
  replace hx : norm3 (x - c) ≤ r := hx
  replace hy : norm3 (y - c) ≤ r := hy
  have hr : 0 ≤ r := (norm3_nonneg _).trans hx
  have e : a • x + b • y - c = a • (x - c) + b • (y - c) := by
    have : c = a • c + b • c := by rw [← add_smul, hab, one_smul]
    nth_rewrite 1 [this]
    rw [smul_sub, smul_sub]
    abel
  rw [e]
  have hX := norm3_sq (x - c)
  have hY := norm3_sq (y - c)
  have nx := norm3_nonneg (x - c)
  have ny := norm3_nonneg (y - c)
  generalize x - c = u at *
  generalize y - c = w at *
  have hd := dot_self_nonneg (u - w)
  refine Real.sqrt_le_iff.2 ⟨hr, ?_⟩
  simp only [add_dotProduct, dotProduct_add, sub_dotProduct, dotProduct_sub, smul_dotProduct, dotProduct_smul, smul_eq_mul,
    dotProduct_comm w u] at hd ⊢
  rw [← hX, ← hY] at hd ⊢
  have hb' : b = 1 - a := by linarith
  subst hb'
  have h1 : norm3 u ^ 2 ≤ r ^ 2 := by nlinarith
  have h2 : norm3 w ^ 2 ≤ r ^ 2 := by nlinarith
  have h3 := mul_nonneg (mul_nonneg ha hb) hd
  nlinarith

theorem abs_dot_le {u w : V3 ℝ} (hu : u ⬝ᵥ u = 1) : |u ⬝ᵥ w| ≤ norm3 w := by
  rw [← Real.sqrt_sq_eq_abs]
  refine Real.sqrt_le_sqrt ?_
  have h := dot_self_nonneg (w - (u ⬝ᵥ w) • u)
  simp only [sub_dotProduct, dotProduct_sub, smul_dotProduct, dotProduct_smul, smul_eq_mul, hu, dotProduct_comm w u] at h
  nlinarith

/-- In contact, the offsets of the selected pair are smaller than the radius. -/
theorem offsets_lt_radius {floors objects : List Surface} (hf : ∀ f ∈ floors, f.Valid) {s : Sel}
    (hs : select floors objects = some s) {f o : Surface} (hfl : floors[s.ifloor]? = some f) (hob : objects[s.iobject]? = some o)
    (hin : s.isInside = true) : |relPos f o 1| < radius floors ∧ |relPos f o 2| < radius floors := by
  obtain ⟨h1, p, hp⟩ := C54_contact_partial hf hs hfl hob
  obtain ⟨⟨p', hp', rfl⟩, -⟩ := h1.1 hin p hp
  have hfm := List.mem_of_getElem? hfl
  have hrad := (radius_ge floors).2 f hfm
  obtain ⟨⟨P, ⟨m, hm⟩, hsh⟩, hR⟩ := hf f hfm
  obtain ⟨hPts, hC, -, g⟩ := hm.geo hsh
  have h0 : 0 < P.length := by have := g.three; omega
  rw [hPts] at hp' hrad
  have hball : norm3 (p' - f.shape.C) ≤ radius floors - 1 := by
    have : region P ⊆ { x : V3 ℝ | norm3 (x - f.shape.C) ≤ radius floors - 1 } :=
      convexHull_min (fun v hv => by have := hrad v hv; change norm3 (v - f.shape.C) ≤ radius floors - 1; linarith) (ball_convex _ _)
    exact this hp'
  have hc : o.center = act f.pose (actInv f.pose o.center) := (act_actInv hR _).symm
  have horth := g.orth_normal (m := actInv f.pose o.center - p') (by
    intro u hu v hv
    have := hp.orth (act f.pose u) ⟨u, by rw [hPts]; exact subset_convexHull ℝ _ hu, rfl⟩ (act f.pose v)
      ⟨v, by rw [hPts]; exact subset_convexHull ℝ _ hv, rfl⟩
    rwa [hc, act_sub, act_sub, rotate_dot hR] at this)
  have e : actInv f.pose o.center - f.shape.C = (actInv f.pose o.center - p') + (p' - f.shape.C) := by abel
  have hEE : at3 f.shape.Ns 0 ⬝ᵥ at3 f.shape.Ns 0 = 1 := by
    rw [g.E_def 0 h0, cross_dot_cross, g.UU 0 h0, g.NN, g.NU 0 h0, dotProduct_comm _ f.shape.N, g.NU 0 h0]
    ring
  have r1 : relPos f o 1 = at3 f.shape.Ns 0 ⬝ᵥ (p' - f.shape.C) := by
    change at3 f.shape.Ns 0 ⬝ᵥ (actInv f.pose o.center - f.shape.C) = _
    rw [e, dotProduct_add, horth, dotProduct_smul, dotProduct_comm _ f.shape.N, g.EN h0]
    simp
  have r2 : relPos f o 2 = at3 f.shape.Us 0 ⬝ᵥ (p' - f.shape.C) := by
    change at3 f.shape.Us 0 ⬝ᵥ (actInv f.pose o.center - f.shape.C) = _
    rw [e, dotProduct_add, horth, dotProduct_smul, dotProduct_comm _ f.shape.N, g.NU 0 h0]
    simp
  rw [r1, r2]
  have b1 := abs_dot_le (w := p' - f.shape.C) hEE
  have b2 := abs_dot_le (w := p' - f.shape.C) (g.UU 0 h0)
  constructor <;> linarith

/-- The right hand side computed by the contact constraints at any configuration is decoded exactly: the radius is large enough for
the selected surfaces.  `v` is the relative pose of the selected surfaces, whatever its orientation part.  Plane contact, zero
margin. -/
theorem C55_selected_partial {floors objects : List Surface} (hf : ∀ f ∈ floors, f.Valid) {s : Sel}
    (hs : select floors objects = some s) {f o : Surface} (hfl : floors[s.ifloor]? = some f) (hob : objects[s.iobject]? = some o)
    {type : CType} (htype : contactType o.shape f.shape = some type) (ho : o.shape.Pts.length ≠ 1)
    (v : Fin 6 → ℝ) (hv : v 0 = relPos f o 0 ∧ v 1 = relPos f o 1 ∧ v 2 = relPos f o 2) :
    decode (radius floors) (holdValue 0 (radius floors) s.isInside type v s.ifloor s.iobject) =
      some (s.ifloor, s.iobject, v) := by
  refine C55_round_trip_partial (by have := (radius_ge floors).1; linarith) _ _ ?_ v _ _ fun hin => ?_
  · rintro rfl
    unfold contactType at htype
    split at htype
    · cases htype
    · cases htype
    · cases htype
    · split at htype
      · rename_i h; exact ho h
      · cases htype
      · cases htype
  · rw [hv.2.1, hv.2.2]
    exact offsets_lt_radius hf hs hfl hob hin

/-! ### Examples -/

/-- The unit square fixed in the world -/
theorem exists_square : ∃ f : Surface, f.Valid ∧ f.pose = none ∧ f.shape.Pts = square := by
  refine ⟨⟨_, none⟩, ⟨⟨square, square_convex, rfl⟩, ?_⟩, rfl, rfl⟩
  intro M h
  cases h

/-- A single point fixed in the world -/
noncomputable def ptSurface (p : V3 ℝ) : Surface := ⟨⟨[p], p, ![1, 0, 0], [![0, 1, 0]], [![0, 0, 1]], []⟩, none⟩

example (p : V3 ℝ) : Shape.new [p] = some (ptSurface p).shape := rfl

/-- On the outline of the floor, the projection is in the floor polygon but the pair is not reported as in contact. -/
theorem C54_outline_refuted : ∃ (floors objects : List Surface) (s : Sel) (f o : Surface) (p : V3 ℝ), (∀ f ∈ floors, f.Valid) ∧
    select floors objects = some s ∧ floors[s.ifloor]? = some f ∧ objects[s.iobject]? = some o ∧ IsFoot f o p ∧ p ∈ f.polygon ∧
    s.isInside = false := by
  obtain ⟨f, hf, hpose, hpts⟩ := exists_square
  have hv : ∀ f' ∈ [f], f'.Valid := fun f' h => by rw [List.mem_singleton.1 h]; exact hf
  obtain ⟨s, hs⟩ : ∃ s, select [f] [ptSurface ![0, 0, 0]] = some s := by
    cases h : select [f] [ptSurface ![0, 0, 0]] with
    | none => rcases (C54_defined hv).1 h with h | h <;> cases h
    | some s => exact ⟨s, rfl⟩
  obtain ⟨f', o', hf', ho', -⟩ := C54_minimal hv hs
  have e1 : f' = f := by
    rcases hi : s.ifloor with _ | k
    · rw [hi] at hf'; cases hf'; rfl
    · rw [hi] at hf'; cases hf'
  have e2 : o' = ptSurface ![0, 0, 0] := by
    rcases hi : s.iobject with _ | k
    · rw [hi] at ho'; cases ho'; rfl
    · rw [hi] at ho'; cases ho'
  subst e1
  subst e2
  have hfoot : IsFoot f' (ptSurface ![0, 0, 0]) ![0, 0, 0] := by
    constructor
    · rw [hpts, hpose]
      change InPlane (square.map fun x => x) _
      rw [List.map_id']
      exact square_plane 0 0
    · intro x _ y _
      change (![0, 0, 0] - ![0, 0, 0]) ⬝ᵥ (x - y) = 0
      simp
  have hmem : (![0, 0, 0] : V3 ℝ) ∈ f'.polygon := by
    refine ⟨![0, 0, 0], ?_, by rw [hpose]; rfl⟩
    rw [hpts]
    exact subset_convexHull ℝ _ (by simp [square])
  have hout : (![0, 0, 0] : V3 ℝ) ∈ f'.outline := by
    refine ⟨![0, 0, 0], ?_, by rw [hpose]; rfl⟩
    rw [hpts]
    exact ⟨0, ![0, 0, 0], ![1, 0, 0], rfl, rfl, left_mem_segment ℝ _ _⟩
  refine ⟨[f'], [ptSurface ![0, 0, 0]], s, f', _, _, hv, hs, hf', ho', hfoot, hmem, ?_⟩
  cases hb : s.isInside with
  | false => rfl
  | true => exact absurd hout (((C54_contact_partial hv hs hf' ho').1.1 hb) _ hfoot).2

/-- The hypotheses of the theorems on the selection are met: the square against two points. -/
example : ∃ (f : Surface) (s : Sel), f.Valid ∧ select [f] [ptSurface ![0, 0, 3], ptSurface ![2, 2, 1]] = some s := by
  obtain ⟨f, hf, -, -⟩ := exists_square
  have hv : ∀ f' ∈ [f], f'.Valid := fun f' h => by rw [List.mem_singleton.1 h]; exact hf
  cases h : select [f] [ptSurface ![0, 0, 3], ptSurface ![2, 2, 1]] with
  | none => rcases (C54_defined hv).1 h with h | h <;> cases h
  | some s => exact ⟨f, s, hf, h⟩

example : decode 2 (holdValue 0 2 true .planeOnPlane ![1, 1.5, -1.5, 0, 0, 0] 3 4) = some (3, 4, ![1, 1.5, -1.5, 0, 0, 0]) :=
  C55_round_trip_partial (by norm_num) _ _ (by decide) _ _ _ fun _ => by
    constructor <;> (simp only [cons_val]; rw [abs_lt]; constructor <;> norm_num)

end Hpp.Contact
