import Verif.Dist.Geometry

/-!
# Properties of the distance between bodies: which objects are taken into account

`C101`.
-/

namespace Hpp.Dist

open Matrix Hpp.Sym Hpp.Pose

variable {n : Nat} {Q : Type}

/-- C101. The constructor throws exactly when a pair made of an inner object of the body and of another object is not in the model.
Otherwise each of these pairs is active, and only these pairs; as pinocchio never stores a pair twice, a pair of the model is active
if and only if it is made of an inner object of the body and of one of the objects. -/
theorem C101_active (pairs : List (Nat × Nat)) (inner objects : List Nat) :
    (initGeom pairs inner objects = none ↔ ∃ o1 ∈ inner, ∃ o2 ∈ objects, ∀ p ∈ pairs, ¬ IsPair p o1 o2) ∧
    ∀ active, initGeom pairs inner objects = some active →
      active.length = pairs.length ∧
      (∀ o1 ∈ inner, ∀ o2 ∈ objects, ∃ (k : Nat) (p : Nat × Nat), pairs[k]? = some p ∧ IsPair p o1 o2 ∧ active[k]? = some true) ∧
      (∀ (k : Nat) (p : Nat × Nat), pairs[k]? = some p → active[k]? = some true → ∃ o1 ∈ inner, ∃ o2 ∈ objects, IsPair p o1 o2) ∧
      ((∀ (i k : Nat) (o1 o2 : Nat) (p p' : Nat × Nat), pairs[i]? = some p → pairs[k]? = some p' → IsPair p o1 o2 → IsPair p' o1 o2 →
          i = k) →
        ∀ (k : Nat) (p : Nat × Nat), pairs[k]? = some p →
          (active[k]? = some true ↔ ∃ o1 ∈ inner, ∃ o2 ∈ objects, IsPair p o1 o2)) := by
  refine ⟨activateBody_none, fun active h => ?_⟩
  obtain ⟨h1, h2, -, h4⟩ := activateBody_spec (by simp) h
  have h5 : ∀ (k : Nat) (p : Nat × Nat), pairs[k]? = some p → active[k]? = some true → ∃ o1 ∈ inner, ∃ o2 ∈ objects, IsPair p o1 o2 := by
    intro k p hp hk
    rcases h4 k hk with hk | ⟨o1, m1, o2, m2, p', e, hq⟩
    · rw [List.getElem?_replicate] at hk
      split at hk <;> simp at hk
    · rw [hp] at e
      cases e
      exact ⟨o1, m1, o2, m2, hq⟩
  refine ⟨h1, h2, h5, fun hnd k p hp => ⟨h5 k p hp, fun ⟨o1, m1, o2, m2, hq⟩ => ?_⟩⟩
  obtain ⟨k', p', e1, e2, e3⟩ := h2 o1 m1 o2 m2
  rw [hnd k k' o1 o2 p p' hp e1 hq e2]
  exact e3

/-- Three objects, all the pairs; object 2 against objects 0 and 1 -/
example : initGeom [(0, 1), (0, 2), (1, 2)] [2] [0, 1] = some [false, true, true] ∧ initGeom [(0, 1), (0, 2)] [2] [0, 1] = none := by
  decide

theorem edist_swap (a b : V3 ℝ) : edist a b = edist b a := by
  unfold edist
  congr 1
  ring

/-- What `computeDistances` selects -/
theorem Geom.result_spec {G : Geom Q} {inner objects : List Nat} {active : List Bool}
    (h : initGeom G.pairs inner objects = some active) (q : Q) :
    (G.result active q = none ↔ inner = [] ∨ objects = []) ∧
    ∀ r, G.result active q = some r → ∃ (k : Nat) (p : Nat × Nat), G.pairs[k]? = some p ∧ active[k]? = some true ∧ r = G.fcl p.1 p.2 q ∧
      ∀ (k' : Nat) (p' : Nat × Nat), G.pairs[k']? = some p' → active[k']? = some true → r.2 ≤ (G.fcl p'.1 p'.2 q).2 := by
  obtain ⟨hl, hall, honly, -⟩ := (C101_active G.pairs inner objects).2 active h
  unfold Geom.result
  cases hd : G.distances q (G.pairs.zip active) 0 none with
  | none =>
    refine ⟨⟨fun _ => ?_, fun _ => rfl⟩, fun r hr => by simp at hr⟩
    by_contra hc
    rw [not_or] at hc
    obtain ⟨o1, m1⟩ := List.exists_mem_of_ne_nil _ hc.1
    obtain ⟨o2, m2⟩ := List.exists_mem_of_ne_nil _ hc.2
    obtain ⟨k, p, e1, -, e3⟩ := hall o1 m1 o2 m2
    exact ((Geom.distances_none _ _ _).1 hd).2 p (List.mem_of_getElem? ((mem_zip_iff k).2 ⟨e1, e3⟩))
  | some r =>
    obtain ⟨h1, -, h3⟩ := Geom.distances_some _ _ _ _ hd
    rcases h1 with h1 | ⟨i, p, e1, e2⟩
    · cases h1
    · obtain ⟨f1, f2⟩ := (mem_zip_iff i).1 e1
      rw [Nat.zero_add] at e2
      have hp : G.pairs[r.1]? = some p := by rw [e2]; exact f1
      simp only [hp, Option.map_some]
      refine ⟨⟨fun h => by simp at h, fun hc => ?_⟩, fun r' hr' => ?_⟩
      · obtain ⟨o1, m1, o2, m2, -⟩ := honly i p f1 f2
        rcases hc with hc | hc
        · rw [hc] at m1; simp at m1
        · rw [hc] at m2; simp at m2
      · cases hr'
        refine ⟨i, p, f1, f2, rfl, fun k' p' g1 g2 => ?_⟩
        have := h3 p' (List.mem_of_getElem? ((mem_zip_iff k').2 ⟨g1, g2⟩))
        rw [e2] at this
        exact this

/-- C101. When the function has been built, and neither the body nor the list of objects is empty, the value is the distance between
the inner objects of the body and the other objects: no pair of points of them is closer, and some pair of points is at this
distance; whatever the order in which the objects are stored in the pairs. -/
theorem C101_value (G : Geom Q) (K : Q → Kin n) (hG : G.FclOk K) (inner objects : List Nat) (active : List Bool)
    (h : initGeom G.pairs inner objects = some active) (h1 : inner ≠ []) (h2 : objects ≠ []) (joint1 : Nat) (joint2 : Option Nat) (q : Q) :
    (G.result active q).isSome ∧
    (∀ o1 ∈ inner, ∀ o2 ∈ objects, ∀ x ∈ G.shape o1, ∀ y ∈ G.shape o2,
      (G.function active joint1 joint2).minDist q ≤ edist (worldPos (K q) (G.joint o1) x) (worldPos (K q) (G.joint o2) y)) ∧
    ∃ o1 ∈ inner, ∃ o2 ∈ objects, ∃ x ∈ G.shape o1, ∃ y ∈ G.shape o2,
      (G.function active joint1 joint2).minDist q = edist (worldPos (K q) (G.joint o1) x) (worldPos (K q) (G.joint o2) y) := by
  obtain ⟨hl, hall, honly, -⟩ := (C101_active G.pairs inner objects).2 active h
  obtain ⟨hn, hs⟩ := Geom.result_spec h q
  cases hr : G.result active q with
  | none => rcases hn.1 hr with e | e <;> contradiction
  | some r =>
    obtain ⟨k, p, e1, e2, e3, e4⟩ := hs r hr
    have hv : (G.function active joint1 joint2).minDist q = r.2 := by
      show ((G.result active q).getD ((0, 0), 0)).2 = r.2
      rw [hr]; rfl
    refine ⟨rfl, fun o1 m1 o2 m2 x hx y hy => ?_, ?_⟩
    · obtain ⟨k', p', f1, f2, f3⟩ := hall o1 m1 o2 m2
      rw [hv]
      refine (e4 k' p' f1 f3).trans ?_
      rcases f2 with f2 | f2 <;> subst f2
      · exact hG.least _ _ q x hx y hy
      · rw [edist_swap]
        exact hG.least _ _ q y hy x hx
    · obtain ⟨o1, m1, o2, m2, hq⟩ := honly k p e1 e2
      obtain ⟨x, hx, y, hy, hxy⟩ := hG.mem p.1 p.2 q
      have hd := hG.dist p.1 p.2 q
      rw [hxy] at hd
      rw [hv, e3, hd]
      rcases hq with hq | hq <;> subst hq
      · exact ⟨o1, m1, o2, m2, x, hx, y, hy, rfl⟩
      · exact ⟨o1, m1, o2, m2, y, hy, x, hx, edist_swap _ _⟩

/-- C101 is false of an empty list of objects: the result is read at an index which is out of range. -/
theorem C101_empty_refuted :
    ∃ (G : Geom ℝ) (active : List Bool), G.FclOk exK ∧ initGeom G.pairs [0] [] = some active ∧ G.result active 0 = none := by
  refine ⟨⟨[(0, 1)], fun _ => {0}, fun _ => none, fun _ _ _ => ((0, 0), 0)⟩, [false], ⟨?_, ?_, ?_⟩, by decide, ?_⟩
  · exact fun a b q => ⟨0, rfl, 0, rfl, rfl⟩
  · intro a b q; simp [edist]
  · intro a b q p1 h1 p2 h2; simp only [edist]; exact Real.sqrt_nonneg _
  · simp [Geom.result, Geom.distances]

/-- The pairs of the model that are made of an inner object of the body and of another object are stored in this order. -/
def Geom.Ordered (G : Geom Q) (inner objects : List Nat) : Prop :=
  ∀ p ∈ G.pairs, ∀ o1 ∈ inner, ∀ o2 ∈ objects, IsPair p o1 o2 → p.1 ∈ inner ∧ p.2 ∈ objects

/-- C101. If the pairs are stored with the object of the first body first, the function satisfies the contract under which its
Jacobian is proved to be the derivative of the distance. -/
theorem C101_nearest_partial (G : Geom Q) (K : Q → Kin n) (hG : G.FclOk K) (inner objects : List Nat) (active : List Bool)
    (h : initGeom G.pairs inner objects = some active) (h1 : inner ≠ []) (h2 : objects ≠ []) (joint1 : Nat) (joint2 : Option Nat)
    (hj1 : ∀ o ∈ inner, G.joint o = some joint1) (hj2 : ∀ o ∈ objects, G.joint o = joint2) (hord : G.Ordered inner objects) :
    (G.function active joint1 joint2).Nearest K {x | ∃ o ∈ inner, x ∈ G.shape o} {y | ∃ o ∈ objects, y ∈ G.shape o} := by
  obtain ⟨hl, hall, honly, -⟩ := (C101_active G.pairs inner objects).2 active h
  have key : ∀ q, ∃ p : Nat × Nat, p.1 ∈ inner ∧ p.2 ∈ objects ∧ G.result active q = some (G.fcl p.1 p.2 q) := fun q => by
    obtain ⟨hn, hs⟩ := Geom.result_spec h q
    cases hr : G.result active q with
    | none => rcases hn.1 hr with e | e <;> contradiction
    | some r =>
      obtain ⟨k, p, e1, e2, e3, -⟩ := hs r hr
      obtain ⟨o1, m1, o2, m2, hq⟩ := honly k p e1 e2
      obtain ⟨a, b⟩ := hord p (List.mem_of_getElem? e1) o1 m1 o2 m2 hq
      exact ⟨p, a, b, by rw [e3]⟩
  have hne : ∀ (q : Q) (p : Nat × Nat), G.result active q = some (G.fcl p.1 p.2 q) → (G.function active joint1 joint2).nearest q = (G.fcl p.1 p.2 q).1 ∧
      (G.function active joint1 joint2).minDist q = (G.fcl p.1 p.2 q).2 := fun q p hr => by
    constructor
    · show ((G.result active q).getD ((0, 0), 0)).1 = _
      rw [hr]; rfl
    · show ((G.result active q).getD ((0, 0), 0)).2 = _
      rw [hr]; rfl
  refine ⟨fun q => ?_, fun q => ?_, fun q x hx y hy => ?_⟩
  · obtain ⟨p, a, b, hr⟩ := key q
    obtain ⟨x, hx, y, hy, hxy⟩ := hG.mem p.1 p.2 q
    refine ⟨x, ⟨p.1, a, hx⟩, y, ⟨p.2, b, hy⟩, ?_⟩
    rw [(hne q p hr).1, hxy, hj1 _ a, hj2 _ b]
    rfl
  · obtain ⟨p, a, b, hr⟩ := key q
    rw [(hne q p hr).1, (hne q p hr).2, hG.dist]
  · obtain ⟨o1, m1, hx⟩ := hx
    obtain ⟨o2, m2, hy⟩ := hy
    have := (C101_value G K hG inner objects active h h1 h2 joint1 joint2 q).2.1 o1 m1 o2 m2 x hx y hy
    rw [hj1 _ m1, hj2 _ m2] at this
    exact this

/-- C101. Jacobian of the function as built by the constructors: pairs stored with the object of the first body first, no extra
degree of freedom; positive distance; if the distance has a derivative, this derivative is the Jacobian times the velocity. -/
theorem C101_derivative_partial [DecidableEq Q] (G : Geom Q) (K : Q → Kin n) (hG : G.FclOk K) (inner objects : List Nat)
    (active : List Bool) (h : initGeom G.pairs inner objects = some active) (h1 : inner ≠ []) (h2 : objects ≠ []) (joint1 : Nat)
    (joint2 : Option Nat) (hj1 : ∀ o ∈ inner, G.joint o = some joint1) (hj2 : ∀ o ∈ objects, G.joint o = joint2)
    (hord : G.Ordered inner objects) {m : BodMem Q} (hm : m.latest = none) (r : Rob Q) (l : List (Op Q)) {q : ℝ → Q} {qd : Fin n → ℝ} {t : ℝ}
    (hK : KMoves (fun t => K (q t)) qd t) (hpos : 0 < (G.function active joint1 joint2).minDist (q t))
    (hs : ((G.function active joint1 joint2).run l (r, m)).2.latest ≠ some (q t) ∨
      ((G.function active joint1 joint2).run l (r, m)).1 = ⟨q t, q t⟩)
    {D : ℝ} (hD : HasDerivAt (fun t => (G.function active joint1 joint2).minDist (q t)) D t) :
    ∃ J, assignJacobian 0 ((G.function active joint1 joint2).jacobian K ((G.function active joint1 joint2).run l (r, m)) (q t)).2 =
      some J ∧ D = J ⬝ᵥ qd := by
  refine ⟨_, dif_pos rfl, ?_⟩
  exact C60_bodies_derivative_partial (C101_nearest_partial G K hG inner objects active h h1 h2 joint1 joint2 hj1 hj2 hord) hm r l hK
    hpos hs hD

/-- C101 is false of robots with an extra configuration space: the row computed does not have as many columns as the Jacobian it is
assigned to, for the distance between bodies and for the distance between points. -/
theorem C101_extra_refuted (d : Nat) (hd : 0 < d) [DecidableEq Q] (f : DistBodies Q) (g : DistPts) (K : Q → Kin n)
    (s : Rob Q × BodMem Q) (s' : Rob Q × DMem Q) (q : Q) :
    assignJacobian d (f.jacobian K s q).2 = none ∧ assignJacobian d (g.jacobian K s' q).2 = none :=
  ⟨dif_neg (by omega), dif_neg (by omega)⟩

/-- A joint that translates along the x axis -/
noncomputable def slideK (t : ℝ) : Kin 1 where
  M := fun _ => ⟨1, ![t, 0, 0]⟩
  Jv := fun _ => !![1; 0; 0]
  Jw := fun _ => 0

theorem slideK_moves (t : ℝ) : KMoves slideK ![1] t := by
  refine ⟨fun t j => by simp [slideK, IsRot], fun j => ⟨by simp [slideK, IsRot], fun a b => ?_, fun a => ?_⟩⟩
  · simp only [slideK, Matrix.zero_mulVec, hat_zero, Matrix.mul_zero]
    exact hasDerivAt_const _ _
  · simp only [slideK, one_mulVec]
    fin_cases a <;> simp [mulVec, dotProduct, hasDerivAt_const, hasDerivAt_id']

/-- Object 0: the origin of the world; object 1: the center of the joint -/
noncomputable def slideG (pairs : List (Nat × Nat)) : Geom ℝ where
  pairs := pairs
  shape := fun _ => {0}
  joint := fun o => if o = 1 then some 0 else none
  fcl := fun a b t => ((worldPos (slideK t) (if a = 1 then some 0 else none) 0, worldPos (slideK t) (if b = 1 then some 0 else none) 0),
    edist (worldPos (slideK t) (if a = 1 then some 0 else none) 0) (worldPos (slideK t) (if b = 1 then some 0 else none) 0))

theorem slideG_ok (pairs : List (Nat × Nat)) : (slideG pairs).FclOk slideK := by
  refine ⟨fun a b q => ⟨0, rfl, 0, rfl, rfl⟩, fun a b q => rfl, fun a b q p1 h1 p2 h2 => ?_⟩
  have e1 : p1 = 0 := h1
  have e2 : p2 = 0 := h2
  subst e1; subst e2
  exact le_refl _

theorem slideG_result (pairs : List (Nat × Nat)) (p : Nat × Nat) (h : pairs = [p]) (t : ℝ) :
    (slideG pairs).result [true] t = some ((slideG pairs).fcl p.1 p.2 t) := by
  subst h
  simp [Geom.result, Geom.distances, slideG]

/-- Non-vacuity of `C101_value`, `C101_nearest_partial`, `C101_derivative_partial`: the pair is stored in the right order. -/
example : (slideG [(1, 0)]).FclOk slideK ∧ initGeom (slideG [(1, 0)]).pairs [1] [0] = some [true] ∧ (slideG [(1, 0)]).Ordered [1] [0] ∧
    (∀ o ∈ [1], (slideG [(1, 0)]).joint o = some 0) ∧ (∀ o ∈ [0], (slideG [(1, 0)]).joint o = none) ∧
    0 < ((slideG [(1, 0)]).function [true] 0 none).minDist 1 := by
  refine ⟨slideG_ok _, by simp [slideG]; decide, ?_, by simp [slideG], by simp [slideG], ?_⟩
  · intro p hp o1 h1 o2 h2 _
    simp [slideG] at hp
    subst hp
    simp
  · show 0 < (((slideG [(1, 0)]).result [true] 1).getD ((0, 0), 0)).2
    rw [slideG_result _ (1, 0) rfl]
    simp [slideG, worldPos, slideK, edist]

/-- C101 is false when a pair is stored with the object of the first body in second position, as it is for all the pairs whose first
body comes after the second one in the model: the nearest points are exchanged, and the Jacobian is not the derivative of the
distance.  Here it is its opposite. -/
theorem C101_order_refuted :
    ∃ (G : Geom ℝ) (active : List Bool), G.FclOk slideK ∧ initGeom G.pairs [1] [0] = some active ∧ G.joint 1 = some 0 ∧ G.joint 0 = none ∧
      HasDerivAt (fun t => (G.function active 0 none).minDist t) 1 1 ∧
      ∀ r : Rob ℝ, (((G.function active 0 none).jacobian slideK (r, ⟨none, 0, 0, 0⟩) 1).2 ⬝ᵥ ![1]) = -1 := by
  have hr : ∀ t, (slideG [(0, 1)]).result [true] t = some ((slideG [(0, 1)]).fcl 0 1 t) := slideG_result _ (0, 1) rfl
  have hn : ∀ t, ((slideG [(0, 1)]).function [true] 0 none).nearest t = (0, ![t, 0, 0]) := fun t => by
    show (((slideG [(0, 1)]).result [true] t).getD ((0, 0), 0)).1 = _
    rw [hr]
    simp [slideG, worldPos, slideK]
  have hd : ∀ t, ((slideG [(0, 1)]).function [true] 0 none).minDist t = |t| := fun t => by
    show (((slideG [(0, 1)]).result [true] t).getD ((0, 0), 0)).2 = _
    rw [hr]
    simp [slideG, worldPos, slideK, edist, Real.sqrt_sq_eq_abs]
  refine ⟨slideG [(0, 1)], [true], slideG_ok _, by simp [slideG]; decide, by simp [slideG], by simp [slideG], ?_, fun r => ?_⟩
  · simp only [hd]
    exact (hasDerivAt_id' (1 : ℝ)).congr_of_eventuallyEq
      ((lt_mem_nhds one_pos).mono fun t ht => abs_of_pos ht)
  · unfold DistBodies.jacobian DistBodies.compute
    simp only [hn, hd]
    rw [if_neg (by simp)]
    simp [Geom.function, gradientRow, slideK, dotProduct]

end Hpp.Dist
