import Verif.Dist.Props

/-!
# Distance between bodies: the collision pairs

Source: `/repo/src/distance-between-bodies.cc`, lines 41-60 (`initGeomData`), 80-128.

`GeomModel`, `GeomData` and the functions on them belong to pinocchio.  What is assumed of them: two `CollisionPair`s are equal if they
contain the same two objects, in any order; `findCollisionPair` returns the index of the first pair equal to its argument, or the
number of pairs; `computeDistances` computes the distances for the active pairs and returns the first index at which it is minimal, or
the number of pairs if none is active; the nearest points of a pair belong to the first and second objects of this pair.
-/

namespace Hpp.Dist

open Matrix Hpp.Sym Hpp.Pose

variable {n : Nat} {Q : Type}

/-- `CollisionPair::operator==` (pinocchio) -/
def samePair (p q : Nat × Nat) : Bool := (p.1 == q.1 && p.2 == q.2) || (p.1 == q.2 && p.2 == q.1)

/-- Activation of one pair (lines 52-57); `none`: exception `std::invalid_argument`. -/
def activatePair (pairs : List (Nat × Nat)) (active : List Bool) (p : Nat × Nat) : Option (List Bool) :=
  let idx := pairs.findIdx (samePair p)
  if idx < pairs.length then some (active.set idx true) else none

/-- Loop on the second objects (lines 50-58) -/
def activateObjects (pairs : List (Nat × Nat)) (o1 : Nat) : List Nat → List Bool → Option (List Bool)
  | [], active => some active
  | o2 :: l, active =>
    match activatePair pairs active (o1, o2) with
    | none => none
    | some active => activateObjects pairs o1 l active

/-- Loop on the inner objects of the body (lines 48-59) -/
def activateBody (pairs : List (Nat × Nat)) (objects : List Nat) : List Nat → List Bool → Option (List Bool)
  | [], active => some active
  | o1 :: l, active =>
    match activateObjects pairs o1 objects active with
    | none => none
    | some active => activateBody pairs objects l active

/-- `initGeomData` (lines 41-60): which pairs are active.  `inner`, `objects`: indices in the model of the inner objects of the body
and of the other objects. -/
def initGeom (pairs : List (Nat × Nat)) (inner objects : List Nat) : Option (List Bool) :=
  activateBody pairs objects inner (List.replicate pairs.length false)

/-- Geometric objects: `shape` in the frame of the joint `joint` (`none`: in the world), `fcl a b q`: nearest points of objects `a` and
`b`, and distance, for configuration `q` (hpp-fcl). -/
structure Geom (Q : Type) where
  pairs : List (Nat × Nat)
  shape : Nat → Set (V3 ℝ)
  joint : Nat → Option Nat
  fcl : Nat → Nat → Q → (V3 ℝ × V3 ℝ) × ℝ

/-- `computeDistances` (pinocchio, called line 123): index and distance; `none`: no active pair. -/
noncomputable def Geom.distances (G : Geom Q) (q : Q) : List ((Nat × Nat) × Bool) → Nat → Option (Nat × ℝ) → Option (Nat × ℝ)
  | [], _, best => best
  | (p, true) :: l, k, best =>
    let d := (G.fcl p.1 p.2 q).2
    G.distances q l (k + 1)
      (match best with
        | none => some (k, d)
        | some b => if d < b.2 then some (k, d) else some b)
  | (_, false) :: l, k, best => G.distances q l (k + 1) best

/-- `data_.distanceResults[minIndex_]` after line 123; `none`: out of range. -/
noncomputable def Geom.result (G : Geom Q) (active : List Bool) (q : Q) : Option ((V3 ℝ × V3 ℝ) × ℝ) :=
  match G.distances q (G.pairs.zip active) 0 none with
  | none => none
  | some r => (G.pairs[r.1]?).map fun p => G.fcl p.1 p.2 q

/-- The function built by the constructors (lines 80-110), `active` being the result of `initGeomData`. -/
noncomputable def Geom.function (G : Geom Q) (active : List Bool) (joint1 : Nat) (joint2 : Option Nat) : DistBodies Q where
  joint1 := joint1
  joint2 := joint2
  nearest := fun q => ((G.result active q).getD ((0, 0), 0)).1
  minDist := fun q => ((G.result active q).getD ((0, 0), 0)).2

/-- The assignment `jacobian = ...` (distance-between-bodies.cc:146-149, distance-between-points-in-bodies.cc:158, 160): the row has as
many columns as the Jacobians of the joints, `jacobian` has as many columns as the robot has degrees of freedom, `d` of them in the
extra configuration space.  `none`: sizes differ (assertion, or undefined behavior). -/
def assignJacobian (d : Nat) (row : Fin n → ℝ) : Option (Fin (n + d) → ℝ) :=
  if h : d = 0 then some fun k => row ⟨k.1, by omega⟩ else none

/-! ### Specification -/

/-- The pair is made of these two objects, in any order. -/
def IsPair (p : Nat × Nat) (o1 o2 : Nat) : Prop := p = (o1, o2) ∨ p = (o2, o1)

/-- Contract of hpp-fcl, for objects that do not penetrate each other. -/
structure Geom.FclOk (G : Geom Q) (K : Q → Kin n) : Prop where
  mem : ∀ a b q, ∃ p1 ∈ G.shape a, ∃ p2 ∈ G.shape b,
    (G.fcl a b q).1 = (worldPos (K q) (G.joint a) p1, worldPos (K q) (G.joint b) p2)
  dist : ∀ a b q, (G.fcl a b q).2 = edist (G.fcl a b q).1.1 (G.fcl a b q).1.2
  least : ∀ a b q, ∀ p1 ∈ G.shape a, ∀ p2 ∈ G.shape b,
    (G.fcl a b q).2 ≤ edist (worldPos (K q) (G.joint a) p1) (worldPos (K q) (G.joint b) p2)

/-! ### Lemmas -/

theorem samePair_iff (p : Nat × Nat) (o1 o2 : Nat) : samePair (o1, o2) p = true ↔ IsPair p o1 o2 := by
  obtain ⟨a, b⟩ := p
  simp only [samePair, IsPair, Bool.or_eq_true, Bool.and_eq_true, beq_iff_eq, Prod.mk.injEq]
  constructor <;> rintro (⟨h1, h2⟩ | ⟨h1, h2⟩) <;> simp [h1, h2]

/-- One activation -/
theorem activatePair_spec {pairs : List (Nat × Nat)} {active active' : List Bool} {o1 o2 : Nat}
    (hlen : active.length = pairs.length) (h : activatePair pairs active (o1, o2) = some active') :
    active'.length = pairs.length ∧ (∃ (k : Nat) (p : Nat × Nat), pairs[k]? = some p ∧ IsPair p o1 o2 ∧ active'[k]? = some true) ∧
      (∀ k : Nat, active[k]? = some true → active'[k]? = some true) ∧
      ∀ k : Nat, active'[k]? = some true → active[k]? = some true ∨ ∃ p, pairs[k]? = some p ∧ IsPair p o1 o2 := by
  unfold activatePair at h
  simp only at h
  split at h
  · next hlt =>
    cases h
    have hg := List.findIdx_getElem (w := hlt)
    have hp : pairs[pairs.findIdx (samePair (o1, o2))]? = some pairs[pairs.findIdx (samePair (o1, o2))] :=
      List.getElem?_eq_getElem hlt
    refine ⟨by simp [hlen], ⟨_, _, hp, (samePair_iff _ _ _).1 hg, ?_⟩, fun k hk => ?_, fun k hk => ?_⟩
    · rw [List.getElem?_set_self (by rw [hlen]; exact hlt)]
    · rw [List.getElem?_set]
      split
      · split
        · rfl
        · next h1 h2 =>
          have := (List.getElem?_eq_some_iff.1 hk).1
          omega
      · exact hk
    · rw [List.getElem?_set] at hk
      split at hk
      · next e => exact Or.inr ⟨_, e ▸ hp, (samePair_iff _ _ _).1 hg⟩
      · exact Or.inl hk
  · cases h

theorem activatePair_none {pairs : List (Nat × Nat)} {active : List Bool} {o1 o2 : Nat} :
    activatePair pairs active (o1, o2) = none ↔ ∀ p ∈ pairs, ¬ IsPair p o1 o2 := by
  unfold activatePair
  simp only
  split
  · next hlt =>
    refine ⟨fun h => by simp at h, fun h => ?_⟩
    exact absurd ((samePair_iff _ _ _).1 (List.findIdx_getElem (w := hlt))) (h _ (List.getElem_mem hlt))
  · next hlt =>
    refine ⟨fun _ p hp hq => hlt (List.findIdx_lt_length_of_exists ⟨p, hp, (samePair_iff _ _ _).2 hq⟩), fun _ => rfl⟩

theorem activateObjects_spec {pairs : List (Nat × Nat)} {o1 : Nat} : ∀ {l : List Nat} {active active' : List Bool},
    active.length = pairs.length → activateObjects pairs o1 l active = some active' →
    active'.length = pairs.length ∧ (∀ o2 ∈ l, ∃ (k : Nat) (p : Nat × Nat), pairs[k]? = some p ∧ IsPair p o1 o2 ∧ active'[k]? = some true) ∧
      (∀ k : Nat, active[k]? = some true → active'[k]? = some true) ∧
      ∀ k : Nat, active'[k]? = some true → active[k]? = some true ∨ ∃ o2 ∈ l, ∃ p, pairs[k]? = some p ∧ IsPair p o1 o2 := by
  intro l
  induction l with
  | nil =>
    intro active active' hlen h
    cases h
    exact ⟨hlen, by simp, fun _ h => h, fun _ h => Or.inl h⟩
  | cons o2 l ih =>
    intro active active' hlen h
    rw [activateObjects] at h
    split at h
    · cases h
    · next a ha =>
      obtain ⟨l1, ⟨k0, p0, e1, e2, e3⟩, m1, b1⟩ := activatePair_spec hlen ha
      obtain ⟨l2, f2, m2, b2⟩ := ih l1 h
      refine ⟨l2, fun o ho => ?_, fun k hk => m2 k (m1 k hk), fun k hk => ?_⟩
      · rcases List.mem_cons.1 ho with e | ho
        · subst e; exact ⟨k0, p0, e1, e2, m2 k0 e3⟩
        · exact f2 o ho
      · rcases b2 k hk with hk | ⟨o, ho, hp⟩
        · rcases b1 k hk with hk | hp
          · exact Or.inl hk
          · exact Or.inr ⟨o2, List.mem_cons_self, hp⟩
        · exact Or.inr ⟨o, List.mem_cons_of_mem _ ho, hp⟩

theorem activateObjects_none {pairs : List (Nat × Nat)} {o1 : Nat} : ∀ {l : List Nat} {active : List Bool},
    activateObjects pairs o1 l active = none ↔ ∃ o2 ∈ l, ∀ p ∈ pairs, ¬ IsPair p o1 o2 := by
  intro l
  induction l with
  | nil => intro active; simp [activateObjects]
  | cons o2 l ih =>
    intro active
    rw [activateObjects]
    cases ha : activatePair pairs active (o1, o2) with
    | none => exact ⟨fun _ => ⟨o2, List.mem_cons_self, activatePair_none.1 ha⟩, fun _ => rfl⟩
    | some a =>
      simp only
      rw [ih]
      refine ⟨fun ⟨o, ho, h⟩ => ⟨o, List.mem_cons_of_mem _ ho, h⟩, fun ⟨o, ho, h⟩ => ?_⟩
      rcases List.mem_cons.1 ho with e | ho
      · subst e
        rw [activatePair_none.2 h] at ha
        cases ha
      · exact ⟨o, ho, h⟩

theorem activateBody_spec {pairs : List (Nat × Nat)} {objects : List Nat} : ∀ {l : List Nat} {active active' : List Bool},
    active.length = pairs.length → activateBody pairs objects l active = some active' →
    active'.length = pairs.length ∧
      (∀ o1 ∈ l, ∀ o2 ∈ objects, ∃ (k : Nat) (p : Nat × Nat), pairs[k]? = some p ∧ IsPair p o1 o2 ∧ active'[k]? = some true) ∧
      (∀ k : Nat, active[k]? = some true → active'[k]? = some true) ∧
      ∀ k : Nat, active'[k]? = some true → active[k]? = some true ∨
        ∃ o1 ∈ l, ∃ o2 ∈ objects, ∃ p, pairs[k]? = some p ∧ IsPair p o1 o2 := by
  intro l
  induction l with
  | nil =>
    intro active active' hlen h
    cases h
    exact ⟨hlen, by simp, fun _ h => h, fun _ h => Or.inl h⟩
  | cons o1 l ih =>
    intro active active' hlen h
    rw [activateBody] at h
    split at h
    · cases h
    · next a ha =>
      obtain ⟨l1, f1, m1, b1⟩ := activateObjects_spec hlen ha
      obtain ⟨l2, f2, m2, b2⟩ := ih l1 h
      refine ⟨l2, fun o ho o2 h2 => ?_, fun k hk => m2 k (m1 k hk), fun k hk => ?_⟩
      · rcases List.mem_cons.1 ho with e | ho
        · subst e
          obtain ⟨k, p, e1, e2, e3⟩ := f1 o2 h2
          exact ⟨k, p, e1, e2, m2 k e3⟩
        · exact f2 o ho o2 h2
      · rcases b2 k hk with hk | ⟨o, ho, hp⟩
        · rcases b1 k hk with hk | hp
          · exact Or.inl hk
          · exact Or.inr ⟨o1, List.mem_cons_self, hp⟩
        · exact Or.inr ⟨o, List.mem_cons_of_mem _ ho, hp⟩

theorem activateBody_none {pairs : List (Nat × Nat)} {objects : List Nat} : ∀ {l : List Nat} {active : List Bool},
    activateBody pairs objects l active = none ↔ ∃ o1 ∈ l, ∃ o2 ∈ objects, ∀ p ∈ pairs, ¬ IsPair p o1 o2 := by
  intro l
  induction l with
  | nil => intro active; simp [activateBody]
  | cons o1 l ih =>
    intro active
    rw [activateBody]
    cases ha : activateObjects pairs o1 objects active with
    | none => exact ⟨fun _ => ⟨o1, List.mem_cons_self, activateObjects_none.1 ha⟩, fun _ => rfl⟩
    | some a =>
      simp only
      rw [ih]
      refine ⟨fun ⟨o, ho, h⟩ => ⟨o, List.mem_cons_of_mem _ ho, h⟩, fun ⟨o, ho, h⟩ => ?_⟩
      rcases List.mem_cons.1 ho with e | ho
      · subst e
        rw [activateObjects_none.2 h] at ha
        cases ha
      · exact ⟨o, ho, h⟩

theorem Geom.distances_some {G : Geom Q} {q : Q} : ∀ (l : List ((Nat × Nat) × Bool)) (k : Nat) (best : Option (Nat × ℝ)) (r : Nat × ℝ),
    G.distances q l k best = some r →
    (best = some r ∨ ∃ (i : Nat) (p : Nat × Nat), l[i]? = some (p, true) ∧ r = (k + i, (G.fcl p.1 p.2 q).2)) ∧
      (∀ b, best = some b → r.2 ≤ b.2) ∧ ∀ p, (p, true) ∈ l → r.2 ≤ (G.fcl p.1 p.2 q).2 := by
  intro l
  induction l with
  | nil =>
    intro k best r h
    rw [Geom.distances] at h
    exact ⟨Or.inl h, fun b hb => by rw [h] at hb; cases hb; exact le_refl _, by simp⟩
  | cons x l ih =>
    intro k best r h
    obtain ⟨p, b⟩ := x
    cases b with
    | false =>
      rw [Geom.distances] at h
      obtain ⟨h1, h2, h3⟩ := ih _ _ _ h
      refine ⟨?_, h2, fun p' hp' => ?_⟩
      · rcases h1 with h1 | ⟨i, p', e1, e2⟩
        · exact Or.inl h1
        · exact Or.inr ⟨i + 1, p', by simpa using e1, by rw [e2]; congr 1; omega⟩
      · rcases List.mem_cons.1 hp' with e | hp'
        · cases e
        · exact h3 p' hp'
    | true =>
      simp only [Geom.distances] at h
      obtain ⟨h1, h2, h3⟩ := ih _ _ _ h
      have hd : r.2 ≤ (G.fcl p.1 p.2 q).2 := by
        cases hb : best with
        | none => exact h2 (k, (G.fcl p.1 p.2 q).2) (by rw [hb])
        | some b =>
          by_cases hlt : (G.fcl p.1 p.2 q).2 < b.2
          · exact h2 (k, (G.fcl p.1 p.2 q).2) (by rw [hb]; simp only; rw [if_pos hlt])
          · exact (h2 b (by rw [hb]; simp only; rw [if_neg hlt])).trans (not_lt.1 hlt)
      refine ⟨?_, fun b hb => ?_, fun p' hp' => ?_⟩
      · rcases h1 with h1 | ⟨i, p', e1, e2⟩
        · cases hb : best with
          | none =>
            rw [hb] at h1
            simp only [Option.some.injEq] at h1
            exact Or.inr ⟨0, p, rfl, by rw [← h1]; rfl⟩
          | some b =>
            rw [hb] at h1
            simp only at h1
            split at h1
            · exact Or.inr ⟨0, p, rfl, by rw [Option.some.inj h1 |>.symm]; rfl⟩
            · exact Or.inl h1
        · exact Or.inr ⟨i + 1, p', by simpa using e1, by rw [e2]; congr 1; omega⟩
      · rw [hb] at h2
        by_cases hlt : (G.fcl p.1 p.2 q).2 < b.2
        · exact hd.trans hlt.le
        · exact h2 b (by simp only; rw [if_neg hlt])
      · rcases List.mem_cons.1 hp' with e | hp'
        · cases e; exact hd
        · exact h3 p' hp'

theorem Geom.distances_none {G : Geom Q} {q : Q} : ∀ (l : List ((Nat × Nat) × Bool)) (k : Nat) (best : Option (Nat × ℝ)),
    G.distances q l k best = none ↔ best = none ∧ ∀ p, (p, true) ∉ l := by
  intro l
  induction l with
  | nil => intro k best; simp [Geom.distances]
  | cons x l ih =>
    intro k best
    obtain ⟨p, b⟩ := x
    cases b with
    | false => rw [Geom.distances, ih]; simp
    | true =>
      simp only [Geom.distances]
      rw [ih]
      refine ⟨fun h => ?_, fun h => absurd List.mem_cons_self (h.2 p)⟩
      exfalso
      have := h.1
      revert this
      cases best with
      | none => simp
      | some b => simp only; split <;> simp

theorem mem_zip_iff {pairs : List (Nat × Nat)} {active : List Bool} {p : Nat × Nat} (k : Nat) :
    (pairs.zip active)[k]? = some (p, true) ↔ pairs[k]? = some p ∧ active[k]? = some true := by
  rw [List.getElem?_zip_eq_some]

end Hpp.Dist
