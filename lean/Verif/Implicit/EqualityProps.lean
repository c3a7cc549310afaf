import Verif.Implicit.Equality
import Verif.Fun.EqualityProps

/-!
# Comparison of constraints: C102
-/

namespace Hpp.ConEq

open FnEq (Obj)

variable {α : Type} [DecidableEq α]

theorem fnEq_comm (h : Nat → Obj α) (a b : Nat) : fnEq h a b = fnEq h b a := by
  unfold fnEq
  rw [FnEq.C46_symmetric (h a) (h b)]
  simp only [eq_comm]

theorem implEq_comm (h : Nat → Obj α) (a b : Con) : implEq h a b = implEq h b a := by
  unfold implEq
  rw [fnEq_comm]
  simp only [ne_comm]

theorem exEq_iff (a b : Ex) : exEq a b = true ↔ a = b := by
  unfold exEq
  obtain ⟨a1, a2, a3, a4, a5⟩ := a
  obtain ⟨b1, b2, b3, b4, b5⟩ := b
  simp only [Ex.mk.injEq]
  by_cases h1 : a1 = b1 <;> by_cases h2 : a2 = b2 <;> by_cases h3 : a3 = b3 <;> by_cases h4 : a4 = b4 <;>
    by_cases h5 : a5 = b5 <;> simp_all

theorem exEq_comm (a b : Ex) : exEq a b = exEq b a := by
  rw [Bool.eq_iff_iff, exEq_iff, exEq_iff, eq_comm]

theorem rankEq_comm (a b : Segs) : rankEq a b = rankEq b a := by
  unfold rankEq
  cases a[0]? <;> cases b[0]? <;> simp [eq_comm]

theorem lockedEq_comm (h : Nat → Obj α) (a b : Con) (ea : Ex) (na : String) (sa : Nat) (eb : Ex) (nb : String)
    (sb : Nat) : lockedEq h a b ea na sa eb nb sb = lockedEq h b a eb nb sb ea na sa := by
  unfold lockedEq
  rw [implEq_comm, rankEq_comm ea.outQ, rankEq_comm ea.outV]
  simp only [ne_comm, eq_comm (a := sa)]

theorem implEq_true (h : Nat → Obj α) (a b : Con) : implEq h a b = some true ↔
    a.comp = b.comp ∧ a.rhsSize = b.rhsSize ∧ (a.fn = b.fn ∨ FnEq.opEq (h a.fn) (h b.fn) = some true) := by
  unfold implEq fnEq
  by_cases h1 : a.comp = b.comp <;> by_cases h2 : a.rhsSize = b.rhsSize <;> by_cases h3 : a.fn = b.fn <;> simp_all

theorem andThen_true (x y : Option Bool) : andThen x y = some true ↔ x = some true ∧ y = some true := by
  match x with
  | none => simp [andThen]
  | some false => simp [andThen]
  | some true => simp [andThen]

theorem andThen_self (x : Option Bool) : andThen x x = x := by
  match x with
  | none => rfl
  | some false => rfl
  | some true => rfl

/-- The function of a locked joint is the implicit function of its explicit part, as built by the constructor of
`Explicit` (explicit.cc:151-153). -/
def LockedFn (h : Nat → Obj α) (c : Con) : Prop :=
  ∀ e n s, c.kind = .locked e n s → (h c.fn).cls = .implicit e.io e.inQ e.outQ e.inV e.outV

theorem fnEq_ne_none (h : Nat → Obj α) (a b : Nat) (g : Nat) (i o i' o' : Segs)
    (ha : (h a).cls = .implicit g i o i' o') : fnEq h a b ≠ none := by
  unfold fnEq
  by_cases e : a = b
  · simp [e]
  · rw [if_neg e, FnEq.opEq_eq, ha]
    simp only [FnEq.isExtracted, Bool.false_and, Bool.false_eq_true, if_false]
    cases (h b).cls <;> simp [FnEq.memberEq]

theorem implEq_ne_none (h : Nat → Obj α) (a b : Con) (ha : LockedFn h a) (e : Ex) (n : String) (s : Nat)
    (hk : a.kind = .locked e n s) : implEq h a b ≠ none := by
  unfold implEq
  by_cases h1 : a.comp = b.comp <;> by_cases h2 : a.rhsSize = b.rhsSize <;> simp [h1, h2]
  exact fnEq_ne_none h a.fn b.fn _ _ _ _ _ (ha e n s hk)

/-- C102. The comparison is symmetric whatever the classes of both constraints, undefined behaviours included. -/
theorem C102_symmetric (h : Nat → Obj α) (a b : Con) (ha : LockedFn h a) (hb : LockedFn h b) :
    opEq h a b = opEq h b a := by
  have na := implEq_ne_none h a b ha
  have nb := implEq_ne_none h b a hb
  unfold opEq isEqual0 Con.asExplicit Con.asLocked
  rw [implEq_comm h b a] at nb ⊢
  cases hka : a.kind <;> cases hkb : b.kind <;> simp only
  case implicit.explicit ea => rw [andThen_self]
  case implicit.locked e n s =>
    match hx : implEq h a b, nb e n s hkb with
    | some true, _ => rfl
    | some false, _ => rfl
  case explicit.implicit => rw [andThen_self]
  case explicit.explicit ea eb =>
    rw [exEq_comm eb ea]
  case explicit.locked e n s =>
    match hx : implEq h a b, nb _ _ _ hkb with
    | some true, _ => rfl
    | some false, _ => rfl
  case locked.implicit e n s =>
    match hx : implEq h a b, na _ _ _ hka with
    | some true, _ => rfl
    | some false, _ => rfl
  case locked.explicit e n s e' =>
    match hx : implEq h a b, na _ _ _ hka with
    | some true, _ => rfl
    | some false, _ => rfl
  case locked.locked ea n s eb n' s' =>
    rw [lockedEq_comm h b a]

/-- Specification: both constraints are of the same class and what the class adds is the same. -/
inductive SameKind : Kind → Kind → Prop where
  | implicit : SameKind .implicit .implicit
  | explicit (e : Ex) : SameKind (.explicit e) (.explicit e)
  | locked (ea eb : Ex) (name : String) (space : Nat) (q q' v v' : Seg) :
      ea.outQ[0]? = some q → eb.outQ[0]? = some q' → q.first = q'.first →
      ea.outV[0]? = some v → eb.outV[0]? = some v' → v.first = v'.first →
      SameKind (.locked ea name space) (.locked eb name space)

theorem rankEq_true (a b : Segs) : rankEq a b = some true ↔
    ∃ x y : Seg, a[0]? = some x ∧ b[0]? = some y ∧ x.first = y.first := by
  unfold rankEq
  cases a[0]? <;> cases b[0]? <;> simp

theorem lockedEq_true (h : Nat → Obj α) (a b : Con) (ea : Ex) (na : String) (sa : Nat) (eb : Ex) (nb : String)
    (sb : Nat) : lockedEq h a b ea na sa eb nb sb = some true ↔
    implEq h a b = some true ∧ SameKind (.locked ea na sa) (.locked eb nb sb) := by
  unfold lockedEq
  rw [andThen_true]
  refine and_congr_right fun _ => ?_
  constructor
  · intro hx
    by_cases hn : na = nb
    · rw [if_neg (by simpa using hn), andThen_true, andThen_true, rankEq_true, rankEq_true] at hx
      obtain ⟨⟨x, y, h1, h2, h3⟩, ⟨x', y', k1, k2, k3⟩, hs⟩ := hx
      simp only [Option.some.injEq, decide_eq_true_eq] at hs
      subst hn; subst hs
      exact .locked ea eb na sa x y x' y' h1 h2 h3 k1 k2 k3
    · rw [if_pos hn] at hx
      simp at hx
  · intro hx
    cases hx with
    | locked _ _ _ _ q q' v v' h1 h2 h3 k1 k2 k3 =>
      rw [if_neg (by simp), andThen_true, andThen_true, rankEq_true, rankEq_true]
      exact ⟨⟨q, q', h1, h2, h3⟩, ⟨v, v', k1, k2, k3⟩, by simp⟩

/-- C102. What two equal constraints have in common: comparison types, size of the right hand side, function (the same
object or an equal one), and class; for explicit constraints the explicit function (the same object), inputs and outputs;
for locked joints the name, first variables and the configuration space. -/
theorem C102_equal (h : Nat → Obj α) (a b : Con) : opEq h a b = some true ↔
    a.comp = b.comp ∧ a.rhsSize = b.rhsSize ∧ (a.fn = b.fn ∨ FnEq.opEq (h a.fn) (h b.fn) = some true) ∧
    SameKind a.kind b.kind := by
  have hi := implEq_true h a b
  have hl : ∀ (ea : Ex) (na : String) (sa : Nat) (eb : Ex) (nb : String) (sb : Nat),
      lockedEq h a b ea na sa eb nb sb = some true ↔ _ := lockedEq_true h a b
  unfold opEq isEqual0 Con.asExplicit Con.asLocked
  cases hka : a.kind <;> cases hkb : b.kind <;> simp only [implEq_comm h b a, lockedEq_comm h b a, andThen_self]
  case implicit.implicit =>
    rw [hi]
    exact ⟨fun ⟨x, y, z⟩ => ⟨x, y, z, .implicit⟩, fun ⟨x, y, z, _⟩ => ⟨x, y, z⟩⟩
  case implicit.explicit =>
    rw [andThen_true]
    exact ⟨fun ⟨_, x⟩ => by simp at x, fun ⟨_, _, _, x⟩ => by cases x⟩
  case implicit.locked =>
    rw [andThen_true]
    exact ⟨fun ⟨_, x⟩ => by simp at x, fun ⟨_, _, _, x⟩ => by cases x⟩
  case explicit.implicit =>
    rw [andThen_true]
    exact ⟨fun ⟨_, x⟩ => by simp at x, fun ⟨_, _, _, x⟩ => by cases x⟩
  case explicit.explicit ea eb =>
    rw [andThen_true, andThen_true, andThen_true, hi]
    simp only [Option.some.injEq, exEq_iff]
    constructor
    · rintro ⟨⟨⟨x, y, z⟩, e⟩, -⟩
      subst e
      exact ⟨x, y, z, .explicit _⟩
    · rintro ⟨x, y, z, e⟩
      cases e
      exact ⟨⟨⟨x, y, z⟩, rfl⟩, rfl, rfl⟩
  case explicit.locked =>
    rw [andThen_true, andThen_true]
    exact ⟨fun ⟨⟨_, x⟩, _⟩ => by simp at x, fun ⟨_, _, _, x⟩ => by cases x⟩
  case locked.implicit => exact ⟨fun x => by simp at x, fun ⟨_, _, _, x⟩ => by cases x⟩
  case locked.explicit => exact ⟨fun x => by simp at x, fun ⟨_, _, _, x⟩ => by cases x⟩
  case locked.locked =>
    rw [hl, hi]
    exact ⟨fun ⟨⟨x, y, z⟩, w⟩ => ⟨x, y, z, w⟩, fun ⟨x, y, z, w⟩ => ⟨⟨x, y, z⟩, w⟩⟩

/-- C102. Equal locked joints have the same explicit function, inputs and outputs, like other explicit constraints. -/
theorem C102_locked (h : Nat → Obj α) (a b : Con) (ha : LockedFn h a) (hb : LockedFn h b) (ea eb : Ex) (na nb : String)
    (sa sb : Nat) (hka : a.kind = .locked ea na sa) (hkb : b.kind = .locked eb nb sb)
    (he : opEq h a b = some true) : ea = eb ∧ na = nb ∧ sa = sb := by
  obtain ⟨-, -, hf, hk⟩ := (C102_equal h a b).1 he
  have fa := ha ea na sa hka
  have fb := hb eb nb sb hkb
  rw [hka, hkb] at hk
  cases hk
  refine ⟨?_, rfl, rfl⟩
  obtain ⟨a1, a2, a3, a4, a5⟩ := ea
  obtain ⟨b1, b2, b3, b4, b5⟩ := eb
  rcases hf with hf | hf
  · rw [hf, fb] at fa
    simp only [FnEq.Cls.implicit.injEq] at fa
    obtain ⟨h1, h2, h3, h4, h5⟩ := fa
    subst h1; subst h2; subst h3; subst h4; subst h5
    rfl
  · rw [FnEq.opEq_true, fa, fb] at hf
    rcases hf.2 with hf | hf
    · simp [FnEq.isExtracted] at hf
    · simp only [FnEq.memberEq, FnEq.Res.ok.injEq, Bool.and_eq_true, decide_eq_true_eq] at hf
      obtain ⟨⟨⟨⟨h1, h2⟩, h3⟩, h4⟩, h5⟩ := hf
      subst h1; subst h2; subst h3; subst h4; subst h5
      rfl

/-- C102, part. The comparison is transitive.  Missing: constraints with constant functions, the comparison of which is
not transitive (`C46_constant_refuted`). -/
theorem C102_transitive_partial (h : Nat → Obj α) (a b c : Con) (hc : (h a.fn).cls.NotConstant)
    (s1 : (h a.fn).cls.SibOk (h b.fn).cls) (s2 : (h b.fn).cls.SibOk (h c.fn).cls)
    (hab : opEq h a b = some true) (hbc : opEq h b c = some true) : opEq h a c = some true := by
  rw [C102_equal] at *
  obtain ⟨h1, h2, h3, h4⟩ := hab
  obtain ⟨k1, k2, k3, k4⟩ := hbc
  refine ⟨h1.trans k1, h2.trans k2, ?_, ?_⟩
  · rcases h3 with h3 | h3
    · rw [h3]; exact k3
    · rcases k3 with k3 | k3
      · rw [← k3]; exact .inr h3
      · exact .inr (FnEq.C46_transitive_partial _ _ _ hc s1 s2 h3 k3)
  · generalize a.kind = ka at h4
    generalize b.kind = kb at h4 k4
    generalize c.kind = kc at k4
    cases h4 with
    | implicit => exact k4
    | explicit e => exact k4
    | locked ea eb n s q q' v v' a1 a2 a3 a4 a5 a6 =>
      cases k4 with
      | locked _ ec _ _ p p' w w' b1 b2 b3 b4 b5 b6 =>
        rw [a2] at b1
        rw [a5] at b4
        injection b1 with b1
        injection b4 with b4
        subst b1; subst b4
        exact .locked ea ec n s q p' v w' a1 b2 (a3.trans b3) a4 b5 (a6.trans b6)

/-- Constraints that are equal to their copies: all but locked joints without output. -/
def Con.Comparable (c : Con) : Prop := ∀ e n s, c.kind = .locked e n s → e.outQ ≠ [] ∧ e.outV ≠ []

/-- C102, part. A constraint is equal to itself and to its copies, even if its function is not equal to itself.  Missing:
locked degrees of freedom of a joint and locked extra degrees of freedom (`C102_partial_refuted`). -/
theorem C102_copy_partial (h : Nat → Obj α) (c : Con) (hc : c.Comparable) : opEq h c c.copy = some true := by
  rw [C102_equal]
  refine ⟨rfl, rfl, .inl rfl, ?_⟩
  show SameKind c.kind c.kind
  cases hk : c.kind with
  | implicit => exact .implicit
  | explicit e => exact .explicit e
  | locked e n s =>
    obtain ⟨h1, h2⟩ := hc e n s hk
    obtain ⟨q, l, hq⟩ := List.exists_cons_of_ne_nil h1
    obtain ⟨v, l', hv⟩ := List.exists_cons_of_ne_nil h2
    exact .locked e e n s q q v v (by rw [hq]; rfl) (by rw [hq]; rfl) rfl (by rw [hv]; rfl) (by rw [hv]; rfl) rfl

/-- C102. Two explicit constraints created with the same arguments are equal, although their implicit functions are
distinct objects. -/
theorem C102_create (rn : Nat → Nat) (qs vs : Nat) (m : Mem α) (e : Ex) (comp : List Comp) (mask mask' : List Bool)
    (he : e.io < m.next) :
    let r := createExplicit rn qs vs m e comp mask
    let r' := createExplicit rn qs vs r.2 e comp mask'
    r.1.fn ≠ r'.1.fn ∧ opEq r'.2.obj r.1 r'.1 = some true := by
  intro r r'
  have f : r.1.fn = m.next := rfl
  have f' : r'.1.fn = m.next + 1 := rfl
  refine ⟨by omega, ?_⟩
  rw [C102_equal]
  refine ⟨rfl, rfl, .inr ?_, .explicit e⟩
  have o : r'.2.obj r.1.fn = implicitFunction rn qs vs m e := by
    rw [f]
    show (if m.next = m.next + 1 then _ else if m.next = m.next then _ else _) = _
    rw [if_neg (by omega), if_pos rfl]
  have o' : r'.2.obj r'.1.fn = implicitFunction rn qs vs m e := by
    rw [f']
    show (if m.next + 1 = m.next + 1 then implicitFunction rn qs vs r.2 e else _) = _
    rw [if_pos rfl]
    have : r.2.obj e.io = m.obj e.io := by
      show (if e.io = m.next then _ else m.obj e.io) = _
      rw [if_neg (by omega)]
    unfold implicitFunction
    rw [this]
  rw [o, o']
  exact FnEq.C46_reflexive_partial _ trivial

/-- C102: locked joints created with the same arguments are **never** equal: each has its own constant function, the
addresses of which are compared (explicit/implicit-function.hh:97).  The first is equal to its copies.  Its comparison types are Equality, and its
implicit function has values in the vector space of the dimension of the joint. -/
theorem C102_locked_refuted (rn : Nat → Nat) (qs vs : Nat) (fname : String → List α → String) (m : Mem α)
    (joint : String) (q v : Seg) (space : Nat) (value : List α) :
    let r := createLocked rn qs vs fname m joint q v space value
    let r' := createLocked rn qs vs fname r.2 joint q v space value
    opEq r'.2.obj r.1 r'.1 = some false ∧ opEq r'.2.obj r.1 r.1.copy = some true ∧
    r.1.comp = List.replicate v.len .equality ∧ (r.2.obj r.1.fn).space = rn space := by
  intro r r'
  have k : r.1.kind = .locked ⟨m.next, [], [q], [], [v]⟩ joint space := rfl
  have k' : r'.1.kind = .locked ⟨m.next + 2, [], [q], [], [v]⟩ joint space := rfl
  have f : r.1.fn = m.next + 1 := rfl
  have f' : r'.1.fn = m.next + 3 := rfl
  have o : (r'.2.obj r.1.fn).cls = .implicit m.next [] [q] [] [v] := by
    rw [f]
    show (if m.next + 1 = m.next + 3 then _ else if m.next + 1 = m.next + 2 then _ else
      if m.next + 1 = m.next + 1 then _ else _ : Obj α).cls = _
    rw [if_neg (by omega), if_neg (by omega), if_pos rfl]
    rfl
  have o' : (r'.2.obj r'.1.fn).cls = .implicit (m.next + 2) [] [q] [] [v] := by
    rw [f']
    show (if m.next + 3 = m.next + 3 then _ else _ : Obj α).cls = _
    rw [if_pos rfl]
    rfl
  refine ⟨?_, C102_copy_partial _ _ fun e n s hk => ?_, rfl, ?_⟩
  · have hi : implEq r'.2.obj r.1 r'.1 = some false := by
      unfold implEq
      rw [if_neg (not_not.2 (show r.1.comp = r'.1.comp from rfl)),
        if_neg (not_not.2 (show r.1.rhsSize = r'.1.rhsSize from rfl))]
      unfold fnEq
      rw [if_neg (by omega), FnEq.opEq_eq, o, o']
      simp [FnEq.isExtracted, FnEq.memberEq]
    unfold opEq
    rw [k]
    simp only [Con.asLocked, k', lockedEq, hi, andThen]
  · rw [k] at hk
    injection hk with h1
    subst h1
    exact ⟨by simp, by simp⟩
  · show (if m.next + 1 = m.next + 1 then implicitFunction rn qs vs _ _ else _ : Obj α).space = _
    rw [if_pos rfl]
    show rn (if m.next = m.next then _ else _ : Obj α).space = _
    rw [if_pos rfl]

/-- C102: the comparison of some locked degrees of freedom of a joint, or of locked extra degrees of freedom, with
themselves reads out of the vector of outputs, that the constructor leaves empty. -/
theorem C102_partial_refuted (rn : Nat → Nat) (qs vs : Nat) (m : Mem α) (name fname : String) (q v : Seg) (space : Nat)
    (value : List α) (mask : List Bool) :
    let r := createPartial rn qs vs m name fname q v space value mask
    opEq r.2.obj r.1 r.1 = none := by
  intro r
  have k : r.1.kind = .locked ⟨m.next, [], [], [q], [v]⟩ name space := rfl
  have hi : implEq r.2.obj r.1 r.1 = some true := by rw [implEq_true]; exact ⟨rfl, rfl, .inl rfl⟩
  unfold opEq
  rw [k]
  simp [Con.asLocked, k, lockedEq, hi, andThen, rankEq]

/-- Hypotheses of the theorems: a locked joint as built, in a memory with an affine function at address 0. -/
example : let m : Mem Int := ⟨fun _ => FnEq.mk "f" 2 1 (.affine [[1, 2]] [3]), 1⟩
    let r := createLocked (fun s => s) 4 4 (fun j _ => "LockedJoint " ++ j) m "elbow" ⟨2, 1⟩ ⟨2, 1⟩ 1 [5]
    let x := createExplicit (fun s => s) 4 4 r.2 ⟨0, [⟨0, 2⟩], [⟨3, 1⟩], [⟨0, 2⟩], [⟨3, 1⟩]⟩ [.equality] [true]
    LockedFn x.2.obj r.1 ∧ LockedFn x.2.obj x.1 ∧ r.1.Comparable ∧ (x.2.obj r.1.fn).cls.NotConstant ∧
    opEq x.2.obj r.1 x.1 = some false ∧ opEq x.2.obj r.1 r.1 = some true := by
  refine ⟨?_, ?_, ?_, trivial, by decide, by decide⟩
  · intro e n s hk
    injection hk with h1
    subst h1
    rfl
  · intro e n s hk
    exact absurd hk (by simp [createExplicit, explicitBase])
  · intro e n s hk
    injection hk with h1
    subst h1
    exact ⟨by simp, by simp⟩

/-- An implicit constraint with the function of an explicit one is not equal to it, in any order. -/
example : let m : Mem Int := ⟨fun _ => FnEq.mk "f" 2 1 (.affine [[1, 2]] [3]), 1⟩
    let x := createExplicit (fun s => s) 4 4 m ⟨0, [⟨0, 2⟩], [⟨3, 1⟩], [⟨0, 2⟩], [⟨3, 1⟩]⟩ [.equality] [true]
    let y := createImplicit x.1.fn 1 [.equality] [true]
    implEq x.2.obj x.1 y = some true ∧ opEq x.2.obj x.1 y = some false ∧ opEq x.2.obj y x.1 = some false := by decide

end Hpp.ConEq
