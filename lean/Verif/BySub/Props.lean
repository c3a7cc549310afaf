import Verif.BySub.Lemmas
import Verif.BySub.LoopProps
import Mathlib.Data.Finset.Union

/-!
# Properties of the solver by substitution: C38, C40, C41
-/

namespace Hpp

variable {α κ : Type}

/-! ## Example data -/

namespace BsX

/-- A function of four variables to `ℤⁿ`. -/
def fn (key n : Nat) (value : (Nat → Int) → List Int) (active : List Bool) : Fn Int Nat where
  key := key
  inputSize := 4
  inputDer := 4
  spaceId := n
  space := vectorSpace Int n
  value := value
  jac _ := fun _ _ => 0
  activeQ := active
  active := active

/-- `q 2 - q 0` -/
def fE : Fn Int Nat := fn 10 1 (fun q => [q 2 - q 0]) [true, false, true, false]
/-- `q 1 + q 2` -/
def fI : Fn Int Nat := fn 11 1 (fun q => [q 1 + q 2]) [false, true, true, false]

def iE : Impl Int Nat := (Impl.create fE [.equality] []).get (by decide +kernel)
def iE0 : Impl Int Nat := (Impl.create fE [.equalToZero] []).get (by decide +kernel)
def iI : Impl Int Nat := (Impl.create fI [.equality] []).get (by decide +kernel)

theorem iE_built : Impl.Built fE [] [.equality] iE := .create _ _ (Option.some_get _).symm
theorem iE0_built : Impl.Built fE [] [.equalToZero] iE0 := .create _ _ (Option.some_get _).symm
theorem iI_built : Impl.Built fI [] [.equality] iI := .create _ _ (Option.some_get _).symm

/-- `q 2 = q 0 + rhs` -/
def part : EPart Int :=
  ⟨7, [⟨0, 1⟩], [⟨2, 1⟩], [⟨0, 1⟩], [⟨2, 1⟩], fun x r => [x.getD 0 0 + r.getD 0 0], fun _ _ _ _ _ => 1⟩

/-- An explicit constraint with a right hand side, the same with a null right hand side, an implicit one. -/
def cE : BCon Int Nat := ⟨iE, some part⟩
def cE0 : BCon Int Nat := ⟨iE0, some part⟩
def cI : BCon Int Nat := ⟨iI, none⟩

def E (sp : Space Int) (v : List Int) : Prop := v.length = sp.nq

def s0 : BS Int Nat := BS.init Int Nat 4 4 1
def s1 : BS Int Nat := (s0.add 20 cI 0).1
def s2 : BS Int Nat := (s1.add 20 cE 0).1
/-- The explicit constraint with a null right hand side comes too late: it is handled iteratively. -/
def s3 : BS Int Nat := (s2.add 20 cE0 1).1

theorem s1_built : BS.Built E 4 4 [(cI, 0, false)] s1 :=
  .add (fuel := 20) (junk := []) (.init 1) ⟨_, _, _, iI_built⟩ (Prod.ext rfl rfl)
theorem s2_built : BS.Built E 4 4 [(cI, 0, false), (cE, 0, true)] s2 :=
  .add (h := [(cI, 0, false)]) (fuel := 20) (junk := []) s1_built ⟨_, _, _, iE_built⟩ (Prod.ext rfl rfl)
theorem s3_built : BS.Built E 4 4 [(cI, 0, false), (cE, 0, true), (cE0, 1, false)] s3 :=
  .add (h := [(cI, 0, false), (cE, 0, true)]) (fuel := 20) (junk := []) s2_built ⟨_, _, _, iE0_built⟩
    (Prod.ext rfl rfl)

theorem lawful : BHist.Lawful E [(cI, 0, false), (cE, 0, true), (cE0, 1, false)] := by
  constructor <;> intro e he <;> simp only [List.mem_cons, List.not_mem_nil, or_false] at he <;>
    rcases he with rfl | rfl | rfl
  · exact vectorSpace_lawful 1
  · exact vectorSpace_lawful 1
  · exact vectorSpace_lawful 1
  · intro q; rfl
  · intro q; rfl
  · intro q; rfl

end BsX

section
variable [Zero α] [DecidableEq κ] {E : Space α → List α → Prop} {nq nv : Nat} {h : BHist α κ} {s : BS α κ}

/-! ## C40 -/

/-- C40. After any history, each constraint that was added is in exactly one of the two parts: the
explicit set for those flagged so, in insertion order, the iterative part for the others, at their priority.
No two of them are equal, and `contains` tells that they are there. -/
theorem C40_partition (hb : BS.Built E nq nv h s) (hl : BHist.Lawful E h) :
    s.all = h.map (·.1) ∧ s.ex.cons = explOf h ∧ s.hi.constraints = (implOf h).map (·.1) ∧
    (∀ e ∈ h, e.2.2 = false → lookupKey s.hi.prio e.1.impl.fn.key = some e.2.1) ∧
    (explOf h).length + (implOf h).length = h.length ∧
    h.Pairwise (fun a b : BCon α κ × Nat × Bool => a.1.isEqual b.1 = false) ∧
    ∀ e ∈ h, s.contains e.1 = true := by
  obtain ⟨h1, h2, h3, h4, h5, h6⟩ := hb.parts
  obtain ⟨l1, l2⟩ := hl.impl
  refine ⟨h4, h3, (h1.inv l1 l2).1.cons, ?_, ?_, h6, ?_⟩
  · intro e he hf
    exact lookup_prio (h1.inv l1 l2).1 (mem_implOf.2 ⟨e, he, hf, rfl, rfl⟩)
  · clear h1 h2 h3 h4 h6 l1 l2 hb hl
    induction h with
    | nil => rfl
    | cons x h ih =>
      have := ih (fun e he => h5 e (by simp [he]))
      unfold explOf implOf at this ⊢
      rw [List.filterMap_cons, List.filterMap_cons]
      cases hx : x.2.2 with
      | true =>
        obtain ⟨e, he⟩ := Option.isSome_iff_exists.1 (h5 x (by simp) hx)
        simp only [if_true, he, List.length_cons]
        omega
      | false =>
        simp only [Bool.false_eq_true, if_false, List.length_cons]
        omega
  · intro e he
    unfold BS.contains
    rw [List.any_eq_true]
    exact ⟨e.1, by rw [h4]; exact List.mem_map.2 ⟨e, he, rfl⟩, BCon.isEqual_refl _⟩

omit [Zero α] in
/-- C40. A constraint equal to one of the solver is refused and nothing changes; and this is the only case where
`add` returns `false`. -/
theorem C40_refused (s : BS α κ) (c : BCon α κ) (p fuel : Nat) (junk : List α) :
    (s.contains c = true → s.add fuel c p junk = (s, .ok false)) ∧
    (∀ s', s.add fuel c p junk = (s', .ok false) → s.contains c = true ∧ s' = s) := by
  constructor
  · intro hc; unfold BS.add; rw [if_pos hc]
  · intro s' ha
    unfold BS.add at ha
    cases hc : s.contains c with
    | true => rw [hc] at ha; simp at ha; exact ⟨rfl, ha.symm⟩
    | false =>
      exfalso
      rw [hc] at ha
      simp only [Bool.false_eq_true, if_false] at ha
      have himp : ∀ s1 : BS α κ, s1.addImplicit c p ≠ (s', .ok false) := by
        intro s1 h1
        unfold BS.addImplicit at h1
        rcases hh : s1.hi.add c.impl p with ⟨hi, er⟩
        rw [hh] at h1
        cases er <;> simp at h1
      cases he : c.econ with
      | none => rw [he] at ha; exact himp _ ha
      | some e =>
        rw [he] at ha
        simp only at ha
        rcases hx : s.ex.add fuel e junk with er | ⟨r, ex⟩
        · rw [hx] at ha; simp at ha
        · rw [hx] at ha
          cases r with
          | none => exact himp _ ha
          | some n => simp at ha

omit [Zero α] in
/-- C40. What the solver takes for the same constraint: same function, same comparison types, and either both are
explicit with the same explicit function, inputs and outputs, or none is. -/
theorem C40_equal (a b : BCon α κ) : a.isEqual b = true ↔
    (a.impl.comp = b.impl.comp ∧ a.impl.rhsSize = b.impl.rhsSize ∧ a.impl.fn.key = b.impl.fn.key) ∧
    ((a.expl = none ∧ b.expl = none) ∨ ∃ x y : EPart α, a.expl = some x ∧ b.expl = some y ∧
      x.id = y.id ∧ x.inQ = y.inQ ∧ x.outQ = y.outQ ∧ x.inV = y.inV ∧ x.outV = y.outV) := by
  unfold BCon.isEqual Impl.isEqual
  rw [Bool.and_eq_true, Bool.and_eq_true, Bool.and_eq_true, decide_eq_true_iff, decide_eq_true_iff,
    decide_eq_true_iff]
  refine and_congr and_assoc ?_
  cases ha : a.expl <;> cases hb : b.expl <;> simp [EPart.same, and_assoc]

/-- C40. A new explicit constraint compatible with those of the explicit set becomes explicit; the iterative
part keeps its constraints. -/
theorem C40_explicit (hb : BS.Built E nq nv h s) (c : BCon α κ) (p : Nat)
    (junk : List α) (e : ECon α κ) (he : c.econ = some e) (hnew : s.contains c = false)
    (hw : ∀ c' ∈ s.ex.cons ++ [e], WellFormed nq nv c') (hcoh : AllCoherent (s.ex.cons ++ [e]))
    (hcomp : Compatible s.ex.cons e) :
    ∃ N, ∀ fuel, N ≤ fuel → ∃ s', s.add fuel c p junk = (s', .ok true) ∧
      s'.ex.cons = s.ex.cons ++ [e] ∧ s'.hi.constraints = s.hi.constraints ∧ s'.hi.prio = s.hi.prio ∧
      s'.contains c = true ∧
      (∀ i, Covers s'.hi.free.segs i ↔ i < nv ∧ ¬ ∃ c' ∈ s'.ex.cons, WritesV c' i) := by
  obtain ⟨h1, h2, h3, h4, -⟩ := hb.parts
  obtain ⟨N, hN⟩ := C10_accept_iff_compatible h2 e junk hw hcoh
  refine ⟨N, fun fuel hf => ?_⟩
  obtain ⟨ex, ha, hc⟩ := (hN fuel hf).1 hcomp
  refine ⟨BS.explicitChanged { s with ex := ex, all := s.all ++ [c] }, ?_, hc, rfl, rfl, ?_, ?_⟩
  · unfold BS.add
    rw [hnew, he]
    simp only [Bool.false_eq_true, if_false, ha]
  · unfold BS.contains
    rw [List.any_eq_true]
    exact ⟨c, by simp [BS.explicitChanged], BCon.isEqual_refl c⟩
  · exact (C11_outputs (.add _ fuel e junk _ _ h2 ha)).2.2.2.1

/-- C40. A new constraint that is implicit, or explicit but not compatible, is handled by the iterative part at
the given priority, if its function is not yet there; the explicit set does not change. -/
theorem C40_implicit (hb : BS.Built E nq nv h s) (hl : BHist.Lawful E h) (c : BCon α κ) (p : Nat)
    (junk : List α) (m n : Nat) (hin : ∀ e ∈ implOf h, SameInput m n e.1) (hc : SameInput m n c.impl)
    (hnew : s.contains c = false) (hk : ∀ e ∈ implOf h, e.1.fn.key ≠ c.impl.fn.key)
    (hex : ∀ e, c.econ = some e → (∀ c' ∈ s.ex.cons ++ [e], WellFormed nq nv c') ∧
      AllCoherent (s.ex.cons ++ [e]) ∧ ¬ Compatible s.ex.cons e ∧ ¬ ∃ i, Reads e i ∧ Writes e i) :
    ∃ N, ∀ fuel, N ≤ fuel → ∃ s', s.add fuel c p junk = (s', .ok true) ∧ s'.ex = s.ex ∧
      s'.hi.constraints = s.hi.constraints ++ [c.impl] ∧ lookupKey s'.hi.prio c.impl.fn.key = some p ∧
      s'.contains c = true := by
  obtain ⟨h1, h2, h3, h4, -⟩ := hb.parts
  obtain ⟨l1, l2⟩ := hl.impl
  obtain ⟨hi, ha, hcs, hpr⟩ := C28_new_succeeds h1 l1 l2 m n hin c.impl hc hk p
  have hcont : ∀ s' : BS α κ, s'.all = s.all ++ [c] → s'.contains c = true := by
    intro s' hs'
    unfold BS.contains
    rw [List.any_eq_true]
    exact ⟨c, by rw [hs']; simp, BCon.isEqual_refl c⟩
  cases he : c.econ with
  | none =>
    refine ⟨0, fun fuel _ => ⟨⟨hi, s.all ++ [c], s.ex⟩, ?_, rfl, hcs, hpr, hcont _ rfl⟩⟩
    unfold BS.add BS.addImplicit
    rw [hnew, he]
    simp only [Bool.false_eq_true, if_false, ha]
  | some e =>
    obtain ⟨e1, e2, e3, e4⟩ := hex e he
    obtain ⟨N, hN⟩ := C10_accept_iff_compatible h2 e junk e1 e2
    refine ⟨N, fun fuel hf => ⟨⟨hi, s.all ++ [c], s.ex⟩, ?_, rfl, hcs, hpr, hcont _ rfl⟩⟩
    rcases (hN fuel hf).2 e3 with hx | ⟨-, hx⟩
    · unfold BS.add BS.addImplicit
      rw [hnew, he]
      simp only [Bool.false_eq_true, if_false, hx, ha]
    · exact absurd hx e4

omit [Zero α] in
/-- C40. In the remaining cases (function already handled by the iterative part with other comparison types, or
explicit constraint reading its own output) an exception is raised and nothing changes: no constraint is half
inserted. -/
theorem C40_exception (s : BS α κ) (c : BCon α κ) (p fuel : Nat) (junk : List α) (s' : BS α κ)
    (er : Err) (ha : s.add fuel c p junk = (s', .error er)) : s' = s := by
  have himp : ∀ s1 : BS α κ, s1.addImplicit c p = (s', .error er) → s' = s1 := by
    intro s1 h1
    unfold BS.addImplicit at h1
    rcases hh : s1.hi.add c.impl p with ⟨hi, er⟩
    rw [hh] at h1
    cases er <;> simp at h1
    exact h1.1.symm
  unfold BS.add at ha
  cases hc : s.contains c with
  | true => rw [hc] at ha; simp at ha
  | false =>
    rw [hc] at ha
    simp only [Bool.false_eq_true, if_false] at ha
    cases he : c.econ with
    | none => rw [he] at ha; exact himp _ ha
    | some e =>
      rw [he] at ha
      simp only at ha
      rcases hx : s.ex.add fuel e junk with er | ⟨r, ex⟩
      · rw [hx] at ha; simp at ha; exact ha.1.symm
      · rw [hx] at ha
        cases r with
        | none => rw [himp _ ha, add_none hx]
        | some n => simp at ha

end

open BsX in
/-- The hypotheses hold for a solver with an implicit constraint, an explicit one, and an explicit one that came
too late; the second one is refused if added again. -/
example : BS.Built E 4 4 [(cI, 0, false), (cE, 0, true), (cE0, 1, false)] s3 ∧
    BHist.Lawful E [(cI, 0, false), (cE, 0, true), (cE0, 1, false)] ∧
    s3.ex.data.length = 1 ∧ s3.hi.constraints.map (·.fn.key) = [11, 10] ∧ s3.contains cE = true ∧
    s3.hi.levels.length = 2 ∧ s3.hi.free.segs = [⟨0, 2⟩, ⟨3, 1⟩] :=
  ⟨s3_built, lawful, by decide +kernel⟩

section
variable [CommRing α] [LinearOrder α] [IsStrictOrderedRing α] [DecidableEq κ] {E : Space α → List α → Prop}
  {nq nv : Nat} {h : BHist α κ} {s : BS α κ}

/-- C40. Enforcement: a configuration is declared satisfied exactly if each constraint of the explicit set and each
constraint handled iteratively is (but for those of an optional last level); by `C40_partition` these are all the
constraints added. -/
theorem C40_enforced (hb : BS.Built E nq nv h s) (hl : BHist.Lawful E h) (t : α) (ht : s.ex.threshold ≠ -1)
    (hthr : s.ex.threshold = t) (hsq : s.hi.sqThr = t * t)
    (hne : s.hi.lastIsOptional = true → s.hi.levels ≠ []) (q : Nat → α) :
    ∃ err b, s.isSatisfied q = some (err, b) ∧
      (b = true ↔ t ≠ 0 ∧
        (∀ d ∈ s.ex.data, normSq (d.c.space.sub (d.c.h q) d.rhs) < t * t) ∧
        (∀ e ∈ h, e.2.2 = false → IsMandatory s.hi (e.1.impl, e.2.1) → ∃ r,
          s.hi.getRhs e.1.impl = some (some r) ∧ sqSum (conError s.hi.ineqThr q e.1.impl r) < t * t)) := by
  obtain ⟨h1, h2, h3, h4, -⟩ := hb.parts
  obtain ⟨l1, l2⟩ := hl.impl
  obtain ⟨b, hs1, hs2⟩ := C33_satisfied h1 l1 l2 hne q
  obtain ⟨err, he, -⟩ := residual_spec h1 l1 l2 q
  obtain ⟨k1, -⟩ := C18_isSatisfied s.ex q s.ex.threshold ht
  refine ⟨err ++ (s.ex.isSatisfied q (-1)).1, b && (s.ex.isSatisfied q (-1)).2, by
    unfold BS.isSatisfied
    simp only [hs1, he, Option.bind_eq_bind, Option.bind_some], ?_⟩
  rw [Bool.and_eq_true, hs2, C18_default_threshold s.ex q ht, k1, hthr, hsq]
  constructor
  · rintro ⟨⟨-, g1⟩, g2, g3⟩
    exact ⟨g2, g3, fun e he hf hm => g1 _ (mem_implOf.2 ⟨e, he, hf, rfl, rfl⟩) hm⟩
  · rintro ⟨g1, g2, g3⟩
    refine ⟨⟨mul_self_pos.2 g1, ?_⟩, g1, g2⟩
    rintro ⟨c, p⟩ hc hm
    obtain ⟨e, he, hf, rfl, rfl⟩ := mem_implOf.1 hc
    exact g3 e he hf hm

/-! ## C41 -/

/-- C41. The error vector filled by `isSatisfied(q, error)` has the size of the errors of all the constraints: the rows
of the iterative constraints, then those of the implicit formulation of the explicit ones. -/
theorem C41_vector (hb : BS.Built E nq nv h s) (hl : BHist.Lawful E h) (q : Nat → α) (err : List α) (b : Bool)
    (hs : s.isSatisfied q = some (err, b)) :
    err.length = ((implOf h).map (·.1.fn.space.nv)).sum + ((explOf h).map (·.space.nv)).sum := by
  obtain ⟨h1, h2, h3, h4, -⟩ := hb.parts
  obtain ⟨l1, l2⟩ := hl.impl
  obtain ⟨x1, x2⟩ := hl.expl
  obtain ⟨e, he, hlen⟩ := residual_spec h1 l1 l2 q
  simp only [BS.isSatisfied, he, Option.bind_eq_bind, Option.bind_some, Option.bind_eq_some_iff,
    Option.some.injEq, Prod.mk.injEq] at hs
  obtain ⟨_, -, rfl, -⟩ := hs
  rw [List.length_append, hlen, C23_dimension h1 l1 l2,
    C18_error_size h2 (fun c => E c.space) (by rw [h3]; exact x1) q (by rw [h3]; exact fun c hc => x2 c hc q),
    (Inv.built h2).1.errSize, h3]

/-- C41, part.  The size announced by `errorSize` is the size of the vector exactly when the implicit formulations of
the explicit constraints have together as many rows as these constraints have output velocity variables.
Missing: explicit constraints with more rows than outputs, see `C41_refuted`. -/
theorem C41_size_partial (hb : BS.Built E nq nv h s) (hl : BHist.Lawful E h)
    (hw : ∀ c ∈ explOf h, WellFormed nq nv c) (hcoh : AllCoherent (explOf h)) (q : Nat → α) (err : List α)
    (b : Bool) (hs : s.isSatisfied q = some (err, b)) :
    err.length = s.errorSize ↔
      ((explOf h).map (·.space.nv)).sum = ((explOf h).map fun c => (indices c.outV).length).sum := by
  obtain ⟨h1, h2, h3, h4, -⟩ := hb.parts
  obtain ⟨l1, l2⟩ := hl.impl
  rw [C41_vector hb hl q err b hs]
  unfold BS.errorSize
  rw [C23_dimension h1 l1 l2, outDers_nb h2 (by rw [h3]; exact hw) (by rw [h3]; exact hcoh), h3]
  omega

end

open BsX in
/-- With threshold 1 the configuration `(1, 2, 1, 5)` satisfies the explicit constraint but not the implicit one. -/
example : let s : BS Int Nat := { s2 with hi := { s2.hi with sqThr := 1 * 1 }, ex := { s2.ex with threshold := 1 } }
    BS.Built E 4 4 [(cI, 0, false), (cE, 0, true)] s ∧ s.ex.threshold ≠ -1 ∧
    s.isSatisfied (fun i => [1, 2, 1, 5].getD i 0) = some ([3, 0], false) ∧
    s.isSatisfied (fun i => [1, -1, 1, 5].getD i 0) = some ([0, 0], true) :=
  ⟨.params (1 * 1) _ 1 _ _ _ s2_built, by decide +kernel⟩

namespace BsX

/-- `(q 0, q 1)`, first component only or second component only. -/
def fM : Fn Int Nat := fn 13 2 (fun q => [q 0, q 1]) [true, true, false, false]
def iM1 : Impl Int Nat := (Impl.create fM [.equality, .equality] [true, false]).get (by decide +kernel)
def iM2 : Impl Int Nat := (Impl.create fM [.equality, .equality] [false, true]).get (by decide +kernel)
theorem iM1_built : Impl.Built fM [true, false] [.equality, .equality] iM1 := .create _ _ (Option.some_get _).symm
theorem iM2_built : Impl.Built fM [false, true] [.equality, .equality] iM2 := .create _ _ (Option.some_get _).symm

def sM : BS Int Nat :=
  let s := (s0.add 20 ⟨iM1, none⟩ 0).1
  { s with hi := { s.hi with sqThr := 1 * 1 }, ex := { s.ex with threshold := 1 } }

theorem sM_built : BS.Built E 4 4 [(⟨iM1, none⟩, 0, false)] sM :=
  .params (1 * 1) _ 1 _ _ _ (.add (h := []) (s := s0) (c := ⟨iM1, none⟩) (p := 0) (fuel := 20) (junk := []) (.init 1)
    ⟨_, _, _, iM1_built⟩ (Prod.ext rfl rfl))

end BsX

open BsX in
/-- C40 is false with masks, which `isEqual` does not compare (implicit.cc:185-192): once the first component of a
function is constrained, the constraint on the second component is refused, and configurations that do not satisfy
it are accepted. -/
theorem C40_mask_refuted : BS.Built E 4 4 [(⟨iM1, none⟩, 0, false)] sM ∧
    Impl.Built fM [false, true] [.equality, .equality] iM2 ∧
    sM.add 20 ⟨iM2, none⟩ 0 = (sM, .ok false) ∧
    sM.isSatisfied (fun i => [0, 9, 0, 0].getD i 0) = some ([0, 0], true) ∧
    conError sM.hi.ineqThr (fun i => [0, 9, 0, 0].getD i 0) iM2 [0, 0] = [0, 9] :=
  ⟨sM_built, iM2_built, (C40_refused sM _ 0 20 []).1 (by decide +kernel), by decide +kernel, by decide +kernel⟩

namespace BsX

/-- Implicit formulation with eight rows, as that of an explicit contact constraint
(explicit/convex-shape-contact.cc): here `q 0 … q 5` and two null rows, for six output variables. -/
def fH : Fn Int Nat := fn 12 8 (fun q => [q 0, q 1, q 2, q 3, 0, 0, 0, 0]) [true, true, true, true]
def iH : Impl Int Nat := (Impl.create fH (List.replicate 8 .equality) []).get (by decide +kernel)
theorem iH_built : Impl.Built fH [] (List.replicate 8 .equality) iH := .create _ _ (Option.some_get _).symm
/-- Explicit constraint with four outputs and eight rows. -/
def cH : BCon Int Nat := ⟨iH, some ⟨8, [], [⟨0, 4⟩], [], [⟨0, 4⟩], fun _ r => r.take 4, fun _ _ _ _ _ => 0⟩⟩

def sH : BS Int Nat := (s0.add 20 cH 0).1
theorem sH_built : BS.Built E 4 4 [(cH, 0, true)] sH :=
  .add (h := []) (s := s0) (c := cH) (p := 0) (fuel := 20) (junk := []) (.init 1) ⟨_, _, _, iH_built⟩
    (Prod.ext rfl rfl)

end BsX

open BsX in
/-- C41 is false: an explicit constraint whose implicit formulation has 8 rows for 4 outputs (the contact constraints
have 8 rows for 6 outputs).  The size announced is 4, that of the vector is 8. -/
theorem C41_refuted : ∃ (h : BHist Int Nat) (s : BS Int Nat) (q : Nat → Int) (err : List Int),
    BS.Built E 4 4 h s ∧ BHist.Lawful E h ∧ s.isSatisfied q = some (err, true) ∧ s.errorSize = 4 ∧
    err.length = 8 := by
  refine ⟨[(cH, 0, true)], { sH with
      hi := { sH.hi with sqThr := 1 }, ex := { sH.ex with threshold := 1 } },
    fun _ => 0, List.replicate 8 0, .params 1 _ 1 _ _ _ sH_built, ?_, ?_, rfl, rfl⟩
  · constructor <;> intro e he <;> simp only [List.mem_cons, List.not_mem_nil, or_false] at he <;> subst he
    · exact vectorSpace_lawful 8
    · intro q; rfl
  · decide +kernel

open BsX in
/-- With one row for each output, both sizes agree. -/
example : (s2.isSatisfied fun _ => 0).map (·.1.length) = some s2.errorSize ∧ s2.errorSize = 2 := by
  decide +kernel

/-! ## C38 -/

section
variable [Zero α] [DecidableEq κ] {E : Space α → List α → Prop} {nq nv : Nat} {h : BHist α κ} {s : BS α κ}

/-- What `rightHandSide(v)` does when all the iterative constraints have the same priority: the iterative part receives
the head of the vector, and the explicit part *also* receives the head. -/
theorem C38_head (hb : BS.Built E nq nv h s) (hl : BHist.Lawful E h) (p : Nat) (hp : ∀ e ∈ implOf h, e.2 = p)
    (v : List α) (hlen : v.length = s.rhsSize) (R : κ → List α)
    (hR : ∀ e ∈ implOf h, E e.1.fn.space (R e.1.fn.key))
    (htop : v.take s.hi.rhsSize = stackRhs (implOf h) s.hi.levels.length R) (parts : List (List α))
    (hp' : List.Forall₂ (fun c w => E c.space w ∧ ∀ (i : Nat) (t : Comp), c.comp[i]? = some t →
      t ≠ .equality → (c.space.log w)[i]? = some 0) (explOf h) parts)
    (hbot : v.take s.ex.rhsSize = parts.flatten) :
    ∃ s', s.setRhsVec v = some s' ∧ s'.rhs = v.take s.hi.rhsSize ++ v.take s.ex.rhsSize := by
  obtain ⟨h1, h2, h3, h4, -⟩ := hb.parts
  obtain ⟨l1, l2⟩ := hl.impl
  obtain ⟨x1, x2⟩ := hl.expl
  obtain ⟨hi, g1, g2, -⟩ := C26_one_level_partial h1 l1 l2 p hp R hR
  obtain ⟨ex, g3, g4⟩ := C17_stacked_identity h2 (fun c => E c.space) (by rw [h3]; exact x1)
    (by rw [h3]; exact hb.comp_len) parts (by rw [h3]; exact hp')
  unfold BS.rhsSize at hlen
  refine ⟨⟨hi, s.all, ex⟩, ?_, ?_⟩
  · unfold BS.setRhsVec headOf
    rw [if_pos (by omega), if_pos (by omega), htop, hbot]
    simp only [Option.bind_eq_bind, Option.bind_some, g1, g3]
  · unfold BS.rhs
    simp only [g2, g4, htop, hbot]

/-- C38, part: if the explicit part of the vector is also its head (for instance if there is no iterative constraint, or
no explicit one) and if all the iterative constraints have the same priority, setting then reading gives the vector
back.  Missing: the other vectors, for which it is false (`C38_head_refuted`), and several levels (C26). -/
theorem C38_round_trip_partial (hb : BS.Built E nq nv h s) (hl : BHist.Lawful E h) (p : Nat)
    (hp : ∀ e ∈ implOf h, e.2 = p) (v : List α) (hlen : v.length = s.rhsSize) (R : κ → List α)
    (hR : ∀ e ∈ implOf h, E e.1.fn.space (R e.1.fn.key))
    (htop : v.take s.hi.rhsSize = stackRhs (implOf h) s.hi.levels.length R) (parts : List (List α))
    (hp' : List.Forall₂ (fun c w => E c.space w ∧ ∀ (i : Nat) (t : Comp), c.comp[i]? = some t →
      t ≠ .equality → (c.space.log w)[i]? = some 0) (explOf h) parts)
    (hbot : v.drop s.hi.rhsSize = parts.flatten) (hsame : v.take s.ex.rhsSize = v.drop s.hi.rhsSize) :
    ∃ s', s.setRhsVec v = some s' ∧ s'.rhs = v := by
  obtain ⟨s', h1, h2⟩ := C38_head hb hl p hp v hlen R hR htop parts hp' (by rw [hsame]; exact hbot)
  exact ⟨s', h1, by rw [h2, hsame, List.take_append_drop]⟩

/-- C38 is false as soon as the explicit part of the vector is not its head. -/
theorem C38_head_refuted (hb : BS.Built E nq nv h s) (hl : BHist.Lawful E h) (p : Nat)
    (hp : ∀ e ∈ implOf h, e.2 = p) (v : List α) (hlen : v.length = s.rhsSize) (R : κ → List α)
    (hR : ∀ e ∈ implOf h, E e.1.fn.space (R e.1.fn.key))
    (htop : v.take s.hi.rhsSize = stackRhs (implOf h) s.hi.levels.length R) (parts : List (List α))
    (hp' : List.Forall₂ (fun c w => E c.space w ∧ ∀ (i : Nat) (t : Comp), c.comp[i]? = some t →
      t ≠ .equality → (c.space.log w)[i]? = some 0) (explOf h) parts)
    (hbot : v.take s.ex.rhsSize = parts.flatten) (hdiff : v.take s.ex.rhsSize ≠ v.drop s.hi.rhsSize) :
    ∃ s', s.setRhsVec v = some s' ∧ s'.rhs ≠ v := by
  obtain ⟨s', h1, h2⟩ := C38_head hb hl p hp v hlen R hR htop parts hp' hbot
  refine ⟨s', h1, fun he => hdiff ?_⟩
  rw [h2] at he
  have : v.take s.hi.rhsSize ++ v.take s.ex.rhsSize = v.take s.hi.rhsSize ++ v.drop s.hi.rhsSize := by
    rw [he, List.take_append_drop]
  exact List.append_cancel_left this

end

open BsX in
/-- C38 is false: with the implicit constraint and the explicit one of the example, setting `(5, 7)` and reading gives
`(5, 5)`. -/
theorem C38_refuted : BS.Built E 4 4 [(cI, 0, false), (cE, 0, true)] s2 ∧
    (s2.setRhsVec [5, 7]).map (·.rhs) = some [5, 5] :=
  ⟨s2_built, by decide +kernel⟩

open BsX in
/-- The hypotheses of the partial theorem hold for the vector `(5, 5)`; those of the refutation for `(5, 7)`. -/
example : (∀ v ∈ [[5, 5], [5, 7]], v.length = s2.rhsSize ∧ v.take s2.hi.rhsSize =
      stackRhs (implOf [(cI, 0, false), (cE, 0, true)]) s2.hi.levels.length (fun _ => [5]) ∧
      v.take s2.ex.rhsSize = [[5]].flatten) ∧
    s2.hi.rhsSize = 1 ∧ s2.ex.rhsSize = 1 ∧
    explOf [(cI, 0, false), (cE, 0, true)] = [part.econ iE] ∧ E (part.econ iE).space [5] :=
  ⟨by decide +kernel, by decide +kernel, by decide +kernel, rfl, rfl⟩

section
variable [Zero α] [DecidableEq κ] {E : Space α → List α → Prop} {nq nv : Nat} {h : BHist α κ} {s : BS α κ}

/-- C38, constraint by constraint, iterative part: the right hand side given is read back, and nothing changes in the
explicit set. -/
theorem C38_one_implicit (hb : BS.Built E nq nv h s) (hl : BHist.Lawful E h) (e : BCon α κ × Nat × Bool)
    (he : e ∈ h) (hf : e.2.2 = false) (v : List α) (hv : E e.1.impl.fn.space v) :
    ∃ s', s.setRhs e.1 v = some (s', true) ∧ s'.getRhs e.1 = some (some v) ∧ s'.ex = s.ex ∧
      ∀ e' ∈ h, e'.2.2 = false → (e'.1.impl, e'.2.1) ≠ (e.1.impl, e.2.1) →
        s'.getRhs e'.1 = s.getRhs e'.1 := by
  obtain ⟨h1, h2, h3, h4, -⟩ := hb.parts
  obtain ⟨l1, l2⟩ := hl.impl
  have hm : (e.1.impl, e.2.1) ∈ implOf h := mem_implOf.2 ⟨e, he, hf, rfl, rfl⟩
  obtain ⟨hi, g1, g2, g3, -⟩ := C24_set_get h1 l1 l2 _ hm v hv
  simp only at g1 g2
  refine ⟨{ s with hi := hi }, ?_, ?_, rfl, ?_⟩
  · unfold BS.setRhs; simp only [g1]
  · unfold BS.getRhs; simp only [g2]
  · intro e' he' hf' hne
    have hm' : (e'.1.impl, e'.2.1) ∈ implOf h := mem_implOf.2 ⟨e', he', hf', rfl, rfl⟩
    have g4 := g3 _ hm' hne
    obtain ⟨r, g5, -⟩ := C24_get h1 l1 l2 _ hm'
    simp only at g4 g5
    unfold BS.getRhs
    simp only [g4, g5]

/-- C38, constraint by constraint, explicit part: the right hand side given is read back on the `Equality` components,
provided that no other constraint has the same function.  Missing: several constraints on one function
(`C38_hidden_refuted`). -/
theorem C38_one_explicit_partial (hb : BS.Built E nq nv h s) (hl : BHist.Lawful E h)
    (e : BCon α κ × Nat × Bool) (he : e ∈ h) (hf : e.2.2 = true)
    (huniq : ∀ e' ∈ h, e'.1.impl.fn.key = e.1.impl.fn.key → e' = e) (v : List α)
    (hv : E e.1.impl.fn.space v) :
    ∃ s' c, e.1.econ = some c ∧ s.setRhs e.1 v = some (s', true) ∧
      s'.getRhs e.1 = some (some (requestedRhs c v)) ∧ s'.hi = s.hi ∧
      ∀ e' ∈ h, e' ≠ e → s'.getRhs e'.1 = s.getRhs e'.1 := by
  obtain ⟨h1, h2, h3, h4, h5, -⟩ := hb.parts
  obtain ⟨l1, l2⟩ := hl.impl
  obtain ⟨x1, x2⟩ := hl.expl
  obtain ⟨c, hc⟩ := Option.isSome_iff_exists.1 (h5 e he hf)
  have hkey := (econ_fields hc).1
  have hcm : c ∈ s.ex.cons := by rw [h3]; exact mem_explOf.2 ⟨e, he, hf, hc⟩
  have habs : ∀ x ∈ implOf h, x.1.fn.key ≠ e.1.impl.fn.key := by
    rintro ⟨i, p⟩ hx hk
    obtain ⟨e', he', hf', rfl, rfl⟩ := mem_implOf.1 hx
    have := huniq e' he' hk
    subst this
    rw [hf] at hf'; simp at hf'
  obtain ⟨a1, -, a3⟩ := C24_absent h1 l1 l2 e.1.impl habs v (fun _ => 0)
  have hu : ∀ c' ∈ s.ex.cons, c'.key = c.key → c' = c := by
    intro c' hc' hk
    rw [h3] at hc'
    obtain ⟨e', he', hf', hec⟩ := mem_explOf.1 hc'
    have := huniq e' he' (by rw [← (econ_fields hec).1, hk, hkey])
    subst this
    rw [hc] at hec
    exact (Option.some.inj hec).symm
  have hElv : E c.space v := by rw [(econ_fields hc).2.2.1]; exact hv
  obtain ⟨b1, b2, b3, b4⟩ := C17_set_one h2 (fun c => E c.space) (by rw [h3]; exact x1)
    (by rw [h3]; exact hb.comp_len) c hcm hu v hElv
  refine ⟨{ s with ex := (s.ex.setRhsOf c v).1 }, c, hc, ?_, ?_, rfl, ?_⟩
  · unfold BS.setRhs; simp only [a1, hc, b1]
  · unfold BS.getRhs; simp only [a3, hc, Option.bind_some, b2]
  · intro e' he' hne
    have hk : e'.1.impl.fn.key ≠ e.1.impl.fn.key := fun hk => hne (huniq e' he' hk)
    unfold BS.getRhs
    cases hec : e'.1.econ with
    | none => rfl
    | some c' =>
      have := b3 c' (by rw [(econ_fields hec).1, hkey]; exact hk)
      simp only [Option.bind_some, this]

end

open BsX in
/-- C38 fails, constraint by constraint, if the function is in both parts (here the same explicit constraint with two
comparison types): the call for the explicit constraint modifies the right hand side of the other one, and the
explicit constraint keeps its own. -/
theorem C38_hidden_refuted :
    BS.Built E 4 4 [(cI, 0, false), (cE, 0, true), (cE0, 1, false)] s3 ∧
    (s3.setRhs cE [3]).map (fun r => (r.2, r.1.ex.getRhs, r.1.hi.rhs, r.1.getRhs cE)) =
      some (true, [0], [0, 3], some (some [3])) :=
  ⟨s3_built, by decide +kernel⟩

open BsX in
/-- Without the third constraint the hypotheses of `C38_one_explicit_partial` hold. -/
example : (∀ e' ∈ [(cI, 0, false), (cE, 0, true)], e'.1.impl.fn.key = cE.impl.fn.key → e' = (cE, 0, true)) ∧
    (s2.setRhs cE [3]).map (fun r => (r.2, r.1.rhs, r.1.getRhs cE)) =
      some (true, [0, 3], some (some [3])) := by
  refine ⟨?_, by decide +kernel⟩
  intro e' he' hk
  simp only [List.mem_cons, List.not_mem_nil, or_false] at he'
  rcases he' with rfl | rfl
  · exact absurd hk (by decide +kernel)
  · rfl

end Hpp
