import Verif.BySub.Archive

/-!
# Properties of the serialization of the solver by substitution: C99
-/

namespace Hpp

variable {α κ : Type}

/-! ### lemmas -/

/-- Two iterative solvers with the same history of constraints have the same structure. -/
theorem HI.Inv.same [DecidableEq κ] {h : List (Impl α κ × Nat)} {s t : HI α κ} (hs : HI.Inv h s) (ht : HI.Inv h t) :
    t.constraints = s.constraints ∧ t.prio = s.prio ∧ t.dimension = s.dimension ∧
      t.levels.map (·.stack.cs) = s.levels.map (·.stack.cs) ∧
      ∀ e ∈ h, lookupKey t.iq e.1.fn.key = lookupKey s.iq e.1.fn.key ∧
        lookupKey t.iv e.1.fn.key = lookupKey s.iv e.1.fn.key := by
  have hlev : t.levels.length = s.levels.length := by
    rcases ht.nlev_min with h0 | ⟨e, he, h0⟩
    · rcases hs.nlev_min with h1 | ⟨e, he, h1⟩
      · omega
      · have := ht.nlev e he; omega
    · have h1 := hs.nlev e he
      rcases hs.nlev_min with h0' | ⟨e', he', h0'⟩
      · omega
      · have := ht.nlev e' he'; omega
  have hcs : ∀ {u : HI α κ}, HI.Inv h u → u.levels.map (·.stack.cs) =
      (List.range u.levels.length).map (atLevel h) := by
    intro u hu
    apply List.ext_getElem?
    intro i
    rw [List.getElem?_map, List.getElem?_map]
    by_cases hi : i < u.levels.length
    · rw [List.getElem?_eq_getElem hi, List.getElem?_range hi]
      simp only [Option.map_some, Option.some.injEq]
      exact (hu.level i _ (List.getElem?_eq_getElem hi)).stack.cs_eq
    · rw [List.getElem?_eq_none (by omega), List.getElem?_eq_none (by simp; omega)]
      rfl
  refine ⟨by rw [ht.cons, hs.cons], by rw [ht.prio, hs.prio], ?_, by rw [hcs ht, hcs hs, hlev], ?_⟩
  · rw [ht.dim, hs.dim, levels_map_eq _ (fun cs => (cs.map (·.fn.space.nv)).sum)
      (fun i l hi => (ht.level i l hi).nv), levels_map_eq _ (fun cs => (cs.map (·.fn.space.nv)).sum)
      (fun i l hi => (hs.level i l hi).nv), hlev]
  · intro e he
    obtain ⟨l1, l2, hsp⟩ := List.append_of_mem he
    rcases e with ⟨c, p⟩
    exact ⟨by rw [ht.iq l1 c p l2 hsp, hs.iq l1 c p l2 hsp],
      by rw [ht.iv l1 c p l2 hsp, hs.iv l1 c p l2 hsp]⟩

/-- `add` computes the dimensions again, whatever they were. -/
theorem BS.add_junk [DecidableEq κ] {s s' : BS α κ} {fuel p : Nat} {c : BCon α κ} {junk : List α}
    (ha : s.add fuel c p junk = (s', .ok true)) (d r : Nat) :
    BS.add fuel { s with hi := { s.hi with dimension := d, reducedDim := r } } c p junk = (s', .ok true) := by
  obtain ⟨a1, a2, a3⟩ := BS.add_true ha
  have hcon : BS.contains { s with hi := { s.hi with dimension := d, reducedDim := r } } c = false := a1
  rcases a3 with ⟨e, n, he, hx, hhi⟩ | ⟨hx, hhi, hno⟩
  · unfold BS.add
    rw [hcon, he]
    simp only [Bool.false_eq_true, if_false, hx, BS.explicitChanged, Prod.mk.injEq, and_true]
    obtain ⟨hi, al, ex⟩ := s'
    simp only at a2 hhi hx ⊢
    subst hhi; subst a2
    rfl
  · unfold BS.add BS.addImplicit
    rw [hcon]
    obtain ⟨hi, al, ex⟩ := s'
    simp only at a2 hhi hx ⊢
    subst hx; subst a2
    cases he : c.econ with
    | none => simp only [Bool.false_eq_true, if_false, HI.add_junk hhi]
    | some e => simp only [Bool.false_eq_true, if_false, hno e he, HI.add_junk hhi]

/-- Loading the archive of a solver, for enough steps. -/
theorem bsLoad_spec [Zero α] [DecidableEq κ] {E : Space α → List α → Prop} {nq nv : Nat} {h : BHist α κ}
    {s : BS α κ} (hb : BS.Built E nq nv h s) (hl : BHist.Lawful E h) (m n : Nat)
    (hin : ∀ e ∈ implOf h, SameInput m n e.1) (hne : h ≠ []) (eps : α) (junk : Nat × Nat × Bool) (junkE : List α) :
    ∃ N, ∀ fuel, N ≤ fuel → ∃ t, BS.load eps fuel junk junkE s.save = (t, none) ∧
      Reloaded E nq nv h (fun e => (lookupKey s.hi.prio e.1.impl.fn.key).getD 0) s
        (BS.loadInit eps (0, 0, junk.2.2) s.save) t ∧
      (∀ e ∈ h, e.2.2 = false → (lookupKey s.hi.prio e.1.impl.fn.key).getD 0 = e.2.1) := by
  obtain ⟨h1, h2, h3, h4, h5, h6⟩ := hb.parts
  obtain ⟨l1, l2⟩ := hl.impl
  have hinv := (h1.inv l1 l2).1
  obtain ⟨-, hnq, hnv⟩ := Inv.built h2
  set g : BCon α κ × Nat × Bool → Nat := fun e => (lookupKey s.hi.prio e.1.impl.fn.key).getD 0 with hgdef
  have hg : ∀ e ∈ h, e.2.2 = false → g e = e.2.1 := by
    intro e he hf
    show (lookupKey s.hi.prio e.1.impl.fn.key).getD 0 = e.2.1
    rw [lookup_prio hinv (mem_implOf.2 ⟨e, he, hf, rfl, rfl⟩ : (e.1.impl, e.2.1) ∈ implOf h)]
    rfl
  have hzip : s.save.constraints.zip s.save.priorities = h.map fun e => (e.1, g e) := by
    unfold BS.save
    simp only
    rw [h4]
    simp only [List.map_map]
    rw [List.zip_map']
    rfl
  have ht0 : Reloaded E nq nv [] g (BS.init α κ nq nv 0) (BS.loadInit eps (0, 0, junk.2.2) s.save)
      (BS.loadInit eps (0, 0, junk.2.2) s.save) := by
    have hinit : BS.loadInit eps (0, 0, junk.2.2) s.save = { BS.init α κ nq nv eps with
        hi := { (BS.init α κ nq nv eps).hi with sqThr := s.hi.sqThr, ineqThr := s.hi.ineqThr, maxIter := s.hi.maxIter,
                                                lastIsOptional := s.hi.lastIsOptional, byLevel := junk.2.2 }
        ex := { (BS.init α κ nq nv eps).ex with threshold := eps } } := by
      subst hnq; subst hnv; rfl
    refine ⟨?_, ?_, rfl, rfl, rfl, rfl, rfl, rfl, ?_, ?_, ?_⟩
    · rw [hinit]; exact .params _ _ _ _ _ _ (.init eps)
    · rw [hinit]; rfl
    · rw [hinit]; rfl
    · intro l hl'; simp [BS.loadInit, HI.init] at hl'
    · intro d hd; simp [BS.loadInit, ECS.init] at hd
  obtain ⟨N, hN⟩ := load_sim hb m n g junkE _ ht0 hl hin hg
  refine ⟨N, fun fuel hf => ?_⟩
  obtain ⟨t, ht, hr⟩ := hN fuel hf
  refine ⟨t, ?_, hr, hg⟩
  unfold BS.load
  rw [hzip]
  cases h with
  | nil => exact absurd rfl hne
  | cons e h =>
    have hc0 : (BS.loadInit eps (0, 0, junk.2.2) s.save).contains e.1 = false := rfl
    rw [List.map_cons, BS.loadLoop] at ht ⊢
    split at ht
    · rename_i t1 b hadd
      cases b with
      | false =>
        exfalso
        have := ((C40_refused _ _ _ _ _).2 _ hadd).1
        rw [hc0] at this
        simp at this
      | true =>
        have := BS.add_junk hadd junk.1 junk.2.1
        have heq : ({ BS.loadInit eps (0, 0, junk.2.2) s.save with
            hi := { (BS.loadInit eps (0, 0, junk.2.2) s.save).hi with
              dimension := junk.1, reducedDim := junk.2.1 } } : BS α κ) = BS.loadInit eps junk s.save := rfl
        rw [heq] at this
        rw [this]
        exact ht
    · simp at ht

section
variable [Zero α] [DecidableEq κ] {E : Space α → List α → Prop} {nq nv : Nat} {h : BHist α κ} {s : BS α κ}

/-! ## C99 -/

/-- C99, part. Reading the archive of a solver inserts all its constraints again without exception, and gives a solver
with the same constraints, in the same parts (explicit or iterative), with the same order of evaluation, the same
input and output variables, the same levels, priorities and ranks, and the same parameters.  Missing: the threshold
of the explicit part, the right hand sides, the free variables and a buffer, see the `_refuted` theorems. -/
theorem C99_round_trip_partial (hb : BS.Built E nq nv h s) (hl : BHist.Lawful E h) (m n : Nat)
    (hin : ∀ e ∈ implOf h, SameInput m n e.1) (hne : h ≠ []) (eps : α) (junk : Nat × Nat × Bool) (junkE : List α) :
    ∃ N, ∀ fuel, N ≤ fuel → ∃ t, BS.load eps fuel junk junkE s.save = (t, none) ∧
      t.all = s.all ∧
      (t.ex.cons = s.ex.cons ∧ t.ex.order = s.ex.order ∧ t.ex.inArgs = s.ex.inArgs ∧ t.ex.outArgs = s.ex.outArgs ∧
        t.ex.notOutArgs = s.ex.notOutArgs ∧ t.ex.inDers = s.ex.inDers ∧ t.ex.outDers = s.ex.outDers ∧
        t.ex.notOutDers = s.ex.notOutDers ∧ t.ex.dep = s.ex.dep ∧ t.ex.errorSize = s.ex.errorSize) ∧
      (t.hi.constraints = s.hi.constraints ∧ t.hi.prio = s.hi.prio ∧ t.hi.dimension = s.hi.dimension ∧
        t.hi.levels.map (·.stack.cs) = s.hi.levels.map (·.stack.cs) ∧
        ∀ e ∈ implOf h, lookupKey t.hi.iq e.1.fn.key = lookupKey s.hi.iq e.1.fn.key ∧
          lookupKey t.hi.iv e.1.fn.key = lookupKey s.hi.iv e.1.fn.key) ∧
      t.hi.sqThr = s.hi.sqThr ∧ t.hi.ineqThr = s.hi.ineqThr ∧ t.hi.maxIter = s.hi.maxIter ∧
      t.hi.lastIsOptional = s.hi.lastIsOptional := by
  obtain ⟨N, hN⟩ := bsLoad_spec hb hl m n hin hne eps junk junkE
  refine ⟨N, fun fuel hf => ?_⟩
  obtain ⟨t, ht, hr, hg⟩ := hN fuel hf
  obtain ⟨h1, h2, h3, h4, -, -⟩ := hb.parts
  obtain ⟨p1, p2, p3, p4, -, -⟩ := hr.built.parts
  rw [implOf_map _ h hg] at p1
  obtain ⟨l1, l2⟩ := hl.impl
  have hf : ∀ {β : Type} (f : ECS α κ → β), (∀ x : ECS α κ, f x.erase = f x) → f t.ex = f s.ex := by
    intro β f hfx
    rw [← hfx t.ex, ← hfx s.ex, hr.ex]
  refine ⟨t, ht, by rw [p4, h4, List.map_map]; rfl, ⟨erase_cons hr.ex, hf (·.order) fun _ => rfl,
    hf (·.inArgs) fun _ => rfl, hf (·.outArgs) fun _ => rfl, hf (·.notOutArgs) fun _ => rfl,
    hf (·.inDers) fun _ => rfl, hf (·.outDers) fun _ => rfl, hf (·.notOutDers) fun _ => rfl,
    hf (·.dep) fun _ => rfl, hf (·.errorSize) fun _ => rfl⟩, ?_, hr.sqThr, hr.ineqThr, hr.maxIter, hr.opt⟩
  exact HI.Inv.same (h1.inv l1 l2).1 (p1.inv l1 l2).1

/-- C99. If the free variables are those that the solver chooses by itself (all the variables that no explicit
constraint computes), they are restored. -/
theorem C99_free (hb : BS.Built E nq nv h s) (hl : BHist.Lawful E h) (m n : Nat)
    (hin : ∀ e ∈ implOf h, SameInput m n e.1) (hne : h ≠ []) (eps : α) (junk : Nat × Nat × Bool) (junkE : List α) :
    ∃ N, ∀ fuel, N ≤ fuel → ∃ t, BS.load eps fuel junk junkE s.save = (t, none) ∧
      ∀ i, Covers t.hi.free.segs i ↔ i < nv ∧ ¬ ∃ c ∈ s.ex.cons, WritesV c i := by
  obtain ⟨N, hN⟩ := bsLoad_spec hb hl m n hin hne eps junk junkE
  refine ⟨N, fun fuel hf => ?_⟩
  obtain ⟨t, ht, hr, hg⟩ := hN fuel hf
  refine ⟨t, ht, fun i => ?_⟩
  obtain ⟨p1, p2, p3, p4, -, -⟩ := hr.built.parts
  rw [hr.free, ← erase_cons hr.ex]
  unfold loadedFree
  split
  · rename_i h0
    simp [Blocks.empty, Blocks.add, ECS.cons, h0, Seg.Has, addSeg]
  · exact (C11_outputs p2).2.2.2.1 i

/-- C99 fails for the values: whatever they were, after reading, the right hand sides are neutral, the threshold of
the explicit part is the machine precision, and the flag that asks to solve the levels one after the other is
not initialised. -/
theorem C99_values_refuted (hb : BS.Built E nq nv h s) (hl : BHist.Lawful E h) (m n : Nat)
    (hin : ∀ e ∈ implOf h, SameInput m n e.1) (hne : h ≠ []) (eps : α) (junk : Nat × Nat × Bool) (junkE : List α) :
    ∃ N, ∀ fuel, N ≤ fuel → ∃ t, BS.load eps fuel junk junkE s.save = (t, none) ∧
      (∀ e ∈ h, e.2.2 = false → t.getRhs e.1 = some (some e.1.impl.fn.space.neutral)) ∧
      (∀ d ∈ t.ex.data, d.rhs = d.c.space.neutral) ∧ t.ex.threshold = eps ∧ t.hi.byLevel = junk.2.2 := by
  obtain ⟨N, hN⟩ := bsLoad_spec hb hl m n hin hne eps junk junkE
  refine ⟨N, fun fuel hf => ?_⟩
  obtain ⟨t, ht, hr, hg⟩ := hN fuel hf
  refine ⟨t, ht, ?_, hr.rhsEx, hr.thr, hr.byLevel⟩
  obtain ⟨p1, -⟩ := hr.built.parts
  rw [implOf_map _ h hg] at p1
  obtain ⟨l1, l2⟩ := hl.impl
  obtain ⟨hinv, hfn, -⟩ := p1.inv l1 l2
  obtain ⟨R, hR, hRe⟩ := updated_rhsIs hinv hfn hr.rhsHi
  intro e he hfl
  have hm : (e.1.impl, e.2.1) ∈ implOf h := mem_implOf.2 ⟨e, he, hfl, rfl, rfl⟩
  unfold BS.getRhs
  have := getRhs_eq hinv hfn hR hm
  rw [hRe _ hm] at this
  rw [this]

/-- C99. The buffer of a solver that was constructed, not read, holds the Jacobian of the explicit part. -/
theorem C99_jacobian_fresh [One α] [Add α] [Mul α] {t : BS α κ} (hb : BS.Built E nq nv h t)
    (q : Nat → α) (rows : Segs) (J R : Jac α) :
    (⟨t, (BSObj.init α κ nq nv 0).je⟩ : BSObj α κ).updateJ q rows J R = t.updateJ q rows J R := by
  obtain ⟨-, p2, -⟩ := hb.parts
  obtain ⟨-, -, c3, c4, -⟩ := C11_outputs p2
  unfold BSObj.updateJ
  split
  · rename_i h0
    unfold BS.updateJ
    rw [if_pos h0]
  · rw [if_pos]
    rw [List.all_eq_true]
    intro i hi
    simp only [decide_eq_true_eq]
    show i < nv
    rcases List.mem_append.1 hi with hi | hi
    · exact ((c4 i).1 ((mem_indices _ _).1 hi)).1
    · obtain ⟨c, hc, hci⟩ := (c3 i).1 ((mem_indices _ _).1 hi)
      obtain ⟨hI, -, hnv⟩ := Inv.built p2
      obtain ⟨o, od, -, ho, -, hr⟩ := hI.wf c hc
      have hci' : Covers c.outV i := hci
      rw [ho] at hci'
      simp [Seg.Has] at hci'
      omega

/-- C99 fails for the buffer of the Jacobian: if an explicit constraint depends on a free variable, the first iteration of
the solver that was read writes out of an empty matrix. -/
theorem C99_jacobian_refuted [One α] [Add α] [Mul α] (hb : BS.Built E nq nv h s) (hl : BHist.Lawful E h)
    (m n : Nat) (hin : ∀ e ∈ implOf h, SameInput m n e.1) (hne : h ≠ []) (eps : α) (junk : Nat × Nat × Bool)
    (junkE : List α) (hnv : 0 < nv) (hdep : s.ex.inDers.nb ≠ 0) :
    ∃ N, ∀ fuel, N ≤ fuel → ∃ o, BSObj.load eps fuel junk junkE s.save = (o, none) ∧
      ∀ (q : Nat → α) (rows : Segs) (J R : Jac α), o.updateJ q rows J R = none := by
  obtain ⟨N, hN⟩ := bsLoad_spec hb hl m n hin hne eps junk junkE
  refine ⟨N, fun fuel hf => ?_⟩
  obtain ⟨t, ht, hr, hg⟩ := hN fuel hf
  refine ⟨⟨t, 0⟩, by unfold BSObj.load; rw [ht], fun q rows J R => ?_⟩
  obtain ⟨p1, p2, -⟩ := hr.built.parts
  have hder : t.ex.inDers = s.ex.inDers := by
    rw [show t.ex.inDers = t.ex.erase.inDers from rfl, hr.ex]; rfl
  have hnz : t.ex.inDers.nb ≠ 0 := by rw [hder]; exact hdep
  unfold BSObj.updateJ
  rw [if_neg hnz, if_neg]
  intro hall
  rw [List.all_eq_true] at hall
  obtain ⟨-, -, c3, c4, -⟩ := C11_outputs p2
  by_cases h0 : ∃ c ∈ t.ex.cons, WritesV c 0
  · have := hall 0 (List.mem_append_right _ ((mem_indices _ _).2 ((c3 0).2 h0)))
    simp at this
  · have := hall 0 (List.mem_append_left _ ((mem_indices _ _).2 ((c4 0).2 ⟨hnv, h0⟩)))
    simp at this

end

/-! ## Examples -/

namespace ArchEx

/-- A threshold of three units, where the unit is the machine precision, and right hand side 3 for the explicit
constraint. -/
def s : BS Int Nat :=
  { BsX.s2 with
    hi := { BsX.s2.hi with sqThr := 9, ineqThr := 0, maxIter := 40, lastIsOptional := false, byLevel := false }
    ex := { BsX.s2.ex with threshold := 3 } }

theorem s_built : BS.Built BsX.E 4 4 [(BsX.cI, 0, false), (BsX.cE, 0, true)] s :=
  .params 9 0 3 40 false false BsX.s2_built

end ArchEx

open ArchEx in
/-- C99 fails for satisfaction: the solver accepts a configuration, and after writing and reading it rejects it. -/
theorem C99_satisfaction_refuted : ∃ q : Nat → Int, ∃ t : BS Int Nat,
    BS.load 1 20 (0, 0, false) [] s.save = (t, none) ∧
    s.isSatisfied q = some ([0, 2], true) ∧ t.isSatisfied q = some ([0, 2], false) := by
  refine ⟨fun i => if i = 1 then -2 else if i = 2 then 2 else 0, (BS.load 1 20 (0, 0, false) [] s.save).1, ?_, ?_, ?_⟩
  · exact Prod.ext rfl (by decide +kernel)
  · decide +kernel
  · decide +kernel

open ArchEx in
example : (BS.load 1 20 (0, 0, false) [] s.save).2 = none ∧
    (BS.load 1 20 (0, 0, false) [] s.save).1.all.length = 2 ∧
    (BS.load 1 20 (0, 0, false) [] s.save).1.ex.cons.length = 1 ∧
    (indices (BS.load 1 20 (0, 0, false) [] s.save).1.hi.free.segs) = [0, 1, 3] ∧
    s.ex.inDers.nb ≠ 0 := by decide +kernel

example : BHist.Lawful BsX.E [(BsX.cI, 0, false), (BsX.cE, 0, true)] ∧
    ∀ e ∈ implOf [(BsX.cI, 0, false), (BsX.cE, 0, true)], SameInput 4 4 e.1 := by
  refine ⟨⟨fun e he => BsX.lawful.law e ?_, fun e he => BsX.lawful.val e ?_⟩, ?_⟩
  · simp only [List.mem_cons, List.not_mem_nil, or_false] at he ⊢
    rcases he with rfl | rfl <;> simp
  · simp only [List.mem_cons, List.not_mem_nil, or_false] at he ⊢
    rcases he with rfl | rfl <;> simp
  · intro e he
    have : e = (BsX.iI, 0) := by simpa [implOf, BsX.cI, BsX.cE] using he
    subst this
    exact ⟨rfl, rfl, rfl, rfl⟩

end Hpp
