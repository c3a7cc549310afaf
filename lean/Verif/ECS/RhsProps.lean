import Verif.ECS.Examples
import Mathlib.Algebra.Order.Ring.Basic
import Mathlib.Algebra.Order.Ring.Int

/-!
# Right hand sides and satisfaction of explicit constraints (C16, C17, C18)
-/

namespace Hpp

variable {α κ : Type}

/-! ### lemmas -/

theorem maskEq_eq_self [Zero α] (c : List Comp) (v : List α) (h : c.length = v.length)
    (hz : ∀ (i : Nat) (t : Comp), c[i]? = some t → t ≠ .equality → v[i]? = some 0) :
    maskEq c v = v := by
  apply List.ext_getElem?
  intro i
  unfold maskEq
  rw [List.getElem?_zipWith]
  by_cases hi : i < v.length
  · have hc : i < c.length := by omega
    rw [List.getElem?_eq_getElem hi, List.getElem?_eq_getElem hc]
    simp only [Option.some.injEq]
    split
    · rfl
    · rename_i hne
      have := hz i c[i] (List.getElem?_eq_getElem hc) hne
      rw [List.getElem?_eq_getElem hi] at this
      simpa using this.symm
  · rw [List.getElem?_eq_none (by omega), List.getElem?_eq_none (by omega)]

theorem maskEq_none [Zero α] (n : Nat) (v : List α) (h : v.length = n) :
    maskEq (List.replicate n .superior) v = List.replicate n 0 := by
  subst h
  induction v with
  | nil => rfl
  | cons a v ih =>
    simp only [List.length_cons, List.replicate_succ, maskEq, List.zipWith_cons_cons]
    unfold maskEq at ih
    rw [ih]; simp

theorem Space.Lawful.log_neutral [Zero α] {sp : Space α} {El : List α → Prop} (h : sp.Lawful El) :
    sp.log sp.neutral = List.replicate sp.nv 0 := by
  have h1 := h.log_exp_mask sp.neutral (List.replicate sp.nv .superior) h.neutral_mem (by simp)
  rw [maskEq_none sp.nv _ (h.log_len _ h.neutral_mem), h.exp_zero] at h1
  exact h1

theorem keepEquality_length [Zero α] (nv : Nat) (eq : Segs) (v : List α) :
    (keepEquality nv eq v).length = nv := by
  unfold keepEquality lwrite; rw [setAll_length]; simp

/-- All right hand sides of a reachable set are elements of the output space. -/
theorem rhs_mem [Zero α] [DecidableEq κ] {nq nv : Nat} {s : ECS α κ} (h : ECS.Built nq nv s)
    (El : ECon α κ → List α → Prop) (hlaw : ∀ c ∈ s.cons, c.space.Lawful (El c)) :
    ∀ d ∈ s.data, El d.c d.rhs := by
  have hset : ∀ (c : ECon α κ) (eq : Segs) (w : List α), c.space.Lawful (El c) →
      El c (c.space.exp (keepEquality c.space.nv eq w)) :=
    fun c eq w hl => hl.exp_mem _ (keepEquality_length _ _ _)
  induction h with
  | init eps => intro d hd; simp [ECS.init] at hd
  | add s fuel c junk r s' _ hadd ih =>
    cases r with
    | none => rw [add_none hadd] at hlaw ⊢; exact ih hlaw
    | some n =>
      obtain ⟨h1, -, -, -, h2, -⟩ := add_cons hadd
      rw [h1] at hlaw; rw [h2]
      intro d hd
      rcases List.mem_append.1 hd with hd | hd
      · exact ih (fun c' hc' => hlaw c' (by simp [hc'])) d hd
      · simp only [List.mem_singleton] at hd; subst hd
        exact (hlaw c (by simp)).neutral_mem
  | rhsFromInput s q _ ih =>
    intro d hd
    have hl := hlaw d.c (mem_cons_of_data hd)
    obtain ⟨d', hd', rfl⟩ := List.mem_map.1 hd
    exact hset d'.c _ _ hl
  | rhsFromInputOf s c q _ ih =>
    intro d hd
    have hl := hlaw d.c (mem_cons_of_data hd)
    have hlaw' : ∀ c' ∈ s.cons, c'.space.Lawful (El c') := by
      intro c' hc'
      apply hlaw c'
      have e := updateFirst_map (fun d : EData α κ => decide (d.c.key = c.key))
        (fun d => d.rhsFromInput q) (fun d => d.c) (fun _ => rfl) s.data
      have : (s.rhsFromInputOf c q).1.cons = s.cons := e
      rw [this]; exact hc'
    rcases mem_updateFirst hd with hd | ⟨x, hx, rfl⟩
    · exact ih hlaw' d hd
    · exact hset x.c _ _ hl
  | setRhsOf s c v _ ih =>
    intro d hd
    have hl := hlaw d.c (mem_cons_of_data hd)
    have hlaw' : ∀ c' ∈ s.cons, c'.space.Lawful (El c') := by
      intro c' hc'
      apply hlaw c'
      have e := updateFirst_map (fun d : EData α κ => decide (d.c.key = c.key))
        (fun d => d.setRhs v) (fun d => d.c) (fun _ => rfl) s.data
      have : (s.setRhsOf c v).1.cons = s.cons := e
      rw [this]; exact hc'
    rcases mem_updateFirst hd with hd | ⟨x, hx, rfl⟩
    · exact ih hlaw' d hd
    · exact hset x.c _ _ hl
  | setRhs s v s' _ hs ih =>
    unfold ECS.setRhs at hs
    split at hs
    · simp only [Option.some.injEq] at hs; subst hs
      have hloop : ∀ (l : List (EData α κ)) (v : List α), (∀ d ∈ l, d.c.space.Lawful (El d.c)) →
          ∀ d ∈ setRhsLoop l v, El d.c d.rhs := by
        intro l
        induction l with
        | nil => intro v _ d hd; simp [setRhsLoop] at hd
        | cons x l ihl =>
          intro v hx d hd
          simp only [setRhsLoop, List.mem_cons] at hd
          rcases hd with rfl | hd
          · exact hset x.c _ _ (hx x (by simp))
          · exact ihl _ (fun d hd => hx d (by simp [hd])) d hd
      refine hloop s.data v ?_
      intro d hd
      apply hlaw
      have : (setRhsLoop s.data v).map (fun d => d.c) = s.data.map fun d => d.c :=
        setRhsLoop_map _ (fun _ _ => rfl) _ _
      show d.c ∈ (setRhsLoop s.data v).map (fun d => d.c)
      rw [this]
      exact List.mem_map.2 ⟨d, hd, rfl⟩
    · simp at hs
  | threshold s t _ ih => exact ih hlaw

/-- In a reachable set, output sizes are right as soon as the functions return vectors of the right
size on elements of the output space. -/
theorem outLen_of_lawful [Zero α] [DecidableEq κ] {nq nv : Nat} {s : ECS α κ}
    (h : ECS.Built nq nv s) (El : ECon α κ → List α → Prop)
    (hlaw : ∀ c ∈ s.cons, c.space.Lawful (El c))
    (hout : ∀ c ∈ s.cons, ∀ x r, El c r → (c.outVal x r).length = (indices c.outQ).length) :
    ∀ d ∈ s.data, d.OutLen := by
  intro d hd x
  exact hout d.c (mem_cons_of_data hd) x d.rhs (rhs_mem h El hlaw d hd)

/-! ## C16 -/

/-- C16. After `rightHandSideFromInput(q)` the stored right hand side is the value of the implicit
function at `q` on the `Equality` components and zero (neutral) on the others. -/
theorem C16_rhs_value [Zero α] [DecidableEq κ] {nq nv : Nat} {s : ECS α κ} (h : ECS.Built nq nv s)
    (El : ECon α κ → List α → Prop) (hlaw : ∀ c ∈ s.cons, c.space.Lawful (El c))
    (hcl : ∀ c ∈ s.cons, c.comp.length = c.space.nv) (q : Nat → α)
    (hq : ∀ c ∈ s.cons, El c (c.h q)) :
    (s.rhsFromInput q).cons = s.cons ∧
    ∀ d ∈ (s.rhsFromInput q).data, d.c.space.log d.rhs = maskEq d.c.comp (d.c.space.log (d.c.h q)) := by
  have hI := (Inv.built h).1
  refine ⟨by simp [ECS.cons, ECS.rhsFromInput, EData.rhsFromInput, Function.comp_def], ?_⟩
  intro d hd
  obtain ⟨d', hd', rfl⟩ := List.mem_map.1 hd
  have hm := mem_cons_of_data hd'
  show d'.c.space.log (d'.c.space.exp (keepEquality _ d'.eq.segs (d'.c.space.log (d'.c.h q)))) = _
  rw [hI.eqIdx d' hd', keepEquality_eq _ _ _ (hcl _ hm) ((hlaw _ hm).log_len _ (hq _ hm))]
  exact (hlaw _ hm).log_exp_mask _ _ (hq _ hm) (hcl _ hm)

/-- C16. If the components whose right hand side is fixed already hold at `q`, then after
`rightHandSideFromInput(q)` every constraint holds at `q` (implicit error zero, explicit form
satisfied) and `solve(q)` returns `q`. -/
theorem C16_fixpoint [Zero α] [DecidableEq κ] {nq nv : Nat} {s : ECS α κ} (h : ECS.Built nq nv s)
    (hw : ∀ c ∈ s.cons, WellFormed nq nv c) (hcoh : AllCoherent s.cons)
    (El : ECon α κ → List α → Prop) (hlaw : ∀ c ∈ s.cons, c.space.Lawful (El c))
    (hcl : ∀ c ∈ s.cons, c.comp.length = c.space.nv)
    (hcons : ∀ c ∈ s.cons, c.Consistent (El c))
    (hout : ∀ c ∈ s.cons, ∀ x r, El c r → (c.outVal x r).length = (indices c.outQ).length)
    (q : Nat → α) (hq : ∀ c ∈ s.cons, El c (c.h q))
    (hfix : ∀ c ∈ s.cons, ∀ (i : Nat) (t : Comp), c.comp[i]? = some t → t ≠ .equality →
      (c.space.log (c.h q))[i]? = some 0) :
    (∀ d ∈ (s.rhsFromInput q).data, d.rhs = d.c.h q ∧ d.Holds q ∧
      d.error q = List.replicate d.c.space.nv 0) ∧
    (s.rhsFromInput q).solve q = q := by
  have hI := (Inv.built h).1
  have hB : ECS.Built nq nv (s.rhsFromInput q) := .rhsFromInput s q h
  have hc : (s.rhsFromInput q).cons = s.cons := (C16_rhs_value h El hlaw hcl q hq).1
  have h1 : ∀ d ∈ (s.rhsFromInput q).data, d.rhs = d.c.h q ∧ d.Holds q ∧
      d.error q = List.replicate d.c.space.nv 0 := by
    intro d hd
    have hm : d.c ∈ s.cons := by rw [← hc]; exact mem_cons_of_data hd
    have hl := hlaw _ hm
    have hr : d.rhs = d.c.h q := by
      obtain ⟨d', hd', rfl⟩ := List.mem_map.1 hd
      show d'.c.space.exp (keepEquality _ d'.eq.segs (d'.c.space.log (d'.c.h q))) = d'.c.h q
      have hm : d'.c ∈ s.cons := mem_cons_of_data hd'
      have hl := hlaw _ hm
      have hlen := hl.log_len _ (hq _ hm)
      rw [hI.eqIdx d' hd', keepEquality_eq _ _ _ (hcl _ hm) hlen,
        maskEq_eq_self _ _ (by rw [hcl _ hm, hlen]) (hfix _ hm), hl.exp_log _ (hq _ hm)]
    have hel : El d.c d.rhs := by rw [hr]; exact hq _ hm
    refine ⟨hr, (hcons _ hm q d.rhs hel).1 hr.symm, ?_⟩
    unfold EData.error
    rw [hr]
    exact (hl.sub_eq_zero _ _ (hq _ hm) (hq _ hm)).2 rfl
  refine ⟨h1, ?_⟩
  refine (C13_solve hB (by rw [hc]; exact hw) (by rw [hc]; exact hcoh)
    (outLen_of_lawful hB El (by rw [hc]; exact hlaw) (by rw [hc]; exact hout)) q q).2
    ⟨fun d hd => (h1 d hd).2.1, fun _ _ => rfl⟩

/-! ## C17 -/

/-- The right hand side stored for a request `v`: the `Equality` components of its logarithm. -/
def requestedRhs [Zero α] (c : ECon α κ) (v : List α) : List α :=
  c.space.exp (maskEq c.comp (c.space.log v))

/-- When `v` only differs from the neutral element on `Equality` components, the request is `v`
itself. -/
theorem requestedRhs_eq [Zero α] {c : ECon α κ} {El : List α → Prop} (hl : c.space.Lawful El)
    (hcl : c.comp.length = c.space.nv) (v : List α) (hv : El v)
    (hz : ∀ (i : Nat) (t : Comp), c.comp[i]? = some t → t ≠ .equality →
      (c.space.log v)[i]? = some 0) : requestedRhs c v = v := by
  unfold requestedRhs
  rw [maskEq_eq_self _ _ (by rw [hcl, hl.log_len _ hv]) hz, hl.exp_log _ hv]

theorem updateFirst_find {β : Type} (p : β → Bool) (f : β → β) (hp : ∀ x, p (f x) = p x)
    (l : List β) : (updateFirst p f l).1.find? p = (l.find? p).map f ∧
      ((updateFirst p f l).2 = true ↔ ∃ x ∈ l, p x = true) ∧
      ((updateFirst p f l).2 = false → (updateFirst p f l).1 = l) := by
  induction l with
  | nil => simp [updateFirst]
  | cons x l ih =>
    unfold updateFirst
    by_cases h : p x = true
    · simp [h, hp]
    · simp only [h]
      simp only [Bool.not_eq_true] at h
      obtain ⟨i1, i2, i3⟩ := ih
      refine ⟨by simp [h, i1], by simp [h, i2], fun hf => by simp [i3 hf]⟩

theorem updateFirst_find_other {β : Type} (p p' : β → Bool) (f : β → β)
    (hp' : ∀ x, p' (f x) = p' x) (hdis : ∀ x, p x = true → p' x = false) (l : List β) :
    (updateFirst p f l).1.find? p' = l.find? p' := by
  induction l with
  | nil => rfl
  | cons x l ih =>
    unfold updateFirst
    by_cases h : p x = true
    · have := hdis x h
      simp [h, hp', this]
    · simp only [h]
      by_cases h' : p' x = true
      · simp [h']
      · simp only [Bool.not_eq_true] at h'
        simpa [h'] using ih

/-- C17. Setting the right hand side of one constraint: succeeds exactly when the constraint is in
the set, is then read back (`Equality` components as requested, others neutral), and the other
constraints are unaffected. -/
theorem C17_set_one [Zero α] [DecidableEq κ] {nq nv : Nat} {s : ECS α κ} (h : ECS.Built nq nv s)
    (El : ECon α κ → List α → Prop) (hlaw : ∀ c ∈ s.cons, c.space.Lawful (El c))
    (hcl : ∀ c ∈ s.cons, c.comp.length = c.space.nv) (c : ECon α κ) (hc : c ∈ s.cons)
    (huniq : ∀ c' ∈ s.cons, c'.key = c.key → c' = c) (v : List α) (hv : El c v) :
    (s.setRhsOf c v).2 = true ∧ (s.setRhsOf c v).1.getRhsOf c = some (requestedRhs c v) ∧
    (∀ c', c'.key ≠ c.key → (s.setRhsOf c v).1.getRhsOf c' = s.getRhsOf c') ∧
    (s.setRhsOf c v).1.cons = s.cons := by
  have hI := (Inv.built h).1
  have hf := updateFirst_find (fun d : EData α κ => decide (d.c.key = c.key))
    (fun d => d.setRhs v) (fun _ => rfl) s.data
  obtain ⟨d0, hd0, hdc⟩ := List.mem_map.1 hc
  have hex : ∃ x ∈ s.data, decide (x.c.key = c.key) = true := ⟨d0, hd0, by simp [hdc]⟩
  refine ⟨hf.2.1.2 hex, ?_, ?_, ?_⟩
  · unfold ECS.getRhsOf ECS.setRhsOf
    simp only
    rw [hf.1]
    cases hfd : s.data.find? (fun d => decide (d.c.key = c.key)) with
    | none =>
      rw [List.find?_eq_none] at hfd
      obtain ⟨x, hx, hxk⟩ := hex
      exact absurd hxk (hfd x hx)
    | some d =>
      have hd := List.mem_of_find?_eq_some hfd
      have hk : d.c.key = c.key := by simpa using List.find?_some hfd
      have hdc' : d.c = c := huniq d.c (mem_cons_of_data hd) hk
      simp only [Option.map_some, Option.some.injEq]
      show d.c.space.exp (keepEquality _ d.eq.segs (d.c.space.log v)) = _
      rw [hI.eqIdx d hd, hdc', keepEquality_eq _ _ _ (hcl _ hc) ((hlaw _ hc).log_len _ hv)]
      rfl
  · intro c' hne
    unfold ECS.getRhsOf ECS.setRhsOf
    simp only
    rw [updateFirst_find_other (fun d : EData α κ => decide (d.c.key = c.key))
      (fun d : EData α κ => decide (d.c.key = c'.key)) (fun d => d.setRhs v) (fun _ => rfl)]
    intro x hx
    simp only [decide_eq_true_eq, decide_eq_false_iff_not] at hx ⊢
    rw [hx]; exact fun e => hne e.symm
  · exact updateFirst_map (fun d : EData α κ => decide (d.c.key = c.key))
      (fun d => d.setRhs v) (fun d => d.c) (fun _ => rfl) s.data

/-- C17. For a constraint that is not in the set, nothing happens and the answer is false. -/
theorem C17_set_absent [Zero α] [DecidableEq κ] (s : ECS α κ) (c : ECon α κ)
    (hc : ∀ c' ∈ s.cons, c'.key ≠ c.key) (v : List α) (q : Nat → α) :
    s.setRhsOf c v = (s, false) ∧ s.rhsFromInputOf c q = (s, false) ∧ s.getRhsOf c = none ∧
      s.contains c = false := by
  have aux : ∀ f : EData α κ → EData α κ,
      updateFirst (fun d : EData α κ => decide (d.c.key = c.key)) f s.data = (s.data, false) := by
    intro f
    have : ∀ l : List (EData α κ), (∀ d ∈ l, d.c.key ≠ c.key) →
        updateFirst (fun d : EData α κ => decide (d.c.key = c.key)) f l = (l, false) := by
      intro l
      induction l with
      | nil => intro _; rfl
      | cons x l ih =>
        intro hl
        unfold updateFirst
        simp [hl x (by simp), ih fun d hd => hl d (by simp [hd])]
    exact this s.data fun d hd => hc d.c (mem_cons_of_data hd)
  refine ⟨by simp [ECS.setRhsOf, aux], by simp [ECS.rhsFromInputOf, aux], ?_, ?_⟩
  · unfold ECS.getRhsOf
    rw [List.find?_eq_none.2]
    · rfl
    · intro d hd; simpa using hc d.c (mem_cons_of_data hd)
  · unfold ECS.contains
    rw [List.any_eq_false]
    intro d hd; simpa using hc d.c (mem_cons_of_data hd)

theorem rhsSize_eq (s : ECS α κ) : s.rhsSize = (s.data.map fun d => d.c.space.nq).sum := by
  unfold ECS.rhsSize
  rw [List.sum_eq_foldl, List.foldl_map]

theorem setRhsLoop_flatMap [Zero α] (El : ECon α κ → List α → Prop) (l : List (EData α κ))
    (hlaw : ∀ d ∈ l, d.c.space.Lawful (El d.c)) (hcl : ∀ d ∈ l, d.c.comp.length = d.c.space.nv)
    (heq : ∀ d ∈ l, d.eq = equalityIndices d.c.comp) (parts : List (List α))
    (hp : List.Forall₂ (fun d v => El d.c v) l parts) :
    (setRhsLoop l parts.flatten).flatMap (fun d => d.rhs) =
      (List.zipWith (fun d v => requestedRhs d.c v) l parts).flatten := by
  induction hp with
  | nil => rfl
  | @cons d v l parts hv _ ih =>
    have hl := hlaw d (by simp)
    have hlen : v.length = d.c.space.nq := hl.len _ hv
    simp only [setRhsLoop, List.flatten_cons, List.flatMap_cons, List.zipWith_cons_cons]
    have ht : (v ++ parts.flatten).take d.c.space.nq = v := by rw [← hlen]; simp
    have hd : (v ++ parts.flatten).drop d.c.space.nq = parts.flatten := by rw [← hlen]; simp
    rw [ht, hd, ih (fun d hd => hlaw d (by simp [hd])) (fun d hd => hcl d (by simp [hd]))
      (fun d hd => heq d (by simp [hd]))]
    congr 1
    show d.c.space.exp (keepEquality _ d.eq.segs (d.c.space.log v)) = _
    rw [heq d (by simp), keepEquality_eq _ _ _ (hcl d (by simp)) (hl.log_len _ hv)]
    rfl

/-- C17. Stacked right hand side: a vector made of one element per constraint, in insertion order,
is accepted, and reading back returns each of them (projected on the `Equality` components). -/
theorem C17_stacked [Zero α] [DecidableEq κ] {nq nv : Nat} {s : ECS α κ} (h : ECS.Built nq nv s)
    (El : ECon α κ → List α → Prop) (hlaw : ∀ c ∈ s.cons, c.space.Lawful (El c))
    (hcl : ∀ c ∈ s.cons, c.comp.length = c.space.nv) (parts : List (List α))
    (hp : List.Forall₂ (fun c v => El c v) s.cons parts) :
    ∃ s', s.setRhs parts.flatten = some s' ∧
      s'.getRhs = (List.zipWith requestedRhs s.cons parts).flatten ∧ s'.cons = s.cons := by
  have hI := (Inv.built h).1
  have hp' : List.Forall₂ (fun (d : EData α κ) v => El d.c v) s.data parts := by
    unfold ECS.cons at hp; rwa [List.forall₂_map_left_iff] at hp
  have hsz : parts.flatten.length = s.rhsSize := by
    rw [rhsSize_eq]
    have : ∀ (l : List (EData α κ)) (parts : List (List α)),
        (∀ d ∈ l, d.c.space.Lawful (El d.c)) →
        List.Forall₂ (fun (d : EData α κ) v => El d.c v) l parts →
        parts.flatten.length = (l.map fun d => d.c.space.nq).sum := by
      intro l parts hl hf
      induction hf with
      | nil => rfl
      | @cons d v l parts hv _ ih =>
        simp only [List.flatten_cons, List.length_append, List.map_cons, List.sum_cons]
        rw [ih fun d hd => hl d (by simp [hd]), (hl d (by simp)).len _ hv]
    exact this s.data parts (fun d hd => hlaw _ (mem_cons_of_data hd)) hp'
  refine ⟨{ s with data := setRhsLoop s.data parts.flatten }, ?_, ?_, ?_⟩
  · unfold ECS.setRhs; rw [if_pos hsz]
  · unfold ECS.getRhs
    rw [setRhsLoop_flatMap El s.data (fun d hd => hlaw _ (mem_cons_of_data hd))
      (fun d hd => hcl _ (mem_cons_of_data hd)) hI.eqIdx parts hp']
    unfold ECS.cons
    rw [List.zipWith_map_left]
  · exact setRhsLoop_map (fun d : EData α κ => d.c) (fun _ _ => rfl) s.data parts.flatten

/-- C17. In particular setting then reading the stacked vector is the identity on vectors whose
blocks are neutral on the components that are not `Equality`. -/
theorem C17_stacked_identity [Zero α] [DecidableEq κ] {nq nv : Nat} {s : ECS α κ}
    (h : ECS.Built nq nv s) (El : ECon α κ → List α → Prop)
    (hlaw : ∀ c ∈ s.cons, c.space.Lawful (El c))
    (hcl : ∀ c ∈ s.cons, c.comp.length = c.space.nv) (parts : List (List α))
    (hp : List.Forall₂ (fun c v => El c v ∧ ∀ (i : Nat) (t : Comp), c.comp[i]? = some t →
      t ≠ .equality → (c.space.log v)[i]? = some 0) s.cons parts) :
    ∃ s', s.setRhs parts.flatten = some s' ∧ s'.getRhs = parts.flatten := by
  obtain ⟨s', h1, h2, -⟩ := C17_stacked h El hlaw hcl parts (hp.imp fun _ _ h => h.1)
  refine ⟨s', h1, ?_⟩
  rw [h2]
  congr 1
  have : ∀ (l : List (ECon α κ)) (parts : List (List α)), (∀ c ∈ l, c.space.Lawful (El c)) →
      (∀ c ∈ l, c.comp.length = c.space.nv) →
      List.Forall₂ (fun c v => El c v ∧ ∀ (i : Nat) (t : Comp), c.comp[i]? = some t →
      t ≠ .equality → (c.space.log v)[i]? = some 0) l parts →
      List.zipWith requestedRhs l parts = parts := by
    intro l parts hl hc hf
    induction hf with
    | nil => rfl
    | @cons c v l parts hv _ ih =>
      rw [List.zipWith_cons_cons, ih (fun c hc' => hl c (by simp [hc']))
        (fun c hc' => hc c (by simp [hc'])),
        requestedRhs_eq (hl c (by simp)) (hc c (by simp)) v hv.1 hv.2]
  exact this s.cons parts hlaw hcl hp

/-! ## C18 -/

/-- Sum of squares. -/
def normSq [Zero α] [Add α] [Mul α] (v : List α) : α := (v.map fun x => x * x).sum

theorem sqNorm_eq [Semiring α] (v : List α) : sqNorm v = normSq v := by
  unfold sqNorm normSq
  rw [List.sum_eq_foldl, List.foldl_map]

theorem satLoop_eq [Zero α] [Add α] [Mul α] [LinearOrder α] (q : Nat → α) (l : List (EData α κ))
    (e : List α) (m : α) :
    (satLoop q l (e, m)).1 = e ++ l.flatMap (fun d => d.error q) ∧
    ∀ t, (satLoop q l (e, m)).2 < t ↔ m < t ∧ ∀ d ∈ l, sqNorm (d.error q) < t := by
  induction l generalizing e m with
  | nil => simp [satLoop]
  | cons d l ih =>
    obtain ⟨h1, h2⟩ := ih (e ++ d.error q) (max m (sqNorm (d.error q)))
    refine ⟨by simp [satLoop, h1], fun t => ?_⟩
    simp only [satLoop, h2, max_lt_iff, List.mem_cons, forall_eq_or_imp, and_assoc]

/-- C18. `isSatisfied` with a threshold other than the sentinel -1: the answer is true exactly when
the squared error of each constraint is strictly below the squared threshold (and the threshold is
not zero); the error vector is the concatenation of the errors, in insertion order. -/
theorem C18_isSatisfied [CommRing α] [LinearOrder α] [IsStrictOrderedRing α] (s : ECS α κ)
    (q : Nat → α) (thr : α) (ht : thr ≠ -1) :
    ((s.isSatisfied q thr).2 = true ↔ thr ≠ 0 ∧
      ∀ d ∈ s.data, normSq (d.c.space.sub (d.c.h q) d.rhs) < thr * thr) ∧
    (s.isSatisfied q thr).1 = s.data.flatMap (fun d => d.c.space.sub (d.c.h q) d.rhs) := by
  change (_ ↔ _ ∧ ∀ d ∈ s.data, normSq (d.error q) < thr * thr) ∧
    _ = s.data.flatMap (fun d => d.error q)
  unfold ECS.isSatisfied
  simp only [if_neg ht]
  obtain ⟨h1, h2⟩ := satLoop_eq q s.data [] 0
  refine ⟨?_, by rw [h1]; rfl⟩
  rw [decide_eq_true_iff, h2]
  simp only [sqNorm_eq]
  have : 0 < thr * thr ↔ thr ≠ 0 := by
    constructor
    · rintro h rfl; simp at h
    · intro h; exact mul_self_pos.2 h
  rw [this]

/-- C18. With the sentinel -1 the threshold of the set is used. -/
theorem C18_default_threshold [CommRing α] [LinearOrder α] [IsStrictOrderedRing α] (s : ECS α κ)
    (q : Nat → α) (h : s.threshold ≠ -1) : s.isSatisfied q (-1) = s.isSatisfied q s.threshold := by
  unfold ECS.isSatisfied
  simp [h]

/-- C18. Size of the error vector. -/
theorem C18_error_size [CommRing α] [LinearOrder α] [IsStrictOrderedRing α] [DecidableEq κ]
    {nq nv : Nat} {s : ECS α κ} (h : ECS.Built nq nv s) (El : ECon α κ → List α → Prop)
    (hlaw : ∀ c ∈ s.cons, c.space.Lawful (El c)) (q : Nat → α) (hq : ∀ c ∈ s.cons, El c (c.h q))
    (thr : α) : (s.isSatisfied q thr).1.length = s.errorSize := by
  have hI := (Inv.built h).1
  unfold ECS.isSatisfied
  simp only
  rw [(satLoop_eq q s.data [] 0).1, List.nil_append, List.length_flatMap, hI.errSize]
  unfold ECS.cons
  rw [List.map_map]
  congr 1
  apply List.map_congr_left
  intro d hd
  exact (hlaw _ (mem_cons_of_data hd)).sub_len _ _ (hq _ (mem_cons_of_data hd))
    (rhs_mem h El hlaw d hd)

/-- C18. The configuration produced by `solve` is satisfied, with a zero error, for any threshold
other than zero. -/
theorem C18_solve_satisfied [CommRing α] [LinearOrder α] [IsStrictOrderedRing α] [DecidableEq κ]
    {nq nv : Nat} {s : ECS α κ} (h : ECS.Built nq nv s)
    (hw : ∀ c ∈ s.cons, WellFormed nq nv c) (hcoh : AllCoherent s.cons)
    (El : ECon α κ → List α → Prop) (hlaw : ∀ c ∈ s.cons, c.space.Lawful (El c))
    (hcons : ∀ c ∈ s.cons, c.Consistent (El c))
    (hout : ∀ c ∈ s.cons, ∀ x r, El c r → (c.outVal x r).length = (indices c.outQ).length)
    (q : Nat → α) (thr : α) (ht : thr ≠ 0) (ht' : thr ≠ -1) :
    (s.isSatisfied (s.solve q) thr).2 = true ∧
      ∀ d ∈ s.data, d.error (s.solve q) = List.replicate d.c.space.nv 0 := by
  have hz : ∀ d ∈ s.data, d.error (s.solve q) = List.replicate d.c.space.nv 0 := by
    intro d hd
    have hm := mem_cons_of_data hd
    have hel := rhs_mem h El hlaw d hd
    have hh := ((C13_solve h hw hcoh (outLen_of_lawful h El hlaw hout) q _).1 rfl).1 d hd
    have := (hcons _ hm (s.solve q) d.rhs hel).2 hh
    unfold EData.error
    rw [this]
    exact ((hlaw _ hm).sub_eq_zero _ _ hel hel).2 rfl
  refine ⟨((C18_isSatisfied s _ thr ht').1).2 ⟨ht, fun d hd => ?_⟩, hz⟩
  change normSq (d.error _) < _
  rw [hz d hd]
  have : normSq (List.replicate d.c.space.nv (0 : α)) = 0 := by simp [normSq]
  rw [this]
  exact mul_self_pos.2 ht

/-- C18, a threshold equal to zero is never met, even by an exact solution: the comparison is
strict (explicit-constraint-set.cc:87). -/
theorem C18_zero_threshold_refuted [CommRing α] [LinearOrder α] [IsStrictOrderedRing α]
    (s : ECS α κ) (q : Nat → α) : (s.isSatisfied q 0).2 = false := by
  have h := (C18_isSatisfied s q 0 (by simp)).1
  cases hb : (s.isSatisfied q 0).2 with
  | false => rfl
  | true => rw [hb] at h; simp at h

/-- C18. Satisfaction of the whole set and of each constraint (explicit-constraint-set.cc:98-118) agree. -/
theorem C18_each_constraint [CommRing α] [LinearOrder α] [IsStrictOrderedRing α] [DecidableEq κ]
    (s : ECS α κ) (hk : (s.cons.map fun c => c.key).Nodup) (q : Nat → α) (ht : s.threshold ≠ -1)
    (hz : s.threshold ≠ 0) :
    (s.isSatisfied q s.threshold).2 = true ↔
      ∀ c ∈ s.cons, ∃ e, s.isConstraintSatisfied c q = some (true, e) := by
  rw [(C18_isSatisfied s q s.threshold ht).1]
  change (_ ∧ ∀ d ∈ s.data, normSq (d.error q) < s.threshold * s.threshold) ↔ _
  have hfind : ∀ d ∈ s.data, s.data.find? (fun x => decide (x.c.key = d.c.key)) = some d := by
    have : ∀ l : List (EData α κ), (l.map fun d => d.c.key).Nodup → ∀ d ∈ l,
        l.find? (fun x => decide (x.c.key = d.c.key)) = some d := by
      intro l
      induction l with
      | nil => intro _ d hd; simp at hd
      | cons x l ih =>
        intro hn d hd
        simp only [List.map_cons, List.nodup_cons, List.mem_map, not_exists, not_and] at hn
        rcases List.mem_cons.1 hd with rfl | hd
        · simp
        · rw [List.find?_cons_of_neg, ih hn.2 d hd]
          simp only [decide_eq_true_eq]
          exact fun e => hn.1 d hd e.symm
    refine this s.data ?_
    simpa [ECS.cons, List.map_map, Function.comp_def] using hk
  unfold ECS.isConstraintSatisfied
  constructor
  · rintro ⟨-, h⟩ c hc
    obtain ⟨d, hd, rfl⟩ := List.mem_map.1 hc
    rw [hfind d hd]
    simp only [Option.map_some, Option.some.injEq, Prod.mk.injEq, exists_and_left, decide_eq_true_iff,
      sqNorm_eq]
    exact ⟨h d hd, _, rfl⟩
  · intro h
    refine ⟨hz, fun d hd => ?_⟩
    obtain ⟨e, he⟩ := h d.c (mem_cons_of_data hd)
    rw [hfind d hd] at he
    simp only [Option.map_some, Option.some.injEq, Prod.mk.injEq, decide_eq_true_iff, sqNorm_eq] at he
    exact he.1

/-! ### the hypotheses are met: constraints with values in vector spaces -/

namespace Ex

/-- Elements of the output space of `c`: vectors of its dimension. -/
def El (c : ECon Int Nat) (v : List Int) : Prop := v.length = (indices c.outQ).length

theorem lawful : ∀ c ∈ s2.cons, c.space.Lawful (El c) := by
  rw [cons]
  intro c hc
  simp only [List.mem_cons, List.not_mem_nil, or_false] at hc
  rcases hc with rfl | rfl <;> exact vectorSpace_lawful _

theorem compLen : ∀ c ∈ s2.cons, c.comp.length = c.space.nv := by rw [cons]; decide

theorem consistent : ∀ c ∈ s2.cons, c.Consistent (El c) := by
  rw [cons]
  intro c hc
  simp only [List.mem_cons, List.not_mem_nil, or_false] at hc
  rcases hc with rfl | rfl
  · exact vecCon_consistent _ _ _ _ _ _ _ _ (fun x => rfl)
  · exact vecCon_consistent _ _ _ _ _ _ _ _ (fun x => rfl)

theorem outSize : ∀ c ∈ s2.cons, ∀ x r, El c r → (c.outVal x r).length = (indices c.outQ).length := by
  rw [cons]
  intro c hc x r hr
  unfold El at hr
  simp only [List.mem_cons, List.not_mem_nil, or_false] at hc
  rcases hc with rfl | rfl
  · simp only [conB, vecCon, List.length_zipWith] at hr ⊢; rw [hr]; rfl
  · simp only [conA, vecCon, List.length_zipWith] at hr ⊢; rw [hr]; rfl

/-- `q3 = 3 q4` holds, the other equations do not. -/
def q0 : Nat → Int := fun i => [1, 2, 9, 12, 4, 7].getD i 0

example : (s2.rhsFromInput q0).solve q0 = q0 := by
  refine (C16_fixpoint built wellFormed coherent El lawful compLen consistent outSize q0 ?_ ?_).2
  · rw [cons]; unfold El; decide
  · rw [cons]
    intro c hc i t h1 h2
    simp only [List.mem_cons, List.not_mem_nil, or_false] at hc
    rcases hc with rfl | rfl
    · match i, h1 with
      | 0, h1 => simp [conB, vecCon] at h1; exact absurd h1.symm h2
      | 1, _ => decide
    · match i, h1 with
      | 0, h1 => simp [conA, vecCon] at h1; exact absurd h1.symm h2

example := C17_set_one built El lawful compLen conA (by rw [cons]; simp) (by
  rw [cons]; intro c hc hk
  simp only [List.mem_cons, List.not_mem_nil, or_false] at hc
  rcases hc with rfl | rfl
  · exact absurd hk (by decide)
  · rfl) [5] rfl
example : ∃ s', s2.setRhs [5, 0, 8] = some s' ∧ s'.getRhs = [5, 0, 8] := by
  refine C17_stacked_identity built El lawful compLen [[5, 0], [8]] ?_
  rw [cons]
  refine .cons ⟨rfl, ?_⟩ (.cons ⟨rfl, ?_⟩ .nil)
  · intro i t h1 h2
    match i, h1 with
    | 0, h1 => simp [conB, vecCon] at h1; exact absurd h1.symm h2
    | 1, _ => decide
  · intro i t h1 h2
    match i, h1 with
    | 0, h1 => simp [conA, vecCon] at h1; exact absurd h1.symm h2

example := C18_solve_satisfied built wellFormed coherent El lawful consistent outSize
example := C18_error_size built El lawful q0

/-- The other insertion order. -/
def t2 : ECS Int Nat := get ((get (s0.add 10 conA) s0).add 10 conB) s0
theorem built' : ECS.Built 6 6 t2 := by
  refine .add _ 10 conB [] (some 1) _ (.add _ 10 conA [] (some 0) _ (.init 1) rfl) rfl
example (q : Nat → Int) : s2.solve q = t2.solve q :=
  C14_insertion_order built built' wellFormed coherent outLen (List.Perm.swap _ _ _) q
example : s2.order = [1, 0] ∧ t2.order = [0, 1] := ⟨rfl, rfl⟩

end Ex

end Hpp
