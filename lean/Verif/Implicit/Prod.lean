import Verif.Implicit.Lemmas

/-!
# Products of Lie group spaces satisfy the laws of their factors
-/

namespace Hpp

variable {α κ : Type}

theorem maskEq_append [Zero α] (c d : List Comp) (v w : List α) (h : c.length = v.length) :
    maskEq (c ++ d) (v ++ w) = maskEq c v ++ maskEq d w := by
  unfold maskEq
  rw [List.zipWith_append h]

/-- Elements of a product: pairs of elements. -/
def prodEl (n : Nat) (Ea Eb : List α → Prop) (g : List α) : Prop := Ea (g.take n) ∧ Eb (g.drop n)

theorem Space.Lawful.prod [Zero α] {a b : Space α} {Ea Eb : List α → Prop} (ha : a.Lawful Ea)
    (hb : b.Lawful Eb) : (a.prod b).Lawful (prodEl a.nq Ea Eb) where
  neutral_mem := by
    have h := ha.len _ ha.neutral_mem
    show Ea ((a.neutral ++ b.neutral).take a.nq) ∧ Eb ((a.neutral ++ b.neutral).drop a.nq)
    rw [← h, List.take_left, List.drop_left]
    exact ⟨ha.neutral_mem, hb.neutral_mem⟩
  log_len := fun g hg => by
    show (a.log _ ++ b.log _).length = a.nv + b.nv
    rw [List.length_append, ha.log_len _ hg.1, hb.log_len _ hg.2]
  len := fun g hg => by
    show g.length = a.nq + b.nq
    have h1 := ha.len _ hg.1
    have h2 := hb.len _ hg.2
    rw [← List.take_append_drop a.nq g, List.length_append, h1, h2]
  exp_mem := fun v hv => by
    have hv' : v.length = a.nv + b.nv := hv
    have h1 := ha.exp_mem (v.take a.nv) (by simp; omega)
    have h2 := hb.exp_mem (v.drop a.nv) (by simp; omega)
    have h := ha.len _ h1
    show Ea (List.take a.nq (_ ++ _)) ∧ Eb (List.drop a.nq (_ ++ _))
    rw [← h, List.take_left, List.drop_left]
    exact ⟨h1, h2⟩
  exp_log := fun g hg => by
    have h1 := ha.log_len _ hg.1
    show a.exp (List.take a.nv (_ ++ _)) ++ b.exp (List.drop a.nv (_ ++ _)) = g
    rw [← h1, List.take_left, List.drop_left, ha.exp_log _ hg.1, hb.exp_log _ hg.2,
      List.take_append_drop]
  exp_zero := by
    show a.exp ((List.replicate (a.nv + b.nv) 0).take a.nv) ++
      b.exp ((List.replicate (a.nv + b.nv) 0).drop a.nv) = _ ++ _
    rw [List.take_replicate, List.drop_replicate, Nat.min_eq_left (by omega), Nat.add_sub_cancel_left,
      ha.exp_zero, hb.exp_zero]
  log_exp_mask := fun g c hg hc => by
    have hc' : c.length = a.nv + b.nv := hc
    have h1 := ha.log_len _ hg.1
    have h2 := hb.log_len _ hg.2
    have hs : (a.prod b).log g = a.log (g.take a.nq) ++ b.log (g.drop a.nq) := rfl
    have ht : (c.take a.nv).length = a.nv := by simp; omega
    have hd : (c.drop a.nv).length = b.nv := by simp; omega
    have hm : maskEq c ((a.prod b).log g) = maskEq (c.take a.nv) (a.log (g.take a.nq)) ++
        maskEq (c.drop a.nv) (b.log (g.drop a.nq)) := by
      rw [← maskEq_append _ _ _ _ (ht.trans h1.symm), List.take_append_drop, hs]
    rw [hm]
    have l1 : (maskEq (c.take a.nv) (a.log (g.take a.nq))).length = a.nv := by
      simp [maskEq, h1]; omega
    have l2 : (maskEq (c.drop a.nv) (b.log (g.drop a.nq))).length = b.nv := by
      simp [maskEq, h2]; omega
    have e1 : (a.prod b).exp (maskEq (c.take a.nv) (a.log (g.take a.nq)) ++
        maskEq (c.drop a.nv) (b.log (g.drop a.nq))) =
        a.exp (maskEq (c.take a.nv) (a.log (g.take a.nq))) ++
        b.exp (maskEq (c.drop a.nv) (b.log (g.drop a.nq))) := by
      show a.exp (List.take a.nv (_ ++ _)) ++ b.exp (List.drop a.nv (_ ++ _)) = _
      rw [List.take_left' l1, List.drop_left' l1]
    rw [e1]
    have l3 := ha.len _ (ha.exp_mem _ l1)
    show a.log (List.take a.nq (_ ++ _)) ++ b.log (List.drop a.nq (_ ++ _)) = _
    rw [List.take_left' l3, List.drop_left' l3, ha.log_exp_mask _ _ hg.1 ht,
      hb.log_exp_mask _ _ hg.2 hd]
  sub_len := fun g h hg hh => by
    show (a.sub _ _ ++ b.sub _ _).length = a.nv + b.nv
    rw [List.length_append, ha.sub_len _ _ hg.1 hh.1, hb.sub_len _ _ hg.2 hh.2]
  sub_eq_zero := fun g h hg hh => by
    show a.sub _ _ ++ b.sub _ _ = List.replicate (a.nv + b.nv) 0 ↔ _
    rw [List.replicate_add, List.append_eq_append_iff_of_size_eq_left (by simpa using ha.sub_len _ _ hg.1 hh.1)]
    rw [ha.sub_eq_zero _ _ hg.1 hh.1, hb.sub_eq_zero _ _ hg.2 hh.2]
    constructor
    · rintro ⟨h1, h2⟩
      rw [← List.take_append_drop a.nq g, h1, h2, List.take_append_drop]
    · rintro rfl; exact ⟨rfl, rfl⟩

theorem Space.empty_lawful [Zero α] : (Space.empty α).Lawful (fun g => g = []) where
  neutral_mem := rfl
  log_len := fun _ _ => rfl
  len := fun g hg => by rw [hg]; rfl
  exp_mem := fun _ _ => rfl
  exp_log := fun g hg => by rw [hg]; rfl
  exp_zero := rfl
  log_exp_mask := fun g c hg hc => by
    have : c = [] := List.eq_nil_of_length_eq_zero hc
    rw [this]; rfl
  sub_len := fun _ _ _ _ => rfl
  sub_eq_zero := fun g h hg hh => by rw [hg, hh]; exact ⟨fun _ => rfl, fun _ => rfl⟩

/-- Elements of the output space of a stack. -/
def spaceOfEl (El : Fn α κ → List α → Prop) : List (Fn α κ) → List α → Prop
  | fs => fs.foldl (fun p f => (p.1 + f.space.nq, prodEl p.1 p.2 (El f))) (0, fun g : List α => g = []) |>.2

theorem spaceOfEl_fst (El : Fn α κ → List α → Prop) (fs : List (Fn α κ)) :
    (fs.foldl (fun p f => (p.1 + f.space.nq, prodEl p.1 p.2 (El f)))
      (0, fun g : List α => g = [])).1 = (fs.map (·.space.nq)).sum := by
  induction fs using List.reverseRecOn with
  | nil => rfl
  | append_singleton fs f ih => simp [ih]

theorem spaceOfEl_snoc (El : Fn α κ → List α → Prop) (fs : List (Fn α κ)) (f : Fn α κ) :
    spaceOfEl El (fs ++ [f]) = prodEl (fs.map (·.space.nq)).sum (spaceOfEl El fs) (El f) := by
  unfold spaceOfEl
  simp [spaceOfEl_fst]

theorem spaceOf_lawful [Zero α] (El : Fn α κ → List α → Prop) (fs : List (Fn α κ))
    (h : ∀ f ∈ fs, f.space.Lawful (El f)) : (spaceOf fs).Lawful (spaceOfEl El fs) := by
  induction fs using List.reverseRecOn with
  | nil => exact Space.empty_lawful
  | append_singleton fs f ih =>
    rw [spaceOf_snoc, spaceOfEl_snoc, ← spaceOf_nq]
    exact (ih fun g hg => h g (by simp [hg])).prod (h f (by simp))

theorem spaceOfEl_flatMap (El : Fn α κ → List α → Prop) (fs : List (Fn α κ)) (v : Fn α κ → List α)
    (h : ∀ f ∈ fs, El f (v f)) (hl : ∀ f ∈ fs, (v f).length = f.space.nq) :
    spaceOfEl El fs (fs.flatMap v) := by
  induction fs using List.reverseRecOn with
  | nil => rfl
  | append_singleton fs f ih =>
    rw [spaceOfEl_snoc, List.flatMap_append]
    have : (fs.map (·.space.nq)).sum = (fs.flatMap v).length := by
      rw [List.length_flatMap]
      congr 1
      exact List.map_congr_left fun g hg => (hl g (by simp [hg])).symm
    unfold prodEl
    rw [this, List.take_left, List.drop_left]
    exact ⟨ih (fun g hg => h g (by simp [hg])) (fun g hg => hl g (by simp [hg])),
      by simpa using h f (by simp)⟩

theorem spaceOf_log (fs : List (Fn α κ)) (v : Fn α κ → List α)
    (hl : ∀ f ∈ fs, (v f).length = f.space.nq) :
    (spaceOf fs).log (fs.flatMap v) = fs.flatMap fun f => f.space.log (v f) := by
  induction fs using List.reverseRecOn with
  | nil => rfl
  | append_singleton fs f ih =>
    rw [spaceOf_snoc, List.flatMap_append, List.flatMap_append,
      ← ih fun g hg => hl g (by simp [hg])]
    have : (spaceOf fs).nq = (fs.flatMap v).length := by
      rw [List.length_flatMap, spaceOf_nq]
      congr 1
      exact List.map_congr_left fun g hg => (hl g (by simp [hg])).symm
    show (spaceOf fs).log (List.take _ _) ++ f.space.log (List.drop _ _) = _
    rw [this, List.take_left, List.drop_left]
    simp

theorem spaceOf_exp (fs : List (Fn α κ)) (v : Fn α κ → List α)
    (hl : ∀ f ∈ fs, (v f).length = f.space.nv) :
    (spaceOf fs).exp (fs.flatMap v) = fs.flatMap fun f => f.space.exp (v f) := by
  induction fs using List.reverseRecOn with
  | nil => rfl
  | append_singleton fs f ih =>
    rw [spaceOf_snoc, List.flatMap_append, List.flatMap_append,
      ← ih fun g hg => hl g (by simp [hg])]
    have : (spaceOf fs).nv = (fs.flatMap v).length := by
      rw [List.length_flatMap, spaceOf_nv]
      congr 1
      exact List.map_congr_left fun g hg => (hl g (by simp [hg])).symm
    show (spaceOf fs).exp (List.take _ _) ++ f.space.exp (List.drop _ _) = _
    rw [this, List.take_left, List.drop_left]
    simp

theorem ImplSet.Ok.rhsFromConfig_eq [Zero α] {cs : List (Impl α κ)} {s : ImplSet α κ}
    (hok : ImplSet.Ok cs s)
    (hc : ∀ c ∈ cs, ∃ fn mask comp, Impl.Built fn mask comp c) (q : Nat → α)
    (hf : ∀ c ∈ cs, (c.fn.value q).length = c.fn.space.nq ∧
      (c.fn.space.log (c.fn.value q)).length = c.fn.space.nv)
    (buf : List α) (hb : buf.length = s.fns.space.nq) :
    s.rhsFromConfig q buf = cs.flatMap (·.rhsFromConfig q) := by
  have hci : ∀ c ∈ cs, c.Ok := fun c hc' => by
    obtain ⟨_, _, _, hb⟩ := hc c hc'; exact hb.ok.1
  unfold ImplSet.rhsFromConfig
  have hv : s.fns.value q buf = (cs.map (·.fn)).flatMap (·.value q) := by
    unfold FnSet.value
    rw [hok.fns.fns]
    have := fnSetValue_eq q (cs.map (·.fn)) (by simpa using fun c hc' => (hf c hc').1) [] buf
      (by rw [hb, hok.fns.space, spaceOf_nq])
    simpa using this
  have hlog : s.fns.space.log (s.fns.value q buf) =
      (cs.map (·.fn)).flatMap fun f => f.space.log (f.value q) := by
    rw [hv, hok.fns.space]
    exact spaceOf_log _ _ (by simpa using fun c hc' => (hf c hc').1)
  have hcl : s.comp.length = s.fns.space.nv := by
    rw [hok.comp, hok.fns.space, spaceOf_nv, List.length_flatMap, List.map_map]
    congr 1
    exact List.map_congr_left fun c hc' => (hci c hc').comp_len
  have hll : (s.fns.space.log (s.fns.value q buf)).length = s.fns.space.nv := by
    rw [hlog, hok.fns.space, spaceOf_nv, List.length_flatMap, List.map_map, List.map_map]
    congr 1
    exact List.map_congr_left fun c hc' => (hf c hc').2
  rw [hok.eq, keepEquality_eq _ _ _ hcl hll, hlog, hok.comp, hok.fns.space]
  have hmask : maskEq (cs.flatMap (·.comp)) ((cs.map (·.fn)).flatMap fun f => f.space.log (f.value q)) =
      cs.flatMap fun c => maskEq c.comp (c.fn.space.log (c.fn.value q)) := by
    clear hlog hcl hll hv hb hok
    induction cs with
    | nil => rfl
    | cons c cs ih =>
      simp only [List.map_cons, List.flatMap_cons]
      rw [maskEq_append _ _ _ _ ((hci c (by simp)).comp_len.trans (hf c (by simp)).2.symm),
        ih (fun d hd => hc d (by simp [hd])) (fun d hd => hf d (by simp [hd]))
          (fun d hd => hci d (by simp [hd]))]
  rw [hmask]
  have hexp : ∀ cs : List (Impl α κ), (∀ c ∈ cs, c.Ok) → (∀ c ∈ cs,
      (c.fn.space.log (c.fn.value q)).length = c.fn.space.nv) →
      (spaceOf (cs.map (·.fn))).exp (cs.flatMap fun c => maskEq c.comp (c.fn.space.log (c.fn.value q)))
      = cs.flatMap (·.rhsFromConfig q) := by
    intro cs hci hl
    have hml : ∀ c ∈ cs, (maskEq c.comp (c.fn.space.log (c.fn.value q))).length = c.fn.space.nv :=
      fun c hc' => by simp [maskEq, (hci c hc').comp_len, hl c hc']
    induction cs using List.reverseRecOn with
    | nil => rfl
    | append_singleton cs c ih =>
      rw [List.map_append, List.map_singleton, spaceOf_snoc, List.flatMap_append, List.flatMap_append,
        ← ih (fun d hd => hci d (by simp [hd])) (fun d hd => hl d (by simp [hd]))
          (fun d hd => hml d (by simp [hd]))]
      have hlen : (cs.flatMap fun c => maskEq c.comp (c.fn.space.log (c.fn.value q))).length =
          (spaceOf (cs.map (·.fn))).nv := by
        rw [List.length_flatMap, spaceOf_nv, List.map_map]
        congr 1
        exact List.map_congr_left fun d hd => hml d (by simp [hd])
      show (spaceOf _).exp (List.take _ _) ++ c.fn.space.exp (List.drop _ _) = _
      rw [List.take_left' hlen, List.drop_left' hlen]
      congr 1
      simp only [List.flatMap_cons, List.flatMap_nil, List.append_nil]
      unfold Impl.rhsFromConfig
      rw [(hci c (by simp)).eq, keepEquality_eq _ _ _ (hci c (by simp)).comp_len (hl c (by simp))]
  exact hexp cs hci fun c hc' => (hf c hc').2

end Hpp
