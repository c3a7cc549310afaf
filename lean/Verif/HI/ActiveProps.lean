import Verif.HI.SatProps

/-!
# Active variables of a solver: C71
-/

namespace Hpp

variable {α κ : Type}

theorem orArrays_spec (n : Nat) : ∀ (l : List (List Bool)) (a : List Bool), a.length = n →
    (∀ b ∈ l, b.length = n) → ∃ r, l.foldlM (fun a b => if a.length = b.length then
      some (List.zipWith (· || ·) a b) else none) a = some r ∧ r.length = n ∧
      ∀ i : Nat, r[i]? = some true ↔ a[i]? = some true ∨ ∃ b ∈ l, b[i]? = some true := by
  intro l
  induction l with
  | nil => intro a ha _; exact ⟨a, rfl, ha, by simp⟩
  | cons b l ih =>
    intro a ha hl
    have hb := hl b (by simp)
    obtain ⟨r, h1, h2, h3⟩ := ih (List.zipWith (· || ·) a b) (by simp [ha, hb])
      fun c hc => hl c (by simp [hc])
    refine ⟨r, ?_, h2, fun i => ?_⟩
    · rw [List.foldlM_cons, if_pos (ha.trans hb.symm)]
      exact h1
    · rw [h3, getElem?_zipWith_or _ _ (ha.trans hb.symm)]
      simp [or_assoc]

theorem orArrays_none (n : Nat) : ∀ (l : List (List Bool)) (a : List Bool), a.length = n →
    (∃ b ∈ l, b.length ≠ n) → l.foldlM (fun a b => if a.length = b.length then
      some (List.zipWith (· || ·) a b) else none) a = none := by
  intro l
  induction l with
  | nil => simp
  | cons b l ih =>
    intro a ha hl
    rw [List.foldlM_cons]
    by_cases hb : b.length = n
    · rw [if_pos (ha.trans hb.symm)]
      refine ih (List.zipWith (· || ·) a b) (by simp [ha, hb]) ?_
      obtain ⟨c, hc, hc'⟩ := hl
      rcases List.mem_cons.1 hc with rfl | hc
      · exact absurd hb hc'
      · exact ⟨c, hc, hc'⟩
    · rw [if_neg (by omega)]
      rfl

theorem atLevel_ne_nil {h : List (Impl α κ × Nat)} {i : Nat} (he : ∃ e ∈ h, e.2 = i) :
    atLevel h i ≠ [] := by
  obtain ⟨⟨c, p⟩, he, hp⟩ := he
  have hp' : p = i := hp
  subst hp'
  intro h0
  have := mem_atLevel.2 he
  rw [h0] at this
  simp at this

theorem FnSet.Ok.active_length {fs : List (Fn α κ)} {s : FnSet α κ} {n : Nat} (h : FnSet.Ok fs s)
    (hne : fs ≠ []) (hn : ∀ f ∈ fs, f.active.length = n) : s.active.length = n := by
  cases fs with
  | nil => exact absurd rfl hne
  | cons f fs => rw [← (h.sizes f (by simp)).2.2.2, hn f (by simp)]

section
variable [Zero α] [DecidableEq κ] {El : Fn α κ → List α → Prop} {nv : Nat}
  {h : List (Impl α κ × Nat)} {s : HI α κ}

/-- C71, part: when each level has a constraint, the active variables of the solver are those of the
functions of its constraints.  Missing: levels without constraint. -/
theorem C71_active_partial (hb : HI.Built El nv h s) (hl : ∀ e ∈ h, e.1.fn.space.Lawful (El e.1.fn))
    (hv : ∀ e ∈ h, ∀ q, El e.1.fn (e.1.fn.value q)) (hn : ∀ e ∈ h, e.1.fn.active.length = s.nv)
    (hlev : ∀ i, i < s.levels.length → ∃ e ∈ h, e.2 = i) :
    ∃ a, s.activeDerivativeParameters = some a ∧ a.length = s.nv ∧
      ∀ i : Nat, a[i]? = some true ↔ ∃ e ∈ h, e.1.fn.active[i]? = some true := by
  have hs := (hb.inv hl hv).1
  obtain ⟨r, h1, h2, h3⟩ := orArrays_spec s.nv (s.levels.map (·.stack.fns.active))
    (List.replicate s.nv false) (by simp) (by
      intro b hb
      obtain ⟨l, hl', rfl⟩ := List.mem_map.1 hb
      obtain ⟨i, hi⟩ := List.getElem?_of_mem hl'
      have hok := hs.level i l hi
      refine hok.stack.fns.active_length ?_ ?_
      · simpa using atLevel_ne_nil (hlev i (lt_of_getElem?_some hi))
      · intro f hf
        obtain ⟨c, hc, rfl⟩ := List.mem_map.1 hf
        exact hn _ (mem_atLevel.1 hc))
  refine ⟨r, h1, h2, fun i => ?_⟩
  rw [h3]
  constructor
  · rintro (h0 | ⟨b, hb, hbi⟩)
    · rw [List.getElem?_replicate] at h0
      split at h0 <;> simp at h0
    · obtain ⟨l, hl', rfl⟩ := List.mem_map.1 hb
      obtain ⟨j, hj⟩ := List.getElem?_of_mem hl'
      obtain ⟨f, hf, hfi⟩ := ((hs.level j l hj).stack.fns.active i).1 hbi
      obtain ⟨c, hc, rfl⟩ := List.mem_map.1 hf
      exact ⟨_, mem_atLevel.1 hc, hfi⟩
  · rintro ⟨⟨c, p⟩, he, hei⟩
    right
    have hp := hs.nlev _ he
    refine ⟨_, List.mem_map.2 ⟨_, List.getElem_mem hp, rfl⟩, ?_⟩
    exact ((hs.level p _ (List.getElem?_eq_getElem hp)).stack.fns.active i).2
      ⟨c.fn, List.mem_map.2 ⟨c, mem_atLevel.2 he, rfl⟩, hei⟩

/-- C71 fails as soon as a level has no constraint: the sizes of the arrays differ, which is an error in
Eigen. -/
theorem C71_empty_level_refuted (hb : HI.Built El nv h s)
    (hl : ∀ e ∈ h, e.1.fn.space.Lawful (El e.1.fn))
    (hv : ∀ e ∈ h, ∀ q, El e.1.fn (e.1.fn.value q)) (hpos : 0 < s.nv) (i : Nat)
    (hi : i < s.levels.length) (hemp : ∀ e ∈ h, e.2 ≠ i) :
    s.activeDerivativeParameters = none := by
  have hs := (hb.inv hl hv).1
  refine orArrays_none s.nv _ _ (by simp) ⟨_, List.mem_map.2 ⟨_, List.getElem_mem hi, rfl⟩, ?_⟩
  rw [((hs.level i _ (List.getElem?_eq_getElem hi)).stack.fns.emp ?_).1]
  · simp; omega
  · rw [List.map_eq_nil_iff, List.eq_nil_iff_forall_not_mem]
    intro c hc
    exact hemp _ (mem_atLevel.1 hc) rfl

end

open HIEx in
example : (∀ e ∈ hist, e.1.fn.active.length = s3.nv) ∧ s3.levels.length = 2 ∧
    s3.activeDerivativeParameters = some [true, true, true] ∧
    s1.activeDerivativeParameters = some [true, true, false] ∧
    ((HI.init Int Nat 3).add cA 1).1.activeDerivativeParameters = none := by decide +kernel

end Hpp
