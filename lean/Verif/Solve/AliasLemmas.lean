import Verif.Solve.Alias
import Mathlib.Tactic.Common

/-!
# Lemmas on the sharing of output spaces
-/

namespace Hpp.Alias

/-- Invariant of all executions: the space of each stack has the sizes of its functions and is not the
space of another stack. -/
structure Inv (w : World) : Prop where
  lt : ∀ (i k : Nat) (l : Lvl), (w.slv i).levels[k]? = some l → l.fnRef < w.next
  dim : ∀ (i k : Nat) (l : Lvl), (w.slv i).levels[k]? = some l → w.heap l.fnRef = sumDim l.cons
  inj : ∀ (i k : Nat) (l : Lvl) (i' k' : Nat) (l' : Lvl), (w.slv i).levels[k]? = some l → (w.slv i').levels[k']? = some l' →
    l.fnRef = l'.fnRef → i = i' ∧ k = k'
  fresh : ∀ r, w.next ≤ r → w.heap r = (0, 0)

/-- The data of the solver refer to the spaces of its own stacks. -/
def Clean (w : World) (i : Nat) : Prop :=
  ∀ l ∈ (w.slv i).levels, l.dataRef = l.fnRef ∧ l.vec = w.heap l.fnRef

theorem sumDim_append (cs : List (Nat × Dim)) (c : Nat × Dim) :
    sumDim (cs ++ [c]) = ((sumDim cs).1 + c.2.1, (sumDim cs).2 + c.2.2) := by
  unfold sumDim; rw [List.foldl_append]; rfl

theorem inv_init : Inv World.init := by
  constructor <;> intros <;> simp_all [World.init]

theorem grow_getElem? (n next : Nat) (ls : List Lvl) (k : Nat) (l : Lvl) :
    (grow n next ls)[k]? = some l ↔ ls[k]? = some l ∨
      (ls.length ≤ k ∧ k < n ∧ l = ⟨next + (k - ls.length), next + (k - ls.length), (0, 0), []⟩) := by
  unfold grow
  by_cases hk : k < ls.length
  · rw [List.getElem?_append_left hk]
    constructor
    · exact Or.inl
    · rintro (h | ⟨h, _⟩)
      · exact h
      · omega
  · have hnone : ls[k]? = none := List.getElem?_eq_none (by omega)
    rw [List.getElem?_append_right (by omega), List.getElem?_map, hnone]
    by_cases hn : k < n
    · rw [List.getElem?_range (by omega)]
      simp only [Option.map_some, Option.some.injEq, reduceCtorEq, false_or]
      constructor
      · rintro rfl; exact ⟨by omega, hn, rfl⟩
      · rintro ⟨_, _, rfl⟩; rfl
    · rw [List.getElem?_eq_none (by simp; omega)]
      simp
      omega

theorem grow_get (n next : Nat) (ls : List Lvl) : ∃ l, (grow (n + 1) next ls)[n]? = some l := by
  by_cases h : n < ls.length
  · exact ⟨ls[n], (grow_getElem? _ _ _ _ _).2 (Or.inl (List.getElem?_eq_getElem h))⟩
  · exact ⟨_, (grow_getElem? _ _ _ _ _).2 (Or.inr ⟨by omega, by omega, rfl⟩)⟩

/-- Levels of a solver after `add`. -/
theorem add_levels (w : World) (i c : Nat) (d : Dim) (p : Nat) : ∃ l,
    (grow (p + 1) w.next (w.slv i).levels)[p]? = some l ∧
    (w.step (.add i c d p)).heap =
      Function.update w.heap l.fnRef ((w.heap l.fnRef).1 + d.1, (w.heap l.fnRef).2 + d.2) ∧
    (w.step (.add i c d p)).next = w.next + (p + 1 - (w.slv i).levels.length) ∧
    (w.step (.add i c d p)).slv = Function.update w.slv i
      ⟨((grow (p + 1) w.next (w.slv i).levels).set p { l with cons := l.cons ++ [(c, d)] }).map
        (updateLvl (w.step (.add i c d p)).heap), (w.slv i).ranks ++ [(c, p, w.heap l.dataRef)]⟩ := by
  obtain ⟨l, hl⟩ := grow_get p w.next (w.slv i).levels
  refine ⟨l, hl, ?_⟩
  simp only [World.step, hl]
  exact ⟨trivial, trivial, trivial⟩

theorem inv_add {w : World} (h : Inv w) (i c : Nat) (d : Dim) (p : Nat) :
    Inv (w.step (.add i c d p)) := by
  obtain ⟨l, hl, h1, h2, h3⟩ := add_levels w i c d p
  generalize w.step (.add i c d p) = w' at *
  -- levels before the update of the data
  have hg : ∀ (i' k : Nat) (l' : Lvl), (w'.slv i').levels[k]? = some l' →
      (i' ≠ i ∧ (w.slv i').levels[k]? = some l') ∨
      (i' = i ∧ ∃ l₀, (grow (p + 1) w.next (w.slv i).levels)[k]? = some l₀ ∧ l'.fnRef = l₀.fnRef ∧
        (k = p → l₀ = l ∧ l'.cons = l.cons ++ [(c, d)]) ∧ (k ≠ p → l'.cons = l₀.cons)) := by
    intro i' k l' hl'
    rw [h3] at hl'
    by_cases hi : i' = i
    · subst hi
      right
      refine ⟨rfl, ?_⟩
      rw [Function.update_self] at hl'
      simp only [List.getElem?_map, Option.map_eq_some_iff] at hl'
      obtain ⟨l₁, g1, rfl⟩ := hl'
      by_cases hk : k = p
      · subst hk
        rw [List.getElem?_set_self (by
          have := List.getElem?_eq_some_iff.1 hl
          exact this.1)] at g1
        obtain rfl := Option.some.inj g1
        exact ⟨l, hl, rfl, fun _ => ⟨rfl, rfl⟩, fun h => absurd rfl h⟩
      · rw [List.getElem?_set_ne (fun h => hk h.symm)] at g1
        exact ⟨l₁, g1, rfl, fun h => absurd h hk, fun _ => rfl⟩
    · rw [Function.update_of_ne hi] at hl'
      exact Or.inl ⟨hi, hl'⟩
  have glt : ∀ (k : Nat) (l₀ : Lvl), (grow (p + 1) w.next (w.slv i).levels)[k]? = some l₀ → l₀.fnRef < w'.next := by
    intro k l₀ hk
    rw [h2]
    rcases (grow_getElem? _ _ _ _ _).1 hk with hk | ⟨g1, g2, rfl⟩
    · exact Nat.lt_of_lt_of_le (h.lt _ _ _ hk) (Nat.le_add_right _ _)
    · show w.next + _ < _; omega
  have gdim : ∀ (k : Nat) (l₀ : Lvl), (grow (p + 1) w.next (w.slv i).levels)[k]? = some l₀ →
      w.heap l₀.fnRef = sumDim l₀.cons := by
    intro k l₀ hk
    rcases (grow_getElem? _ _ _ _ _).1 hk with hk | ⟨g1, g2, rfl⟩
    · exact h.dim _ _ _ hk
    · exact h.fresh _ (Nat.le_add_right _ _)
  have ginj : ∀ (k : Nat) (l₀ : Lvl) (k' : Nat) (l₁ : Lvl), (grow (p + 1) w.next (w.slv i).levels)[k]? = some l₀ →
      (grow (p + 1) w.next (w.slv i).levels)[k']? = some l₁ → l₀.fnRef = l₁.fnRef → k = k' := by
    intro k l₀ k' l₁ hk hk' he
    rcases (grow_getElem? _ _ _ _ _).1 hk with hk | ⟨g1, g2, rfl⟩ <;>
      rcases (grow_getElem? _ _ _ _ _).1 hk' with hk' | ⟨g3, g4, rfl⟩
    · exact (h.inj _ _ _ _ _ _ hk hk' he).2
    · have := h.lt _ _ _ hk
      simp only at he
      omega
    · have := h.lt _ _ _ hk'
      simp only at he
      omega
    · simp only at he
      omega
  have ginj' : ∀ (i' k : Nat) (l₀ : Lvl) (k' : Nat) (l₁ : Lvl), i' ≠ i → (w.slv i').levels[k]? = some l₀ →
      (grow (p + 1) w.next (w.slv i).levels)[k']? = some l₁ → l₀.fnRef ≠ l₁.fnRef := by
    intro i' k l₀ k' l₁ hi hk hk' he
    rcases (grow_getElem? _ _ _ _ _).1 hk' with hk' | ⟨g3, g4, rfl⟩
    · exact hi (h.inj _ _ _ _ _ _ hk hk' he).1
    · have := h.lt _ _ _ hk
      simp only at he
      omega
  constructor
  · intro i' k l' hl'
    rcases hg i' k l' hl' with ⟨_, g⟩ | ⟨_, l₀, g, ge, _⟩
    · have := h.lt _ _ _ g
      omega
    · rw [ge]; exact glt k l₀ g
  · intro i' k l' hl'
    rcases hg i' k l' hl' with ⟨hi, g⟩ | ⟨_, l₀, g, ge, gp, gn⟩
    · rw [h1, Function.update_of_ne (ginj' _ _ _ _ _ hi g hl)]
      exact h.dim _ _ _ g
    · by_cases hk : k = p
      · obtain ⟨rfl, e⟩ := gp hk
        rw [ge, e, h1, Function.update_self, sumDim_append, gdim _ _ g]
      · rw [ge, gn hk, h1, Function.update_of_ne, gdim _ _ g]
        exact fun e => hk (ginj _ _ _ _ g hl e)
  · intro i' k l' i'' k' l'' hl' hl'' he
    rcases hg i' k l' hl' with ⟨hi, g⟩ | ⟨rfl, l₀, g, ge, _⟩ <;>
      rcases hg i'' k' l'' hl'' with ⟨hi', g'⟩ | ⟨rfl, l₁, g', ge', _⟩
    · exact h.inj _ _ _ _ _ _ g g' he
    · rw [ge'] at he
      exact absurd he (ginj' _ _ _ _ _ hi g g')
    · rw [ge] at he
      exact absurd he.symm (ginj' _ _ _ _ _ hi' g' g)
    · rw [ge, ge'] at he
      exact ⟨rfl, ginj _ _ _ _ g g' he⟩
  · intro r hr
    rw [h1, Function.update_of_ne]
    · exact h.fresh _ (by omega)
    · have := glt p l hl
      omega

theorem copy_levels (next : Nat) (ls : List Lvl) (k : Nat) (l' : Lvl) :
    (copyLevels next ls)[k]? = some l' ↔ ∃ l, ls[k]? = some l ∧ l' = { l with fnRef := next + k } := by
  unfold copyLevels
  rw [List.getElem?_mapIdx, Option.map_eq_some_iff]
  simp only [eq_comm]

theorem copy_heap (w : World) (i j r : Nat) :
    (r < w.next → (w.step (.copy i j)).heap r = w.heap r) ∧
    (∀ (k : Nat) (l : Lvl), (w.slv i).levels[k]? = some l → (w.step (.copy i j)).heap (w.next + k) = sumDim l.cons) ∧
    (w.next + (w.slv i).levels.length ≤ r → (w.step (.copy i j)).heap r = w.heap r) := by
  refine ⟨fun hr => ?_, fun k l hl => ?_, fun hr => ?_⟩
  · simp only [World.step]
    split
    · rw [if_neg (by omega)]
    · rfl
  · simp only [World.step]
    rw [show w.next + k - w.next = k by omega, hl]
    simp
  · simp only [World.step]
    rw [List.getElem?_eq_none (by omega)]

theorem inv_copy {w : World} (h : Inv w) (i j : Nat) : Inv (w.step (.copy i j)) := by
  have hh := copy_heap w i j
  have hnext : (w.step (.copy i j)).next = w.next + (w.slv i).levels.length := rfl
  have hslv : (w.step (.copy i j)).slv =
    Function.update w.slv j ⟨copyLevels w.next (w.slv i).levels, (w.slv i).ranks⟩ := rfl
  generalize w.step (.copy i j) = w' at *
  have hg : ∀ (i' k : Nat) (l' : Lvl), (w'.slv i').levels[k]? = some l' →
      (i' ≠ j ∧ (w.slv i').levels[k]? = some l') ∨
      (i' = j ∧ ∃ l₀, (w.slv i).levels[k]? = some l₀ ∧ l' = { l₀ with fnRef := w.next + k }) := by
    intro i' k l' hl'
    rw [hslv] at hl'
    by_cases hi : i' = j
    · subst hi
      rw [Function.update_self] at hl'
      exact Or.inr ⟨rfl, (copy_levels _ _ _ _).1 hl'⟩
    · rw [Function.update_of_ne hi] at hl'
      exact Or.inl ⟨hi, hl'⟩
  have hlen : ∀ (k : Nat) (l₀ : Lvl), (w.slv i).levels[k]? = some l₀ → k < (w.slv i).levels.length := fun k l₀ g =>
    (List.getElem?_eq_some_iff.1 g).1
  constructor
  · intro i' k l' hl'
    rcases hg i' k l' hl' with ⟨_, g⟩ | ⟨_, l₀, g, rfl⟩
    · have := h.lt _ _ _ g
      omega
    · have := hlen k l₀ g
      show w.next + k < _
      omega
  · intro i' k l' hl'
    rcases hg i' k l' hl' with ⟨_, g⟩ | ⟨_, l₀, g, rfl⟩
    · rw [(hh _).1 (h.lt _ _ _ g)]
      exact h.dim _ _ _ g
    · exact (hh 0).2.1 k l₀ g
  · intro i' k l' i'' k' l'' hl' hl'' he
    rcases hg i' k l' hl' with ⟨hi, g⟩ | ⟨rfl, l₀, g, rfl⟩ <;>
      rcases hg i'' k' l'' hl'' with ⟨hi', g'⟩ | ⟨rfl, l₁, g', rfl⟩
    · exact h.inj _ _ _ _ _ _ g g' he
    · have := h.lt _ _ _ g
      simp only at he
      omega
    · have := h.lt _ _ _ g'
      simp only at he
      omega
    · simp only at he
      exact ⟨rfl, by omega⟩
  · intro r hr
    rw [(hh r).2.2 (by omega)]
    exact h.fresh _ (by omega)

theorem inv_update {w : World} (h : Inv w) (i : Nat) : Inv (w.step (.update i)) := by
  have hg : ∀ (i' k : Nat) (l' : Lvl), ((w.step (.update i)).slv i').levels[k]? = some l' →
      ∃ l₀, (w.slv i').levels[k]? = some l₀ ∧ l'.fnRef = l₀.fnRef ∧ l'.cons = l₀.cons := by
    intro i' k l' hl'
    simp only [World.step] at hl'
    by_cases hi : i' = i
    · subst hi
      rw [Function.update_self] at hl'
      simp only [List.getElem?_map, Option.map_eq_some_iff] at hl'
      obtain ⟨l₀, g, rfl⟩ := hl'
      exact ⟨l₀, g, rfl, rfl⟩
    · rw [Function.update_of_ne hi] at hl'
      exact ⟨l', hl', rfl, rfl⟩
  constructor
  · intro i' k l' hl'
    obtain ⟨l₀, g, e, _⟩ := hg i' k l' hl'
    rw [e]; exact h.lt _ _ _ g
  · intro i' k l' hl'
    obtain ⟨l₀, g, e, e'⟩ := hg i' k l' hl'
    rw [e, e']; exact h.dim _ _ _ g
  · intro i' k l' i'' k' l'' hl' hl'' he
    obtain ⟨l₀, g, e, _⟩ := hg i' k l' hl'
    obtain ⟨l₁, g', e', _⟩ := hg i'' k' l'' hl''
    rw [e, e'] at he
    exact h.inj _ _ _ _ _ _ g g' he
  · exact h.fresh

theorem inv_step {w : World} (h : Inv w) (op : Op) : Inv (w.step op) := by
  cases op with
  | add i c d p => exact inv_add h i c d p
  | copy i j => exact inv_copy h i j
  | update i => exact inv_update h i

/-- Solver modified by an operation. -/
def Op.target : Op → Nat
  | .add i _ _ _ => i
  | .copy _ j => j
  | .update i => i

theorem step_slv (w : World) (op : Op) (i : Nat) (h : op.target ≠ i) : (w.step op).slv i = w.slv i := by
  cases op with
  | add j c d p =>
    obtain ⟨l, -, -, -, h3⟩ := add_levels w j c d p
    rw [h3]
    exact Function.update_of_ne (Ne.symm h) _ _
  | copy k j => exact Function.update_of_ne (Ne.symm h) _ _
  | update j => exact Function.update_of_ne (Ne.symm h) _ _

theorem step_heap {w : World} (hw : Inv w) (op : Op) (i : Nat) (h : op.target ≠ i) (k : Nat) (l : Lvl)
    (hl : (w.slv i).levels[k]? = some l) : (w.step op).heap l.fnRef = w.heap l.fnRef := by
  cases op with
  | add j c d p =>
    obtain ⟨l', hl', h1, -, -⟩ := add_levels w j c d p
    rw [h1]
    refine Function.update_of_ne (fun e => ?_) _ _
    rcases (grow_getElem? _ _ _ _ _).1 hl' with g | ⟨g1, g2, rfl⟩
    · exact h (hw.inj _ _ _ _ _ _ hl g e).1.symm
    · have := hw.lt _ _ _ hl
      simp only at e
      omega
  | copy a j => exact (copy_heap w a j _).1 (hw.lt _ _ _ hl)
  | update j => rfl

theorem step_clean {w : World} (hw : Inv w) (op : Op) (i : Nat) (h : op.target ≠ i) (hc : Clean w i) :
    Clean (w.step op) i := by
  intro l hl
  rw [step_slv w op i h] at hl
  obtain ⟨k, hk⟩ := List.getElem?_of_mem hl
  rw [step_heap hw op i h k l hk]
  exact hc l hl

theorem clean_add (w : World) (i c : Nat) (d : Dim) (p : Nat) : Clean (w.step (.add i c d p)) i := by
  obtain ⟨l, -, -, -, h3⟩ := add_levels w i c d p
  intro l' hl'
  rw [h3, Function.update_self] at hl'
  simp only [List.mem_map] at hl'
  obtain ⟨l₀, -, rfl⟩ := hl'
  exact ⟨rfl, rfl⟩

theorem clean_update (w : World) (i : Nat) : Clean (w.step (.update i)) i := by
  intro l' hl'
  simp only [World.step, Function.update_self, List.mem_map] at hl'
  obtain ⟨l₀, -, rfl⟩ := hl'
  exact ⟨rfl, rfl⟩

theorem reads_of_clean {w : World} {i : Nat} (hc : Clean w i) : w.reads i =
    (w.slv i).levels.map fun l => (w.heap l.fnRef, w.heap l.fnRef) := by
  refine List.map_congr_left fun l hl => ?_
  rw [(hc l hl).1, (hc l hl).2]

end Hpp.Alias
