import Verif.Solve.NewtonProps
import Verif.Solve.SaturationProps
import Verif.BySub.Loop

/-!
# Bounds of the configurations returned by the solvers: C92
-/

namespace Hpp

variable {α S M A : Type}

/-- `HierarchicalIterative::integrate` (hierarchical-iterative.cc:712-719): `plus` is the integration in the
configuration space, `entries` the calls of `clamp` made by the saturation object. -/
def integrateSat [LE α] [DecidableLE α] {n : Nat} (plus : (Nat → α) → (Fin n → α) → Nat → α)
    (entries : List (SatEntry α)) (q : Nat → α) (v : Fin n → α) : Nat → α :=
  (satLoopInPlace entries (plus q v) fun _ => 0).qSat

/-- Specification: the coordinates that are bounded are within their bounds. -/
def InBounds [LE α] (entries : List (SatEntry α)) (q : Nat → α) : Prop :=
  ∀ e ∈ entries, e.lb ≤ q e.iq ∧ q e.iq ≤ e.ub

/-- Specification: a line search returns the result of an integration. -/
def Integrates {n : Nat} (integrate : A → (Fin n → α) → A)
    (ls : S → A → (Fin n → α) → S × LsOut A (Fin n → α)) : Prop :=
  ∀ s q u, ∃ v, (ls s q u).2.arg = integrate q v

theorem integrateSat_in [LinearOrder α] {n : Nat} (plus : (Nat → α) → (Fin n → α) → Nat → α)
    (entries : List (SatEntry α)) (h : SatEntriesOk entries) (q : Nat → α) (v : Fin n → α) :
    InBounds entries (integrateSat plus entries q v) := by
  intro e he
  have h1 := (C31_idempotent entries h (plus q v) (fun _ => 0) fun _ => 0).1
  obtain ⟨h2, -⟩ := C31_within_bounds entries h (plus q v) (plus q v) fun _ => 0
  unfold integrateSat
  rw [h1]
  exact ⟨(h2 e he).1, (h2 e he).2.1⟩

/-! ## C92 -/

/-- C92. The four line searches return the result of an integration. -/
theorem C92_line_searches {n : Nat} (opt : Bool) (lv : List (NLevel A ℝ n)) (integrate : A → (Fin n → ℝ) → A)
    (thr : ℝ) :
    Integrates integrate (lsC opt lv integrate) ∧ Integrates integrate (lsB opt lv integrate) ∧
    Integrates integrate (lsF opt lv integrate) ∧ Integrates integrate (lsE opt lv integrate thr) := by
  refine ⟨fun s q u => ⟨_, rfl⟩, fun s q u => ?_, fun s q u => ⟨_, rfl⟩, fun s q u => ⟨_, rfl⟩⟩
  obtain ⟨out, g1, -, g2, -⟩ := C32_backtracking (newtonEnv opt lv integrate)
    (localSlope (lv.map fun l => l.at q) u) (nSqNorm opt lv q) q u
  unfold lsB
  rw [g1]
  exact ⟨_, g2⟩

/-- C92. For every saturation object with consistent bounds, every constraints, decomposition and line search:
the configuration returned by `HierarchicalIterative::solve` is within the bounds, or no iteration was
performed and it is the initial one. -/
theorem C92_bounds [Field α] [LinearOrder α] {n : Nat} (plus : (Nat → α) → (Fin n → α) → Nat → α)
    (entries : List (SatEntry α)) (h : SatEntriesOk entries) (o : SvdOps α) (byLevel opt : Bool)
    (thr dqMin : α) (lv : List (NLevel (Nat → α) α n))
    (ls : S → (Nat → α) → (Fin n → α) → S × LsOut (Nat → α) (Fin n → α))
    (hls : Integrates (integrateSat plus entries) ls) (maxIter : Nat) (q : Nat → α) (dq : Fin n → α) (s : S) :
    let r := solve (newtonOps o byLevel opt thr lv ls) thr dqMin maxIter n q (dq, s)
    InBounds entries r.arg ∨ (r.iter = 0 ∧ r.arg = q) := by
  intro r
  obtain ⟨h1, -⟩ := C29_statuses (newtonOps o byLevel opt thr lv ls) thr dqMin maxIter n q (dq, s)
  have h1' : r.arg = (traj (newtonOps o byLevel opt thr lv ls) q (dq, s) r.iter).1 := h1
  cases hk : r.iter with
  | zero => right; exact ⟨rfl, by rw [h1', hk]; rfl⟩
  | succ k =>
    left
    rw [h1', hk]
    show InBounds entries (ls _ _ _).2.arg
    obtain ⟨v, hv⟩ := hls _ _ _
    rw [hv]
    exact integrateSat_in plus entries h _ _

/-- C92. Thus a configuration within the bounds gives a configuration within the bounds.  For a robot: all
coordinates of the joints and of the extra configuration space. -/
theorem C92_device [Field α] [LinearOrder α] {n : Nat} (plus : (Nat → α) → (Fin n → α) → Nat → α)
    (joints : List (Nat × Nat)) (d : Nat) (lower upper exLower exUpper : Nat → α)
    (h : ∀ i, i < modelNq joints → lower i ≤ upper i) (hex : ∀ k, k < d → exLower k ≤ exUpper k)
    (o : SvdOps α) (byLevel opt : Bool) (thr dqMin : α) (lv : List (NLevel (Nat → α) α n))
    (ls : S → (Nat → α) → (Fin n → α) → S × LsOut (Nat → α) (Fin n → α))
    (hls : Integrates (integrateSat plus (deviceEntries (layout joints 0 0) lower upper (modelNq joints)
      (modelNv joints) d exLower exUpper)) ls) (maxIter : Nat) (q : Nat → α) (dq : Fin n → α) (s : S)
    (hq : (∀ i, i < modelNq joints → lower i ≤ q i ∧ q i ≤ upper i) ∧
      ∀ k, k < d → exLower k ≤ q (modelNq joints + k) ∧ q (modelNq joints + k) ≤ exUpper k) :
    let r := solve (newtonOps o byLevel opt thr lv ls) thr dqMin maxIter n q (dq, s)
    (∀ i, i < modelNq joints → lower i ≤ r.arg i ∧ r.arg i ≤ upper i) ∧
      ∀ k, k < d → exLower k ≤ r.arg (modelNq joints + k) ∧ r.arg (modelNq joints + k) ≤ exUpper k := by
  intro r
  have hmem := device_mem joints d lower upper exLower exUpper
  rcases C92_bounds plus _ (device_iq joints d lower upper exLower exUpper h hex) o byLevel opt thr dqMin lv ls hls
    maxIter q dq s with hb | ⟨-, hb⟩
  · refine ⟨fun i hi => ?_, fun k hk => ?_⟩
    · obtain ⟨j, hj, g1, g2⟩ := layout_cover joints 0 0 i (by omega) (by unfold modelNq at hi; omega)
      have := hb _ ((hmem _).2 (Or.inl ⟨j, hj, i - j.idxQ, by omega, rfl⟩))
      simp only [show j.idxQ + (i - j.idxQ) = i by omega] at this
      exact this
    · exact hb _ ((hmem _).2 (Or.inr ⟨k, hk, rfl⟩))
  · have hb' : r.arg = q := hb
    rw [hb']
    exact hq

theorem bsStep_inv [Field α] [LinearOrder α] (o : BsOps A M α) (P : A → Prop)
    (hs : ∀ a m, P a → P (o.expl (o.search a m).1).1 ∧ P (o.search a m).1)
    (thr : α) (optimize : Bool) (s : BsSt A M α) (prev : α) (m : M) (h1 : P s.arg) (h2 : ∀ a ∈ s.qopt, P a) :
    (∀ a m', bsStep o thr optimize s prev m = .inr (a, m') → P a) ∧
    ∀ s', bsStep o thr optimize s prev m = .inl s' → P s'.arg ∧ ∀ a ∈ s'.qopt, P a := by
  obtain ⟨g1, g2⟩ := hs s.arg m h1
  unfold bsStep
  cases hse : o.search s.arg m with
  | mk a1 p =>
    obtain ⟨m1, b⟩ := p
    rw [hse] at g1 g2
    cases b with
    | false =>
      refine ⟨fun a m' h => ?_, fun s' h => by simp at h⟩
      simp only [Sum.inr.injEq, Prod.mk.injEq] at h
      rw [← h.1]
      exact g2
    | true =>
      dsimp only
      cases hex : o.expl a1 with
      | mk a2 b2 =>
        rw [hex] at g1
        cases b2 with
        | false =>
          refine ⟨fun a m' h => ?_, fun s' h => by simp at h⟩
          simp only [Sum.inr.injEq, Prod.mk.injEq] at h
          rw [← h.1]
          exact g1
        | true =>
          refine ⟨fun a m' h => by simp at h, fun s' h => ?_⟩
          dsimp only at h
          obtain rfl := Sum.inl.inj h
          constructor
          · split
            · split
              · cases hqo : s.qopt with
                | none => exact g1
                | some a => exact h2 a hqo
              · split <;> exact g1
            · exact g1
          · split
            · split
              · exact h2
              · split
                · intro a ha
                  obtain rfl := Option.some.inj ha
                  exact g1
                · exact h2
            · exact h2

/-- Invariant of the configurations of `BySubstitution::impl_solve`. -/
theorem bs_inv [Field α] [LinearOrder α] (o : BsOps A M α) (P : A → Prop)
    (hs : ∀ a m, P a → P (o.expl (o.search a m).1).1 ∧ P (o.search a m).1)
    (thr dqMin : α) (optimize : Bool) (init : Option (A × α)) (hi : ∀ p ∈ init, P p.1) :
    ∀ (left : Nat) (s : BsSt A M α), P s.arg → (∀ a ∈ s.qopt, P a) →
      P (bsLoop o thr dqMin optimize init left s).arg := by
  have hend : ∀ s : BsSt A M α, P s.arg → (∀ a ∈ s.qopt, P a) → P (bsEnd optimize init s).arg := by
    intro s h1 h2
    have h3 : P (s.qopt.getD s.arg) := by
      cases h : s.qopt with
      | none => exact h1
      | some a => exact h2 a h
    unfold bsEnd
    split
    · rename_i a0 n0
      dsimp only
      split
      · exact hi _ rfl
      · exact h1
    · exact h3
    · exact h1
  intro left
  induction left with
  | zero =>
    intro s h1 h2
    unfold bsLoop
    split
    · exact hend _ h1 h2
    · exact hend _ h1 h2
  | succ left ih =>
    intro s h1 h2
    unfold bsLoop
    by_cases hc : optimize = true ∨ (s.above = true ∧ s.dec ≠ 0)
    · rw [if_pos hc]
      dsimp only
      generalize (if optimize = true then o.scale s.scaling (if s.only = true then s.mem else o.dir s.arg s.mem)
          else if s.only = true then s.mem else o.dir s.arg s.mem) = m
      generalize (if s.only = true then s.prev else s.n) = prev
      by_cases hd : o.dqNorm m < dqMin
      · rw [if_pos hd]
        exact hend _ h1 h2
      · rw [if_neg hd]
        obtain ⟨k1, k2⟩ := bsStep_inv o P hs thr optimize s prev m h1 h2
        cases hst : bsStep o thr optimize s prev m with
        | inr p => exact k1 p.1 p.2 hst
        | inl s' => exact ih s' (k2 s' hst).1 (k2 s' hst).2
    · rw [if_neg hc]
      exact hend _ h1 h2

/-- C92. `BySubstitution::solve`, with and without optimisation: if the initial configuration is within the
bounds the coordinates of the result that are not outputs of explicit constraints are within the
bounds. -/
theorem C92_by_substitution_partial [Field α] [LinearOrder α] {n : Nat}
    (plus : (Nat → α) → (Fin n → α) → Nat → α)
    (entries : List (SatEntry α)) (h : SatEntriesOk entries) (o : BsOps (Nat → α) M α) (out : Nat → Prop)
    (hex : ∀ q i, ¬ out i → (o.expl q).1 i = q i)
    (hse : ∀ q m, ∃ q' v, ∀ i, ¬ out i → (o.search q m).1 i = integrateSat plus entries q' v i)
    (thr dqMin : α) (maxIter reducedDim : Nat) (w l : Bool) (q : Nat → α) (hq : InBounds entries q) (m : M) :
    ∀ e ∈ entries, ¬ out e.iq → e.lb ≤ (bsSolve o thr dqMin maxIter reducedDim w l q m).arg e.iq ∧
      (bsSolve o thr dqMin maxIter reducedDim w l q m).arg e.iq ≤ e.ub := by
  let P : (Nat → α) → Prop := fun q => ∀ e ∈ entries, ¬ out e.iq → e.lb ≤ q e.iq ∧ q e.iq ≤ e.ub
  have hP : ∀ q, P q → P (o.expl q).1 := by
    intro q hq e he ho
    rw [hex q _ ho]
    exact hq e he ho
  have hS : ∀ a m, P (o.search a m).1 := by
    intro a m e he ho
    obtain ⟨q', v, h1⟩ := hse a m
    rw [h1 _ ho]
    exact integrateSat_in plus entries h q' v e he
  have h0 : P (o.expl q).1 := hP q fun e he _ => hq e he
  show P (bsSolve o thr dqMin maxIter reducedDim w l q m).arg
  unfold bsSolve
  cases hx : o.expl q with
  | mk a0 b =>
    rw [hx] at h0
    cases b with
    | false => exact h0
    | true =>
      dsimp only
      split
      · exact h0
      · refine bs_inv o P (fun a m _ => ⟨hP _ (hS a m), hS a m⟩) thr dqMin _ _ ?_ _ _ h0 ?_
        · intro p hp
          split at hp
          · obtain rfl := Option.some.inj hp
            exact h0
          · cases hp
        · intro a ha
          unfold bsInit at ha
          simp only at ha
          split at ha
          · obtain rfl := Option.some.inj ha
            exact h0
          · cases ha

/-- Explicit constraint `q₁ = 2 q₀`, both in [0, 1]; no implicit constraint. -/
def bsOut : BsOps (Nat → ℚ) Unit ℚ where
  expl q := (Function.update q 1 (2 * q 0), true)
  norm _ := 0
  cost _ := 0
  dir _ m := m
  scale _ m := m
  unscale _ m := m
  dqNorm _ := 0
  search q m := (Function.update (integrateSat (n := 0) (fun q _ => q) [⟨0, 0, 0, 1⟩, ⟨1, 1, 0, 1⟩] q ![]) 1
    (2 * integrateSat (n := 0) (fun q _ => q) [⟨0, 0, 0, 1⟩, ⟨1, 1, 0, 1⟩] q ![] 0), m, true)

/-- C92 fails for the outputs of explicit constraints, that are computed after the saturation: from a
configuration within the bounds `SUCCESS` is returned with a configuration out of the bounds. -/
theorem C92_output_refuted : ∃ q : Nat → ℚ, InBounds [⟨0, 0, 0, 1⟩, ⟨1, 1, 0, 1⟩] q ∧
    (bsSolve bsOut (1 / 10 ^ 8) (1 / 10 ^ 12) 40 1 false false q ()).status = .success ∧
    ¬ InBounds [⟨0, 0, 0, 1⟩, ⟨1, 1, 0, 1⟩]
      (bsSolve bsOut (1 / 10 ^ 8) (1 / 10 ^ 12) 40 1 false false q ()).arg := by
  refine ⟨fun i => if i = 0 then 9 / 10 else 0, ?_, ?_, ?_⟩
  · intro e he
    simp only [List.mem_cons, List.not_mem_nil, or_false] at he
    rcases he with rfl | rfl <;> norm_num
  · decide +kernel
  · intro h
    have := (h ⟨1, 1, 0, 1⟩ (by simp)).2
    revert this
    decide +kernel

theorem solve_done [LinearOrder α] (o : Ops A M α) (thr dqMin : α) (maxIter reducedDim : Nat) (a : A) (m : M)
    (h : o.norm a ≤ thr) : solve o thr dqMin maxIter reducedDim a m = ⟨a, m, 0, some .success⟩ := by
  have h' : ¬ thr < o.norm a := not_lt.2 h
  cases maxIter <;> simp [solve, solveLoop, solveEnd, h']

/-- C92 fails also if no iteration is performed from a configuration that is not within the bounds:
without constraint it is returned as it is. -/
theorem C92_initial_refuted {n : Nat} (o : SvdOps ℚ) (plus : (Nat → ℚ) → (Fin n → ℚ) → Nat → ℚ) :
    ∃ (entries : List (SatEntry ℚ)) (q : Nat → ℚ), SatEntriesOk entries ∧
      (solve (newtonOps o false false 1 [] (lsC false [] (integrateSat plus entries))) 1 1 40 n q (0, ())).status =
        some .success ∧
      ¬ InBounds entries
        (solve (newtonOps o false false 1 [] (lsC false [] (integrateSat plus entries))) 1 1 40 n q (0, ())).arg := by
  refine ⟨[⟨0, 0, 0, 1⟩], fun _ => 2, ⟨by simp, by simp⟩, ?_, ?_⟩
  · rw [solve_done]
    exact zero_le_one
  · rw [solve_done _ _ _ _ _ _ _ (zero_le_one)]
    intro h
    have := (h ⟨0, 0, 0, 1⟩ (by simp)).2
    norm_num at this

/-- A case that meets the hypotheses of `C92_device`: a revolute joint and one extra variable. -/
example : (∀ i, i < modelNq [(1, 1)] → (fun _ => -3 : Nat → ℚ) i ≤ (fun _ => 3 : Nat → ℚ) i) ∧
    Integrates (integrateSat (fun q (v : Fin 2 → ℚ) i => if h : i < 2 then q i + v ⟨i, h⟩ else 0)
      (deviceEntries (layout [(1, 1)] 0 0) (fun _ => -3) (fun _ => 3) (modelNq [(1, 1)]) (modelNv [(1, 1)]) 1
        (fun _ => 0) (fun _ => 1)))
      (lsC false [] (integrateSat (fun q (v : Fin 2 → ℚ) i => if h : i < 2 then q i + v ⟨i, h⟩ else 0)
        (deviceEntries (layout [(1, 1)] 0 0) (fun _ => -3) (fun _ => 3) (modelNq [(1, 1)]) (modelNv [(1, 1)]) 1
          (fun _ => 0) (fun _ => 1)))) :=
  ⟨fun _ _ => by norm_num, fun _ _ _ => ⟨_, rfl⟩⟩

/-- `bsOut` meets the hypotheses of `C92_by_substitution_partial`. -/
example : (∀ q i, ¬ i = 1 → (bsOut.expl q).1 i = q i) ∧ ∀ q m, ∃ q' v, ∀ i, ¬ i = 1 →
    (bsOut.search q m).1 i = integrateSat (n := 0) (fun q _ => q) [⟨0, 0, 0, 1⟩, ⟨1, 1, 0, 1⟩] q' v i :=
  ⟨fun _ _ h => Function.update_of_ne h _ _, fun q _ => ⟨q, ![], fun _ h => Function.update_of_ne h _ _⟩⟩

end Hpp
