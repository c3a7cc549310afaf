import Verif.HI.InsideProps
import Verif.BySub.OrderProps

/-!
# C142 for the solver by substitution: bounds that are not reached do not matter

Sources: `/repo/include/hpp/constraints/solver/impl/by-substitution.hh`, lines 38-167, `/repo/src/solver/by-substitution.cc`, lines 166-204,
`/repo/src/solver/hierarchical-iterative.cc`, lines 653-672 and 712-719.
-/

namespace Hpp

open Matrix

/-! ## Iterations that do the same along an execution -/

section
variable {A M α : Type} [Field α] [LinearOrder α]

/-- The memory when the line search is called (impl/by-substitution.hh:84-92) -/
def BsOps.stepMem (o : BsOps A M α) (optimize : Bool) (s : BsSt A M α) : M :=
  if optimize then o.scale s.scaling (if s.only then s.mem else o.dir s.arg s.mem) else (if s.only then s.mem else o.dir s.arg s.mem)

/-- Specification: the local variables that an execution of `impl_solve` reaches, from `s0`. -/
inductive BsReach (o : BsOps A M α) (thr dqMin : α) (optimize : Bool) (s0 : BsSt A M α) : BsSt A M α → Prop
  | start : BsReach o thr dqMin optimize s0 s0
  | step {s s' : BsSt A M α} : BsReach o thr dqMin optimize s0 s → (optimize = true ∨ (s.above = true ∧ s.dec ≠ 0)) →
      ¬ o.dqNorm (o.stepMem optimize s) < dqMin →
      bsStep o thr optimize s (if s.only then s.prev else s.n) (o.stepMem optimize s) = .inl s' →
      BsReach o thr dqMin optimize s0 s'

/-- Specification: two solvers with the same errors, costs, explicit constraints and operations on the steps. -/
structure BsOps.SameFrame (o o' : BsOps A M α) : Prop where
  expl : o'.expl = o.expl
  norm : o'.norm = o.norm
  cost : o'.cost = o.cost
  scale : o'.scale = o.scale
  unscale : o'.unscale = o.unscale
  dqNorm : o'.dqNorm = o.dqNorm

theorem bsLoop_along {o o' : BsOps A M α} (h : o.SameFrame o') (thr dqMin : α) (optimize : Bool) (init : Option (A × α)) (s0 : BsSt A M α)
    (hd : ∀ s, BsReach o thr dqMin optimize s0 s → (optimize = true ∨ (s.above = true ∧ s.dec ≠ 0)) → s.only = false →
      o'.dir s.arg s.mem = o.dir s.arg s.mem)
    (hs : ∀ s, BsReach o thr dqMin optimize s0 s → (optimize = true ∨ (s.above = true ∧ s.dec ≠ 0)) →
      ¬ o.dqNorm (o.stepMem optimize s) < dqMin → o'.search s.arg (o.stepMem optimize s) = o.search s.arg (o.stepMem optimize s)) :
    ∀ (left : Nat) (s : BsSt A M α), BsReach o thr dqMin optimize s0 s →
      bsLoop o' thr dqMin optimize init left s = bsLoop o thr dqMin optimize init left s := by
  intro left
  induction left with
  | zero => intro s _; rfl
  | succ left ih =>
    intro s hr
    have S : ∀ o : BsOps A M α, bsLoop o thr dqMin optimize init (left + 1) s =
        if optimize = true ∨ (s.above = true ∧ s.dec ≠ 0) then
          if o.dqNorm (o.stepMem optimize s) < dqMin then
            bsEnd optimize init { s with mem := o.stepMem optimize s, status := .infeasible }
          else
            match bsStep o thr optimize s (if s.only then s.prev else s.n) (o.stepMem optimize s) with
            | .inr (a, m) => ⟨a, m, s.iter + 1, .infeasible, true⟩
            | .inl s' => bsLoop o thr dqMin optimize init left s'
        else bsEnd optimize init s := fun _ => rfl
    rw [S o', S o]
    by_cases h1 : optimize = true ∨ (s.above = true ∧ s.dec ≠ 0)
    · rw [if_pos h1, if_pos h1]
      have hm : o'.stepMem optimize s = o.stepMem optimize s := by
        unfold BsOps.stepMem
        rw [h.scale]
        cases ho : s.only with
        | true => rfl
        | false => rw [hd s hr h1 ho]
      rw [hm, h.dqNorm]
      by_cases h2 : o.dqNorm (o.stepMem optimize s) < dqMin
      · rw [if_pos h2, if_pos h2]
      · rw [if_neg h2, if_neg h2]
        have hb : bsStep o' thr optimize s (if s.only then s.prev else s.n) (o.stepMem optimize s) =
            bsStep o thr optimize s (if s.only then s.prev else s.n) (o.stepMem optimize s) := by
          unfold bsStep
          rw [hs s hr h1 h2, h.expl, h.norm, h.cost, h.unscale]
        rw [hb]
        cases hc : bsStep o thr optimize s (if s.only then s.prev else s.n) (o.stepMem optimize s) with
        | inr p => rfl
        | inl s' => exact ih s' (.step hr h1 h2 hc)
    · rw [if_neg h1, if_neg h1]

/-- If two solvers have the same errors, and do the same at the configurations that one of them reaches, they return the same result. -/
theorem bsSolve_along {o o' : BsOps A M α} (h : o.SameFrame o') (thr dqMin : α) (maxIter rd : Nat) (want opt : Bool) (a : A) (m : M)
    (hd : ∀ s, BsReach o thr dqMin (want && opt) (bsInit o thr (want && opt) (o.expl a).1 m) s →
      ((want && opt) = true ∨ (s.above = true ∧ s.dec ≠ 0)) → o'.dir s.arg s.mem = o.dir s.arg s.mem)
    (hs : ∀ s, BsReach o thr dqMin (want && opt) (bsInit o thr (want && opt) (o.expl a).1 m) s →
      ((want && opt) = true ∨ (s.above = true ∧ s.dec ≠ 0)) →
      o'.search s.arg (o.stepMem (want && opt) s) = o.search s.arg (o.stepMem (want && opt) s)) :
    bsSolve o' thr dqMin maxIter rd want opt a m = bsSolve o thr dqMin maxIter rd want opt a m := by
  have hi : ∀ a0, bsInit o' thr (want && opt) a0 m = bsInit o thr (want && opt) a0 m := by
    intro a0
    unfold bsInit
    rw [h.norm, h.cost]
  unfold bsSolve
  dsimp only
  rw [h.expl]
  rcases he : o.expl a with ⟨a0, _ | _⟩
  · rfl
  · dsimp only
    rw [h.norm, hi]
    rw [he] at hd hs
    dsimp only at hd hs
    split
    · rfl
    · exact bsLoop_along h thr dqMin _ _ _ (fun s hr h _ => hd s hr h) (fun s hr h _ => hs s hr h) _ _ .start

end

/-! ## Solvers built by insertion of constraints -/

section
variable {κ S : Type}

/-- Specification: a line search looks at the configurations of the segment from `q` to `q + u` only, and reads the slope at `q` only. -/
def BsLineSearch.Local (ls : BsLineSearch S) (I : S → Prop) : Prop :=
  ∀ (V : Type) (env env' : LsEnv (Nat → ℝ) V ℝ) (slope slope' : (Nat → ℝ) → V → ℝ) (st : S) (q : Nat → ℝ) (u : V), I st →
    env.smul 1 u = u → env'.smul = env.smul → env'.err = env.err → slope' q u = slope q u →
    (∀ c, 0 ≤ c → c ≤ 1 → env'.integrate q (env.smul c u) = env.integrate q (env.smul c u)) →
    ls V env' slope' st q u = ls V env slope st q u ∧ I (ls V env slope st q u).1.1

/-- Any local line search, with any domain of the explicit constraints. -/
theorem bsLocal_of_local {I : S → Prop} {ls : LineSearch (Nat → ℝ) S} (h : ls.Local I) (dom : (Nat → ℝ) → Bool) :
    BsLineSearch.Local (fun V env slope st q u => (ls V env slope st q u, dom (ls V env slope st q u).2.arg)) I := by
  intro V env env' slope slope' st q u hI h1 h2 h3 h4 h5
  obtain ⟨a, b⟩ := h V env env' slope slope' st q u hI h1 h2 h3 h4 h5
  exact ⟨by dsimp only; rw [a], b⟩

variable {s : BS ℝ κ} {D : Space ℝ → List ℝ → List ℝ → Nat → Nat → ℝ} {o : SvdOps ℝ}
  {entries : List (SatEntry ℝ)} {J0 : (Nat → ℝ) → Jac ℝ} {dom : (Nat → ℝ) → Bool} {I : S → Prop} {ls : BsLineSearch S}

theorem bs_dLevels_inside {q : Nat → ℝ} (h : StrictlyInside entries q) (sat0 : Nat → Int) :
    s.dLevels D J0 (satFlags entries sat0) q = s.dLevels D J0 (fun _ _ => 0) q := by
  unfold BS.dLevels
  rw [satFlags_inside h]

theorem bsStep_mem {A M α : Type} [Field α] [LinearOrder α] {o : BsOps A M α} {thr prev : α} {optimize : Bool} {t t' : BsSt A M α} {m : M}
    (h : bsStep o thr optimize t prev m = .inl t') :
    t'.mem = (o.search t.arg m).2.1 ∨ t'.mem = o.unscale t.scaling (o.search t.arg m).2.1 := by
  unfold bsStep at h
  rcases h1 : o.search t.arg m with ⟨a1, m1, _ | _⟩
  · rw [h1] at h
    cases h
  · rw [h1] at h
    dsimp only at h
    rcases h2 : o.expl a1 with ⟨a2, _ | _⟩
    · rw [h2] at h
      cases h
    · rw [h2] at h
      dsimp only at h
      have h' := Sum.inl.inj h
      rw [← h']
      cases optimize with
      | false => exact Or.inl rfl
      | true =>
        simp only [if_true]
        split
        · exact Or.inr rfl
        · split <;> exact Or.inl rfl

/-- C142 for the solver by substitution, when it optimizes or not.  If the configurations that the solver without bounds reaches and
where it goes on are strictly inside the bounds, and the steps before they are shortened by the line search do not go out of them, the solver with bounds returns
the same result. -/
theorem C142_substitution (hls : ls.Local I) (plus : (Nat → ℝ) → (Nat → ℝ) → Nat → ℝ) (sat0 : Nat → Int) (dqMin : ℝ) (maxIter rd : Nat)
    (want opt : Bool) (q : Nat → ℝ)
    (m : (Fin (indices s.hi.free.segs).length → ℝ) × (Fin (indices s.hi.free.segs).length → ℝ) × S) (hI : I m.2.2)
    (hin : ∀ t, BsReach (s.fullOps D o J0 dom (fun _ _ => 0) plus ls) s.hi.sqThr dqMin (want && opt)
      (bsInit (s.fullOps D o J0 dom (fun _ _ => 0) plus ls) s.hi.sqThr (want && opt) (s.ex.solve q) m) t →
      ((want && opt) = true ∨ (t.above = true ∧ t.dec ≠ 0)) → StrictlyInside entries t.arg ∧ ∀ c : ℝ, 0 ≤ c → c ≤ 1 → InBounds entries (plus t.arg (expand (hiFree s.hi)
        (c • ((s.fullOps D o J0 dom (fun _ _ => 0) plus ls).stepMem (want && opt) t).2.1) fun _ => 0))) :
    bsSolve (s.fullOps D o J0 dom (satFlags entries sat0) (satMove plus entries) ls) s.hi.sqThr dqMin maxIter rd want opt q m =
      bsSolve (s.fullOps D o J0 dom (fun _ _ => 0) plus ls) s.hi.sqThr dqMin maxIter rd want opt q m := by
  have hsm : ∀ t, I t.mem.2.2 → I ((s.fullOps D o J0 dom (fun _ _ => 0) plus ls).stepMem (want && opt) t).2.2 := by
    intro t ht
    unfold BsOps.stepMem
    split <;> split <;> exact ht
  have hst : ∀ t, BsReach (s.fullOps D o J0 dom (fun _ _ => 0) plus ls) s.hi.sqThr dqMin (want && opt)
      (bsInit (s.fullOps D o J0 dom (fun _ _ => 0) plus ls) s.hi.sqThr (want && opt) (s.ex.solve q) m) t → I t.mem.2.2 := by
    intro t ht
    induction ht with
    | start => exact hI
    | @step t t' hr h1 h2 h3 ih =>
      have key := (hls _ (s.lsEnv plus) (s.lsEnv plus) (fun q u => localSlope (s.dLevels D J0 (fun _ _ => 0) q) u)
        (fun q u => localSlope (s.dLevels D J0 (fun _ _ => 0) q) u) _ t.arg
        ((s.fullOps D o J0 dom (fun _ _ => 0) plus ls).stepMem (want && opt) t).2.1 (hsm t ih) (one_smul ℝ _) rfl rfl rfl
        fun _ _ _ => rfl).2
      rcases bsStep_mem h3 with e | e <;> rw [e] <;> exact key
  refine bsSolve_along (o := s.fullOps D o J0 dom (fun _ _ => 0) plus ls)
    (o' := s.fullOps D o J0 dom (satFlags entries sat0) (satMove plus entries) ls) ⟨rfl, rfl, rfl, rfl, rfl, rfl⟩ s.hi.sqThr dqMin
    maxIter rd want opt q m (fun t ht hc => ?_) (fun t ht hc => ?_)
  · show ((descend o s.hi.byLevel s.hi.sqThr (s.dLevels D J0 (satFlags entries sat0) t.arg) t.mem.1).getD 0, _, _) = _
    rw [bs_dLevels_inside (hin t ht hc).1]
    rfl
  · have hst' := hsm t (hst t ht)
    obtain ⟨hin', hseg'⟩ := hin t ht hc
    generalize (s.fullOps D o J0 dom (fun _ _ => 0) plus ls).stepMem (want && opt) t = x at hseg' hst' ⊢
    have key := (hls _ (s.lsEnv plus) (s.lsEnv (satMove plus entries))
      (fun q u => localSlope (s.dLevels D J0 (fun _ _ => 0) q) u)
      (fun q u => localSlope (s.dLevels D J0 (satFlags entries sat0) q) u) x.2.2 t.arg x.2.1 hst' (one_smul ℝ _) rfl rfl
      (by rw [bs_dLevels_inside hin']) (fun c h0 h1 => by
        show s.ex.solve (satMove plus entries _ _) = s.ex.solve (plus _ _)
        congr 1
        exact satInPlace_inside (hseg' c h0 h1) _)).1
    show ((ls _ (s.lsEnv (satMove plus entries)) _ x.2.2 _ _).1.2.arg, (_, (ls _ (s.lsEnv (satMove plus entries)) _ x.2.2 _ _).1.2.step,
      (ls _ (s.lsEnv (satMove plus entries)) _ x.2.2 _ _).1.1), (ls _ (s.lsEnv (satMove plus entries)) _ x.2.2 _ _).2) = _
    rw [key]
    rfl

end

end Hpp
