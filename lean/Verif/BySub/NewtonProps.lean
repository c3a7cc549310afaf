import Verif.BySub.Newton
import Verif.BySub.LoopProps
import Verif.Solve.LocalProps
import Verif.ECS.Props

/-!
# Convergence of the solver by substitution: C95
-/

namespace Hpp

open Matrix

variable {A B α S : Type}

/-- Specification: `Φ` parametrises the solutions of the explicit constraints by the free variables.  Moving the free
variables, then solving the explicit constraints is the move `plus` of the parameters. -/
structure Parametrises {V : Type} (expl : A → A × Bool) (integrate : A → V → A) (Φ : B → A) (plus : B → V → B) :
    Prop where
  fixed : ∀ x, expl (Φ x) = (Φ x, true)
  move : ∀ x v, bsIntegrate integrate expl (Φ x) v = (Φ (plus x v), true)

/-- Specification: the constraints as functions of the free variables only. -/
def NLevel.pull {n : Nat} (Φ : B → A) (l : NLevel A α n) : NLevel B α n :=
  ⟨l.m, fun x => l.J (Φ x), fun x => l.err (Φ x), l.nc, l.blk⟩

/-- Specification: a line search that moves along the direction, by a step length of [bmin, 1], with integration
followed by the resolution of the explicit constraints, which completes if the explicit constraints are defined at the
configuration reached. -/
def BsStepsIn [Field α] [LinearOrder α] {n : Nat} (integrate : A → (Fin n → α) → A) (expl : A → A × Bool)
    (I : S → Prop) (bmin : α) (ls : S → A → (Fin n → α) → (S × LsOut A (Fin n → α)) × Bool) : Prop :=
  ∀ s q u, I s → I (ls s q u).1.1 ∧ ∃ b, bmin ≤ b ∧ b ≤ 1 ∧
    ((ls s q u).1.2.arg, (ls s q u).2) = bsIntegrate integrate expl q (b • u)

theorem nSqNorm_pull [Field α] [LinearOrder α] {n : Nat} (opt : Bool) (lv : List (NLevel A α n)) (Φ : B → A)
    (x : B) : nSqNorm opt (lv.map (NLevel.pull Φ)) x = nSqNorm opt lv (Φ x) := by
  unfold nSqNorm
  have h : ∀ l : List (NLevel A α n),
      ((l.map (NLevel.pull Φ)).flatMap fun l => l.norms x) = l.flatMap fun l => l.norms (Φ x) := by
    intro l
    rw [List.flatMap_map]
    rfl
  cases opt with
  | false => simp only [Bool.false_eq_true, if_false]; rw [h]
  | true => simp only [if_true]; rw [← List.map_dropLast, h]

theorem at_pull {n : Nat} (lv : List (NLevel A α n)) (Φ : B → A) (x : B) :
    ((lv.map (NLevel.pull Φ)).map fun l => l.at x) = lv.map fun l => l.at (Φ x) := by
  rw [List.map_map]
  rfl

/-! ## C95 -/

/-- C95. The solver by substitution is the hierarchical solver applied to the constraints seen as functions of the free
variables: the configurations of the former are the images of those of the latter, with a line search that makes the same
steps. -/
theorem C95_refines [Field α] [LinearOrder α] {n : Nat} (o : SvdOps α) (byLevel opt : Bool) (thr : α)
    (lv : List (NLevel A α n)) (expl : A → A × Bool) (integrate : A → (Fin n → α) → A) (Φ : B → A)
    (plus : B → (Fin n → α) → B) (hΦ : Parametrises expl integrate Φ plus) (I : S → Prop) (bmin : α)
    (ls : S → A → (Fin n → α) → (S × LsOut A (Fin n → α)) × Bool) (hls : BsStepsIn integrate expl I bmin ls)
    (q : A) (x : B) (hq : expl q = (Φ x, true)) (dq u : Fin n → α) (s : S) (hs : I s) :
    ∃ ls' : S → B → (Fin n → α) → S × LsOut B (Fin n → α), StepsIn plus I bmin ls' ∧
      ∀ k, ∃ u', bsTraj (bsNewtonOps o byLevel opt thr lv expl ls) q (dq, u, s) k =
        some (Φ (traj (newtonOps o byLevel opt thr (lv.map (NLevel.pull Φ)) ls') x (dq, s) k).1,
          (traj (newtonOps o byLevel opt thr (lv.map (NLevel.pull Φ)) ls') x (dq, s) k).2.1, u',
          (traj (newtonOps o byLevel opt thr (lv.map (NLevel.pull Φ)) ls') x (dq, s) k).2.2) := by
  classical
  let b : S → B → (Fin n → α) → α := fun s x u => if h : I s then (hls s (Φ x) u h).2.choose else 0
  let ls' : S → B → (Fin n → α) → S × LsOut B (Fin n → α) := fun s x u =>
    ((ls s (Φ x) u).1.1, ⟨plus x (b s x u • u), u, true, 0⟩)
  have hb : ∀ s x u, I s → I (ls s (Φ x) u).1.1 ∧ bmin ≤ b s x u ∧ b s x u ≤ 1 ∧
      ((ls s (Φ x) u).1.2.arg, (ls s (Φ x) u).2) = (Φ (plus x (b s x u • u)), true) := by
    intro s x u h
    have h1 := (hls s (Φ x) u h).2.choose_spec
    have h2 : b s x u = (hls s (Φ x) u h).2.choose := dif_pos h
    rw [← h2] at h1
    exact ⟨(hls s (Φ x) u h).1, h1.1, h1.2.1, h1.2.2.trans (hΦ.move _ _)⟩
  refine ⟨ls', fun s x u h => ⟨(hb s x u h).1, b s x u, (hb s x u h).2.1, (hb s x u h).2.2.1, rfl⟩, fun k => ?_⟩
  set O := newtonOps o byLevel opt thr (lv.map (NLevel.pull Φ)) ls' with hO
  suffices hk : I (traj O x (dq, s) k).2.2 ∧ ∃ u', bsTraj (bsNewtonOps o byLevel opt thr lv expl ls) q (dq, u, s) k =
      some (Φ (traj O x (dq, s) k).1, (traj O x (dq, s) k).2.1, u', (traj O x (dq, s) k).2.2) from hk.2
  induction k with
  | zero =>
    refine ⟨hs, u, ?_⟩
    show (if (expl q).2 then some ((expl q).1, (dq, u, s)) else none) = _
    rw [hq]
    rfl
  | succ k ih =>
    obtain ⟨hI, u', hu⟩ := ih
    set p := traj O x (dq, s) k with hp
    set d := (descend o byLevel thr (lv.map fun l => l.at (Φ p.1)) p.2.1).getD 0 with hd
    have hd' : (descend o byLevel thr ((lv.map (NLevel.pull Φ)).map fun l => l.at p.1) p.2.1).getD 0 = d := by
      rw [at_pull]
    obtain ⟨g1, -, -, g2⟩ := hb p.2.2 p.1 d hI
    have hstep : traj O x (dq, s) (k + 1) = (plus p.1 (b p.2.2 p.1 d • d), d, (ls p.2.2 (Φ p.1) d).1.1) := by
      show O.search p.1 (O.dir p.1 p.2).1 = _
      show ((ls' p.2.2 p.1 ((descend o byLevel thr ((lv.map (NLevel.pull Φ)).map fun l => l.at p.1) p.2.1).getD 0)).2.arg,
        ((descend o byLevel thr ((lv.map (NLevel.pull Φ)).map fun l => l.at p.1) p.2.1).getD 0,
        (ls' p.2.2 p.1 ((descend o byLevel thr ((lv.map (NLevel.pull Φ)).map fun l => l.at p.1) p.2.1).getD 0)).1)) = _
      rw [hd']
    rw [hstep]
    refine ⟨g1, (ls p.2.2 (Φ p.1) d).1.2.step, ?_⟩
    rw [bsTraj, hu, Option.bind_some]
    show (if (ls p.2.2 (Φ p.1) d).2 ∧ (expl (ls p.2.2 (Φ p.1) d).1.2.arg).2 then
      some ((expl (ls p.2.2 (Φ p.1) d).1.2.arg).1, (d, (ls p.2.2 (Φ p.1) d).1.2.step, (ls p.2.2 (Φ p.1) d).1.1))
      else none) = _
    obtain ⟨e1, e2⟩ := Prod.mk.inj g2
    rw [e1, e2, hΦ.fixed]
    rfl

section
variable [Field α] [LinearOrder α] [IsStrictOrderedRing α] {n : Nat} {o : SvdOps α} {byLevel opt : Bool} {thr : α}
  {lv : List (NLevel A α n)} {expl : A → A × Bool} {integrate : A → (Fin n → α) → A} {Φ : B → A}
  {plus : B → (Fin n → α) → B} {I : S → Prop} {bmin : α}
  {ls : S → A → (Fin n → α) → (S × LsOut A (Fin n → α)) × Bool}
  {q : A} {x : B}

/-- Statuses when the iterations are those of the reduced problem and the error decreases. -/
theorem bs_reduced_status {ls' : S → B → (Fin n → α) → S × LsOut B (Fin n → α)} {dq u : Fin n → α} {s : S}
    (ht : 0 ≤ thr) (dqMin : α) (maxIter : Nat) (w l : Bool) (hw : (w && l) = false)
    (hk : ∀ k, ∃ u', bsTraj (bsNewtonOps o byLevel opt thr lv expl ls) q (dq, u, s) k =
        some (Φ (traj (newtonOps o byLevel opt thr (lv.map (NLevel.pull Φ)) ls') x (dq, s) k).1,
          (traj (newtonOps o byLevel opt thr (lv.map (NLevel.pull Φ)) ls') x (dq, s) k).2.1, u',
          (traj (newtonOps o byLevel opt thr (lv.map (NLevel.pull Φ)) ls') x (dq, s) k).2.2))
    (c : α) (hc0 : 0 ≤ c) (hc1 : c < 1) (hdec : ∀ k, nSqNorm opt (lv.map (NLevel.pull Φ))
        (traj (newtonOps o byLevel opt thr (lv.map (NLevel.pull Φ)) ls') x (dq, s) (k + 1)).1 ≤
      c * nSqNorm opt (lv.map (NLevel.pull Φ))
        (traj (newtonOps o byLevel opt thr (lv.map (NLevel.pull Φ)) ls') x (dq, s) k).1) :
    let r := bsSolve (bsNewtonOps o byLevel opt thr lv expl ls) thr dqMin maxIter n w l q (dq, u, s)
    let O := newtonOps o byLevel opt thr (lv.map (NLevel.pull Φ)) ls'
    r.undef = false ∧ r.iter ≤ maxIter ∧ r.arg = Φ (traj O x (dq, s) r.iter).1 ∧
    (r.status = .success ∧ (nSqNorm opt lv r.arg ≤ 1 / 4 * thr ∨ nSqNorm opt lv (Φ x) < thr ∧ nSqNorm opt lv r.arg < thr) ∨
      1 / 4 * thr < nSqNorm opt lv r.arg ∧ (r.status = .maxIterationReached ∧ r.iter = maxIter ∨
        r.status = .infeasible ∧ (n = 0 ∧ r.iter = 0 ∨
          (O.dir (traj O x (dq, s) r.iter).1 (traj O x (dq, s) r.iter).2).2 < dqMin))) := by
  intro r O
  obtain ⟨h1, h2, h3⟩ := C37_statuses (bsNewtonOps o byLevel opt thr lv expl ls) thr dqMin maxIter n w l hw q (dq, u, s)
  have hr : r = bsSolve (bsNewtonOps o byLevel opt thr lv expl ls) thr dqMin maxIter n w l q (dq, u, s) := rfl
  rw [← hr] at h1 h2 h3
  set e := bsErr (bsNewtonOps o byLevel opt thr lv expl ls) q (dq, u, s) with he
  have hek : ∀ k, e k = nSqNorm opt lv (Φ (traj O x (dq, s) k).1) := by
    intro k
    obtain ⟨u', hu'⟩ := hk k
    show bsErr _ _ _ k = _
    unfold bsErr
    rw [hu']
    rfl
  have hsk : ∀ k, bsStepNorm (bsNewtonOps o byLevel opt thr lv expl ls) q (dq, u, s) k =
      (O.dir (traj O x (dq, s) k).1 (traj O x (dq, s) k).2).2 := by
    intro k
    obtain ⟨u', hu'⟩ := hk k
    unfold bsStepNorm
    rw [hu']
    show (descend o byLevel thr (lv.map fun l => l.at (Φ (traj O x (dq, s) k).1)) (traj O x (dq, s) k).2.1).getD 0 ⬝ᵥ
      (descend o byLevel thr (lv.map fun l => l.at (Φ (traj O x (dq, s) k).1)) (traj O x (dq, s) k).2.1).getD 0 =
      (descend o byLevel thr ((lv.map (NLevel.pull Φ)).map fun l => l.at (traj O x (dq, s) k).1)
        (traj O x (dq, s) k).2.1).getD 0 ⬝ᵥ
      (descend o byLevel thr ((lv.map (NLevel.pull Φ)).map fun l => l.at (traj O x (dq, s) k).1)
        (traj O x (dq, s) k).2.1).getD 0
    rw [at_pull]
  have he0 : ∀ k, 0 ≤ e k := fun k => by rw [hek]; exact nSqNorm_nonneg _ _ _
  have hdec' : ∀ k, e (k + 1) ≤ c * e k := by
    intro k
    have := hdec k
    rwa [nSqNorm_pull, nSqNorm_pull, ← hek, ← hek] at this
  have hmono : ∀ k, e (k + 1) ≤ e k := fun k => (hdec' k).trans (by nlinarith [he0 k])
  have hmono' : ∀ k, e k ≤ e 0 := by
    intro k
    induction k with
    | zero => exact le_rfl
    | succ k ih => exact (hmono k).trans ih
  have hu : r.undef = false := by
    cases hu : r.undef with
    | false => rfl
    | true =>
      obtain ⟨u', hu'⟩ := hk r.iter
      rw [(h2 hu).2] at hu'
      simp at hu'
  have hit : r.iter ≤ maxIter := by
    refine h1.trans ?_
    split
    · exact min_le_left _ _
    · exact le_rfl
  obtain ⟨⟨b, m', g1, b0, -, g3⟩, g4, g5, g6, g7⟩ := h3 hu
  have harg : r.arg = Φ (traj O x (dq, s) r.iter).1 := by
    rw [g3, if_neg (fun h => absurd h.2 (not_lt.2 (hmono' _)))]
    obtain ⟨u', hu'⟩ := hk r.iter
    rw [g1] at hu'
    exact (Prod.mk.inj (Option.some.inj hu')).1
  have her : nSqNorm opt lv r.arg = e r.iter := by rw [harg, hek]
  have h0 : nSqNorm opt lv (Φ x) = e 0 := (hek 0).symm
  refine ⟨hu, hit, harg, ?_⟩
  rw [her, h0]
  cases hst : r.status with
  | success =>
    left
    refine ⟨rfl, ?_⟩
    rcases g4.1 hst with h | ⟨h, -⟩
    · exact Or.inl h
    · exact Or.inr ⟨h, lt_of_le_of_lt (hmono' _) h⟩
  | maxIterationReached =>
    obtain ⟨k1, -, -, k2, -⟩ := g5.1 hst
    exact Or.inr ⟨k1, Or.inl ⟨rfl, k2⟩⟩
  | errorIncreased =>
    exfalso
    obtain ⟨k1, -, -, k2, -, -, k3⟩ := g6.1 hst
    have k4 := hdec' (r.iter - 1)
    rw [show r.iter - 1 + 1 = r.iter by omega] at k4
    have k5 : 0 < e r.iter := lt_of_le_of_lt (by positivity) k1
    have k6 : 0 < e (r.iter - 1) := by
      rcases (he0 (r.iter - 1)).lt_or_eq with h | h
      · exact h
      · rw [← h, mul_zero] at k4; exact absurd k5 (not_lt.2 k4)
    nlinarith
  | infeasible =>
    obtain ⟨k1, k2⟩ := g7.1 hst
    refine Or.inr ⟨k1, Or.inr ⟨rfl, ?_⟩⟩
    rcases k2 with k2 | ⟨-, -, k2, -⟩
    · exact Or.inl k2
    · exact Or.inr (by rw [← hsk]; exact k2)

end

/-- C95. Implicit constraints that are linear in the free variables once the explicit ones are substituted, and have a
common solution: the solver by substitution reaches a configuration that satisfies all constraints at a geometric rate,
whatever the line search, unless the number of iterations is not sufficient or the solution is closer than the
smallest step accepted. -/
theorem C95_linear [Field α] [LinearOrder α] [IsStrictOrderedRing α] {n : Nat} (o : SvdOps α) (ho : o.Exact)
    (opt : Bool) (thr dqMin : α) (ht : 0 ≤ thr)
    (lv : List (NLevel A α n)) (expl : A → A × Bool) (integrate : A → (Fin n → α) → A) (Φ : B → A)
    (plus : B → (Fin n → α) → B) (hΦ : Parametrises expl integrate Φ plus)
    (hlin : LinearLevels plus (lv.map (NLevel.pull Φ))) (I : S → Prop) (bmin : α) (hb : 0 < bmin) (hb1 : bmin ≤ 1)
    (ls : S → A → (Fin n → α) → (S × LsOut A (Fin n → α)) × Bool) (hls : BsStepsIn integrate expl I bmin ls)
    (q : A) (x : B) (hq : expl q = (Φ x, true)) (hx : ∃ v, ∀ l ∈ lv, l.err (Φ (plus x v)) = 0)
    (maxIter : Nat) (w l : Bool) (hw : (w && l) = false) (dq u : Fin n → α) (s : S) (hs : I s) :
    let r := bsSolve (bsNewtonOps o false opt thr lv expl ls) thr dqMin maxIter n w l q (dq, u, s)
    r.undef = false ∧ expl r.arg = (r.arg, true) ∧
    nSqNorm opt lv r.arg ≤ ((1 - bmin) ^ 2) ^ r.iter * nSqNorm opt lv (Φ x) ∧
    (r.status = .success ∧ nSqNorm opt lv r.arg ≤ thr ∨
      r.status = .maxIterationReached ∧ 1 / 4 * thr < ((1 - bmin) ^ 2) ^ maxIter * nSqNorm opt lv (Φ x) ∨
      r.status = .infeasible ∧ ∃ y v, r.arg = Φ y ∧ (∀ l ∈ lv, l.err (Φ (plus y v)) = 0) ∧ v ⬝ᵥ v < dqMin) := by
  intro r
  obtain ⟨ls', hls', hk⟩ := C95_refines o false opt thr lv expl integrate Φ plus hΦ I bmin ls hls q x hq dq u s hs
  have hx' : ∃ v, Solves plus (lv.map (NLevel.pull Φ)) x v := by
    obtain ⟨v, hv⟩ := hx
    refine ⟨v, fun l hl => ?_⟩
    obtain ⟨l, hl', rfl⟩ := List.mem_map.1 hl
    exact hv l hl'
  have herr := newton_err (opt := opt) (thr := thr) ho hlin hls' hx' dq hs
  have hpow := newton_err_pow (opt := opt) (thr := thr) ho hlin hls' hx' dq hs
  have htr := newton_traj (opt := opt) (thr := thr) ho hlin hls' hx' dq hs
  obtain ⟨h1, h2, h3, h4⟩ := bs_reduced_status ht dqMin maxIter w l hw hk ((1 - bmin) ^ 2) (sq_nonneg _)
    (by nlinarith) herr
  have hr : r = bsSolve (bsNewtonOps o false opt thr lv expl ls) thr dqMin maxIter n w l q (dq, u, s) := rfl
  rw [← hr] at h1 h2 h3 h4
  have hp : nSqNorm opt lv r.arg ≤ ((1 - bmin) ^ 2) ^ r.iter * nSqNorm opt lv (Φ x) := by
    have := hpow r.iter
    rw [nSqNorm_pull, nSqNorm_pull, ← h3] at this
    exact this
  refine ⟨h1, by rw [h3]; exact hΦ.fixed _, hp, ?_⟩
  rcases h4 with ⟨h4, h5 | ⟨-, h5⟩⟩ | ⟨h4, ⟨h5, h6⟩ | ⟨h5, h6⟩⟩
  · exact Or.inl ⟨h4, h5.trans (by linarith)⟩
  · exact Or.inl ⟨h4, h5.le⟩
  · refine Or.inr (Or.inl ⟨h5, lt_of_lt_of_le h4 ?_⟩)
    rw [← h6]
    exact hp
  · set p := traj (newtonOps o false opt thr (lv.map (NLevel.pull Φ)) ls') x (dq, s) r.iter with hpd
    refine Or.inr (Or.inr ⟨h5, p.1, ?_⟩)
    obtain ⟨v, hv⟩ := (htr r.iter).1
    refine ⟨(descend o false thr ((lv.map (NLevel.pull Φ)).map fun l => l.at p.1) p.2.1).getD 0, h3, ?_, ?_⟩
    · intro l hl
      exact newton_dir (thr := thr) ho hlin hv p.2.1 _ (List.mem_map.2 ⟨l, hl, rfl⟩)
    · rcases h6 with ⟨h6, h7⟩ | h6
      · exfalso
        have hz : ∀ l ∈ lv, l.err r.arg = 0 := by
          intro l hl
          have e1 := hv _ (List.mem_map.2 ⟨l, hl, rfl⟩)
          rw [(hlin _ (List.mem_map.2 ⟨l, hl, rfl⟩) _ _).1] at e1
          have e2 : (l.pull Φ).J p.1 *ᵥ v = 0 := by
            funext i
            subst h6
            simp [mulVec, dotProduct]
          rw [e2, add_zero] at e1
          rw [h3]
          exact e1
        rw [nSqNorm_zero opt lv _ hz] at h4
        linarith
      · exact h6

/-- C95. Nonlinear constraints: if the initial error is small enough with respect to the curvature and to the conditioning
of the constraints seen as functions of the free variables, the error decreases at a geometric rate.  The explicit
constraints hold at the configuration returned. -/
theorem C95_converges [PseudoMetricSpace B] {n : Nat} (o : SvdOps ℝ) (ho : o.Exact) (hor : o.Ortho)
    (thr dqMin : ℝ) (ht : 0 ≤ thr)
    (lv : List (NLevel A ℝ n)) (hlv : lv.length ≤ 1 ∨ ∃ l ls, lv = l :: ls ∧ l.m ≠ 0)
    (expl : A → A × Bool) (integrate : A → (Fin n → ℝ) → A) (Φ : B → A)
    (plus : B → (Fin n → ℝ) → B) (hΦ : Parametrises expl integrate Φ plus)
    (q : A) (x : B) (hq : expl q = (Φ x, true)) (ρ L β : ℝ)
    (hR : Regular plus (lv.map (NLevel.pull Φ)) x ρ L β) (hL : 0 ≤ L) (hβ : 0 ≤ β) (hρ : 2 * β * nErr lv (Φ x) ≤ ρ)
    (hE : L * β ^ 2 * nErr lv (Φ x) ≤ 1 / 2) (I : S → Prop) (bmin : ℝ) (hb : 0 < bmin) (hb1 : bmin ≤ 1)
    (ls : S → A → (Fin n → ℝ) → (S × LsOut A (Fin n → ℝ)) × Bool) (hls : BsStepsIn integrate expl I bmin ls)
    (maxIter : Nat) (w l : Bool) (hw : (w && l) = false) (dq u : Fin n → ℝ) (s : S) (hs : I s) :
    let r := bsSolve (bsNewtonOps o false false thr lv expl ls) thr dqMin maxIter n w l q (dq, u, s)
    r.undef = false ∧ expl r.arg = (r.arg, true) ∧
    nErr lv r.arg ≤ (1 - bmin / 2) ^ r.iter * nErr lv (Φ x) ∧
    ∃ y, r.arg = Φ y ∧ dist y x ≤ 2 * β * nErr lv (Φ x) ∧
    (r.status = .success ∧ nSqNorm false lv r.arg ≤ thr ∨
      r.status = .maxIterationReached ∧ 1 / 4 * thr < ((1 - bmin / 2) ^ maxIter * nErr lv (Φ x)) ^ 2 ∨
      r.status = .infeasible ∧ ∃ v, (∀ l ∈ lv, l.J r.arg *ᵥ v = -l.err r.arg) ∧ v ⬝ᵥ v < dqMin ∧
        1 / 4 * thr < nSqNorm false lv r.arg) := by
  intro r
  have hn : ∀ y, nErr (lv.map (NLevel.pull Φ)) y = nErr lv (Φ y) := fun y => by unfold nErr; rw [nSqNorm_pull]
  obtain ⟨ls', hls', hk⟩ := C95_refines o false false thr lv expl integrate Φ plus hΦ I bmin ls hls q x hq dq u s hs
  have hlv' : (lv.map (NLevel.pull Φ)).length ≤ 1 ∨ ∃ l ls, lv.map (NLevel.pull Φ) = l :: ls ∧ l.m ≠ 0 := by
    rcases hlv with h | ⟨l, ls, h1, h2⟩
    · left; simpa using h
    · right; exact ⟨l.pull Φ, ls.map (NLevel.pull Φ), by rw [h1]; rfl, h2⟩
  rw [← hn] at hρ hE
  have hrate := local_rate (thr := thr) ho hor hlv' hR hls' hb.le hL hβ hρ hE dq hs
  have htr := local_traj (thr := thr) ho hor hlv' hR hls' hb.le hL hβ hρ hE dq hs
  set O := newtonOps o false false thr (lv.map (NLevel.pull Φ)) ls' with hO
  have hdec : ∀ k, nSqNorm false (lv.map (NLevel.pull Φ)) (traj O x (dq, s) (k + 1)).1 ≤
      (1 - bmin / 2) ^ 2 * nSqNorm false (lv.map (NLevel.pull Φ)) (traj O x (dq, s) k).1 := by
    intro k
    obtain ⟨-, -, -, b, b1, b2, -, -, g, -⟩ := htr k
    have h0 := nErr_nonneg (lv.map (NLevel.pull Φ)) (traj O x (dq, s) k).1
    rw [← nErr_sq, ← nErr_sq, ← mul_pow]
    refine pow_le_pow_left₀ (nErr_nonneg _ _) (g.trans ?_) 2
    exact mul_le_mul_of_nonneg_right (by linarith) h0
  obtain ⟨h1, h2, h3, h4⟩ := bs_reduced_status ht dqMin maxIter w l hw hk ((1 - bmin / 2) ^ 2) (sq_nonneg _)
    (by nlinarith) hdec
  have hr : r = bsSolve (bsNewtonOps o false false thr lv expl ls) thr dqMin maxIter n w l q (dq, u, s) := rfl
  rw [← hr] at h1 h2 h3 h4
  have hp : nErr lv r.arg ≤ (1 - bmin / 2) ^ r.iter * nErr lv (Φ x) := by
    have := hrate r.iter
    rw [hn, hn, ← h3] at this
    exact this
  have hd : dist (traj O x (dq, s) r.iter).1 x ≤ 2 * β * nErr lv (Φ x) := by
    have h5 := (htr r.iter).1
    have h0 := mul_nonneg hβ (nErr_nonneg (lv.map (NLevel.pull Φ)) (traj O x (dq, s) r.iter).1)
    rw [← hn]
    linarith
  refine ⟨h1, by rw [h3]; exact hΦ.fixed _, hp, _, h3, hd, ?_⟩
  rcases h4 with ⟨h4, h5 | ⟨-, h5⟩⟩ | ⟨h4, ⟨h5, h6⟩ | ⟨h5, h6⟩⟩
  · exact Or.inl ⟨h4, h5.trans (by linarith)⟩
  · exact Or.inl ⟨h4, h5.le⟩
  · refine Or.inr (Or.inl ⟨h5, lt_of_lt_of_le h4 ?_⟩)
    rw [← h6, ← nErr_sq]
    exact pow_le_pow_left₀ (nErr_nonneg _ _) hp 2
  · refine Or.inr (Or.inr ⟨h5, ?_⟩)
    have hin : dist (traj O x (dq, s) r.iter).1 x ≤ ρ := by rw [← hn] at hd; exact hd.trans hρ
    have hdir := (local_dir (thr := thr) ho hor hlv' hR hin (traj O x (dq, s) r.iter).2.1).1
    set d := (descend o false thr ((lv.map (NLevel.pull Φ)).map fun l => l.at (traj O x (dq, s) r.iter).1)
      (traj O x (dq, s) r.iter).2.1).getD 0
    have hdir' : ∀ l ∈ lv, l.J r.arg *ᵥ d = -l.err r.arg := by
      intro l hl
      rw [h3]
      exact hdir _ (List.mem_map.2 ⟨l, hl, rfl⟩)
    refine ⟨d, hdir', ?_, h4⟩
    rcases h6 with ⟨h6, h7⟩ | h6
    · exfalso
      have hz : ∀ l ∈ lv, l.err r.arg = 0 := by
        intro l hl
        have e1 := hdir' l hl
        have e2 : l.J r.arg *ᵥ d = 0 := by
          funext i
          subst h6
          simp [mulVec, dotProduct]
        rw [e2] at e1
        rw [← neg_eq_zero]
        exact e1.symm
      rw [nSqNorm_zero false lv _ hz] at h4
      linarith
    · exact h6

/-- C95. If moreover the Jacobians are bounded and the smallest step accepted is consistent with the threshold then
`SUCCESS` is returned, provided that enough iterations are allowed. -/
theorem C95_success [PseudoMetricSpace B] {n : Nat} (o : SvdOps ℝ) (ho : o.Exact) (hor : o.Ortho)
    (thr dqMin : ℝ) (ht : 0 ≤ thr)
    (lv : List (NLevel A ℝ n)) (hlv : lv.length ≤ 1 ∨ ∃ l ls, lv = l :: ls ∧ l.m ≠ 0)
    (expl : A → A × Bool) (integrate : A → (Fin n → ℝ) → A) (Φ : B → A)
    (plus : B → (Fin n → ℝ) → B) (hΦ : Parametrises expl integrate Φ plus)
    (q : A) (x : B) (hq : expl q = (Φ x, true)) (ρ L β : ℝ)
    (hR : Regular plus (lv.map (NLevel.pull Φ)) x ρ L β) (hL : 0 ≤ L) (hβ : 0 ≤ β) (hρ : 2 * β * nErr lv (Φ x) ≤ ρ)
    (hE : L * β ^ 2 * nErr lv (Φ x) ≤ 1 / 2) (I : S → Prop) (bmin : ℝ) (hb : 0 < bmin) (hb1 : bmin ≤ 1)
    (ls : S → A → (Fin n → ℝ) → (S × LsOut A (Fin n → ℝ)) × Bool) (hls : BsStepsIn integrate expl I bmin ls)
    (maxIter : Nat) (hm : ((1 - bmin / 2) ^ maxIter * nErr lv (Φ x)) ^ 2 ≤ 1 / 4 * thr) (K : ℝ)
    (hK : ∀ l ∈ lv, ∀ y, dist y x ≤ ρ → ∀ v, (l.J (Φ y) *ᵥ v) ⬝ᵥ (l.J (Φ y) *ᵥ v) ≤ K * (v ⬝ᵥ v)) (hK0 : 0 ≤ K)
    (hdq : K * dqMin ≤ 1 / 4 * thr)
    (w l : Bool) (hw : (w && l) = false) (dq u : Fin n → ℝ) (s : S) (hs : I s) :
    let r := bsSolve (bsNewtonOps o false false thr lv expl ls) thr dqMin maxIter n w l q (dq, u, s)
    r.status = .success ∧ expl r.arg = (r.arg, true) ∧ ∀ l ∈ lv, ∀ k : Fin l.nc,
      (∑ i, if l.blk i = k then l.err r.arg i ^ 2 else 0) ≤ thr := by
  intro r
  obtain ⟨-, h2, -, y, h3, h4, h5⟩ := C95_converges o ho hor thr dqMin ht lv hlv expl integrate Φ plus hΦ q x hq ρ L β hR
    hL hβ hρ hE I bmin hb hb1 ls hls maxIter w l hw dq u s hs
  have hr : r = bsSolve (bsNewtonOps o false false thr lv expl ls) thr dqMin maxIter n w l q (dq, u, s) := rfl
  rw [← hr] at h2 h3 h5
  have hle : ∀ (t : ℝ), 0 ≤ t → (nSqNorm false lv r.arg ≤ t ↔ ∀ l ∈ lv, ∀ k : Fin l.nc,
      (∑ i, if l.blk i = k then l.err r.arg i ^ 2 else 0) ≤ t) := by
    intro t h0
    unfold nSqNorm
    rw [foldl_max_le]
    simp only [Bool.false_eq_true, if_false]
    constructor
    · rintro ⟨-, h⟩ l hl k
      have := h _ (List.mem_flatMap.2 ⟨l, hl, List.mem_map.2 ⟨k, List.mem_finRange k, rfl⟩⟩)
      simpa only [sq] using this
    · intro h
      refine ⟨h0, fun z hz => ?_⟩
      obtain ⟨l, hl, hz⟩ := List.mem_flatMap.1 hz
      obtain ⟨k, -, rfl⟩ := List.mem_map.1 hz
      simpa only [sq] using h l hl k
  rcases h5 with ⟨h5, h6⟩ | ⟨-, h6⟩ | ⟨-, v, hv, h6, h7⟩
  · exact ⟨h5, h2, (hle thr ht).1 h6⟩
  · exact absurd hm (not_le.2 h6)
  · exfalso
    refine absurd ((hle (1 / 4 * thr) (by linarith)).2 fun l hl k => ?_) (not_le.2 h7)
    have e1 := hK l hl y (h4.trans hρ) v
    rw [← h3, hv l hl, neg_dotProduct_neg] at e1
    have e2 : (∑ i, if l.blk i = k then l.err r.arg i ^ 2 else 0) ≤ l.err r.arg ⬝ᵥ l.err r.arg := by
      refine Finset.sum_le_sum fun i _ => ?_
      split
      · rw [sq]
      · exact mul_self_nonneg _
    have e4 := mul_le_mul_of_nonneg_left h6.le hK0
    linarith

/-- The line searches called with the solver by substitution: their function `integrate` is
`BySubstitution::integrate` (by-substitution.hh:281-286), for explicit constraints that are defined everywhere. -/
def bsSearch {n : Nat} (integrate : A → (Fin n → ℝ) → A) (expl : A → A × Bool)
    (ls : (A → (Fin n → ℝ) → A) → S → A → (Fin n → ℝ) → S × LsOut A (Fin n → ℝ)) (s : S) (q : A) (u : Fin n → ℝ) :
    (S × LsOut A (Fin n → ℝ)) × Bool :=
  (ls (fun q v => (bsIntegrate integrate expl q v).1) s q u, true)

/-- C95. The line searches of the library meet the condition of `C95_converges` if the explicit constraints are
defined everywhere. -/
theorem C95_line_searches {n : Nat} (opt : Bool) (lv : List (NLevel A ℝ n)) (integrate : A → (Fin n → ℝ) → A)
    (expl : A → A × Bool) (hexpl : ∀ q, (expl q).2 = true) (thr alphaMin : ℝ) (h1 : alphaMin < 1) :
    BsStepsIn integrate expl (fun _ => True) 1 (bsSearch integrate expl (lsC opt lv)) ∧
    BsStepsIn integrate expl (fun _ => True) (1 / 5) (bsSearch integrate expl (lsB opt lv)) ∧
    BsStepsIn integrate expl (fun s => ∃ k : Nat, s = ⟨95 / 100 - 3 / 4 * (4 / 5) ^ k, 95 / 100, 4 / 5⟩) (1 / 5)
      (bsSearch integrate expl (lsF opt lv)) ∧
    BsStepsIn integrate expl (fun s => ∃ a b, s = ErrNormBased.mk3 alphaMin a b) alphaMin
      (bsSearch integrate expl fun i => lsE opt lv i thr) := by
  have key : ∀ {S : Type} (I : S → Prop) (bmin : ℝ)
      (ls : (A → (Fin n → ℝ) → A) → S → A → (Fin n → ℝ) → S × LsOut A (Fin n → ℝ)),
      StepsIn (fun q v => (bsIntegrate integrate expl q v).1) I bmin
        (ls fun q v => (bsIntegrate integrate expl q v).1) →
      BsStepsIn integrate expl I bmin (bsSearch integrate expl ls) := by
    intro S I bmin ls h s q u hs
    obtain ⟨g1, b, g2, g3, g4⟩ := h s q u hs
    exact ⟨g1, b, g2, g3, Prod.ext g4 (hexpl _).symm⟩
  obtain ⟨a, b, c, d⟩ := C91_line_searches opt lv (fun q v => (bsIntegrate integrate expl q v).1) thr alphaMin h1
  exact ⟨key _ _ _ a, key _ _ _ b, key _ _ _ c, key _ _ (fun i => lsE opt lv i thr) d⟩

end Hpp
