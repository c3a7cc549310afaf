import Verif.BySub.Leaf
import Verif.BySub.NewtonEx

/-!
# C141: examples

Two variables, the explicit constraint `y - 2 x = c`, the implicit constraint `x + y = d`, both compared by `Equality`.
-/

namespace Hpp

namespace LeafEx

/-- `y = 2 x + c` -/
def econ : ECon ℚ Nat :=
  vecCon 0 [⟨0, 1⟩] [⟨1, 1⟩] [⟨0, 1⟩] [⟨1, 1⟩] [.equality] (fun x => [2 * x.getD 0 0]) (fun _ _ _ => 2)

def fn : Fn ℚ Nat where
  key := 1
  inputSize := 2
  inputDer := 2
  spaceId := 1
  space := vectorSpace ℚ 1
  value q := [q 0 + q 1]
  jac _ := fun _ k => if k < 2 then 1 else 0
  activeQ := [true, true]
  active := [true, true]

def con : Impl ℚ Nat := (Impl.create fn [.equality] []).get rfl

def sol : HI ℚ Nat :=
  { ((HI.init ℚ Nat 2).add con 0).1 with sqThr := 1 / 100, ineqThr := 0, maxIter := 20, lastIsOptional := false, byLevel := false }

def El (f : Fn ℚ Nat) (v : List ℚ) : Prop := v.length = f.space.nq

theorem built : HI.Built El 2 [(con, 0)] sol :=
  .params _ _ _ _ _ (.add (h := []) .init ⟨fn, [], [.equality], .create _ _ (Option.some_get _).symm⟩ (Prod.ext rfl rfl))

theorem lawful : ∀ e ∈ [(con, 0)], e.1.fn.space.Lawful (El e.1.fn) := by
  intro e he
  obtain rfl := List.mem_singleton.1 he
  exact vectorSpace_lawful 1

theorem values : ∀ e ∈ [(con, 0)], ∀ q, El e.1.fn (e.1.fn.value q) := by
  intro e he q
  obtain rfl := List.mem_singleton.1 he
  rfl

theorem neutral (q : Nat → ℚ) : ∀ e ∈ [(con, 0)], e.1.OnNeutral q := by
  intro e he i t hi ht
  obtain rfl := List.mem_singleton.1 he
  cases i with
  | zero => exact absurd (Option.some.inj (show some Comp.equality = some t from hi)).symm ht
  | succ i => exact absurd (show (none : Option Comp) = some t from hi) (by simp)

theorem comps : ∀ e ∈ [(con, 0)], ∀ t ∈ e.1.comp, t = .equality ∨ t = .equalToZero := by
  intro e he t ht
  obtain rfl := List.mem_singleton.1 he
  exact Or.inl (List.mem_singleton.1 (show t ∈ [Comp.equality] from ht))

/-- The error at `q` on the leaf of `q0` -/
theorem error (q q0 : Nat → ℚ) : sqSum (conError 0 q con (con.fn.value q0)) = (q 0 + q 1 - (q0 0 + q0 1)) * (q 0 + q 1 - (q0 0 + q0 1)) := by
  show (0 : ℚ) + _ * _ = _
  rw [zero_add]
  rfl

/-- Numerical steps that are arbitrary except the error. -/
def ops {M : Type} (s : HI ℚ Nat) (o : Ops (Nat → ℚ) M ℚ) : Ops (Nat → ℚ) M ℚ := { o with norm := fun q => (s.sqNorm q).getD 0 }

theorem norm_ops {M : Type} (o : Ops (Nat → ℚ) M ℚ) (q0 q : Nat → ℚ) :
    (sol.rhsFromConfig q0).sqNorm q = some ((ops (sol.rhsFromConfig q0) o).norm q) := by
  obtain ⟨n, hn, -⟩ := C33_worst (leaf_built built q0) lawful values (leaf_levels q0 (by intro h; cases h)) q
  show _ = some (((sol.rhsFromConfig q0).sqNorm q).getD 0)
  rw [hn]; rfl

end LeafEx

open LeafEx

/-- `C141_leaf`, `C141_start`, `C141_leaf_component`: hierarchical solver, any numerical steps. -/
example {M : Type} (o : Ops (Nat → ℚ) M ℚ) (q0 q : Nat → ℚ) (m : M) :
    let o' := ops (sol.rhsFromConfig q0) o
    solve o' sol.sqThr (1 / 10 ^ 12) 20 2 q0 m = ⟨q0, m, 0, some .success⟩ ∧
    ((solve o' sol.sqThr (1 / 10 ^ 12) 20 2 q m).status = some .success →
      sqSum (conError sol.ineqThr (solve o' sol.sqThr (1 / 10 ^ 12) 20 2 q m).arg con (con.fn.value q0)) ≤ 1 / 100) := by
  have h100 : (0 : ℚ) ≤ sol.sqThr := by show (0 : ℚ) ≤ 1 / 100; norm_num
  refine ⟨C141_start built lawful values (by intro h; cases h) q0 _ (norm_ops o q0) (neutral q0) comps h100 _ _ _ m, fun hs => ?_⟩
  exact ((C141_leaf built lawful values (by intro h; cases h) q0 _ (norm_ops o q0) (neutral q0) _ _ _ q m).1 hs).2 (con, 0)
    (List.mem_singleton.2 rfl) (by intro h; cases h)

/-- `C141_leaf_component` for the only component. -/
example {M : Type} (o : Ops (Nat → ℚ) M ℚ) (q0 q : Nat → ℚ) (m : M)
    (hs : (solve (ops (sol.rhsFromConfig q0) o) sol.sqThr (1 / 10 ^ 12) 20 2 q m).status = some .success) :=
  C141_leaf_component built lawful values (by intro h; cases h) q0 _ (norm_ops o q0) _ _ _ q m hs (e := (con, 0))
    (List.mem_singleton.2 rfl) (by intro h; cases h) (n := 1) rfl (i := 0) rfl rfl

/-- `C141_not_worse`, `C141_kept`: a configuration with `|x + y| ≤ 1/10` satisfies the constraint before and after its right hand side is
set. -/
example {M : Type} (o : Ops (Nat → ℚ) M ℚ) (q0 : Nat → ℚ) (m : M) (hq : ErrorsAtMost sol [(con, 0)] q0 sol.sqThr) :
    solve (ops (sol.rhsFromConfig q0) o) sol.sqThr (1 / 10 ^ 12) 20 2 q0 m = ⟨q0, m, 0, some .success⟩ := by
  refine C141_kept built lawful values (by intro h; cases h) q0 _ (norm_ops o q0) ?_ ?_ ?_ hq _ _ _ m
  · intro e he
    obtain rfl := List.mem_singleton.1 he
    exact ⟨1, rfl⟩
  · intro e he r hr
    obtain rfl := List.mem_singleton.1 he
    obtain rfl : [(0 : ℚ)] = r := Option.some.inj (Option.some.inj (show some (some [(0 : ℚ)]) = some (some r) from hr))
    rfl
  · show (0 : ℚ) ≤ 1 / 100; norm_num

/-- `C141_same_leaf`: two configurations with the same sum. -/
example (a b c : ℚ) : sol.rhsFromConfig (fun i => if i = 0 then a else b + c) = sol.rhsFromConfig (fun i => if i = 0 then a + b else c) := by
  refine C141_same_leaf built lawful values fun e he i hi => ?_
  obtain rfl := List.mem_singleton.1 he
  show ([a + (b + c)] : List ℚ)[i]? = ([a + b + c] : List ℚ)[i]?
  rw [add_assoc]

/-- C141: the leaf is only kept up to the threshold, and the errors add up.  If the right hand side is set again from each configuration
that is returned with `SUCCESS`, the value of the constraint can move away without bound: here the configurations are returned as they
are, without iteration, whatever the numerical steps are, and the value increases by a tenth each time. -/
theorem C141_drift_refuted : ∃ (s : HI ℚ Nat) (h : List (Impl ℚ Nat × Nat)) (c : Impl ℚ Nat) (qs : Nat → Nat → ℚ),
    HI.Built LeafEx.El 2 h s ∧ (c, 0) ∈ h ∧ IsMandatory s (c, 0) ∧
    (∀ (M : Type) (k : Nat) (o : Ops (Nat → ℚ) M ℚ), (∀ q, (s.rhsFromConfig (qs k)).sqNorm q = some (o.norm q)) →
      ∀ (dqMin : ℚ) (maxIter reducedDim : Nat) (m : M),
        solve o s.sqThr dqMin maxIter reducedDim (qs (k + 1)) m = ⟨qs (k + 1), m, 0, some .success⟩) ∧
    ∀ k, c.fn.value (qs k) = [(k : ℚ) / 10] := by
  refine ⟨sol, [(con, 0)], con, fun k i => if i = 0 then (k : ℚ) / 10 else 0, built, List.mem_singleton.2 rfl,
    (fun h => absurd (show false = true from h) Bool.false_ne_true), fun M k o ho dqMin maxIter reducedDim m => ?_, fun k => ?_⟩
  · refine (C127_hierarchical (leaf_built built _) lawful values (leaf_levels _ (by intro h; cases h)) o ho ?_ dqMin maxIter
      reducedDim m).1 _ ?_
    · show (0 : ℚ) ≤ 1 / 100; norm_num
    · intro e he hm
      refine ⟨_, leaf_getRhs_neutral built lawful values he (neutral _ e he), ?_⟩
      obtain rfl := List.mem_singleton.1 he
      show sqSum (conError 0 _ con (con.fn.value _)) ≤ 1 / 100
      rw [LeafEx.error]
      simp only [if_true, one_ne_zero, if_false, add_zero]
      push_cast
      have : ((k : ℚ) + 1) / 10 - k / 10 = 1 / 10 := by ring
      rw [this]; norm_num
  · show [(k : ℚ) / 10 + 0] = _
    rw [add_zero]

namespace LeafEx

def ex : ECS ℚ Nat := match (ECS.init 2 2 0 : ECS ℚ Nat).add 20 econ with
  | .ok (_, s) => s
  | .error _ => ECS.init 2 2 0

theorem ex_built : ECS.Built 2 2 ex := .add (ECS.init 2 2 0) 20 econ [] (some 0) ex (.init 0) rfl

theorem ex_cons : ex.cons = [econ] := rfl

theorem mem_ex {P : ECon ℚ Nat → Prop} (h : P econ) : ∀ c ∈ ex.cons, P c := by
  intro c hc
  rw [ex_cons] at hc
  obtain rfl := List.mem_singleton.1 hc
  exact h

theorem econ_wf : WellFormed 2 2 econ where
  outQ := ⟨_, rfl, by decide⟩
  outV := ⟨_, rfl, by decide⟩
  inQ := by
    intro i hi
    simp [Reads, econ, vecCon, Seg.Has] at hi
    omega
  inV := by
    intro i hi
    simp [ReadsV, econ, vecCon, Seg.Has] at hi
    omega

theorem coherent : AllCoherent ex.cons := coherent_of_vec (mem_ex ⟨rfl, rfl⟩)

def Ex (c : ECon ℚ Nat) (v : List ℚ) : Prop := v.length = (indices c.outQ).length

end LeafEx

/-- `C141_substitution`, `C141_substitution_start`: solver by substitution, any numerical steps. -/
example {M : Type} (o : BsOps (Nat → ℚ) M ℚ) (q0 q : Nat → ℚ) (m : M) (w : Bool) :
    let o' : BsOps (Nat → ℚ) M ℚ :=
      { o with expl := fun q => ((ex.rhsFromInput q0).solve q, true), norm := fun q => ((sol.rhsFromConfig q0).sqNorm q).getD 0 }
    let r := bsSolve o' sol.sqThr (1 / 10 ^ 12) sol.maxIter 1 w sol.lastIsOptional q m
    bsSolve o' sol.sqThr (1 / 10 ^ 12) 20 1 w sol.lastIsOptional q0 m = ⟨q0, m, 0, .success, false⟩ ∧
    (r.status = .success → r.arg 1 - 2 * r.arg 0 = q0 1 - 2 * q0 0 ∧
      (r.arg 0 + r.arg 1 - (q0 0 + q0 1)) * (r.arg 0 + r.arg 1 - (q0 0 + q0 1)) ≤ 1 / 100) := by
  intro o' r
  have h100 : (0 : ℚ) ≤ sol.sqThr := by show (0 : ℚ) ≤ 1 / 100; norm_num
  have ho : ∀ q, (sol.rhsFromConfig q0).sqNorm q = some (o'.norm q) := fun q => by
    obtain ⟨n, hn, -⟩ := C33_worst (leaf_built built q0) lawful values (leaf_levels q0 (by intro h; cases h)) q
    show _ = some (((sol.rhsFromConfig q0).sqNorm q).getD 0)
    rw [hn]; rfl
  have hlaw : ∀ c ∈ ex.cons, c.space.Lawful (Ex c) := mem_ex (vectorSpace_lawful 1)
  have hcl : ∀ c ∈ ex.cons, c.comp.length = c.space.nv := mem_ex rfl
  have hcons : ∀ c ∈ ex.cons, c.Consistent (Ex c) := mem_ex (vecCon_consistent _ _ _ _ _ _ _ _ (fun x => rfl))
  have hout : ∀ c ∈ ex.cons, ∀ x r, Ex c r → (c.outVal x r).length = (indices c.outQ).length := mem_ex (by
    intro x r hr
    show (List.zipWith (· + ·) [2 * x.getD 0 0] r).length = 1
    rw [List.length_zipWith, show r.length = 1 from hr]
    rfl)
  have hq0 : ∀ c ∈ ex.cons, Ex c (c.h q0) := mem_ex rfl
  have hfix : ∀ c ∈ ex.cons, ∀ (i : Nat) (t : Comp), c.comp[i]? = some t → t ≠ .equality → (c.space.log (c.h q0))[i]? = some 0 :=
    mem_ex (by
      intro i t hi ht
      cases i with
      | zero => exact absurd (Option.some.inj (show some Comp.equality = some t from hi)).symm ht
      | succ i => exact absurd (show (none : Option Comp) = some t from hi) (by simp))
  refine ⟨C141_substitution_start ex_built (mem_ex econ_wf) coherent Ex hlaw hcl hcons hout built lawful values (by intro h; cases h) q0
    hq0 hfix (neutral q0) o' ho (fun _ => rfl) comps h100 rfl _ _ _ _ (by cases w <;> rfl) m, fun hs => ?_⟩
  obtain ⟨g1, g2⟩ := C141_substitution ex_built (mem_ex econ_wf) coherent Ex hlaw hcl hcons hout built lawful values (by intro h; cases h) q0
    hq0 hfix (neutral q0) o' ho (fun _ => rfl) _ _ _ q m hs
  refine ⟨?_, ?_⟩
  · exact (List.cons.inj (g1 econ (by rw [ex_cons]; exact List.mem_singleton.2 rfl))).1
  · have := g2 (con, 0) (List.mem_singleton.2 rfl) (by intro h; cases h)
    refine le_trans (le_of_eq ?_) this
    exact (LeafEx.error _ q0).symm

namespace LeafEx

/-- `y - 2 x` -/
def fE : Fn ℚ Nat where
  key := 0
  inputSize := 2
  inputDer := 2
  spaceId := 1
  space := vectorSpace ℚ 1
  value := econ.h
  jac _ := fun _ k => if k = 0 then -2 else 1
  activeQ := [true, true]
  active := [true, true]

def iE : Impl ℚ Nat := (Impl.create fE [.equality] []).get rfl

def part : EPart ℚ := ⟨7, econ.inQ, econ.outQ, econ.inV, econ.outV, econ.outVal, econ.jac⟩

def cE : BCon ℚ Nat := ⟨iE, some part⟩

def b1 : BS ℚ Nat := ((BS.init ℚ Nat 2 2 1).add 20 cE 0).1
def b2 : BS ℚ Nat := (b1.add 20 ⟨con, none⟩ 0).1
def bs : BS ℚ Nat := { b2 with
  hi := { b2.hi with sqThr := 1 / 100, ineqThr := 0, maxIter := 20, lastIsOptional := false, byLevel := false }
  ex := { b2.ex with threshold := 1 / 10 } }

def hist : BHist ℚ Nat := [(cE, 0, true), (⟨con, none⟩, 0, false)]

def Es (sp : Space ℚ) (v : List ℚ) : Prop := v.length = sp.nq

theorem con_built : Impl.Built fn [] [.equality] con := .create _ _ (Option.some_get _).symm
theorem iE_built : Impl.Built fE [] [.equality] iE := .create _ _ (Option.some_get _).symm

theorem bs_built : BS.Built Es 2 2 hist bs :=
  .params _ _ _ _ _ _ (.add (h := [(cE, 0, true)]) (s := b1) (c := ⟨con, none⟩) (p := 0) (fuel := 20) (junk := [])
    (.add (h := []) (s := BS.init ℚ Nat 2 2 1) (c := cE) (p := 0) (fuel := 20) (junk := []) (.init 1)
      ⟨_, _, _, iE_built⟩ (Prod.ext rfl rfl))
    ⟨_, _, _, con_built⟩ (Prod.ext rfl rfl))

theorem bs_lawful : BHist.Lawful Es hist where
  law := by
    intro e he
    simp only [hist, List.mem_cons, List.not_mem_nil, or_false] at he
    rcases he with rfl | rfl <;> exact vectorSpace_lawful 1
  val := by
    intro e he q
    simp only [hist, List.mem_cons, List.not_mem_nil, or_false] at he
    rcases he with rfl | rfl <;> rfl

theorem bs_expl : explOf hist = [econ] := rfl
theorem bs_impl : implOf hist = [(con, 0)] := rfl

theorem mem_bs {P : ECon ℚ Nat → Prop} (h : P econ) : ∀ c ∈ explOf hist, P c := by
  intro c hc
  rw [bs_expl] at hc
  obtain rfl := List.mem_singleton.1 hc
  exact h

end LeafEx

/-- `C141_solver`, `C141_solver_start`: the same constraints inserted in a solver by substitution. -/
example {M : Type} (o : BsOps (Nat → ℚ) M ℚ) (q0 q : Nat → ℚ) (m : M) (w : Bool) :
    let t := bs.rhsFromConfig q0
    let o' : BsOps (Nat → ℚ) M ℚ := { o with expl := fun q => (t.ex.solve q, true), norm := fun q => (t.hi.sqNorm q).getD 0 }
    let r := bsSolve o' t.hi.sqThr (1 / 10 ^ 12) t.hi.maxIter t.reducedDim w t.hi.lastIsOptional q m
    bsSolve o' t.hi.sqThr (1 / 10 ^ 12) t.hi.maxIter t.reducedDim w t.hi.lastIsOptional q0 m = ⟨q0, m, 0, .success, false⟩ ∧
    (r.status = .success → r.arg 1 - 2 * r.arg 0 = q0 1 - 2 * q0 0 ∧
      (r.arg 0 + r.arg 1 - (q0 0 + q0 1)) * (r.arg 0 + r.arg 1 - (q0 0 + q0 1)) ≤ 1 / 100) := by
  intro t o' r
  have ho : ∀ q, (bs.rhsFromConfig q0).hi.sqNorm q = some (o'.norm q) := fun q => by
    obtain ⟨l1, l2⟩ := bs_lawful.impl
    obtain ⟨n, hn, -⟩ := C33_worst (leaf_built bs_built.parts.1 q0) l1 l2 (leaf_levels q0 (by intro h; cases h)) q
    show _ = some (((bs.rhsFromConfig q0).hi.sqNorm q).getD 0)
    rw [show (bs.rhsFromConfig q0).hi.sqNorm q = some n from hn]; rfl
  have hlaw : ∀ c ∈ explOf hist, c.space.Lawful (Ex c) := mem_bs (vectorSpace_lawful 1)
  have hcl : ∀ c ∈ explOf hist, c.comp.length = c.space.nv := mem_bs rfl
  have hcons : ∀ c ∈ explOf hist, c.Consistent (Ex c) := mem_bs (vecCon_consistent _ _ _ _ _ _ _ _ (fun x => rfl))
  have hout : ∀ c ∈ explOf hist, ∀ x r, Ex c r → (c.outVal x r).length = (indices c.outQ).length := mem_bs (by
    intro x r hr
    show (List.zipWith (· + ·) [2 * x.getD 0 0] r).length = 1
    rw [List.length_zipWith, show r.length = 1 from hr]
    rfl)
  have hq0 : ∀ c ∈ explOf hist, Ex c (c.h q0) := mem_bs rfl
  have hfix : ∀ c ∈ explOf hist, ∀ (i : Nat) (t : Comp), c.comp[i]? = some t → t ≠ .equality → (c.space.log (c.h q0))[i]? = some 0 :=
    mem_bs (by
      intro i t hi ht
      cases i with
      | zero => exact absurd (Option.some.inj (show some Comp.equality = some t from hi)).symm ht
      | succ i => exact absurd (show (none : Option Comp) = some t from hi) (by simp))
  have hcoh : AllCoherent (explOf hist) := coherent_of_vec (mem_bs ⟨rfl, rfl⟩)
  refine ⟨C141_solver_start bs_built bs_lawful (mem_bs econ_wf) hcoh Ex hlaw hcl hcons hout (by intro h; cases h) q0
    hq0 hfix (neutral q0) o' ho (fun _ => rfl) comps (by show (0 : ℚ) ≤ 1 / 100; norm_num) rfl _ _ (by cases w <;> rfl) m, fun hs => ?_⟩
  obtain ⟨g1, g2⟩ := C141_solver bs_built bs_lawful (mem_bs econ_wf) hcoh Ex hlaw hcl hcons hout (by intro h; cases h) q0
    hq0 hfix (neutral q0) o' ho (fun _ => rfl) _ _ q m hs
  refine ⟨?_, ?_⟩
  · exact (List.cons.inj (g1 econ (by rw [bs_expl]; exact List.mem_singleton.2 rfl))).1
  · have := g2 (con, 0) (List.mem_singleton.2 rfl) (by intro h; cases h)
    refine le_trans (le_of_eq ?_) this
    exact (LeafEx.error _ q0).symm

end Hpp
