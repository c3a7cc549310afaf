import Verif.BySub.Props
import Verif.BySub.Jacobian

/-!
# Serialization of the solver by substitution

Source: `/repo/src/solver/by-substitution.cc`, lines 170-180 and 384-402,
`/repo/src/solver/hierarchical-iterative.cc`, lines 872-922,
`/repo/include/hpp/constraints/explicit-constraint-set.hh`, lines 507-531.
-/

namespace Hpp

variable {α κ : Type}

/-- What `save` writes (by-substitution.cc:394-402, hierarchical-iterative.cc:899-922).  The space is written twice;
here its sizes.  `saturate_` is left out.  The constraints are taken to be restored as they were, see
`Verif/Implicit/Archive.lean` for what is not. -/
structure BSSaved (α κ : Type) where
  nq : Nat
  nv : Nat
  sqThr : α
  ineqThr : α
  maxIter : Nat
  lastIsOptional : Bool
  constraints : List (BCon α κ)
  priorities : List Nat

/-- `save` (by-substitution.cc:394-402): `constraints_` also holds the constraints that became explicit, whose
functions are usually not found in `priority_`. -/
def BS.save [DecidableEq κ] (s : BS α κ) : BSSaved α κ :=
  ⟨s.ex.nq, s.ex.nv, s.hi.sqThr, s.hi.ineqThr, s.hi.maxIter, s.hi.lastIsOptional, s.all,
    s.all.map fun c => (lookupKey s.hi.prio c.impl.fn.key).getD 0⟩

/-- Loop of `load` (hierarchical-iterative.cc:893-894), with the virtual function `add` of this class. -/
def BS.loadLoop [DecidableEq κ] (fuel : Nat) (junk : List α) :
    List (BCon α κ × Nat) → BS α κ → BS α κ × Option Err
  | [], s => (s, none)
  | (c, p) :: l, s =>
    match s.add fuel c p junk with
    | (s', .ok _) => BS.loadLoop fuel junk l s'
    | (s', .error e) => (s', some e)

/-- The solver before the constraints are inserted again: default constructors (by-substitution.hh:300,
explicit-constraint-set.hh:507-516) then `explicit_.init(space)` (by-substitution.cc:390) and the first lines of
`HierarchicalIterative::load`.  `eps` is the machine precision, default value of the threshold of the explicit
set.  `junk`: members that are not initialised, as in `HI.load`. -/
def BS.loadInit [Zero α] (eps : α) (junk : Nat × Nat × Bool) (d : BSSaved α κ) : BS α κ :=
  ⟨{ HI.init α κ d.nv with
      sqThr := d.sqThr
      ineqThr := d.ineqThr
      maxIter := d.maxIter
      lastIsOptional := d.lastIsOptional
      dimension := junk.1
      reducedDim := junk.2.1
      byLevel := junk.2.2 }, [], ECS.init d.nq d.nv eps⟩

/-- `load` (by-substitution.cc:384-392). -/
def BS.load [Zero α] [DecidableEq κ] (eps : α) (fuel : Nat) (junk : Nat × Nat × Bool) (junkE : List α)
    (d : BSSaved α κ) : BS α κ × Option Err :=
  BS.loadLoop fuel junkE (d.constraints.zip d.priorities) (BS.loadInit eps junk d)

/-! ## The matrix `JeExpanded_` -/

/-- The solver and the number of rows and columns of `JeExpanded_` (by-substitution.hh:298). -/
structure BSObj (α κ : Type) where
  bs : BS α κ
  je : Nat

/-- Constructor (by-substitution.cc:58-61): `JeExpanded_(configSpace->nv(), configSpace->nv())`. -/
def BSObj.init (α κ : Type) [Zero α] (nq nv : Nat) (eps : α) : BSObj α κ := ⟨BS.init α κ nq nv eps, nv⟩

/-- `load`: `JeExpanded_` is left as the default constructor made it, that is empty. -/
def BSObj.load [Zero α] [DecidableEq κ] (eps : α) (fuel : Nat) (junk : Nat × Nat × Bool) (junkE : List α)
    (d : BSSaved α κ) : BSObj α κ × Option Err :=
  ((⟨(BS.load eps fuel junk junkE d).1, 0⟩ : BSObj α κ), (BS.load eps fuel junk junkE d).2)

/-- `updateJacobian` (by-substitution.cc:170-204) for a level.  `none` also if `explicit_.jacobian`
(explicit-constraint-set.cc:264-291), that never resizes its argument, writes the rows and columns `notOutDers_`
or the rows of the outputs out of `JeExpanded_`. -/
def BSObj.updateJ [Zero α] [One α] [Add α] [Mul α] (o : BSObj α κ) (q : Nat → α) (rows : Segs) (J R : Jac α) :
    Option (Jac α) :=
  if o.bs.ex.inDers.nb = 0 then some R
  else if (indices o.bs.ex.notOutDers.segs ++ indices o.bs.ex.outDers.segs).all (fun i => decide (i < o.je)) then
    o.bs.updateJ q rows J R
  else none

/-! ## Explicit sets up to their right hand sides and thresholds -/

/-- The set without the right hand sides and the threshold. -/
def ECS.erase [Zero α] (s : ECS α κ) : ECS α κ :=
  { s with data := s.data.map fun d => EData.new d.c [], threshold := 0 }

/-- What `add` returns, without the right hand sides and the threshold. -/
def eraseR [Zero α] (r : Except Err (Option Nat × ECS α κ)) : Except Err (Option Nat × ECS α κ) :=
  match r with
  | .error e => .error e
  | .ok (n, s) => .ok (n, s.erase)

theorem erase_insert [Zero α] (s : ECS α κ) (fuel : Nat) (c : ECon α κ) (o od : Seg) (junk : List α) :
    eraseR (s.insert fuel c o od junk) = s.erase.insert fuel c o od [] := by
  obtain ⟨a, b, d, e, ha, hb, hd, he, h1⟩ := insert_eq s fuel c o od junk
  obtain ⟨a', b', d', e', ha', hb', hd', he', h2⟩ := insert_eq s.erase fuel c o od []
  rw [h1, h2]
  have hmap : ((s.erase.data ++ [EData.new c []]).map fun d : EData α κ => d.c.inV) =
      ((s.data ++ [EData.new c junk]).map fun d : EData α κ => d.c.inV) := by
    simp [ECS.erase, EData.new]
  have hlen : s.erase.data.length = s.data.length := by simp [ECS.erase]
  rw [hmap, hlen]
  rw [show s.erase.derFn = s.derFn from rfl]
  have e1 : a' = a := by
    have : some a' = some a := by rw [← ha, ← ha']; rfl
    simpa using this
  have e2 : b' = b := by
    have : some b' = some b := by rw [← hb, ← hb']; rfl
    simpa using this
  have e3 : d' = d := by
    have : some d' = some d := by rw [← hd, ← hd']; rfl
    simpa using this
  have e4 : e' = e := by
    have : some e' = some e := by rw [← he, ← he']; rfl
    simpa using this
  subst e1; subst e2; subst e3; subst e4
  cases orderAll ((s.data ++ [EData.new c junk]).map fun d : EData α κ => d.c.inV)
      (setConst s.derFn (indices c.outV) s.data.length) fuel with
  | error e => rfl
  | ok st =>
    simp only [Except.bind, eraseR, ECS.erase, List.map_append, List.map_cons, List.map_nil]
    rfl

theorem erase_add [Zero α] (s : ECS α κ) (fuel : Nat) (c : ECon α κ) (junk : List α) :
    eraseR (s.add fuel c junk) = s.erase.add fuel c [] := by
  have hins : (s.erase.data.map fun d : EData α κ => d.c.inQ) = s.data.map fun d : EData α κ => d.c.inQ := by
    simp [ECS.erase, EData.new]
  unfold ECS.add
  split
  · rename_i o od h1 h2
    rw [hins]
    rw [show s.erase.nq = s.nq from rfl, show s.erase.nv = s.nv from rfl, show s.erase.argFn = s.argFn from rfl]
    split
    · rfl
    · split
      · rfl
      · split
        · rfl
        · split
          · rfl
          · split
            · rfl
            · rfl
            · split
              · rfl
              · exact erase_insert s fuel c o od junk
  · rfl

/-- Sets that only differ by right hand sides and threshold accept the same constraints. -/
theorem add_of_erase [Zero α] {s t s' : ECS α κ} {fuel : Nat} {c : ECon α κ} {junk junk' : List α} {r : Option Nat}
    (h : t.erase = s.erase) (ha : s.add fuel c junk = .ok (r, s')) :
    ∃ t', t.add fuel c junk' = .ok (r, t') ∧ t'.erase = s'.erase := by
  have h1 := erase_add s fuel c junk
  have h2 := erase_add t fuel c junk'
  rw [h, ← h1, ha] at h2
  cases ht : t.add fuel c junk' with
  | error e => rw [ht] at h2; simp [eraseR] at h2
  | ok p =>
    rcases p with ⟨n, t'⟩
    rw [ht] at h2
    simp only [eraseR, Except.ok.injEq, Prod.mk.injEq] at h2
    obtain ⟨rfl, h3⟩ := h2
    exact ⟨t', rfl, h3⟩

theorem bfs_mono (ins : List Segs) (argFn : List (Option Nat)) (o : Seg) (fuel : Nat) :
    ∀ (q : List Nat) (b : Bool), bfs ins argFn o fuel q = .ok b → ∀ k, bfs ins argFn o (fuel + k) q = .ok b := by
  induction fuel with
  | zero =>
    intro q b h k
    cases q with
    | nil => cases k <;> simpa [bfs] using h
    | cons i q => simp [bfs] at h
  | succ fuel ih =>
    intro q b h k
    cases q with
    | nil => rw [Nat.add_right_comm]; simpa [bfs] using h
    | cons i q =>
      rw [Nat.add_right_comm]
      unfold bfs at h ⊢
      split at h
      · rename_i hc; rw [if_pos hc]; exact h
      · rename_i hc
        rw [if_neg hc]
        split at h
        · simp at h
        · exact ih q b h k
        · rename_i j hj
          split at h
          · simp at h
          · rename_i l hl
            exact ih _ b h k

theorem insert_mono (s : ECS α κ) (fuel k : Nat) (c : ECon α κ) (o od : Seg) (junk : List α)
    (p : Option Nat × ECS α κ) (h : s.insert fuel c o od junk = .ok p) :
    s.insert (fuel + k) c o od junk = .ok p := by
  obtain ⟨a, b, d, e, ha, hb, hd, he, h1⟩ := insert_eq s fuel c o od junk
  obtain ⟨a', b', d', e', ha', hb', hd', he', h2⟩ := insert_eq s (fuel + k) c o od junk
  rw [ha] at ha'; rw [hb] at hb'; rw [hd] at hd'; rw [he] at he'
  simp only [Option.some.injEq] at ha' hb' hd' he'
  subst ha'; subst hb'; subst hd'; subst he'
  rw [h1] at h
  rw [h2]
  cases hst : orderAll ((s.data ++ [EData.new c junk]).map fun d : EData α κ => d.c.inV)
      (setConst s.derFn (indices c.outV) s.data.length) fuel with
  | error e => rw [hst] at h; simp [Except.bind] at h
  | ok st =>
    rw [hst] at h
    rw [orderAll_mono _ _ _ k _ hst]
    exact h

/-- More steps do not change the result. -/
theorem ECS.add_mono (s : ECS α κ) (fuel k : Nat) (c : ECon α κ) (junk : List α)
    (p : Option Nat × ECS α κ) (h : s.add fuel c junk = .ok p) : s.add (fuel + k) c junk = .ok p := by
  unfold ECS.add at h ⊢
  split at h
  · split at h
    · simp at h
    · rename_i hc1
      rw [if_neg hc1]
      split at h
      · rename_i hc2; rw [if_pos hc2]; exact h
      · rename_i hc2
        rw [if_neg hc2]
        split at h
        · simp at h
        · rename_i hc3
          rw [if_neg hc3]
          split at h
          · rename_i hc4; rw [if_pos hc4]; exact h
          · rename_i hc4
            rw [if_neg hc4]
            split at h
            · simp at h
            · rename_i hb; rw [bfs_mono _ _ _ _ _ _ hb k]; exact h
            · rename_i hb
              rw [bfs_mono _ _ _ _ _ _ hb k]
              simp only
              split at h
              · simp at h
              · rename_i hc5
                rw [if_neg hc5]
                exact insert_mono _ _ _ _ _ _ _ _ h
  · simp at h

/-! ## Loading -/

theorem BS.loadLoop_append [DecidableEq κ] (fuel : Nat) (junk : List α) :
    ∀ (l l' : List (BCon α κ × Nat)) (s t : BS α κ), BS.loadLoop fuel junk l s = (t, none) →
    BS.loadLoop fuel junk (l ++ l') s = BS.loadLoop fuel junk l' t := by
  intro l
  induction l with
  | nil =>
    intro l' s t h
    simp only [BS.loadLoop, Prod.mk.injEq, and_true] at h
    subst h; rfl
  | cons e l ih =>
    intro l' s t h
    rcases e with ⟨c, p⟩
    rw [List.cons_append]
    rw [BS.loadLoop] at h
    rw [BS.loadLoop]
    split at h
    · rename_i s' b hs; exact ih l' s' t h
    · simp at h

theorem implOf_map (g : BCon α κ × Nat × Bool → Nat) (h : BHist α κ)
    (hg : ∀ e ∈ h, e.2.2 = false → g e = e.2.1) :
    implOf (h.map fun e => (e.1, g e, e.2.2)) = implOf h := by
  induction h with
  | nil => rfl
  | cons e h ih =>
    have := ih fun x hx => hg x (by simp [hx])
    unfold implOf at this ⊢
    rw [List.map_cons, List.filterMap_cons, List.filterMap_cons, this]
    cases he : e.2.2 with
    | true => rfl
    | false => simp [hg e (by simp) he]

theorem explOf_map (g : BCon α κ × Nat × Bool → Nat) (h : BHist α κ) :
    explOf (h.map fun e => (e.1, g e, e.2.2)) = explOf h := by
  unfold explOf
  rw [List.filterMap_map]
  rfl

theorem erase_cons [Zero α] {s t : ECS α κ} (h : t.erase = s.erase) : t.cons = s.cons := by
  have := congrArg (fun x : ECS α κ => x.data.map fun d => d.c) h
  simpa [ECS.erase, ECS.cons, EData.new, List.map_map, Function.comp_def] using this

/-- Free variables of a solver that was loaded. -/
def loadedFree (nv : Nat) (ex : ECS α κ) : Blocks := if ex.data = [] then Blocks.empty.add 0 nv else ex.notOutDers

/-- State reached by inserting again, in another solver, the constraints of a history. -/
structure Reloaded [Zero α] [DecidableEq κ] (E : Space α → List α → Prop) (nq nv : Nat) (h : BHist α κ)
    (g : BCon α κ × Nat × Bool → Nat) (s t0 t : BS α κ) : Prop where
  built : BS.Built E nq nv (h.map fun e => (e.1, g e, e.2.2)) t
  ex : t.ex.erase = s.ex.erase
  sqThr : t.hi.sqThr = t0.hi.sqThr
  ineqThr : t.hi.ineqThr = t0.hi.ineqThr
  maxIter : t.hi.maxIter = t0.hi.maxIter
  opt : t.hi.lastIsOptional = t0.hi.lastIsOptional
  byLevel : t.hi.byLevel = t0.hi.byLevel
  thr : t.ex.threshold = t0.ex.threshold
  free : t.hi.free = loadedFree nv t.ex
  rhsHi : ∀ l ∈ t.hi.levels, l.rhs = l.stack.fns.space.neutral
  rhsEx : ∀ d ∈ t.ex.data, d.rhs = d.c.space.neutral

theorem load_sim [Zero α] [DecidableEq κ] {E : Space α → List α → Prop} {nq nv : Nat} {h : BHist α κ}
    {s : BS α κ} (hb : BS.Built E nq nv h s) (m n : Nat) (g : BCon α κ × Nat × Bool → Nat) (junk : List α)
    (t0 : BS α κ) (ht0 : Reloaded E nq nv [] g (BS.init α κ nq nv 0) t0 t0) :
    BHist.Lawful E h → (∀ e ∈ implOf h, SameInput m n e.1) →
    (∀ e ∈ h, e.2.2 = false → g e = e.2.1) →
    ∃ N, ∀ fuel, N ≤ fuel → ∃ t, BS.loadLoop fuel junk (h.map fun e => (e.1, g e)) t0 = (t, none) ∧
      Reloaded E nq nv h g s t0 t := by
  induction hb with
  | init eps => intro _ _ _; exact ⟨0, fun fuel _ => ⟨t0, rfl, by
      refine ⟨ht0.built, ht0.ex, rfl, rfl, rfl, rfl, rfl, rfl, ht0.free, ht0.rhsHi, ht0.rhsEx⟩⟩⟩
  | @add h s s' fuel0 c p junk0 hb hc ha ih =>
    intro hl hin hg
    have hl' : BHist.Lawful E h := ⟨fun e he => hl.law e (by simp [he]), fun e he => hl.val e (by simp [he])⟩
    obtain ⟨N, hN⟩ := ih hl'
      (fun e he => hin e (by rw [implOf_append]; exact List.mem_append_left _ he))
      (fun e he => hg e (by simp [he]))
    obtain ⟨k1, k2, k3, k4, k5, k6⟩ := hb.parts
    obtain ⟨j1, j2, j3, j4, j5, j6⟩ := (BS.Built.add hb hc ha).parts
    refine ⟨max N fuel0, fun fuel hf => ?_⟩
    obtain ⟨t, ht, hr⟩ := hN fuel (by omega)
    obtain ⟨p1, p2, p3, p4, p5, p6⟩ := hr.built.parts
    rw [implOf_map g h fun e he => hg e (by simp [he])] at p1
    have hall : t.all = s.all := by rw [p4, k4, List.map_map]; rfl
    obtain ⟨a1, a2, a3⟩ := BS.add_true ha
    have hcon : t.contains c = false := by unfold BS.contains at a1 ⊢; rw [hall]; exact a1
    rw [List.map_append]
    have hmono : ∀ (e : ECon α κ) (r : Option Nat) (x : ECS α κ), s.ex.add fuel0 e junk0 = .ok (r, x) →
        ∃ x', t.ex.add fuel e junk = .ok (r, x') ∧ x'.erase = x.erase := by
      intro e r x hx
      have := ECS.add_mono _ _ (fuel - fuel0) _ _ _ hx
      rw [show fuel0 + (fuel - fuel0) = fuel by omega] at this
      exact add_of_erase hr.ex this
    rcases a3 with ⟨e, k, he, hx, hhi⟩ | ⟨hx, hhi, hno⟩
    · obtain ⟨x', hx', hxe⟩ := hmono e (some k) s'.ex hx
      have hflag : decide (s.ex.data.length < s'.ex.data.length) = true := by
        rw [(add_cons hx).2.2.2.2.1]; simp
      rw [hflag] at hl hin hg j1 ⊢
      have hxd := (add_cons hx').2.2.2.2
      have hadd : t.add fuel c (g (c, p, true)) junk =
          (({ t with ex := x', all := t.all ++ [c] } : BS α κ).explicitChanged, .ok true) := by
        unfold BS.add
        rw [hcon, he]
        simp only [Bool.false_eq_true, if_false, hx']
      refine ⟨({ t with ex := x', all := t.all ++ [c] } : BS α κ).explicitChanged, ?_, ?_⟩
      · rw [BS.loadLoop_append _ _ _ _ _ _ ht]
        simp only [List.map_cons, List.map_nil, BS.loadLoop, hadd]
      · refine ⟨?_, hxe, hr.sqThr, hr.ineqThr, hr.maxIter, hr.opt, hr.byLevel, hxd.2.trans hr.thr, ?_, ?_, ?_⟩
        · have hB := BS.Built.add hr.built hc hadd
          have hflag' : decide (t.ex.data.length <
              (({ t with ex := x', all := t.all ++ [c] } : BS α κ).explicitChanged).ex.data.length) = true := by
            show decide (t.ex.data.length < x'.data.length) = true
            rw [hxd.1]; simp
          rw [hflag'] at hB
          rw [List.map_append]
          exact hB
        · show x'.notOutDers = loadedFree nv x'
          unfold loadedFree
          rw [if_neg]
          rw [hxd.1]; simp
        · exact update_neutral _
        · show ∀ d ∈ x'.data, d.rhs = d.c.space.neutral
          rw [hxd.1]
          intro d hd
          rcases List.mem_append.1 hd with hd | hd
          · exact hr.rhsEx d hd
          · simp only [List.mem_singleton] at hd; subst hd; rfl
    · have hflag : decide (s.ex.data.length < s'.ex.data.length) = false := by
        rw [hx]; simp
      rw [hflag] at hl hin hg j1 ⊢
      have hgp : g (c, p, false) = p := hg _ (by simp) rfl
      obtain ⟨l1, l2⟩ := hl'.impl
      obtain ⟨L1, L2⟩ := hl.impl
      have hinv := (p1.inv l1 l2).1
      have hkeys := (j1.inv L1 L2).1.keys
      have hnewc : implOf [(c, p, false)] = [(c.impl, p)] := rfl
      rw [implOf_append, hnewc] at hkeys
      rw [implOf_append, hnewc] at hin
      have hk : ∀ e' ∈ implOf h, e'.1.fn.key ≠ c.impl.fn.key := by
        intro e' he' hke
        rw [List.map_append, List.nodup_append] at hkeys
        exact hkeys.2.2 _ (List.mem_map.2 ⟨e', he', rfl⟩) _ (List.mem_map.2 ⟨(c.impl, p), by simp, rfl⟩) hke
      obtain ⟨hi, hhi'⟩ := HI.add_succeeds (nq := m) (nv := n) hinv
        (fun e he => hin e (List.mem_append_left _ he)) (hin (c.impl, p) (by simp)) hk p
      have hpar := HI.add_params hhi'
      have hadd : t.add fuel c (g (c, p, false)) junk = (⟨hi, t.all ++ [c], t.ex⟩, .ok true) := by
        unfold BS.add BS.addImplicit
        rw [hcon, hgp]
        cases he : c.econ with
        | none => simp only [Bool.false_eq_true, if_false, hhi']
        | some e =>
          obtain ⟨x', hx', hxe⟩ := hmono e none s.ex (hno e he)
          have := add_none hx'
          subst this
          simp only [Bool.false_eq_true, if_false, hx', hhi']
      refine ⟨⟨hi, t.all ++ [c], t.ex⟩, ?_, ?_⟩
      · rw [BS.loadLoop_append _ _ _ _ _ _ ht]
        simp only [List.map_cons, List.map_nil, BS.loadLoop, hadd]
      · refine ⟨?_, by rw [hx]; exact hr.ex, hpar.1.trans hr.sqThr, hpar.2.1.trans hr.ineqThr,
          hpar.2.2.1.trans hr.maxIter, hpar.2.2.2.2.2.1.trans hr.opt, hpar.2.2.2.2.2.2.trans hr.byLevel, hr.thr,
          hpar.2.2.2.2.1.trans hr.free, ?_, hr.rhsEx⟩
        · have hB := BS.Built.add hr.built hc hadd
          have hflag' : decide (t.ex.data.length < (⟨hi, t.all ++ [c], t.ex⟩ : BS α κ).ex.data.length) = false := by
            simp
          rw [hflag'] at hB
          rw [List.map_append]
          exact hB
        · obtain ⟨-, lv, st, -, -, rfl⟩ := HI.add_none hhi'
          exact update_neutral _
  | free b _ ih =>
    intro h1 h2 h3
    obtain ⟨N, hN⟩ := ih h1 h2 h3
    exact ⟨N, fun fuel hf => by
      obtain ⟨t, ht, hr⟩ := hN fuel hf
      exact ⟨t, ht, { hr with ex := hr.ex }⟩⟩
  | @setRhs h s s' c v b hb hsame hel hset ih =>
    intro h1 h2 h3
    obtain ⟨N, hN⟩ := ih h1 h2 h3
    refine ⟨N, fun fuel hf => ?_⟩
    obtain ⟨t, ht, hr⟩ := hN fuel hf
    refine ⟨t, ht, { hr with ex := hr.ex.trans ?_ }⟩
    unfold BS.setRhs at hset
    split at hset
    · simp at hset
    · simp only [Option.some.injEq, Prod.mk.injEq] at hset
      rw [← hset.1]
    · split at hset
      · simp only [Option.some.injEq, Prod.mk.injEq] at hset
        rw [← hset.1]
      · rename_i e he
        simp only [Option.some.injEq, Prod.mk.injEq] at hset
        rw [← hset.1]
        unfold ECS.erase ECS.setRhsOf
        simp only
        rw [updateFirst_map (fun d : EData α κ => decide (d.c.key = e.key)) (fun d => d.setRhs v)
          (fun d => EData.new d.c []) (fun _ => rfl)]
  | @fromConfigOne h s s' c q b hb hsame hel hset ih =>
    intro h1 h2 h3
    obtain ⟨N, hN⟩ := ih h1 h2 h3
    refine ⟨N, fun fuel hf => ?_⟩
    obtain ⟨t, ht, hr⟩ := hN fuel hf
    refine ⟨t, ht, { hr with ex := hr.ex.trans ?_ }⟩
    unfold BS.rhsFromConfigOne at hset
    split at hset
    · simp at hset
    · simp only [Option.some.injEq, Prod.mk.injEq] at hset
      rw [← hset.1]
    · split at hset
      · simp only [Option.some.injEq, Prod.mk.injEq] at hset
        rw [← hset.1]
      · rename_i e he
        simp only [Option.some.injEq, Prod.mk.injEq] at hset
        rw [← hset.1]
        unfold ECS.erase ECS.rhsFromInputOf
        simp only
        rw [updateFirst_map (fun d : EData α κ => decide (d.c.key = e.key)) (fun d => d.rhsFromInput q)
          (fun d => EData.new d.c []) (fun _ => rfl)]
  | @fromConfig h s q hb ih =>
    intro h1 h2 h3
    obtain ⟨N, hN⟩ := ih h1 h2 h3
    refine ⟨N, fun fuel hf => ?_⟩
    obtain ⟨t, ht, hr⟩ := hN fuel hf
    refine ⟨t, ht, { hr with ex := hr.ex.trans ?_ }⟩
    simp [ECS.erase, BS.rhsFromConfig, ECS.rhsFromInput, EData.rhsFromInput]
  | @setRhsVec h s s' v R hb hel htop hset ih =>
    intro h1 h2 h3
    obtain ⟨N, hN⟩ := ih h1 h2 h3
    refine ⟨N, fun fuel hf => ?_⟩
    obtain ⟨t, ht, hr⟩ := hN fuel hf
    refine ⟨t, ht, { hr with ex := hr.ex.trans ?_ }⟩
    simp only [BS.setRhsVec, headOf, Option.bind_eq_bind, Option.bind_eq_some_iff, Option.some.injEq] at hset
    obtain ⟨top, -, hi, -, bot, -, ex, hex, rfl⟩ := hset
    unfold ECS.setRhs at hex
    split at hex
    · simp only [Option.some.injEq] at hex
      subst hex
      unfold ECS.erase
      simp only
      rw [setRhsLoop_map (fun d : EData α κ => EData.new d.c []) (fun _ _ => rfl)]
    · simp at hex
  | params a b t n o l _ ih =>
    intro h1 h2 h3
    obtain ⟨N, hN⟩ := ih h1 h2 h3
    refine ⟨N, fun fuel hf => ?_⟩
    obtain ⟨t, ht, hr⟩ := hN fuel hf
    exact ⟨t, ht, { hr with ex := hr.ex }⟩

end Hpp
