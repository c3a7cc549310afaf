import Verif.BySub.PriorityProps
import Verif.HI.GapProps

/-!
# C154 for the solver by substitution

Sources: `/repo/src/solver/by-substitution.cc`, lines 166-256, and
`/repo/src/solver/hierarchical-iterative.cc`, lines 263-303, 623-672 and 744-828;
`/repo/include/hpp/constraints/solver/impl/by-substitution.hh`, lines 38-167.
-/

namespace Hpp

open Matrix Gaps

variable {κ S : Type}

/-- Two solvers by substitution with explicit constraints that have the same effects -/
theorem bs_gaps_same [DecidableEq κ] {El : Space ℝ → List ℝ → Prop} {nq nv nq' nv' : Nat} {h h' : BHist ℝ κ} {s s' : BS ℝ κ}
    (hb : BS.Built El nq nv h s) (hb' : BS.Built El nq' nv' h' s') {f : Nat → Nat} (hf : StrictMono f) (hf0 : f 0 = 0)
    (hp : ((implOf h).map fun e => (e.1, f e.2)).Perm (implOf h'))
    (hl : BHist.Lawful El h) (hl' : BHist.Lawful El h') (hsame : s.SameExplicit s') (hopt : s.hi.SameOptions s'.hi) {R : κ → List ℝ}
    (hR : HI.RhsIs (fun f => El f.space) (implOf h) s.hi R) (hR' : HI.RhsIs (fun f => El f.space) (implOf h') s'.hi R)
    (ht : s.TopRows (implOf h)) (D : Space ℝ → List ℝ → List ℝ → Nat → Nat → ℝ) {o o' : SvdOps ℝ}
    (ho : o.Exact) (hor : o.Ortho) (ho' : o'.Exact) (hor' : o'.Ortho) (J0 J0' : (Nat → ℝ) → Jac ℝ)
    (dom : (Nat → ℝ) → Bool) (sat : (Nat → ℝ) → Nat → ℝ) (move : (Nat → ℝ) → (Nat → ℝ) → Nat → ℝ) (ls : BsLineSearch S)
    (dqMin : ℝ) (optimize : Bool) (q : Nat → ℝ) (dq dq' : Nat → ℝ) (st : S) :
    let r := bsSolve (s.fullOps D o J0 dom sat move ls) s.hi.sqThr dqMin s.hi.maxIter s.reducedDim optimize s.hi.lastIsOptional q
      (fun j => dq (hiFree s.hi j), fun j => dq' (hiFree s.hi j), st)
    let r' := bsSolve (s'.fullOps D o' J0' dom sat move ls) s'.hi.sqThr dqMin s'.hi.maxIter s'.reducedDim optimize
      s'.hi.lastIsOptional q (fun j => dq (hiFree s'.hi j), fun j => dq' (hiFree s'.hi j), st)
    r'.arg = r.arg ∧ r'.status = r.status ∧ r'.iter = r.iter := by
  obtain ⟨i1, i2⟩ := hl.impl
  obtain ⟨i1', i2'⟩ := hl'.impl
  obtain ⟨hs, hfn, -⟩ := hb.parts.1.inv i1 i2
  obtain ⟨hs', hfn', -⟩ := hb'.parts.1.inv i1' i2'
  obtain ⟨hfree, h1, h2, h3, h4, h5⟩ := hopt
  obtain ⟨s'', rfl⟩ : ∃ s'' : BS ℝ κ, s' = { s'' with hi := { s''.hi with free := s.hi.free } } :=
    ⟨s', by rw [← hfree]⟩
  set t : BS ℝ κ := { s'' with hi := { s''.hi with free := s.hi.free } } with htdef
  have h1' : t.hi.sqThr = s.hi.sqThr := h1
  have h2' : t.hi.ineqThr = s.hi.ineqThr := h2
  have h3' : t.hi.maxIter = s.hi.maxIter := h3
  have h4' : t.hi.lastIsOptional = s.hi.lastIsOptional := h4
  have h5' : t.hi.byLevel = s.hi.byLevel := h5
  obtain ⟨e0, he0, hz0, hd0, hm0⟩ := ht
  have hpos := Nat.zero_lt_of_lt (hs.nlev e0 he0)
  obtain ⟨N, hN, hN'⟩ := levels_num hs hs' hf hp hpos
  have hat := at_perm hf hp
  have hnorm : ∀ q, s.hi.sqNorm q = t.hi.sqNorm q := norm_same hs hfn hR hs' hfn' hR' hf hp hpos h2 h4
  have hact : t.rowActive = s.rowActive := hsame.act
  have hdim : s.reducedDim = t.reducedDim := by
    rw [bs_reducedDim hb hl, bs_reducedDim hb' hl', hact]
    have hp1 := hp.map Prod.fst
    rw [List.map_map] at hp1
    exact (List.Perm.flatMap_right _ (show ((implOf h).map Prod.fst).Perm _ from hp1)).count_eq _
  have hlev : ∀ q, List.Forall₂ DLevel.Same (rowsOf (s.dLevels D J0 sat q)) (rowsOf (t.dLevels D J0' sat q)) := by
    intro q
    refine filter_same hf ?_ ?_
    · intro i a ha
      unfold BS.dLevels at ha ⊢
      rw [List.getElem?_map] at ha
      obtain ⟨l, hl1, rfl⟩ := Option.map_eq_some_iff.1 ha
      have hi := lt_of_getElem?_some hl1
      have hle := hf.monotone (show i ≤ N by omega)
      obtain ⟨l', hl2⟩ : ∃ l', t.hi.levels[f i]? = some l' := ⟨_, List.getElem?_eq_getElem (by omega)⟩
      refine ⟨_, by rw [List.getElem?_map, hl2]; rfl, ?_⟩
      refine C128_saturation ⟨?_, fun x => ?_⟩ _
      · refine (bs_dLevel_empty hb hl hl1 _ _).trans (Iff.trans ?_ (bs_dLevel_empty hb' hl' hl2 (J0' q) q).symm)
        rw [hact]
        constructor
        · exact fun H c hc => H c ((hat i).mem_iff.2 hc)
        · exact fun H c hc => H c ((hat i).mem_iff.1 hc)
      · refine (bs_dLevel_cost hb hl hR hl1 _ _ x).trans (Eq.trans ?_ (bs_dLevel_cost hb' hl' hR' hl2 (J0' q) q x).symm)
        have hc : ∀ r c i, t.conCost D q x r c i = s.conCost D q x r c i := by
          intro r c i
          unfold BS.conCost
          rw [h2', hact]
          simp only [hsame.row]
          rfl
        have hmap : (List.map (fun c => ∑ r ∈ Finset.range c.fn.space.nv, t.conCost D q x (R c.fn.key) c r)
            (atLevel (implOf h') (f i))) = (List.map (fun c => ∑ r ∈ Finset.range c.fn.space.nv, s.conCost D q x (R c.fn.key) c r)
            (atLevel (implOf h') (f i))) :=
          List.map_congr_left fun c _ => Finset.sum_congr rfl fun r _ => hc _ _ _
        exact (((hat i).map _).sum_eq).trans (congrArg List.sum hmap).symm
    · intro j b hj hne
      unfold BS.dLevels at hj hne
      rw [List.getElem?_map] at hj
      obtain ⟨l', hl2, rfl⟩ := Option.map_eq_some_iff.1 hj
      refine (bs_dLevel_empty (D := D) hb' hl' hl2 (J0' q) q).2 ?_
      rw [at_nil hs hp fun i hi => hne i (by rw [List.length_map]; exact hi)]
      intro c hc
      simp at hc
  have hfirst : ∀ q, ∃ d ds, s.dLevels D J0 sat q = d :: ds ∧ d.m ≠ 0 := by
    intro q
    obtain ⟨l, ls, hls⟩ := List.exists_cons_of_length_eq_add_one hN
    refine ⟨_, _, by unfold BS.dLevels; rw [hls, List.map_cons], fun h0 => ?_⟩
    have hi : s.hi.levels[0]? = some l := by rw [hls]; rfl
    exact (bs_dLevel_empty (D := D) hb hl hi (J0 q) q).1 h0 e0.1 (mem_atLevel.2 (by rw [← hz0]; exact he0)) hd0 hm0
  have hfirst' : ∀ q, ∃ d ds, t.dLevels D J0' sat q = d :: ds ∧ d.m ≠ 0 := by
    intro q
    obtain ⟨l, ls, hls⟩ := List.exists_cons_of_length_eq_add_one hN'
    refine ⟨_, _, by unfold BS.dLevels; rw [hls, List.map_cons], fun h0 => ?_⟩
    have hi : t.hi.levels[0]? = some l := by rw [hls]; rfl
    exact (bs_dLevel_empty (D := D) hb' hl' hi (J0' q) q).1 h0 e0.1
      (mem_atLevel.2 ((mem_iff hp _).2 ⟨e0, he0, by rw [hz0, hf0]⟩)) (by rw [hact]; exact hd0) hm0
  have hcost : ∀ q, (match s.hi.levels.getLast? with
      | some l => sqSum ((l.error s.hi.ineqThr q).getD [])
      | none => (0 : ℝ)) = match t.hi.levels.getLast? with
      | some l => sqSum ((l.error t.hi.ineqThr q).getD [])
      | none => 0 := by
    intro q
    rw [List.getLast?_eq_getElem?, List.getLast?_eq_getElem?]
    obtain ⟨l, ha⟩ : ∃ l, s.hi.levels[s.hi.levels.length - 1]? = some l := ⟨_, List.getElem?_eq_getElem (by omega)⟩
    obtain ⟨l', hc⟩ : ∃ l', t.hi.levels[t.hi.levels.length - 1]? = some l' := ⟨_, List.getElem?_eq_getElem (by omega)⟩
    rw [ha, hc]
    show sqSum ((l.error s.hi.ineqThr q).getD []) = sqSum ((l'.error t.hi.ineqThr q).getD [])
    rw [bs_level_cost hs hfn hR ha, bs_level_cost hs' hfn' hR' hc, h2', hN, hN']
    exact ((hat N).map _).sum_eq
  have hops : s.fullOps D o J0 dom sat move ls = t.fullOps D o' J0' dom sat move ls := by
    have hd : ∀ q (v : Fin (indices s.hi.free.segs).length → ℝ), descend o s.hi.byLevel s.hi.sqThr (s.dLevels D J0 sat q) v =
        descend o' t.hi.byLevel t.hi.sqThr (t.dLevels D J0' sat q) v := by
      intro q v
      rw [h1', h5']
      exact (direction_same ho hor ho' hor' s.hi.byLevel s.hi.sqThr (hfirst q) (hfirst' q) (hlev q) v v).1
    have hslope : (fun q u => localSlope (s.dLevels D J0 sat q) u) =
        fun q u => localSlope (t.dLevels D J0' sat q) u := by
      funext q u
      exact (direction_same ho hor ho' hor' s.hi.byLevel s.hi.sqThr (hfirst q) (hfirst' q) (hlev q) u u).2
    have henv : s.lsEnv move = t.lsEnv move := by
      unfold BS.lsEnv
      simp only [hnorm, hsame.solve]
      rfl
    unfold BS.fullOps
    simp only [hnorm, hd, hslope, henv, hsame.solve]
    exact congrArg (fun c => BsOps.mk _ _ c _ _ _ _ _) (funext hcost)
  intro r r'
  have : r' = r := by
    show bsSolve (t.fullOps D o' J0' dom sat move ls) t.hi.sqThr dqMin t.hi.maxIter t.reducedDim optimize
      t.hi.lastIsOptional q (fun j => dq (hiFree s.hi j), fun j => dq' (hiFree s.hi j), st) = r
    rw [← hops, ← hdim, h1', h3', h4']
  rw [this]
  exact ⟨rfl, rfl, rfl⟩

/-- C154 for the solver by substitution: two solvers that have the same parameters and into which the same constraints have been inserted, in any order.  The
priorities of the implicit constraints are renumbered by a strictly increasing map that keeps 0, and an implicit constraint of priority 0 has a row to be
solved for.  They return the same configuration and the same status after the same number of iterations, with or without optimization of the last level.
The explicit constraints are defined everywhere, read their inputs in increasing order, and return vectors of the size of their outputs. -/
theorem C154_substitution [DecidableEq κ] {El : Space ℝ → List ℝ → Prop} {nq nv : Nat} {h h' : BHist ℝ κ} {s s' : BS ℝ κ}
    (hb : BS.Built El nq nv h s) (hb' : BS.Built El nq nv h' s') {f : Nat → Nat} (hf : StrictMono f) (hf0 : f 0 = 0)
    (hp : ((implOf h).map fun e => (e.1, f e.2)).Perm (implOf h'))
    (hpe : s.ex.data.Perm s'.ex.data) (hw : ∀ c ∈ explOf h, WellFormed nq nv c) (hcoh : AllCoherent (explOf h))
    (hs : ∀ c ∈ explOf h, c.inV.Pairwise lexLe) (hlen : ∀ d ∈ s.ex.data, d.OutLen)
    (hl : BHist.Lawful El h) (hl' : BHist.Lawful El h') (hopt : s.hi.SameOptions s'.hi) {R : κ → List ℝ}
    (hR : HI.RhsIs (fun f => El f.space) (implOf h) s.hi R) (hR' : HI.RhsIs (fun f => El f.space) (implOf h') s'.hi R)
    (ht : s.TopRows (implOf h)) (D : Space ℝ → List ℝ → List ℝ → Nat → Nat → ℝ) {o o' : SvdOps ℝ}
    (ho : o.Exact) (hor : o.Ortho) (ho' : o'.Exact) (hor' : o'.Ortho) (J0 J0' : (Nat → ℝ) → Jac ℝ)
    (sat : (Nat → ℝ) → Nat → ℝ) (move : (Nat → ℝ) → (Nat → ℝ) → Nat → ℝ) (ls : BsLineSearch S)
    (dqMin : ℝ) (optimize : Bool) (q : Nat → ℝ) (dq dq' : Nat → ℝ) (st : S) :
    let r := bsSolve (s.fullOps D o J0 (fun _ => true) sat move ls) s.hi.sqThr dqMin s.hi.maxIter s.reducedDim optimize
      s.hi.lastIsOptional q (fun j => dq (hiFree s.hi j), fun j => dq' (hiFree s.hi j), st)
    let r' := bsSolve (s'.fullOps D o' J0' (fun _ => true) sat move ls) s'.hi.sqThr dqMin s'.hi.maxIter s'.reducedDim optimize
      s'.hi.lastIsOptional q (fun j => dq (hiFree s'.hi j), fun j => dq' (hiFree s'.hi j), st)
    r'.arg = r.arg ∧ r'.status = r.status ∧ r'.iter = r.iter :=
  bs_gaps_same hb hb' hf hf0 hp hl hl' (bs_same_explicit hb hb' hpe hw hcoh hs hlen hopt.free) hopt hR hR' ht D ho hor ho' hor' J0 J0'
    (fun _ => true) sat move ls dqMin optimize q dq dq' st

namespace BsGapEx
open BsR (E)
open BsOrderEx (iA iA_built pA cA z iB iB_built)
open BsPriorityEx (iT iT_built cT cU s1 h1 built1 lawful1 rhs1 impl1 data1 wf1 vec1 sorted1 len1 top1)

/-- The explicit constraint `q₁ = q₀`, then `q₀ = 1` with priority 0, then `q₂ = q₁` with priority 2: there is no constraint of priority 1. -/
noncomputable def s3 : BS ℝ Nat := (((z.add 20 cA 0).1.add 20 cT 0).1.add 20 cU 2).1
noncomputable def h3 : BHist ℝ Nat := [(cA, 0, true), (cT, 0, false), (cU, 2, false)]

theorem built3 : BS.Built E 3 3 h3 s3 :=
  .add (h := [(cA, 0, true), (cT, 0, false)]) (s := ((z.add 20 cA 0).1.add 20 cT 0).1) (c := cU) (p := 2) (fuel := 20) (junk := [])
    (.add (h := [(cA, 0, true)]) (s := (z.add 20 cA 0).1) (c := cT) (p := 0) (fuel := 20) (junk := [])
      (.add (h := []) (s := z) (c := cA) (p := 0) (fuel := 20) (junk := []) (.init 1) ⟨_, _, _, iA_built⟩ (Prod.ext rfl rfl))
      ⟨_, _, _, iT_built⟩ (Prod.ext rfl rfl)) ⟨_, _, _, iB_built⟩ (Prod.ext rfl rfl)

theorem lawful3 : BHist.Lawful E h3 where
  law := by
    intro e he
    simp only [h3, List.mem_cons, List.not_mem_nil, or_false] at he
    rcases he with rfl | rfl | rfl <;> exact vectorSpace_lawful 1
  val := by
    intro e he q
    simp only [h3, List.mem_cons, List.not_mem_nil, or_false] at he
    rcases he with rfl | rfl | rfl <;> rfl

theorem impl3 : implOf h3 = [(iT, 0), (iB, 2)] := rfl
theorem data3 : s3.ex.data = [EData.new (pA.econ iA) []] := rfl

theorem rhs3 : HI.RhsIs (fun f => E f.space) (implOf h3) s3.hi fun _ => [0] where
  el := by
    intro e he
    simp only [impl3, List.mem_cons, List.not_mem_nil, or_false] at he
    rcases he with rfl | rfl <;> rfl
  eq := by
    intro i l hi
    have h0 : i < 3 := lt_of_getElem?_some (l := s3.hi.levels) hi
    obtain rfl | rfl | rfl : i = 0 ∨ i = 1 ∨ i = 2 := by omega
    · obtain rfl : (s3.hi.levels[0]?).get rfl = l := Option.some.inj ((Option.some_get _).trans hi)
      rfl
    · obtain rfl : (s3.hi.levels[1]?).get rfl = l := Option.some.inj ((Option.some_get _).trans hi)
      rfl
    · obtain rfl : (s3.hi.levels[2]?).get rfl = l := Option.some.inj ((Option.some_get _).trans hi)
      rfl

/-- Two and three levels: same result with any line search, from any configuration of a vector space. -/
example (o o' : SvdOps ℝ) (ho : o.Exact) (hor : o.Ortho) (ho' : o'.Exact) (hor' : o'.Ortho) (J0 J0' : (Nat → ℝ) → Jac ℝ)
    (ls : BsLineSearch Unit) (q : Nat → ℝ) :
    s1.hi.levels.length = 2 ∧ s3.hi.levels.length = 3 ∧
    (bsSolve (s3.fullOps HINewtonEx.D o' J0' (fun _ => true) (fun _ _ => 0) (fun q v i => q i + v i) ls) s3.hi.sqThr (1 / 10 ^ 12)
      s3.hi.maxIter s3.reducedDim true s3.hi.lastIsOptional q (fun _ => 0, fun _ => 0, ())).arg =
    (bsSolve (s1.fullOps HINewtonEx.D o J0 (fun _ => true) (fun _ _ => 0) (fun q v i => q i + v i) ls) s1.hi.sqThr (1 / 10 ^ 12)
      s1.hi.maxIter s1.reducedDim true s1.hi.lastIsOptional q (fun _ => 0, fun _ => 0, ())).arg :=
  ⟨rfl, rfl, (C154_substitution built1 built3 (f := fun i => 2 * i) (fun _ _ h => by show 2 * _ < 2 * _; omega) rfl
    (by rw [impl1, impl3]; exact .refl _) (by rw [data1, data3]) wf1 (coherent_of_vec vec1) sorted1
    len1 lawful1 lawful3 ⟨rfl, rfl, rfl, rfl, rfl, rfl⟩ rhs1 rhs3 top1 HINewtonEx.D ho hor ho' hor' J0 J0' (fun _ _ => 0)
    (fun q v i => q i + v i) ls (1 / 10 ^ 12) true q (fun _ => 0) (fun _ => 0) ()).1⟩

end BsGapEx

end Hpp
