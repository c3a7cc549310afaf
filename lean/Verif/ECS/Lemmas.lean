import Verif.ECS.Inv
import Verif.Common.Lemmas
import Mathlib.Data.List.Induction

/-!
# Evaluation order and solution of an explicit constraint set
-/

namespace Hpp

open Relation

variable {α κ : Type}

/-! ### more fuel does not change the result -/

theorem foldlM_mono {β γ : Type} (f g : β → γ → Except Err β)
    (h : ∀ b c b', f b c = .ok b' → g b c = .ok b') (l : List γ) (b b' : β)
    (hb : l.foldlM f b = .ok b') : l.foldlM g b = .ok b' := by
  induction l generalizing b with
  | nil => exact hb
  | cons c l ih =>
    rw [List.foldlM_cons] at hb ⊢
    cases hc : f b c with
    | error e => rw [hc] at hb; simp [bind, Except.bind] at hb
    | ok b1 =>
      rw [hc] at hb
      rw [h b c b1 hc]
      exact ih b1 hb

theorem computeOrder_mono (ins : List Segs) (derFn : List (Option Nat)) (fuel : Nat) :
    ∀ i st st', computeOrder ins derFn fuel i st = .ok st' →
      computeOrder ins derFn (fuel + 1) i st = .ok st' := by
  induction fuel with
  | zero => intro i st st' h; simp [computeOrder] at h
  | succ fuel ih =>
    intro i st st' h
    rw [computeOrder_succ] at h ⊢
    split at h
    · exact h
    · rename_i l h1 h2
      cases hf : (indices l).foldlM (ordStep ins derFn fuel i) st with
      | error e => rw [hf] at h; simp [bind, Except.bind] at h
      | ok st1 =>
        rw [hf] at h
        rw [foldlM_mono (ordStep ins derFn fuel i) (ordStep ins derFn (fuel + 1) i) ?_ _ _ _ hf]
        · exact h
        · intro b v b' hb
          unfold ordStep at hb ⊢
          split at hb
          · simp at hb
          · exact hb
          · rename_i j h3
            cases hc : computeOrder ins derFn fuel j b with
            | error e => rw [hc] at hb; simp [bind, Except.bind] at hb
            | ok b1 => rw [hc] at hb; rw [ih j b b1 hc]; exact hb
    · simp at h

theorem orderAll_mono (ins : List Segs) (derFn : List (Option Nat)) (fuel k : Nat) (st : OrdSt)
    (h : orderAll ins derFn fuel = .ok st) : orderAll ins derFn (fuel + k) = .ok st := by
  induction k with
  | zero => exact h
  | succ k ih =>
    unfold orderAll at ih ⊢
    exact foldlM_mono _ _ (fun b c b' hb => computeOrder_mono ins derFn (fuel + k) c b b' hb) _ _ _ ih

/-! ### the graph of the set -/

/-- The velocity indices of the constraints are in range and match the configuration indices. -/
structure GoodV (nv : Nat) (cs : List (ECon α κ)) : Prop where
  range : ∀ c ∈ cs, ∀ i, ReadsV c i → i < nv
  coh : AllCoherent cs

theorem Inv.writer_unique {s : ECS α κ} (hI : Inv s) {i j x : Nat} {c c' : ECon α κ}
    (hi : s.cons[i]? = some c) (hj : s.cons[j]? = some c') (h : Writes c x) (h' : Writes c' x) :
    i = j := by
  have h1 := (hI.arg x i).2 ⟨c, hi, h⟩
  have h2 := (hI.arg x j).2 ⟨c', hj, h'⟩
  rw [h1] at h2; simpa using h2

theorem Inv.der_iff {s : ECS α κ} (hI : Inv s) (hG : AllCoherent s.cons) (v j : Nat) :
    s.derFn[v]? = some (some j) ↔ ∃ c, s.cons[j]? = some c ∧ WritesV c v := by
  rw [hI.der]
  constructor
  · rintro ⟨c, h1, h2, -⟩; exact ⟨c, h1, h2⟩
  · rintro ⟨c, h1, h2⟩
    refine ⟨c, h1, h2, ?_⟩
    intro j' c' hlt hj' hw
    obtain ⟨i, hi1, hi2⟩ := (hG c (List.mem_of_getElem? h1) c' (List.mem_of_getElem? hj')).out
      ⟨v, h2, hw⟩
    have := hI.writer_unique h1 hj' hi1 hi2
    omega

theorem depV_iff {s : ECS α κ} (hI : Inv s) (hG : AllCoherent s.cons) (i j : Nat) :
    DepV (s.cons.map fun c => c.inV) s.derFn i j ↔
      ∃ c c', s.cons[i]? = some c ∧ s.cons[j]? = some c' ∧ Depends c c' := by
  unfold DepV
  constructor
  · rintro ⟨l, v, h1, h2, h3⟩
    rw [List.getElem?_map] at h1
    cases hc : s.cons[i]? with
    | none => rw [hc] at h1; simp at h1
    | some c =>
      rw [hc] at h1; simp only [Option.map_some, Option.some.injEq] at h1; subst h1
      obtain ⟨c', h4, h5⟩ := (hI.der_iff hG v j).1 h3
      exact ⟨c, c', rfl, h4, (hG c (List.mem_of_getElem? hc) c' (List.mem_of_getElem? h4)).dep
        ⟨v, (mem_indices _ _).1 h2, h5⟩⟩
  · rintro ⟨c, c', h1, h2, h3⟩
    obtain ⟨v, h4, h5⟩ := (hG c (List.mem_of_getElem? h1) c' (List.mem_of_getElem? h2)).dep' h3
    exact ⟨c.inV, v, by rw [List.getElem?_map, h1]; rfl, (mem_indices _ _).2 h4,
      (hI.der_iff hG v j).2 ⟨c', h2, h5⟩⟩

theorem graphOk {s : ECS α κ} (hI : Inv s) (hG : GoodV s.nv s.cons) :
    ∃ rk, GraphOk (s.cons.map fun c => c.inV) s.derFn rk := by
  obtain ⟨rk, hrk⟩ := hI.rank
  refine ⟨rk, ?_, ?_, ?_⟩
  · intro l hl v hv
    obtain ⟨c, hc, rfl⟩ := List.mem_map.1 hl
    rw [hI.derLen]
    exact hG.range c hc v ((mem_indices _ _).1 hv)
  · intro v j h
    obtain ⟨c, hc, -⟩ := (hI.der_iff hG.coh v j).1 h
    have := lt_of_getElem?_some hc
    simpa using this
  · intro i j h
    obtain ⟨c, c', h1, h2, h3⟩ := (depV_iff hI hG.coh i j).1 h
    exact hrk i j c c' h1 h2 h3

/-- The order in which a reachable set evaluates its constraints. -/
theorem Inv.ordered {s : ECS α κ} (hI : Inv s) (hG : GoodV s.nv s.cons) :
    s.order.Perm (List.range s.cons.length) ∧
    (∀ pre i post, s.order = pre ++ i :: post → ∀ j c c', s.cons[i]? = some c →
      s.cons[j]? = some c' → Depends c c' → j ∈ pre) ∧
    (∀ r < s.cons.length, ∀ k, s.dep r k ≠ 0 ↔ FreeDep (s.cons.map fun c => c.inV) s.derFn r k) := by
  obtain ⟨rk, hg⟩ := graphOk hI hG
  obtain ⟨fuel, st, h1, h2, h3⟩ := hI.order
  obtain ⟨N, hN⟩ := orderAll_spec _ _ rk hg
  obtain ⟨st', e1, e2, e3⟩ := hN (fuel + N) (by omega)
  rw [orderAll_mono _ _ fuel N st h1] at e1
  simp only [Except.ok.injEq] at e1; subst e1
  rw [List.length_map] at e3
  rw [h2, h3]
  refine ⟨e3, ?_, ?_⟩
  · intro pre i post he j c c' hc hc' hd
    exact e2.closed pre i post he j ((depV_iff hI hG.coh i j).2 ⟨c, c', hc, hc', hd⟩)
  · intro r hr k
    exact e2.dep r (e3.symm.subset (by simpa using hr)) k

/-! ### `add` on a good graph -/

theorem insert_total {s : ECS α κ} (c : ECon α κ) (o od : Seg) (junk : List α) (fuel : Nat)
    (st : OrdSt) (h : orderAll ((s.data ++ [EData.new c junk]).map fun d => d.c.inV)
          (setConst s.derFn (indices c.outV) s.data.length) fuel = .ok st) :
    ∃ s', s.insert fuel c o od junk = .ok (some s.data.length, s') := by
  obtain ⟨a, b, d, e, -, -, -, -, heq⟩ := insert_eq s fuel c o od junk
  rw [heq, h]
  exact ⟨_, rfl⟩

/-- With enough fuel the loop detection terminates, and tells whether the new constraint needs one
of its outputs. -/
theorem bfs_decides {s : ECS α κ} (hI : Inv s) (c : ECon α κ) (o : Seg) (ho : c.outQ = [o])
    (hr : ∀ i, Reads c i → i < s.nq) :
    ∃ N, ∀ fuel, N ≤ fuel → ∃ b, bfs (s.data.map fun d => d.c.inQ) s.argFn o fuel (indices c.inQ)
      = .ok b ∧ (b = true ↔ ∃ y, Needs s.cons c y ∧ Writes c y) := by
  obtain ⟨rk, hrk⟩ := hI.rank
  have hargs : ∀ l ∈ (s.data.map fun d => d.c.inQ), ∀ i ∈ indices l, i < s.argFn.length := by
    rw [cons_map s (fun c => c.inQ)]
    intro l hl i hi
    obtain ⟨c', hc', rfl⟩ := List.mem_map.1 hl
    rw [hI.argLen]; exact hI.rangeQ c' hc' i ((mem_indices _ _).1 hi)
  have hfn : ∀ x j : Nat, s.argFn[x]? = some (some j) → j < (s.data.map fun d => d.c.inQ).length := by
    intro x j h
    obtain ⟨c', hc', -⟩ := (hI.arg x j).1 h
    have := lt_of_getElem?_some hc'
    simpa [ECS.cons] using this
  obtain ⟨N, hN⟩ := bfs_total (s.data.map fun d => d.c.inQ) s.argFn o rk hargs hfn
    (by
      rw [cons_map s (fun c => c.inQ)]
      intro j l y j' h1 h2 h3
      rw [List.getElem?_map] at h1
      cases hc : s.cons[j]? with
      | none => rw [hc] at h1; simp at h1
      | some c1 =>
        rw [hc] at h1; simp only [Option.map_some, Option.some.injEq] at h1; subst h1
        obtain ⟨c2, h4, h5⟩ := (hI.arg y j').1 h3
        exact hrk j j' c1 c2 hc h4 ⟨y, (mem_indices _ _).1 h2, h5⟩)
    (indices c.inQ) (by
      intro i hi; rw [hI.argLen]; exact hr i ((mem_indices _ _).1 hi))
  refine ⟨N, fun fuel hf => ?_⟩
  obtain ⟨b, hb⟩ := hN fuel hf
  refine ⟨b, hb, ?_⟩
  have hw : ∀ y, Writes c y ↔ o.Has y := by intro y; unfold Writes; rw [ho]; simp
  cases b with
  | true =>
    obtain ⟨x, hx, y, hxy, hy⟩ := bfs_true _ _ _ _ _ hb
    simp only [true_iff]
    exact ⟨y, ⟨x, (mem_indices _ _).1 hx, (edge_rtg s hI x y).1 hxy⟩, (hw y).2 hy⟩
  | false =>
    have hb' := bfs_false _ _ _ _ _ hb
    simp only [Bool.false_eq_true, false_iff]
    rintro ⟨y, ⟨x, hx, hxy⟩, hy⟩
    exact (hb' x ((mem_indices _ _).2 hx) y ((edge_rtg s hI x y).2 hxy)).1 ((hw y).1 hy)

theorem overlap_imp (a b : Seg) (h : overlap a b = true) : ∃ i, a.Has i ∧ b.Has i := by
  unfold overlap Seg.stop at h
  unfold Seg.Has
  split at h
  · simp at h
  · split at h
    · simp at h
    · by_cases h1 : a.first ≤ b.first ∧ b.first < a.first + a.len
      · exact ⟨b.first, by omega⟩
      · rw [if_neg h1] at h
        by_cases h2 : a.first < b.first + b.len ∧ b.first + b.len ≤ a.first + a.len
        · exact ⟨b.first + b.len - 1, by omega⟩
        · rw [if_neg h2] at h; simp at h

/-! ### solving -/

/-- One constraint evaluated: its outputs hold the result, nothing else moved. -/
theorem solveOne_other (d : EData α κ) (q : Nat → α) (i : Nat) (h : ¬ Writes d.c i) :
    solveOne d q i = q i :=
  lview_not_mem _ _ _ _ (fun hi => h ((mem_indices _ _).1 hi))

theorem solveOne_holds (d : EData α κ) (q : Nat → α) (hn : (indices d.c.outQ).Nodup)
    (hl : d.OutLen) (hs : ¬ Depends d.c d.c) : d.Holds (solveOne d q) := by
  unfold EData.Holds
  have hin : rview (solveOne d q) d.c.inQ = rview q d.c.inQ := by
    apply rview_congr
    intro i hi
    exact solveOne_other d q i (fun hw => hs ⟨i, (mem_indices _ _).1 hi, hw⟩)
  rw [hin]
  exact rview_lview _ _ _ hn (hl _)

theorem EData.Holds.congr' {d : EData α κ} {q q' : Nat → α} (h : d.Holds q)
    (hin : ∀ i, Reads d.c i → q' i = q i) (hout : ∀ i, Writes d.c i → q' i = q i) : d.Holds q' := by
  unfold EData.Holds at h ⊢
  rw [rview_congr (q' := q) (fun i hi => hout i ((mem_indices _ _).1 hi)),
    rview_congr (q' := q) (fun i hi => hin i ((mem_indices _ _).1 hi))]
  exact h

/-- Evaluation along a list of indices. -/
def runOrder (data : List (EData α κ)) (l : List Nat) (q : Nat → α) : Nat → α :=
  l.foldl (fun q i => match data[i]? with
    | some d => solveOne d q
    | none => q) q

theorem runOrder_append (data : List (EData α κ)) (l l' : List Nat) (q : Nat → α) :
    runOrder data (l ++ l') q = runOrder data l' (runOrder data l q) := by
  simp [runOrder]

theorem runOrder_other (data : List (EData α κ)) (l : List Nat) (q : Nat → α) (i : Nat)
    (h : ∀ d ∈ data, ¬ Writes d.c i) : runOrder data l q i = q i := by
  induction l generalizing q with
  | nil => rfl
  | cons a l ih =>
    have : runOrder data (a :: l) q = runOrder data l (runOrder data [a] q) := by
      rw [← runOrder_append]; rfl
    rw [this, ih]
    unfold runOrder
    simp only [List.foldl_cons, List.foldl_nil]
    cases hd : data[a]? with
    | none => rfl
    | some d => exact solveOne_other d q i (h d (List.mem_of_getElem? hd))

theorem runOrder_holds (data : List (EData α κ))
    (hn : ∀ d ∈ data, (indices d.c.outQ).Nodup) (hl : ∀ d ∈ data, d.OutLen)
    (hself : ∀ d ∈ data, ¬ Depends d.c d.c)
    (hdisj : ∀ (i j : Nat) (d d' : EData α κ) x, data[i]? = some d → data[j]? = some d' → Writes d.c x → Writes d'.c x →
      i = j) (order : List Nat) (hnd : order.Nodup)
    (hord : ∀ pre i post, order = pre ++ i :: post → ∀ (j : Nat) (d d' : EData α κ), data[i]? = some d →
      data[j]? = some d' → Depends d.c d'.c → j ∈ pre) (q : Nat → α) :
    ∀ i ∈ order, ∀ d, data[i]? = some d → d.Holds (runOrder data order q) := by
  have main : ∀ (pre post : List Nat), order = pre ++ post → ∀ i ∈ pre, ∀ d, data[i]? = some d →
      d.Holds (runOrder data pre q) := by
    intro pre
    induction pre using List.reverseRecOn with
    | nil => intro post _ i hi; simp at hi
    | append_singleton pre a ih =>
      intro post he i hi d hd
      have he' : order = pre ++ a :: post := by rw [he]; simp
      have hih := ih (a :: post) he'
      rw [runOrder_append]
      have hstep : ∀ q', runOrder data [a] q' = match data[a]? with
          | some d => solveOne d q'
          | none => q' := fun q' => rfl
      rw [hstep]
      have ha : a ∉ pre := by
        rw [he'] at hnd
        have := (List.nodup_append.1 hnd).2.2
        intro hm
        exact this a hm a (by simp) rfl
      rcases List.mem_append.1 hi with hi | hi
      · cases hda : data[a]? with
        | none => exact hih i hi d hd
        | some da =>
          refine EData.Holds.congr' (hih i hi d hd) (fun x hx => solveOne_other da _ x fun hw => ?_)
            (fun x hx => solveOne_other da _ x fun hw => ?_)
          · -- `i` reads an output of `a`: `a` was evaluated before
            obtain ⟨p1, p2, hp⟩ := List.append_of_mem hi
            have := hord p1 i (p2 ++ a :: post) (by rw [he', hp]; simp) a d da hd hda ⟨x, hx, hw⟩
            exact ha (by rw [hp]; simp [this])
          · have := hdisj i a d da x hd hda hx hw
            rw [← this] at ha; exact ha hi
      · simp only [List.mem_singleton] at hi; subst hi
        rw [hd]
        exact solveOne_holds d _ (hn d (List.mem_of_getElem? hd)) (hl d (List.mem_of_getElem? hd))
          (hself d (List.mem_of_getElem? hd))
  exact main order [] (by simp)

theorem data_getElem? {s : ECS α κ} {i : Nat} {d : EData α κ} (h : s.data[i]? = some d) :
    s.cons[i]? = some d.c := by
  unfold ECS.cons; rw [List.getElem?_map, h]; rfl

theorem mem_cons_of_data {s : ECS α κ} {d : EData α κ} (h : d ∈ s.data) : d.c ∈ s.cons :=
  List.mem_map.2 ⟨d, h, rfl⟩

theorem Inv.solve_holds {s : ECS α κ} (hI : Inv s) (hG : GoodV s.nv s.cons)
    (hl : ∀ d ∈ s.data, d.OutLen) (q : Nat → α) : ∀ d ∈ s.data, d.Holds (s.solve q) := by
  obtain ⟨h1, h2, -⟩ := hI.ordered hG
  intro d hd
  obtain ⟨i, hi⟩ := List.mem_iff_getElem?.1 hd
  have hlt : i < s.cons.length := lt_of_getElem?_some (data_getElem? hi)
  refine runOrder_holds s.data ?_ hl ?_ ?_ s.order ?_ ?_ q i ?_ d hi
  · intro d hd
    obtain ⟨o, od, ho, -⟩ := hI.wf d.c (mem_cons_of_data hd)
    rw [ho]
    exact Disjoint'.indices_nodup (by simp [Disjoint'])
  · intro d hd hdep
    obtain ⟨rk, hrk⟩ := hI.rank
    obtain ⟨j, hj⟩ := List.mem_iff_getElem?.1 hd
    have := hrk j j d.c d.c (data_getElem? hj) (data_getElem? hj) hdep
    omega
  · intro i j d d' x hi hj h h'
    exact hI.writer_unique (data_getElem? hi) (data_getElem? hj) h h'
  · exact (h1.nodup_iff).2 List.nodup_range
  · intro pre i post he j d d' hd hd' hdep
    exact h2 pre i post he j d.c d'.c (data_getElem? hd) (data_getElem? hd') hdep
  · exact h1.symm.subset (by simpa using hlt)

theorem Inv.solve_other {s : ECS α κ} (q : Nat → α) (i : Nat)
    (h : ∀ c ∈ s.cons, ¬ Writes c i) : s.solve q i = q i :=
  runOrder_other s.data s.order q i (fun d hd => h d.c (mem_cons_of_data hd))

/-- A family without circular dependency has at most one solution for given free variables. -/
theorem solution_unique {cs : List (EData α κ)} (rk : EData α κ → Nat)
    (hrk : ∀ d ∈ cs, ∀ d' ∈ cs, Depends d.c d'.c → rk d' < rk d) (q q' : Nat → α)
    (hq : ∀ d ∈ cs, d.Holds q) (hq' : ∀ d ∈ cs, d.Holds q')
    (hfree : ∀ i, (∀ d ∈ cs, ¬ Writes d.c i) → q i = q' i) : q = q' := by
  have main : ∀ n, ∀ d ∈ cs, rk d < n → ∀ i, Writes d.c i → q i = q' i := by
    intro n
    induction n with
    | zero => intro d _ h; omega
    | succ n ih =>
      intro d hd hlt i hi
      have hin : rview q d.c.inQ = rview q' d.c.inQ := by
        apply rview_congr
        intro x hx
        by_cases hw : ∀ d' ∈ cs, ¬ Writes d'.c x
        · exact hfree x hw
        · simp only [not_forall, not_not] at hw
          obtain ⟨d', hd', hw⟩ := hw
          have := hrk d hd d' hd' ⟨x, (mem_indices _ _).1 hx, hw⟩
          exact ih d' hd' (by omega) x hw
      have h1 := hq d hd
      have h2 := hq' d hd
      unfold EData.Holds at h1 h2
      rw [hin, ← h2] at h1
      exact rview_inj h1 i ((mem_indices _ _).2 hi)
  funext i
  by_cases hw : ∀ d' ∈ cs, ¬ Writes d'.c i
  · exact hfree i hw
  · simp only [not_forall, not_not] at hw
    obtain ⟨d', hd', hw⟩ := hw
    exact main (rk d' + 1) d' hd' (by omega) i hw

/-- Rank on the data of a reachable set. -/
theorem Inv.rankData [Inhabited Nat] {s : ECS α κ} (hI : Inv s) :
    ∃ rk : EData α κ → Nat, ∀ d ∈ s.data, ∀ d' ∈ s.data, Depends d.c d'.c → rk d' < rk d := by
  classical
  obtain ⟨rk, hrk⟩ := hI.rank
  -- minimal rank of the positions of a datum
  let m : EData α κ → Nat := fun d =>
    if h : ∃ n i, s.data[i]? = some d ∧ rk i = n then Nat.find h else 0
  refine ⟨m, ?_⟩
  intro d hd d' hd' hdep
  obtain ⟨i, hi⟩ := List.mem_iff_getElem?.1 hd
  obtain ⟨j, hj⟩ := List.mem_iff_getElem?.1 hd'
  have e1 : ∃ n i, s.data[i]? = some d ∧ rk i = n := ⟨_, i, hi, rfl⟩
  have e2 : ∃ n i, s.data[i]? = some d' ∧ rk i = n := ⟨_, j, hj, rfl⟩
  have m1 : m d = Nat.find e1 := dif_pos e1
  have m2 : m d' = Nat.find e2 := dif_pos e2
  rw [m1, m2]
  obtain ⟨i', hi', hr⟩ := Nat.find_spec e1
  have h := hrk i' j d.c d'.c (data_getElem? hi') (data_getElem? hj) hdep
  have : Nat.find e2 ≤ rk j := Nat.find_le ⟨j, hj, rfl⟩
  omega

theorem Inv.solve_unique {s : ECS α κ} (hI : Inv s) (hG : GoodV s.nv s.cons)
    (hl : ∀ d ∈ s.data, d.OutLen) (q q' : Nat → α)
    (h : ∀ i, (∀ c ∈ s.cons, ¬ Writes c i) → q' i = q i) (hh : ∀ d ∈ s.data, d.Holds q') :
    s.solve q = q' := by
  obtain ⟨rk, hrk⟩ := hI.rankData
  refine solution_unique rk hrk _ _ (hI.solve_holds hG hl q) hh ?_
  intro i hi
  have hi' : ∀ c ∈ s.cons, ¬ Writes c i := by
    intro c hc
    obtain ⟨d, hd, rfl⟩ := List.mem_map.1 hc
    exact hi d hd
  rw [Inv.solve_other q i hi', h i hi']

end Hpp
