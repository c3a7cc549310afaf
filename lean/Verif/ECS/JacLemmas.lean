import Verif.ECS.Lemmas
import Mathlib.Algebra.BigOperators.Ring.Finset

/-!
# Jacobian of the solution of an explicit constraint set
-/

namespace Hpp

variable {α κ : Type}

/-! ### the sets of inputs -/

theorem canonical_lex {l : Segs} (h : Canonical l) : l.Pairwise lexLe := by
  refine List.Pairwise.imp ?_ h
  intro a b hab; unfold lexLe; omega

theorem in_step (ins add out : Segs) (hi : Canonical ins) (ha : add.Pairwise lexLe) :
    ∃ r, diffSegsSegs (addSegs ins add) out = some r ∧
      ∀ i, Covers (shrink r) i ↔ (Covers ins i ∨ Covers add i) ∧ ¬ Covers out i := by
  obtain ⟨r, h1, -, h3⟩ := shrink_diff_covers (addSegs ins add) out
    (sortedFirst_of_lex (addSegs_sorted _ _ (canonical_lex hi) ha))
  refine ⟨r, h1, fun i => ?_⟩
  rw [h3, covers_perm (addSegs_perm _ _), covers_append]
  tauto

/-- The input sets are exact when the constraints list their input intervals in increasing order. -/
structure InOk (s : ECS α κ) : Prop where
  inArgs : (∀ c ∈ s.cons, c.inQ.Pairwise lexLe) → ∀ i, Covers s.inArgs.segs i ↔
    (∃ c ∈ s.cons, Reads c i) ∧ ¬ ∃ c ∈ s.cons, Writes c i
  inDers : (∀ c ∈ s.cons, c.inV.Pairwise lexLe) → ∀ i, Covers s.inDers.segs i ↔
    (∃ c ∈ s.cons, ReadsV c i) ∧ ¬ ∃ c ∈ s.cons, WritesV c i

theorem InOk.add {s s' : ECS α κ} {fuel n : Nat} {c : ECon α κ} {junk : List α} (hI : Inv s)
    (hO : InOk s) (h : s.add fuel c junk = .ok (some n, s')) : InOk s' := by
  obtain ⟨hc, -, -, -, -, -⟩ := add_cons h
  have hI' := hI.add h
  obtain ⟨o, od, h1, h2, h3, h4, h5, h6, h7, h8⟩ := add_some h
  obtain ⟨a, b, d, e, ha, hb, hd, he, heq⟩ := insert_eq s fuel c o od junk
  rw [heq] at h8
  cases hst : orderAll ((s.data ++ [EData.new c junk]).map fun d => d.c.inV)
      (setConst s.derFn (indices c.outV) s.data.length) fuel with
  | error => rw [hst] at h8; simp [Except.bind] at h8
  | ok st =>
    rw [hst] at h8
    simp only [Except.bind, Except.ok.injEq, Prod.mk.injEq, Option.some.injEq] at h8
    have e1 : s'.inArgs = (Blocks.ofSegs b).update false true true := by rw [← h8.2]
    have e2 : s'.inDers = (Blocks.ofSegs e).update false true true := by rw [← h8.2]
    have e3 : s'.outArgs = (s.outArgs.add o.first o.len).update true true true := by rw [← h8.2]
    have e4 : s'.outDers = (s.outDers.add od.first od.len).update true true true := by rw [← h8.2]
    constructor
    · intro hs i
      have hs1 : ∀ c ∈ s.cons, c.inQ.Pairwise lexLe := fun c hc' => hs c (by rw [hc]; simp [hc'])
      have hs2 : c.inQ.Pairwise lexLe := hs c (by rw [hc]; simp)
      obtain ⟨r, hr1, hr2⟩ := in_step s.inArgs.segs c.inQ s'.outArgs.segs hI.inArgsC hs2
      rw [e3, hb] at hr1
      simp only [Option.some.injEq] at hr1; subst hr1
      have : s'.inArgs.segs = shrink b := by rw [e1]; rfl
      rw [this, hr2, hO.inArgs hs1, hI'.outArgs, hc]
      simp only [List.mem_append, List.mem_singleton]
      constructor
      · rintro ⟨(⟨⟨c', hc', hr⟩, -⟩ | hr), hn⟩
        · exact ⟨⟨c', .inl hc', hr⟩, hn⟩
        · exact ⟨⟨c, .inr rfl, hr⟩, hn⟩
      · rintro ⟨⟨c', (hc' | rfl), hr⟩, hn⟩
        · exact ⟨.inl ⟨⟨c', hc', hr⟩, fun ⟨x, hx, hw⟩ => hn ⟨x, .inl hx, hw⟩⟩, hn⟩
        · exact ⟨.inr hr, hn⟩
    · intro hs i
      have hs1 : ∀ c ∈ s.cons, c.inV.Pairwise lexLe := fun c hc' => hs c (by rw [hc]; simp [hc'])
      have hs2 : c.inV.Pairwise lexLe := hs c (by rw [hc]; simp)
      obtain ⟨r, hr1, hr2⟩ := in_step s.inDers.segs c.inV s'.outDers.segs hI.inDersC hs2
      rw [e4, he] at hr1
      simp only [Option.some.injEq] at hr1; subst hr1
      have : s'.inDers.segs = shrink e := by rw [e2]; rfl
      rw [this, hr2, hO.inDers hs1, hI'.outDers, hc]
      simp only [List.mem_append, List.mem_singleton]
      constructor
      · rintro ⟨(⟨⟨c', hc', hr⟩, -⟩ | hr), hn⟩
        · exact ⟨⟨c', .inl hc', hr⟩, hn⟩
        · exact ⟨⟨c, .inr rfl, hr⟩, hn⟩
      · rintro ⟨⟨c', (hc' | rfl), hr⟩, hn⟩
        · exact ⟨.inl ⟨⟨c', hc', hr⟩, fun ⟨x, hx, hw⟩ => hn ⟨x, .inl hx, hw⟩⟩, hn⟩
        · exact ⟨.inr hr, hn⟩

theorem InOk.of_same {s s' : ECS α κ} (hO : InOk s) (hc : s'.cons = s.cons)
    (h1 : s'.inArgs = s.inArgs) (h2 : s'.inDers = s.inDers) : InOk s' := by
  constructor
  · rw [hc, h1]; exact hO.inArgs
  · rw [hc, h2]; exact hO.inDers

theorem InOk.built [Zero α] [DecidableEq κ] {nq nv : Nat} {s : ECS α κ} (h : ECS.Built nq nv s) :
    InOk s := by
  induction h with
  | init eps => constructor <;> simp [ECS.init, ECS.cons, Blocks.empty]
  | add s fuel c junk r s' hs hadd ih =>
    cases r with
    | none => rw [add_none hadd]; exact ih
    | some n => exact ih.add (Inv.built hs).1 hadd
  | rhsFromInput s q _ ih =>
    exact ih.of_same (by simp [ECS.cons, ECS.rhsFromInput, EData.rhsFromInput, Function.comp_def])
      rfl rfl
  | rhsFromInputOf s c q _ ih =>
    exact ih.of_same (updateFirst_map (fun d : EData α κ => decide (d.c.key = c.key))
      (fun d => d.rhsFromInput q) (fun d => d.c) (fun _ => rfl) s.data) rfl rfl
  | setRhsOf s c v _ ih =>
    exact ih.of_same (updateFirst_map (fun d : EData α κ => decide (d.c.key = c.key))
      (fun d => d.setRhs v) (fun d => d.c) (fun _ => rfl) s.data) rfl rfl
  | setRhs s v s' _ hs ih =>
    unfold ECS.setRhs at hs
    split at hs
    · simp only [Option.some.injEq] at hs; subst hs
      exact ih.of_same (setRhsLoop_map (fun d : EData α κ => d.c) (fun _ _ => rfl) s.data v) rfl rfl
    · simp at hs
  | threshold s t _ ih => exact ih.of_same rfl rfl rfl

/-! ### a column of the Jacobian is a solution of the linearised constraints -/

/-- Product of a row with a vector. -/
def dotL [Zero α] [Add α] [Mul α] (D : Nat → α) (x : List α) : α :=
  (x.zipIdx.map fun p => D p.2 * p.1).foldl (· + ·) 0

theorem dotRow_eq [Zero α] [Add α] [Mul α] (D : Nat → α) (rows : List Nat) (J : Jac α) (k : Nat) :
    dotRow D rows J k = dotL D (rows.map fun r => J r k) := by
  unfold dotRow dotL
  congr 1
  rw [List.zipIdx_map, List.map_map]
  rfl

/-- The linearised constraint: velocity variables in place of configuration variables. -/
def linCon [Zero α] [Add α] [Mul α] (d : EData α κ) (D : Nat → Nat → α) : EData α κ :=
  { d with c := { d.c with
      inQ := d.c.inV
      outQ := d.c.outV
      outVal := fun x _ => (List.range (indices d.c.outV).length).map fun m => dotL (D m) x } }

theorem lview_getElem (q : Nat → α) (l : Segs) (vals : List α) (hn : (indices l).Nodup)
    (hl : vals.length = (indices l).length) (m r : Nat) (hm : (indices l)[m]? = some r) (x : α)
    (hx : vals[m]? = some x) : lview q l vals r = x := by
  have h := rview_lview q l vals hn hl
  have := congrArg (fun v => v[m]?) h
  simp only [rview, List.getElem?_map, hm, Option.map_some, hx, Option.some.injEq] at this
  exact this

theorem idxOf?_some {l : List Nat} {r m : Nat} (h : l.idxOf? r = some m) : l[m]? = some r := by
  induction l generalizing m with
  | nil => simp at h
  | cons a l ih =>
    rw [List.idxOf?_cons] at h
    split at h
    · rename_i h1
      simp only [Option.some.injEq] at h; subst h
      simpa using h1
    · cases hl : l.idxOf? r with
      | none => rw [hl] at h; simp at h
      | some k =>
        rw [hl] at h; simp only [Option.map_some, Option.some.injEq] at h; subst h
        simpa using ih hl

theorem jacOne_col [Zero α] [Add α] [Mul α] (inDers : Segs) (d : EData α κ) (D : Nat → Nat → α)
    (J : Jac α) (k : Nat) (hk : k ∈ indices inDers) (hn : (indices d.c.outV).Nodup) :
    (fun r => jacOne inDers d D J r k) = solveOne (linCon d D) (fun r => J r k) := by
  funext r
  unfold jacOne
  rw [if_pos hk]
  cases hi : (indices d.c.outV).idxOf? r with
  | none =>
    have : r ∉ indices d.c.outV := by simpa using hi
    symm
    exact lview_not_mem _ _ _ _ this
  | some m =>
    have hm := idxOf?_some hi
    symm
    simp only [solveOne]
    refine lview_getElem _ _ _ hn (by simp [linCon]) m r hm _ ?_
    have hlt := lt_of_getElem?_some hm
    simp only [linCon, List.getElem?_map, List.getElem?_range hlt, Option.map_some, dotRow_eq, rview]

theorem jacOne_col_not [Zero α] [Add α] [Mul α] (inDers : Segs) (d : EData α κ)
    (D : Nat → Nat → α) (J : Jac α) (k : Nat) (hk : k ∉ indices inDers) (r : Nat) :
    jacOne inDers d D J r k = J r k := by
  unfold jacOne; rw [if_neg hk]

/-- Identity on the free variables. -/
def jac0 [Zero α] [One α] (s : ECS α κ) : Jac α := fun r k =>
  match (indices s.notOutDers.segs).idxOf? r, (indices s.notOutDers.segs).idxOf? k with
  | some i, some j => if i = j then 1 else 0
  | _, _ => 0

theorem jac0_eq [Zero α] [One α] (s : ECS α κ) (r k : Nat) :
    jac0 s r k = if r = k ∧ Covers s.notOutDers.segs k then (1 : α) else 0 := by
  unfold jac0
  by_cases hr : r ∈ indices s.notOutDers.segs
  · by_cases hk : k ∈ indices s.notOutDers.segs
    · have hk' := (mem_indices _ _).1 hk
      cases h1 : (indices s.notOutDers.segs).idxOf? r with
      | none => rw [List.idxOf?_eq_none_iff] at h1; exact absurd hr h1
      | some i =>
        cases h2 : (indices s.notOutDers.segs).idxOf? k with
        | none => rw [List.idxOf?_eq_none_iff] at h2; exact absurd hk h2
        | some j =>
          simp only [hk', and_true]
          by_cases hrk : r = k
          · subst hrk
            rw [h1] at h2; simp only [Option.some.injEq] at h2; subst h2; simp
          · have : i ≠ j := by
              rintro rfl
              have e1 := idxOf?_some h1
              rw [idxOf?_some h2] at e1
              simp only [Option.some.injEq] at e1
              exact hrk e1.symm
            simp [hrk, this]
    · have h2 : (indices s.notOutDers.segs).idxOf? k = none := by simpa using hk
      rw [h2]
      have hk' : ¬ Covers s.notOutDers.segs k := fun h => hk ((mem_indices _ _).2 h)
      simp only [hk', and_false, if_false]
      cases (indices s.notOutDers.segs).idxOf? r <;> rfl
  · have h1 : (indices s.notOutDers.segs).idxOf? r = none := by simpa using hr
    rw [h1]
    have : ¬ (r = k ∧ Covers s.notOutDers.segs k) := by
      rintro ⟨rfl, h⟩; exact hr ((mem_indices _ _).2 h)
    simp only [this, if_false]

theorem jacobian_col [Zero α] [One α] [Add α] [Mul α] {s : ECS α κ} (hI : Inv s) (q : Nat → α)
    (k : Nat) (hk : k ∈ indices s.inDers.segs) :
    (fun r => s.jacobian q r k) =
      runOrder (s.data.map fun d => linCon d (d.jacAt q)) s.order (fun r => jac0 s r k) := by
  unfold ECS.jacobian runOrder
  show (fun r => (s.order.foldl _ (jac0 s)) r k) = _
  generalize jac0 s = J
  induction s.order generalizing J with
  | nil => rfl
  | cons i l ih =>
    simp only [List.foldl_cons]
    rw [ih]
    congr 1
    rw [List.getElem?_map]
    cases hd : s.data[i]? with
    | none => rfl
    | some d =>
      simp only [Option.map_some]
      refine jacOne_col _ _ _ _ _ hk ?_
      obtain ⟨o, od, -, ho, -⟩ := hI.wf d.c (mem_cons_of_data (List.mem_of_getElem? hd))
      rw [ho]
      exact Disjoint'.indices_nodup (by simp [Disjoint'])

theorem jacobian_col_not [Zero α] [One α] [Add α] [Mul α] (s : ECS α κ) (q : Nat → α)
    (k : Nat) (hk : k ∉ indices s.inDers.segs) (r : Nat) : s.jacobian q r k = jac0 s r k := by
  unfold ECS.jacobian
  show (s.order.foldl _ (jac0 s)) r k = _
  generalize jac0 s = J
  induction s.order generalizing J with
  | nil => rfl
  | cons i l ih =>
    simp only [List.foldl_cons]
    rw [ih]
    cases hd : s.data[i]? with
    | none => rfl
    | some d => exact jacOne_col_not _ _ _ _ _ hk r

theorem dotL_eq_sum [CommSemiring α] (D : Nat → α) (x : List α) :
    dotL D x = ∑ p ∈ Finset.range x.length, D p * x.getD p 0 := by
  unfold dotL
  rw [← List.sum_eq_foldl]
  have : ∀ (x : List α) (n : Nat), (x.zipIdx n |>.map fun p => D p.2 * p.1).sum =
      ∑ p ∈ Finset.range x.length, D (n + p) * x.getD p 0 := by
    intro x
    induction x with
    | nil => intro n; simp
    | cons a x ih =>
      intro n
      rw [List.zipIdx_cons, List.map_cons, List.sum_cons, ih, List.length_cons,
        Finset.sum_range_succ']
      rw [add_comm]
      congr 1
      · apply Finset.sum_congr rfl
        intro p _
        rw [show n + 1 + p = n + (p + 1) by omega]
        rfl
  simpa using this x 0

/-- The three facts that characterise the Jacobian. -/
theorem Inv.jacobian_spec [CommSemiring α] {s : ECS α κ} (hI : Inv s) (hO : InOk s)
    (hG : GoodV s.nv s.cons) (hs : ∀ c ∈ s.cons, c.inV.Pairwise lexLe) (q : Nat → α) :
    (∀ r k, (∀ c ∈ s.cons, ¬ WritesV c r) →
      s.jacobian q r k = if r = k ∧ k < s.nv then 1 else 0) ∧
    (∀ r k, (∃ c ∈ s.cons, WritesV c k) → s.jacobian q r k = 0) ∧
    (∀ d ∈ s.data, ∀ m r k, (indices d.c.outV)[m]? = some r → s.jacobian q r k =
      ∑ p ∈ Finset.range (indices d.c.inV).length,
        d.jacAt q m p * s.jacobian q ((indices d.c.inV).getD p 0) k) := by
  have hin := hO.inDers hs
  have hfree : ∀ r k, (∀ c ∈ s.cons, ¬ WritesV c r) →
      s.jacobian q r k = if r = k ∧ k < s.nv then 1 else 0 := by
    intro r k hr
    have h0 : jac0 s r k = if r = k ∧ k < s.nv then (1 : α) else 0 := by
      rw [jac0_eq]
      by_cases hrk : r = k
      · subst hrk
        have : Covers s.notOutDers.segs r ↔ r < s.nv := by
          rw [hI.notOutDers]
          exact ⟨fun h => h.1, fun h => ⟨h, fun ⟨c, hc, hw⟩ => hr c hc hw⟩⟩
        simp only [this]
      · simp [hrk]
    by_cases hk : k ∈ indices s.inDers.segs
    · have h1 := congrFun (jacobian_col hI q k hk) r
      rw [h1, runOrder_other, h0]
      intro d hd
      obtain ⟨d', hd', rfl⟩ := List.mem_map.1 hd
      exact hr d'.c (mem_cons_of_data hd')
    · rw [jacobian_col_not s q k hk, h0]
  have hcol : ∀ r k, (∃ c ∈ s.cons, WritesV c k) → s.jacobian q r k = 0 := by
    intro r k hk
    have h1 : k ∉ indices s.inDers.segs := by
      rw [mem_indices, hin]; exact fun h => h.2 hk
    rw [jacobian_col_not s q k h1, jac0_eq, if_neg]
    rw [hI.notOutDers]; rintro ⟨-, -, h⟩; exact h hk
  refine ⟨hfree, hcol, ?_⟩
  intro d hd m r k hm
  have hmem := mem_cons_of_data hd
  obtain ⟨i, hi⟩ := List.mem_iff_getElem?.1 hd
  have hr : WritesV d.c r := (mem_indices _ _).1 (List.mem_of_getElem? hm)
  by_cases hk : k ∈ indices s.inDers.segs
  · -- column computed along the order
    obtain ⟨h1, h2, -⟩ := hI.ordered hG
    have hget : ∀ (j : Nat) (e : EData α κ), (s.data.map fun d => linCon d (d.jacAt q))[j]? = some e →
        ∃ d', s.data[j]? = some d' ∧ e = linCon d' (d'.jacAt q) := by
      intro j e he
      rw [List.getElem?_map] at he
      cases hd' : s.data[j]? with
      | none => rw [hd'] at he; simp at he
      | some d' =>
        rw [hd'] at he; simp only [Option.map_some, Option.some.injEq] at he
        exact ⟨d', rfl, he.symm⟩
    have hhold := runOrder_holds (s.data.map fun d => linCon d (d.jacAt q)) (q := fun r => jac0 s r k)
      (by
        intro e he
        obtain ⟨d', hd', rfl⟩ := List.mem_map.1 he
        obtain ⟨o, od, -, ho, -⟩ := hI.wf d'.c (mem_cons_of_data hd')
        show (indices d'.c.outV).Nodup
        rw [ho]
        exact Disjoint'.indices_nodup (by simp [Disjoint']))
      (by
        intro e he
        obtain ⟨d', hd', rfl⟩ := List.mem_map.1 he
        intro x; simp [linCon])
      (by
        intro e he
        obtain ⟨d', hd', rfl⟩ := List.mem_map.1 he
        rintro ⟨v, h3, h4⟩
        have hm' := mem_cons_of_data hd'
        have hdep := (hG.coh d'.c hm' d'.c hm').dep ⟨v, h3, h4⟩
        obtain ⟨rk, hrk⟩ := hI.rank
        obtain ⟨j, hj⟩ := List.mem_iff_getElem?.1 hd'
        have := hrk j j d'.c d'.c (data_getElem? hj) (data_getElem? hj) hdep
        omega)
      (by
        intro i j e e' x he he' hw hw'
        obtain ⟨d1, hd1, rfl⟩ := hget i e he
        obtain ⟨d2, hd2, rfl⟩ := hget j e' he'
        obtain ⟨y, hy1, hy2⟩ := (hG.coh d1.c (mem_cons_of_data (List.mem_of_getElem? hd1)) d2.c
          (mem_cons_of_data (List.mem_of_getElem? hd2))).out ⟨x, hw, hw'⟩
        exact hI.writer_unique (data_getElem? hd1) (data_getElem? hd2) hy1 hy2)
      s.order ((h1.nodup_iff).2 List.nodup_range)
      (by
        intro pre i post he j e e' hde hde' hdep
        obtain ⟨d1, hd1, rfl⟩ := hget i e hde
        obtain ⟨d2, hd2, rfl⟩ := hget j e' hde'
        refine h2 pre i post he j d1.c d2.c (data_getElem? hd1) (data_getElem? hd2) ?_
        obtain ⟨v, h3, h4⟩ := hdep
        exact (hG.coh d1.c (mem_cons_of_data (List.mem_of_getElem? hd1)) d2.c
          (mem_cons_of_data (List.mem_of_getElem? hd2))).dep ⟨v, h3, h4⟩)
      i (h1.symm.subset (by simpa using lt_of_getElem?_some (data_getElem? hi)))
      (linCon d (d.jacAt q)) (by rw [List.getElem?_map, hi]; rfl)
    rw [← jacobian_col hI q k hk] at hhold
    unfold EData.Holds at hhold
    have := congrArg (fun v => v[m]?) hhold
    simp only [linCon, rview, List.getElem?_map, hm, Option.map_some,
      List.getElem?_range (lt_of_getElem?_some hm), Option.some.injEq] at this
    rw [this, dotL_eq_sum, List.length_map]
    apply Finset.sum_congr rfl
    intro p hp
    congr 1
    have hp' : p < (indices d.c.inV).length := by simpa using hp
    simp [List.getD_eq_getElem?_getD, List.getElem?_eq_getElem hp']
  · -- column nobody depends on
    have hz : s.jacobian q r k = 0 := by
      rw [jacobian_col_not s q k hk, jac0_eq, if_neg]
      rw [hI.notOutDers]
      rintro ⟨rfl, -, h⟩; exact h ⟨d.c, hmem, hr⟩
    rw [hz]
    symm
    apply Finset.sum_eq_zero
    intro p hp
    have hp' : p < (indices d.c.inV).length := by simpa using hp
    have hv : (indices d.c.inV).getD p 0 ∈ indices d.c.inV := by
      rw [List.getD_eq_getElem?_getD, List.getElem?_eq_getElem hp']
      exact List.getElem_mem hp'
    rw [jacobian_col_not s q k hk, jac0_eq, if_neg, mul_zero]
    rw [hI.notOutDers]
    rintro ⟨he, -, h⟩
    apply hk
    rw [mem_indices, hin]
    exact ⟨⟨d.c, hmem, by rw [← he]; exact (mem_indices _ _).1 hv⟩, h⟩

end Hpp
