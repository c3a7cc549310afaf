import Verif.ECS.JacLemmas
import Verif.ECS.Vector
import Mathlib.Tactic.Ring
import Mathlib.Algebra.Order.Ring.Defs

/-!
# Properties of explicit constraint sets (C09 to C18, C68)

`ECS.Built nq nv s` : `s` was obtained by some history of calls.  `Compatible`, `Needs`, `Depends`,
`Writes` ... only refer to the constraints (Spec.lean).
-/

namespace Hpp

open Relation

variable {α κ : Type}

/-! ## C09 -/

theorem needs_rank {cs : List (ECon α κ)} (rk : Nat → Nat)
    (hrk : ∀ i j c c', cs[i]? = some c → cs[j]? = some c' → Depends c c' → rk j < rk i)
    {x y : Nat} (h : ReflTransGen (Before cs) x y) :
    ∀ i j c c', cs[i]? = some c → cs[j]? = some c' → Reads c x → Writes c' y → rk j < rk i := by
  induction h using ReflTransGen.head_induction_on with
  | refl => intro i j c c' hi hj h1 h2; exact hrk i j c c' hi hj ⟨y, h1, h2⟩
  | head hb _ ih =>
    intro i j c c' hi hj h1 h2
    obtain ⟨c1, hc1, hw, hr⟩ := hb
    obtain ⟨k, hk⟩ := List.mem_iff_getElem?.1 hc1
    have e1 := hrk i k c c1 hi hk ⟨_, h1, hw⟩
    have e2 := ih k j c1 c' hk hj hr h2
    omega

/-- C09. After any history of calls, two different accepted constraints never compute the same
variable, no accepted constraint needs one of its own outputs, directly or through the others, and
all comparison types are equalities. -/
theorem C09_accepted_compatible [Zero α] [DecidableEq κ] {nq nv : Nat} {s : ECS α κ}
    (h : ECS.Built nq nv s) :
    (∀ (i j : Nat) (c c' : ECon α κ) (x : Nat), s.cons[i]? = some c → s.cons[j]? = some c' → Writes c x → Writes c' x → i = j) ∧
    (∀ c ∈ s.cons, ∀ y, Needs s.cons c y → ¬ Writes c y) ∧
    (∀ c ∈ s.cons, ∀ t ∈ c.comp, IsEq t) := by
  have hI := (Inv.built h).1
  refine ⟨fun i j c c' x h1 h2 h3 h4 => hI.writer_unique h1 h2 h3 h4, ?_, hI.comp⟩
  rintro c hc y ⟨x, hx, hxy⟩ hw
  obtain ⟨rk, hrk⟩ := hI.rank
  obtain ⟨i, hi⟩ := List.mem_iff_getElem?.1 hc
  have := needs_rank rk hrk hxy i i c c hi hi hx hw
  omega

/-! ## C10 -/

/-- A constraint is rejected with an exception only if it reads one of its outputs. -/
theorem add_throws {c : ECon α κ} (o : Seg) (ho : c.outQ = [o]) (hov : c.inQ.any (fun i => overlap i o) = true) :
    ∃ i, Reads c i ∧ Writes c i := by
  rw [List.any_eq_true] at hov
  obtain ⟨a, ha, hov⟩ := hov
  obtain ⟨i, h1, h2⟩ := overlap_imp a o hov
  exact ⟨i, ⟨a, ha, h1⟩, by unfold Writes; rw [ho]; simpa using h2⟩

/-- C10. On every reachable set and for every well formed constraint, whatever the insertion order
so far: `add` terminates, accepts the constraint (returning the number of constraints already
accepted) exactly when it is compatible, and otherwise returns -1 (or throws if the constraint reads
its own output) leaving the set as it was. -/
theorem C10_accept_iff_compatible [Zero α] [DecidableEq κ] {nq nv : Nat} {s : ECS α κ}
    (h : ECS.Built nq nv s) (c : ECon α κ) (junk : List α)
    (hw : ∀ c' ∈ s.cons ++ [c], WellFormed nq nv c') (hcoh : AllCoherent (s.cons ++ [c])) :
    ∃ N, ∀ fuel, N ≤ fuel →
      (Compatible s.cons c → ∃ s', s.add fuel c junk = .ok (some s.cons.length, s') ∧
        s'.cons = s.cons ++ [c]) ∧
      (¬ Compatible s.cons c → s.add fuel c junk = .ok (none, s) ∨
        (s.add fuel c junk = .error .throws ∧ ∃ i, Reads c i ∧ Writes c i)) := by
  obtain ⟨hI, hnq, hnv⟩ := Inv.built h
  subst hnq; subst hnv
  have hwc := hw c (by simp)
  obtain ⟨o, ho, hor⟩ := hwc.outQ
  obtain ⟨od, hod, hodr⟩ := hwc.outV
  obtain ⟨N1, hN1⟩ := bfs_decides hI c o ho hwc.inQ
  have hlen : s.data.length = s.cons.length := by simp [ECS.cons]
  -- the ordering terminates if the constraint is accepted
  have hord : Compatible s.cons c → ∃ N2, ∀ fuel, N2 ≤ fuel → ∃ st,
      orderAll ((s.data ++ [EData.new c junk]).map fun d => d.c.inV)
        (setConst s.derFn (indices c.outV) s.data.length) fuel = .ok st := by
    intro hc
    obtain ⟨rk, hrk⟩ := rank_extend s.cons c hI.rank hc.noLoop
    have hins : ((s.data ++ [EData.new c junk]).map fun d => d.c.inV) =
        (s.cons ++ [c]).map fun c => c.inV := by
      simp [ECS.cons, EData.new, Function.comp_def]
    have hder : ∀ v j : Nat, (setConst s.derFn (indices c.outV) s.data.length)[v]? = some (some j) →
        ∃ c', (s.cons ++ [c])[j]? = some c' ∧ WritesV c' v := by
      intro v j hv
      rw [setConst_getElem?] at hv
      split at hv
      · rename_i h1
        simp only [Option.some.injEq] at hv; subst hv
        exact ⟨c, by rw [hlen]; simp, (mem_indices _ _).1 h1.1⟩
      · obtain ⟨c', h1, h2, -⟩ := (hI.der v j).1 hv
        exact ⟨c', by rw [List.getElem?_append_left (lt_of_getElem?_some h1)]; exact h1, h2⟩
    have hg : GraphOk ((s.cons ++ [c]).map fun c => c.inV)
        (setConst s.derFn (indices c.outV) s.data.length) rk := by
      refine ⟨?_, ?_, ?_⟩
      · intro l hl v hv
        obtain ⟨c', hc', rfl⟩ := List.mem_map.1 hl
        rw [setConst_length, hI.derLen]
        exact (hw c' hc').inV v ((mem_indices _ _).1 hv)
      · intro v j hv
        obtain ⟨c', h1, -⟩ := hder v j hv
        simpa using lt_of_getElem?_some h1
      · rintro i j ⟨l, v, h1, h2, h3⟩
        rw [List.getElem?_map] at h1
        cases hci : (s.cons ++ [c])[i]? with
        | none => rw [hci] at h1; simp at h1
        | some ci =>
          rw [hci] at h1; simp only [Option.map_some, Option.some.injEq] at h1; subst h1
          obtain ⟨cj, h4, h5⟩ := hder v j h3
          exact hrk i j ci cj hci h4 ((hcoh ci (List.mem_of_getElem? hci) cj
            (List.mem_of_getElem? h4)).dep ⟨v, (mem_indices _ _).1 h2, h5⟩)
    obtain ⟨N2, hN2⟩ := orderAll_spec _ _ rk hg
    refine ⟨N2, fun fuel hf => ?_⟩
    obtain ⟨st, hst, -⟩ := hN2 fuel hf
    exact ⟨st, by rw [hins]; exact hst⟩
  have hany : (indices c.outQ).any (fun i => (s.argFn[i]?.join).isSome) = true ↔
      ∃ c' ∈ s.cons, ∃ i, Writes c i ∧ Writes c' i := by
    rw [List.any_eq_true]
    constructor
    · rintro ⟨i, hi, hsome⟩
      cases ha : s.argFn[i]? with
      | none => rw [ha] at hsome; simp at hsome
      | some a => cases a with
        | none => rw [ha] at hsome; simp at hsome
        | some j =>
          obtain ⟨c', hc', hw'⟩ := (hI.arg i j).1 ha
          exact ⟨c', List.mem_of_getElem? hc', i, (mem_indices _ _).1 hi, hw'⟩
    · rintro ⟨c', hc', i, h1, h2⟩
      obtain ⟨j, hj⟩ := List.mem_iff_getElem?.1 hc'
      exact ⟨i, (mem_indices _ _).2 h1, by rw [(hI.arg i j).2 ⟨c', hj, h2⟩]; rfl⟩
  have hcomp : c.comp.any (fun t => decide (t ≠ .equalToZero ∧ t ≠ .equality)) = true ↔
      ¬ ∀ t ∈ c.comp, IsEq t := by
    simp only [List.any_eq_true, decide_eq_true_eq, not_forall, IsEq, not_or]
    constructor
    · rintro ⟨t, ht, h1⟩; exact ⟨t, ht, h1⟩
    · rintro ⟨t, ht, h1⟩; exact ⟨t, ht, h1⟩
  by_cases hC : Compatible s.cons c
  · obtain ⟨N2, hN2⟩ := hord hC
    refine ⟨N1 + N2, fun fuel hf => ⟨fun _ => ?_, fun hn => absurd hC hn⟩⟩
    obtain ⟨b, hb, hbiff⟩ := hN1 fuel (by omega)
    obtain ⟨st, hst⟩ := hN2 fuel (by omega)
    obtain ⟨s', hs'⟩ := insert_total c o od junk fuel st hst
    have hbf : b = false := by
      cases b with
      | false => rfl
      | true =>
        exfalso
        obtain ⟨y, h1, h2⟩ := hbiff.1 rfl
        exact hC.noLoop y h1 h2
    subst hbf
    have hadd : s.add fuel c junk = .ok (some s.data.length, s') := by
      unfold ECS.add
      rw [ho, hod]
      simp only
      rw [if_neg, if_neg, if_neg (by omega), if_neg, hb]
      · simp only
        rw [if_neg (by omega)]
        exact hs'
      · rw [← ho, hany]
        rintro ⟨c', hc', i, h1, h2⟩
        exact hC.fresh c' hc' i ⟨h1, h2⟩
      · rw [hcomp]; exact fun hn => hn hC.comp
      · intro hov
        obtain ⟨i, h1, h2⟩ := add_throws o ho hov
        exact hC.noLoop i ⟨i, h1, .refl⟩ h2
    refine ⟨s', by rw [hadd, hlen], (add_cons hadd).1⟩
  · refine ⟨N1, fun fuel hf => ⟨fun h => absurd h hC, fun _ => ?_⟩⟩
    obtain ⟨b, hb, hbiff⟩ := hN1 fuel (by omega)
    unfold ECS.add
    rw [ho, hod]
    simp only
    by_cases hov : c.inQ.any (fun i => overlap i o) = true
    · right
      rw [if_pos hov]
      exact ⟨rfl, add_throws o ho hov⟩
    · left
      rw [if_neg hov]
      by_cases h1 : c.comp.any (fun t => decide (t ≠ .equalToZero ∧ t ≠ .equality)) = true
      · rw [if_pos h1]
      · rw [if_neg h1, if_neg (by omega)]
        by_cases h2 : (indices c.outQ).any (fun i => (s.argFn[i]?.join).isSome) = true
        · rw [← ho, if_pos h2]
        · rw [← ho, if_neg h2, hb]
          cases b with
          | true => rfl
          | false =>
            exfalso
            apply hC
            refine ⟨?_, ?_, ?_⟩
            · rw [hcomp] at h1; simpa using h1
            · intro c' hc' i hi
              exact h2 (hany.2 ⟨c', hc', i, hi⟩)
            · intro y hy hwy
              have := hbiff.2 ⟨y, hy, hwy⟩
              simp at this

/-- C10, soundness part for arbitrary constraints (no assumption): whenever `add` accepts, the
constraint was compatible; whenever it returns -1, the set is unchanged. -/
theorem C10_accept_sound [Zero α] [DecidableEq κ] {nq nv : Nat} {s s' : ECS α κ}
    (h : ECS.Built nq nv s) (fuel : Nat) (c : ECon α κ) (junk : List α) (r : Option Nat)
    (ha : s.add fuel c junk = .ok (r, s')) :
    (∀ n, r = some n → Compatible s.cons c ∧ n = s.cons.length ∧ s'.cons = s.cons ++ [c]) ∧
    (r = none → s' = s) := by
  constructor
  · rintro n rfl
    exact ⟨(accepted (Inv.built h).1 ha).1, (add_cons ha).2.1, (add_cons ha).1⟩
  · rintro rfl; exact add_none ha

/-- Configuration and velocity variables that designate whole joints are coherent: `jq i` (resp.
`jv v`) is the joint of configuration (resp. velocity) variable, every joint that is used has at
least one variable of each kind, and the constraint reads the joints `I` and writes the joints
`O`. -/
theorem coherent_of_joints (jq jv : Nat → Nat) (I O O' : Nat → Prop) (c c' : ECon α κ)
    (hq : ∀ j, ∃ i, jq i = j) (hv : ∀ j, ∃ v, jv v = j)
    (h1 : ∀ i, Reads c i ↔ I (jq i)) (h2 : ∀ v, ReadsV c v ↔ I (jv v))
    (h3 : ∀ i, Writes c i ↔ O (jq i)) (h4 : ∀ v, WritesV c v ↔ O (jv v))
    (h5 : ∀ i, Writes c' i ↔ O' (jq i)) (h6 : ∀ v, WritesV c' v ↔ O' (jv v)) : Coherent c c' := by
  constructor
  · rintro ⟨v, ha, hb⟩
    obtain ⟨i, hi⟩ := hq (jv v)
    exact ⟨i, (h1 i).2 (hi ▸ (h2 v).1 ha), (h5 i).2 (hi ▸ (h6 v).1 hb)⟩
  · rintro ⟨i, ha, hb⟩
    obtain ⟨v, hv⟩ := hv (jq i)
    exact ⟨v, (h2 v).2 (hv ▸ (h1 i).1 ha), (h6 v).2 (hv ▸ (h5 i).1 hb)⟩
  · rintro ⟨v, ha, hb⟩
    obtain ⟨i, hi⟩ := hq (jv v)
    exact ⟨i, (h3 i).2 (hi ▸ (h4 v).1 ha), (h5 i).2 (hi ▸ (h6 v).1 hb)⟩

/-! ## C11 -/

/-- C11. `outArgs` is the union of the outputs and `notOutArgs` the remaining variables, in sorted
disjoint intervals; same for velocities. -/
theorem C11_outputs [Zero α] [DecidableEq κ] {nq nv : Nat} {s : ECS α κ} (h : ECS.Built nq nv s) :
    (∀ i, Covers s.outArgs.segs i ↔ ∃ c ∈ s.cons, Writes c i) ∧
    (∀ i, Covers s.notOutArgs.segs i ↔ i < nq ∧ ¬ ∃ c ∈ s.cons, Writes c i) ∧
    (∀ i, Covers s.outDers.segs i ↔ ∃ c ∈ s.cons, WritesV c i) ∧
    (∀ i, Covers s.notOutDers.segs i ↔ i < nv ∧ ¬ ∃ c ∈ s.cons, WritesV c i) ∧
    Canonical s.outArgs.segs ∧ Disjoint' s.notOutArgs.segs ∧
    Canonical s.outDers.segs ∧ Disjoint' s.notOutDers.segs := by
  obtain ⟨hI, hnq, hnv⟩ := Inv.built h
  subst hnq; subst hnv
  exact ⟨hI.outArgs, hI.notOutArgs, hI.outDers, hI.notOutDers, hI.outArgsC, hI.notOutArgsD,
    hI.outDersC, hI.notOutDersD⟩

theorem Disjoint'.card {l : Segs} (h : Disjoint' l) (S : Finset Nat) (hS : ∀ i, i ∈ S ↔ Covers l i) :
    cardinal l = S.card := by
  rw [cardinal_eq_length, ← List.toFinset_card_of_nodup h.indices_nodup]
  congr 1
  ext i; rw [List.mem_toFinset, mem_indices, hS]

/-- C11. The sizes announced by the sets are numbers of variables: `notOutDers_.nbIndices()` is the
number of free velocity variables, and together with the outputs they make up all variables. -/
theorem C11_sizes [Zero α] [DecidableEq κ] {nq nv : Nat} {s : ECS α κ} (h : ECS.Built nq nv s) :
    s.outArgs.nb + s.notOutArgs.nb = nq ∧ s.outDers.nb + s.notOutDers.nb = nv := by
  classical
  obtain ⟨hI, hnq, hnv⟩ := Inv.built h
  subst hnq; subst hnv
  have aux : ∀ (a b : Segs) (n : Nat) (P : Nat → Prop), Disjoint' a → Disjoint' b →
      (∀ i, P i → i < n) → (∀ i, Covers a i ↔ P i) → (∀ i, Covers b i ↔ i < n ∧ ¬ P i) →
      cardinal a + cardinal b = n := by
    intro a b n P ha hb hP h1 h2
    rw [ha.card ((Finset.range n).filter P) (by
      intro i; rw [h1, Finset.mem_filter, Finset.mem_range]; exact ⟨fun h => h.2, fun h => ⟨hP i h, h⟩⟩),
      hb.card ((Finset.range n).filter (fun i => ¬ P i)) (by
      intro i; rw [h2, Finset.mem_filter, Finset.mem_range])]
    have := Finset.card_filter_add_card_filter_not (s := Finset.range n) (p := P)
    simpa using this
  constructor
  · rw [hI.outArgsN, hI.notOutArgsN]
    refine aux _ _ s.nq _ hI.outArgsC.disjoint hI.notOutArgsD ?_ hI.outArgs hI.notOutArgs
    rintro i ⟨c, hc, hw⟩
    obtain ⟨o, od, h1, h2, h3, h4⟩ := hI.wf c hc
    unfold Writes at hw; rw [h1] at hw; simp [Seg.Has] at hw; omega
  · rw [hI.outDersN, hI.notOutDersN]
    refine aux _ _ s.nv _ hI.outDersC.disjoint hI.notOutDersD ?_ hI.outDers hI.notOutDers
    rintro i ⟨c, hc, hw⟩
    obtain ⟨o, od, h1, h2, h3, h4⟩ := hI.wf c hc
    unfold WritesV at hw; rw [h2] at hw; simp [Seg.Has] at hw; omega

/-- C11. When every accepted constraint lists its input intervals in increasing order, `inArgs` is
exactly the set of inputs that are not outputs; same for velocities. -/
theorem C11_inputs [Zero α] [DecidableEq κ] {nq nv : Nat} {s : ECS α κ} (h : ECS.Built nq nv s) :
    ((∀ c ∈ s.cons, c.inQ.Pairwise lexLe) → ∀ i, Covers s.inArgs.segs i ↔
      (∃ c ∈ s.cons, Reads c i) ∧ ¬ ∃ c ∈ s.cons, Writes c i) ∧
    ((∀ c ∈ s.cons, c.inV.Pairwise lexLe) → ∀ i, Covers s.inDers.segs i ↔
      (∃ c ∈ s.cons, ReadsV c i) ∧ ¬ ∃ c ∈ s.cons, WritesV c i) ∧
    Canonical s.inArgs.segs ∧ Canonical s.inDers.segs :=
  ⟨(InOk.built h).inArgs, (InOk.built h).inDers, (Inv.built h).1.inArgsC, (Inv.built h).1.inDersC⟩

/-- A constraint whose input intervals are not sorted: reads variables 5 and 0, writes variable 2. -/
def unsortedCon : ECon Int Nat :=
  vecCon 0 [⟨5, 1⟩, ⟨0, 1⟩] [⟨2, 1⟩] [⟨5, 1⟩, ⟨0, 1⟩] [⟨2, 1⟩] [.equality]
    (fun x => [x.getD 0 0 + x.getD 1 0]) (fun _ _ _ => 1)

/-- C11, without the sorting hypothesis the claim is false: intervals are inserted in `inArgs_` as
they come and normalised without being sorted (explicit-constraint-set.cc:213-217), so an input is lost. -/
theorem C11_unsorted_inputs_refuted :
    ∃ s : ECS Int Nat, ECS.Built 6 6 s ∧ ∃ c ∈ s.cons, Reads c 0 ∧
      (¬ ∃ c ∈ s.cons, Writes c 0) ∧ ¬ Covers s.inArgs.segs 0 := by
  have key : ∃ s', (ECS.init 6 6 0 : ECS Int Nat).add 3 unsortedCon = .ok (some 0, s') ∧
      s'.inArgs.segs = [⟨5, 1⟩] := ⟨_, rfl, by decide +kernel⟩
  obtain ⟨s', h1, h2⟩ := key
  have hc := (add_cons h1).1
  have hc' : s'.cons = [unsortedCon] := by rw [hc]; rfl
  refine ⟨s', .add _ 3 unsortedCon [] _ _ (.init 0) h1, unsortedCon, by rw [hc']; simp, ?_, ?_, ?_⟩
  · unfold Reads; decide
  · rw [hc']; unfold Writes; decide
  · rw [h2]; decide

/-! ## C12, C68 -/

/-- C12. Each accepted constraint is evaluated exactly once, after the constraints that compute its
inputs. -/
theorem C12_order [Zero α] [DecidableEq κ] {nq nv : Nat} {s : ECS α κ} (h : ECS.Built nq nv s)
    (hw : ∀ c ∈ s.cons, WellFormed nq nv c) (hcoh : AllCoherent s.cons) :
    s.order.Perm (List.range s.cons.length) ∧
    (∀ pre i post, s.order = pre ++ i :: post → ∀ j c c', s.cons[i]? = some c →
      s.cons[j]? = some c' → Depends c c' → j ∈ pre) := by
  obtain ⟨hI, hnq, hnv⟩ := Inv.built h
  subst hnv
  obtain ⟨h1, h2, -⟩ := hI.ordered ⟨fun c hc => (hw c hc).inV, hcoh⟩
  exact ⟨h1, h2⟩

/-- Constraint `i` depends on constraint `j`. -/
def DependsIdx (cs : List (ECon α κ)) (i j : Nat) : Prop :=
  ∃ c c', cs[i]? = some c ∧ cs[j]? = some c' ∧ Depends c c'

/-- C68. The dependency matrix: entry (constraint, velocity variable) is positive exactly when the
variable is not an output and the constraint depends on it, directly or through other
constraints. -/
theorem C68_dependencies [Zero α] [DecidableEq κ] {nq nv : Nat} {s : ECS α κ}
    (h : ECS.Built nq nv s) (hw : ∀ c ∈ s.cons, WellFormed nq nv c) (hcoh : AllCoherent s.cons)
    (i k : Nat) (hi : i < s.cons.length) :
    0 < s.dep i k ↔ (¬ ∃ c ∈ s.cons, WritesV c k) ∧
      ∃ j c, ReflTransGen (DependsIdx s.cons) i j ∧ s.cons[j]? = some c ∧ ReadsV c k := by
  obtain ⟨hI, hnq, hnv⟩ := Inv.built h
  subst hnv
  obtain ⟨-, -, h3⟩ := hI.ordered ⟨fun c hc => (hw c hc).inV, hcoh⟩
  rw [Nat.pos_iff_ne_zero, h3 i hi k]
  have hrel : DepV (s.cons.map fun c => c.inV) s.derFn = DependsIdx s.cons := by
    funext a b; exact propext (depV_iff hI hcoh a b)
  unfold FreeDep
  rw [hrel]
  constructor
  · rintro ⟨j, l, h4, h5, h6, h7⟩
    rw [List.getElem?_map] at h5
    cases hc : s.cons[j]? with
    | none => rw [hc] at h5; simp at h5
    | some c =>
      rw [hc] at h5; simp only [Option.map_some, Option.some.injEq] at h5; subst h5
      refine ⟨?_, j, c, h4, hc, (mem_indices _ _).1 h6⟩
      rintro ⟨c', hc', hw'⟩
      obtain ⟨j', hj'⟩ := List.mem_iff_getElem?.1 hc'
      rw [(hI.der_iff hcoh k j').2 ⟨c', hj', hw'⟩] at h7
      simp at h7
  · rintro ⟨hn, j, c, h4, hc, h6⟩
    refine ⟨j, c.inV, h4, by rw [List.getElem?_map, hc]; rfl, (mem_indices _ _).2 h6, ?_⟩
    have hk : k < s.derFn.length := by
      rw [hI.derLen]; exact (hw c (List.mem_of_getElem? hc)).inV k h6
    rw [List.getElem?_eq_getElem hk]
    cases hd : s.derFn[k] with
    | none => rfl
    | some j' =>
      exfalso
      obtain ⟨c', h7, h8⟩ := (hI.der_iff hcoh k j').1 (by rw [List.getElem?_eq_getElem hk, hd])
      exact hn ⟨c', List.mem_of_getElem? h7, h8⟩

/-- Two constraints acyclic in the configuration variables but circular in the velocity
variables. -/
def loopV0 : ECon Int Nat :=
  vecCon 0 [] [⟨0, 1⟩] [⟨1, 1⟩] [⟨0, 1⟩] [.equality] (fun _ => [0]) (fun _ _ _ => 0)
def loopV1 : ECon Int Nat :=
  vecCon 1 [] [⟨1, 1⟩] [⟨0, 1⟩] [⟨1, 1⟩] [.equality] (fun _ => [0]) (fun _ _ _ => 0)

/-- C12, coherence is needed: the loop check uses the configuration variables but the order uses the
velocity variables, so on constraints whose two index sets disagree `add` recurses for ever. -/
theorem C12_incoherent_diverges :
    ∃ s : ECS Int Nat, ECS.Built 2 2 s ∧ Compatible s.cons loopV1 ∧
      ∀ fuel, s.add (fuel + 1) loopV1 = .error .noFuel := by
  have key : ∃ s', (ECS.init 2 2 0 : ECS Int Nat).add 3 loopV0 = .ok (some 0, s') ∧
      s'.derFn = [some 0, none] ∧ s'.argFn = [some 0, none] ∧ s'.nq = 2 ∧ s'.nv = 2 :=
    ⟨_, rfl, by decide +kernel, by decide +kernel, rfl, rfl⟩
  obtain ⟨s', h1, h2, h3, h4, h5⟩ := key
  have hd := (add_cons h1).2.2.2.2.1
  have hc := (add_cons h1).1
  have hc' : s'.cons = [loopV0] := by rw [hc]; rfl
  have hd' : s'.data = [EData.new loopV0 []] := by rw [hd]; rfl
  refine ⟨s', .add _ 3 loopV0 [] _ _ (.init 0) h1, ?_, ?_⟩
  · rw [hc']
    refine ⟨by unfold IsEq; decide, ?_, ?_⟩
    · intro c hc i
      simp only [List.mem_singleton] at hc; subst hc
      unfold Writes
      simp [loopV0, loopV1, vecCon, Seg.Has]; omega
    · rintro y ⟨x, hx, -⟩
      unfold Reads at hx; simp [loopV1, vecCon] at hx
  · intro fuel
    have hdiv : ∀ fuel i (st : OrdSt), i < 2 → st.computed = [false, false] →
        computeOrder [[⟨1, 1⟩], [⟨0, 1⟩]] [some 0, some 1] fuel i st = .error .noFuel := by
      intro fuel
      induction fuel with
      | zero => intros; rfl
      | succ fuel ih =>
        intro i st hi hst
        rw [computeOrder_succ, hst]
        rcases (by omega : i = 0 ∨ i = 1) with rfl | rfl
        · simp [indices, ordStep, ih 1 st (by omega) hst, bind, Except.bind]
        · simp [indices, ordStep, ih 0 st (by omega) hst, bind, Except.bind]
    have hins : s'.insert (fuel + 1) loopV1 ⟨1, 1⟩ ⟨1, 1⟩ [] = .error .noFuel := by
      obtain ⟨a, b, d, e, -, -, -, -, heq⟩ := insert_eq s' (fuel + 1) loopV1 ⟨1, 1⟩ ⟨1, 1⟩ []
      rw [heq, hd', h2]
      have : orderAll (([EData.new loopV0 []] ++ [EData.new loopV1 []]).map fun d => d.c.inV)
          (setConst [some 0, none] (indices loopV1.outV) [EData.new loopV0 ([] : List Int)].length)
          (fuel + 1) = .error .noFuel := by
        have e1 : (([EData.new loopV0 []] ++ [EData.new loopV1 ([] : List Int)]).map fun d => d.c.inV)
            = [[⟨1, 1⟩], [⟨0, 1⟩]] := rfl
        have e2 : (setConst [some 0, none] (indices loopV1.outV)
            [EData.new loopV0 ([] : List Int)].length) = [some 0, some 1] := by decide +kernel
        rw [e1, e2]
        unfold orderAll
        have : List.range ([[⟨1, 1⟩], [⟨0, 1⟩]] : List Segs).length = [0, 1] := rfl
        rw [this, List.foldlM_cons, hdiv (fuel + 1) 0 _ (by omega) rfl]
        rfl
      rw [this]; rfl
    unfold ECS.add
    have e1 : loopV1.outQ = [⟨1, 1⟩] := rfl
    have e2 : loopV1.outV = [⟨1, 1⟩] := rfl
    rw [e1, e2]
    simp only [h4, h5]
    rw [if_neg (by simp [loopV1, vecCon]), if_neg (by decide), if_neg (by decide),
      if_neg (by rw [h3]; decide)]
    have hb : bfs (s'.data.map fun d => d.c.inQ) s'.argFn ⟨1, 1⟩ (fuel + 1) (indices loopV1.inQ) =
        .ok false := by
      have : indices loopV1.inQ = [] := rfl
      rw [this]; rfl
    rw [hb]
    simp only
    rw [if_neg (by decide)]
    exact hins

/-! ## C13, C14 -/

/-- C13. After `solve`, every constraint holds exactly (its outputs are those computed from its
inputs and right hand side) and variables that are not outputs are unchanged; moreover the result is
the only configuration with these two properties. -/
theorem C13_solve [Zero α] [DecidableEq κ] {nq nv : Nat} {s : ECS α κ} (h : ECS.Built nq nv s)
    (hw : ∀ c ∈ s.cons, WellFormed nq nv c) (hcoh : AllCoherent s.cons)
    (hl : ∀ d ∈ s.data, d.OutLen) (q q' : Nat → α) :
    s.solve q = q' ↔
      (∀ d ∈ s.data, d.Holds q') ∧ (∀ i, (∀ c ∈ s.cons, ¬ Writes c i) → q' i = q i) := by
  obtain ⟨hI, hnq, hnv⟩ := Inv.built h
  subst hnv
  have hG : GoodV s.nv s.cons := ⟨fun c hc => (hw c hc).inV, hcoh⟩
  constructor
  · rintro rfl
    exact ⟨hI.solve_holds hG hl q, fun i hi => Inv.solve_other q i hi⟩
  · rintro ⟨h1, h2⟩
    exact hI.solve_unique hG hl q q' h2 h1

/-- C13. The result does not depend on the initial value of the output variables. -/
theorem C13_independent_of_outputs [Zero α] [DecidableEq κ] {nq nv : Nat} {s : ECS α κ}
    (h : ECS.Built nq nv s) (hw : ∀ c ∈ s.cons, WellFormed nq nv c) (hcoh : AllCoherent s.cons)
    (hl : ∀ d ∈ s.data, d.OutLen) (q q' : Nat → α)
    (hq : ∀ i, (∀ c ∈ s.cons, ¬ Writes c i) → q i = q' i) : s.solve q = s.solve q' := by
  have h1 := (C13_solve h hw hcoh hl q' (s.solve q')).1 rfl
  exact (C13_solve h hw hcoh hl q (s.solve q')).2 ⟨h1.1, fun i hi => by rw [h1.2 i hi, hq i hi]⟩

/-- C13. Solving twice is solving once. -/
theorem C13_idempotent [Zero α] [DecidableEq κ] {nq nv : Nat} {s : ECS α κ} (h : ECS.Built nq nv s)
    (hw : ∀ c ∈ s.cons, WellFormed nq nv c) (hcoh : AllCoherent s.cons)
    (hl : ∀ d ∈ s.data, d.OutLen) (q : Nat → α) : s.solve (s.solve q) = s.solve q := by
  have h1 := (C13_solve h hw hcoh hl q (s.solve q)).1 rfl
  exact (C13_solve h hw hcoh hl (s.solve q) (s.solve q)).2 ⟨h1.1, fun _ _ => rfl⟩

/-- C14. Two sets that accepted the same constraints with the same right hand sides compute the same
solution, whatever the order in which the constraints were inserted and whatever else happened. -/
theorem C14_insertion_order [Zero α] [DecidableEq κ] {nq nv : Nat} {s s' : ECS α κ}
    (h : ECS.Built nq nv s) (h' : ECS.Built nq nv s')
    (hw : ∀ c ∈ s.cons, WellFormed nq nv c) (hcoh : AllCoherent s.cons)
    (hl : ∀ d ∈ s.data, d.OutLen)
    (hp : (s.data.map fun d => (d.c, d.rhs)).Perm (s'.data.map fun d => (d.c, d.rhs)))
    (q : Nat → α) : s.solve q = s'.solve q := by
  have hpc : s.cons.Perm s'.cons := by
    have := hp.map Prod.fst
    simpa [ECS.cons, List.map_map, Function.comp_def] using this
  have hw' : ∀ c ∈ s'.cons, WellFormed nq nv c := fun c hc => hw c (hpc.symm.subset hc)
  have hcoh' : AllCoherent s'.cons := fun c hc c' hc' =>
    hcoh c (hpc.symm.subset hc) c' (hpc.symm.subset hc')
  have hl' : ∀ d ∈ s'.data, d.OutLen := by
    intro d hd
    have : (d.c, d.rhs) ∈ s.data.map fun d => (d.c, d.rhs) :=
      hp.symm.subset (List.mem_map.2 ⟨d, hd, rfl⟩)
    obtain ⟨d', hd', e⟩ := List.mem_map.1 this
    simp only [Prod.mk.injEq] at e
    have := hl d' hd'
    unfold EData.OutLen at this ⊢
    rw [← e.1, ← e.2]; exact this
  have h1 := (C13_solve h' hw' hcoh' hl' q (s'.solve q)).1 rfl
  refine (C13_solve h hw hcoh hl q (s'.solve q)).2 ⟨?_, ?_⟩
  · intro d hd
    have : (d.c, d.rhs) ∈ s'.data.map fun d => (d.c, d.rhs) :=
      hp.subset (List.mem_map.2 ⟨d, hd, rfl⟩)
    obtain ⟨d', hd', e⟩ := List.mem_map.1 this
    simp only [Prod.mk.injEq] at e
    have := h1.1 d' hd'
    unfold EData.Holds at this ⊢
    rw [← e.1, ← e.2]; exact this
  · intro i hi
    exact h1.2 i fun c hc => hi c (hpc.symm.subset hc)

theorem perm_middle_get {β : Type} {cs cs' : List β} (h : cs.Perm cs') {c : β} :
    c ∈ cs ↔ c ∈ cs' := h.mem_iff

/-- C14. Whether one more constraint is accepted does not depend on the insertion order of the
previous ones. -/
theorem C14_acceptance_order (cs cs' : List (ECon α κ)) (h : cs.Perm cs') (c : ECon α κ) :
    Compatible cs c ↔ Compatible cs' c := by
  have aux : ∀ {a b : List (ECon α κ)}, a.Perm b → Compatible a c → Compatible b c := by
    intro a b hab hc
    have hb : Before b = Before a := by
      funext x y
      exact propext ⟨fun ⟨d, h1, h2⟩ => ⟨d, hab.symm.subset h1, h2⟩,
        fun ⟨d, h1, h2⟩ => ⟨d, hab.subset h1, h2⟩⟩
    refine ⟨hc.comp, fun c' hc' => hc.fresh c' (hab.symm.subset hc'), ?_⟩
    intro y hy
    apply hc.noLoop
    unfold Needs at hy ⊢
    rwa [hb] at hy
  exact ⟨aux h, aux h.symm⟩

/-- C14. The order in which a set is filled is irrelevant: if constraints are accepted one after the
other in some order, then they are accepted in any other order. -/
theorem C14_reorder (a b : ECon α κ) (cs : List (ECon α κ)) (h1 : Compatible cs a)
    (h2 : Compatible (cs ++ [a]) b) : Compatible cs b ∧ Compatible (cs ++ [b]) a := by
  have mono : ∀ (c : ECon α κ) x y, ReflTransGen (Before cs) x y →
      ReflTransGen (Before (cs ++ [c])) x y := by
    intro c x y h
    induction h with
    | refl => exact .refl
    | tail _ hb ih =>
      obtain ⟨d, hd, hb⟩ := hb
      exact ih.tail ⟨d, by simp [hd], hb⟩
  refine ⟨⟨h2.comp, fun c' hc' => h2.fresh c' (by simp [hc']), ?_⟩, h1.comp, ?_, ?_⟩
  · rintro y ⟨x, hx, hxy⟩
    exact h2.noLoop y ⟨x, hx, mono a x y hxy⟩
  · intro c' hc' i hi
    rcases List.mem_append.1 hc' with hc' | hc'
    · exact h1.fresh c' hc' i hi
    · simp only [List.mem_singleton] at hc'; subst hc'
      exact h2.fresh a (by simp) i ⟨hi.2, hi.1⟩
  · -- a loop through `b` and `a` gives a loop for `b` through `a`
    rintro y ⟨x, hx, hxy⟩ hwa
    -- either the path avoids `b`, or it goes through it
    have split : ∀ x y, ReflTransGen (Before (cs ++ [b])) x y →
        ReflTransGen (Before cs) x y ∨
        ∃ z w, ReflTransGen (Before cs) x z ∧ Writes b z ∧ Reads b w ∧
          ReflTransGen (Before cs) w y := by
      intro x y h
      induction h with
      | refl => exact .inl .refl
      | tail _ hb ih =>
        obtain ⟨d, hd, hdw, hdr⟩ := hb
        rcases List.mem_append.1 hd with hd | hd
        · rcases ih with ih | ⟨z, w, p1, p2, p3, p4⟩
          · exact .inl (ih.tail ⟨d, hd, hdw, hdr⟩)
          · exact .inr ⟨z, w, p1, p2, p3, p4.tail ⟨d, hd, hdw, hdr⟩⟩
        · simp only [List.mem_singleton] at hd; subst hd
          rcases ih with ih | ⟨z, w, p1, p2, p3, p4⟩
          · exact .inr ⟨_, _, ih, hdw, hdr, .refl⟩
          · exact .inr ⟨z, _, p1, p2, hdr, .refl⟩
    rcases split x y hxy with hp | ⟨z, w, p1, p2, p3, p4⟩
    · exact h1.noLoop y ⟨x, hx, hp⟩ hwa
    · refine h2.noLoop z ⟨w, p3, ?_⟩ p2
      refine (mono a w y p4).trans ?_
      refine .head ⟨a, by simp, hwa, hx⟩ ?_
      exact mono a x z p1

/-! ## C15 -/

/-- C15. The Jacobian computed by the set (algebraic form of the total derivative): rows of free
velocity variables are those of the identity, columns of output variables vanish, and for every
constraint the chain rule holds: row of its `m`-th output = sum over its inputs of its partial
derivative times the row of the input. -/
theorem C15_jacobian [CommSemiring α] [DecidableEq κ] {nq nv : Nat} {s : ECS α κ}
    (h : ECS.Built nq nv s) (hw : ∀ c ∈ s.cons, WellFormed nq nv c) (hcoh : AllCoherent s.cons)
    (hs : ∀ c ∈ s.cons, c.inV.Pairwise lexLe) (q : Nat → α) :
    (∀ r k, (∀ c ∈ s.cons, ¬ WritesV c r) →
      s.jacobian q r k = if r = k ∧ k < nv then 1 else 0) ∧
    (∀ r k, (∃ c ∈ s.cons, WritesV c k) → s.jacobian q r k = 0) ∧
    (∀ d ∈ s.data, ∀ m r k, (indices d.c.outV)[m]? = some r → s.jacobian q r k =
      ∑ p ∈ Finset.range (indices d.c.inV).length,
        d.c.jac (rview q d.c.inQ) d.fval d.rhs m p *
          s.jacobian q ((indices d.c.inV).getD p 0) k) := by
  obtain ⟨hI, hnq, hnv⟩ := Inv.built h
  subst hnv
  exact hI.jacobian_spec (InOk.built h) ⟨fun c hc => (hw c hc).inV, hcoh⟩ hs q

/-- C15. The three facts of `C15_jacobian` determine the matrix: any matrix with these properties is
the one computed. -/
theorem C15_jacobian_unique [CommSemiring α] [DecidableEq κ] {nq nv : Nat} {s : ECS α κ}
    (h : ECS.Built nq nv s) (hw : ∀ c ∈ s.cons, WellFormed nq nv c) (hcoh : AllCoherent s.cons)
    (hs : ∀ c ∈ s.cons, c.inV.Pairwise lexLe) (q : Nat → α) (J : Jac α)
    (h1 : ∀ r k, (∀ c ∈ s.cons, ¬ WritesV c r) → J r k = if r = k ∧ k < nv then 1 else 0)
    (h2 : ∀ d ∈ s.data, ∀ m r k, (indices d.c.outV)[m]? = some r → J r k =
      ∑ p ∈ Finset.range (indices d.c.inV).length,
        d.c.jac (rview q d.c.inQ) d.fval d.rhs m p * J ((indices d.c.inV).getD p 0) k) :
    J = s.jacobian q := by
  obtain ⟨hI, hnq, hnv⟩ := Inv.built h
  obtain ⟨g1, -, g3⟩ := C15_jacobian h hw hcoh hs q
  obtain ⟨rk, hrk⟩ := hI.rankData
  have main : ∀ n, ∀ d ∈ s.data, rk d < n → ∀ r k, WritesV d.c r → J r k = s.jacobian q r k := by
    intro n
    induction n with
    | zero => intro d _ h; omega
    | succ n ih =>
      intro d hd hlt r k hr
      obtain ⟨m, hm⟩ := List.mem_iff_getElem?.1 ((mem_indices _ _).2 hr)
      rw [h2 d hd m r k hm, g3 d hd m r k hm]
      apply Finset.sum_congr rfl
      intro p hp
      congr 1
      have hp' : p < (indices d.c.inV).length := by simpa using hp
      have hv : ReadsV d.c ((indices d.c.inV).getD p 0) := by
        refine (mem_indices _ _).1 ?_
        rw [List.getD_eq_getElem?_getD, List.getElem?_eq_getElem hp']
        exact List.getElem_mem hp'
      by_cases hex : ∃ c ∈ s.cons, WritesV c ((indices d.c.inV).getD p 0)
      · obtain ⟨c, hc, hcw⟩ := hex
        obtain ⟨d', hd', rfl⟩ := List.mem_map.1 hc
        have hdep := (hcoh d.c (mem_cons_of_data hd) d'.c hc).dep ⟨_, hv, hcw⟩
        have := hrk d hd d' hd' hdep
        exact ih d' hd' (by omega) _ k hcw
      · have hex' : ∀ c ∈ s.cons, ¬ WritesV c ((indices d.c.inV).getD p 0) :=
          fun c hc hcw => hex ⟨c, hc, hcw⟩
        rw [h1 _ k hex', g1 _ k hex']
  funext r k
  by_cases hex : ∃ c ∈ s.cons, WritesV c r
  · obtain ⟨c, hc, hcw⟩ := hex
    obtain ⟨d', hd', rfl⟩ := List.mem_map.1 hc
    exact main (rk d' + 1) d' hd' (by omega) r k hcw
  · have hex' : ∀ c ∈ s.cons, ¬ WritesV c r := fun c hc hcw => hex ⟨c, hc, hcw⟩
    rw [h1 _ k hex', g1 _ k hex']

/-- C15, the sorting hypothesis is needed: with unsorted input intervals a column of the Jacobian is
lost (the output depends on variable 0 with derivative 1, the computed coefficient is 0). -/
theorem C15_unsorted_inputs_refuted :
    ∃ s : ECS Int Nat, ECS.Built 6 6 s ∧ s.cons = [unsortedCon] ∧
      s.jacobian (fun _ => 0) 2 0 = 0 ∧ s.jacobian (fun _ => 0) 2 5 = 1 := by
  have key : ∃ s', (ECS.init 6 6 0 : ECS Int Nat).add 3 unsortedCon = .ok (some 0, s') ∧
      s'.jacobian (fun _ => 0) 2 0 = 0 ∧ s'.jacobian (fun _ => 0) 2 5 = 1 :=
    ⟨_, rfl, by decide +kernel, by decide +kernel⟩
  obtain ⟨s', h1, h2, h3⟩ := key
  refine ⟨s', .add _ 3 unsortedCon [] _ _ (.init 0) h1, ?_, h2, h3⟩
  rw [(add_cons h1).1]; rfl

end Hpp
