import Verif.ECS.Spec
import Verif.Common.Lemmas
import Mathlib.Data.List.Nodup
import Mathlib.Data.List.Perm.Subperm
import Mathlib.Tactic.Ring

/-!
# Loop detection and ordering: graph lemmas
-/

namespace Hpp

open Relation

/-! ## Breadth-first search -/

/-- Index level edge followed by the loop detection. -/
def Edge (ins : List Segs) (argFn : List (Option Nat)) (x y : Nat) : Prop :=
  ∃ j l, argFn[x]? = some (some j) ∧ ins[j]? = some l ∧ y ∈ indices l

theorem bfs_true (ins : List Segs) (argFn : List (Option Nat)) (o : Seg) (fuel : Nat)
    (queue : List Nat) (h : bfs ins argFn o fuel queue = .ok true) :
    ∃ x ∈ queue, ∃ y, ReflTransGen (Edge ins argFn) x y ∧ o.Has y := by
  induction fuel generalizing queue with
  | zero => cases queue <;> simp [bfs] at h
  | succ fuel ih =>
    cases queue with
    | nil => simp [bfs] at h
    | cons i q =>
      rw [bfs] at h
      split at h
      · rename_i ho
        exact ⟨i, by simp, i, .refl, ho⟩
      · split at h
        · simp at h
        · obtain ⟨x, hx, y, hy⟩ := ih _ h
          exact ⟨x, by simp [hx], y, hy⟩
        · rename_i j hj
          split at h
          · simp at h
          · rename_i l hl
            obtain ⟨x, hx, y, hy, hoy⟩ := ih _ h
            rcases List.mem_append.1 hx with hx | hx
            · exact ⟨x, by simp [hx], y, hy, hoy⟩
            · exact ⟨i, by simp, y, ReflTransGen.head ⟨j, l, hj, hl, hx⟩ hy, hoy⟩

theorem bfs_false (ins : List Segs) (argFn : List (Option Nat)) (o : Seg) (fuel : Nat)
    (queue : List Nat) (h : bfs ins argFn o fuel queue = .ok false) :
    ∀ x ∈ queue, ∀ y, ReflTransGen (Edge ins argFn) x y → ¬ o.Has y ∧ y < argFn.length := by
  induction fuel generalizing queue with
  | zero => cases queue with
    | nil => simp
    | cons => simp [bfs] at h
  | succ fuel ih =>
    cases queue with
    | nil => simp
    | cons i q =>
      rw [bfs] at h
      split at h
      · simp at h
      · rename_i ho
        split at h
        · simp at h
        · rename_i hn
          intro x hx y hy
          rcases List.mem_cons.1 hx with rfl | hx
          · rcases ReflTransGen.cases_head hy with rfl | ⟨z, ⟨j, l, hj, -, -⟩, -⟩
            · refine ⟨ho, ?_⟩
              by_contra hlt; rw [List.getElem?_eq_none (by omega)] at hn; simp at hn
            · rw [hn] at hj; simp at hj
          · exact ih _ h x hx y hy
        · rename_i j hj
          split at h
          · simp at h
          · rename_i l hl
            intro x hx y hy
            rcases List.mem_cons.1 hx with rfl | hx
            · rcases ReflTransGen.cases_head hy with rfl | ⟨z, ⟨j', l', hj', hl', hz⟩, hzy⟩
              · refine ⟨ho, ?_⟩
                by_contra hlt; rw [List.getElem?_eq_none (by omega)] at hj; simp at hj
              · rw [hj] at hj'; simp only [Option.some.injEq] at hj'; subst hj'
                rw [hl] at hl'; simp only [Option.some.injEq] at hl'; subst hl'
                exact ih _ h z (by simp [hz]) y hzy
            · exact ih _ h x (by simp [hx]) y hy

theorem bfs_total_of_weight (ins : List Segs) (argFn : List (Option Nat)) (o : Seg) (w : Nat → Nat)
    (hins : ∀ l ∈ ins, ∀ i ∈ indices l, i < argFn.length)
    (hfn : ∀ x j : Nat, argFn[x]? = some (some j) → j < ins.length)
    (hpos : ∀ i, 1 ≤ w i)
    (hw : ∀ (x j : Nat) (l : Segs), argFn[x]? = some (some j) → ins[j]? = some l →
      1 + ((indices l).map w).sum ≤ w x)
    (fuel : Nat) (queue : List Nat) (hq : ∀ i ∈ queue, i < argFn.length)
    (hf : (queue.map w).sum ≤ fuel) : ∃ b, bfs ins argFn o fuel queue = .ok b := by
  induction fuel generalizing queue with
  | zero =>
    cases queue with
    | nil => exact ⟨false, rfl⟩
    | cons i q => have := hpos i; simp at hf; omega
  | succ fuel ih =>
    cases queue with
    | nil => exact ⟨false, rfl⟩
    | cons i q =>
      have hp := hpos i
      simp only [List.map_cons, List.sum_cons] at hf
      rw [bfs]
      split
      · exact ⟨true, rfl⟩
      · rw [List.getElem?_eq_getElem (hq i (by simp))]
        cases hc : argFn[i]'(hq i (by simp)) with
        | none => exact ih q (fun x hx => hq x (by simp [hx])) (by omega)
        | some j =>
          have hj : argFn[i]? = some (some j) := by
            rw [List.getElem?_eq_getElem (hq i (by simp)), hc]
          have hjl := hfn i j hj
          have hl : ins[j]? = some ins[j] := List.getElem?_eq_getElem hjl
          simp only [hl]
          apply ih
          · intro x hx
            rcases List.mem_append.1 hx with hx | hx
            · exact hq x (by simp [hx])
            · exact hins _ (List.getElem_mem hjl) x hx
          · have := hw i j _ hj hl
            simp only [List.map_append, List.sum_append]
            omega

theorem sum_map_le_const (l : List Nat) (w : Nat → Nat) (B : Nat) (h : ∀ x ∈ l, w x ≤ B) :
    (l.map w).sum ≤ l.length * B := by
  induction l with
  | nil => simp
  | cons a l ih =>
    have h1 := h a (by simp)
    have h2 := ih fun x hx => h x (by simp [hx])
    simp only [List.map_cons, List.sum_cons, List.length_cons, Nat.add_mul, Nat.one_mul]
    omega

theorem bfs_total (ins : List Segs) (argFn : List (Option Nat)) (o : Seg) (rk : Nat → Nat)
    (hins : ∀ l ∈ ins, ∀ i ∈ indices l, i < argFn.length)
    (hfn : ∀ x j : Nat, argFn[x]? = some (some j) → j < ins.length)
    (hrk : ∀ (j : Nat) (l : Segs) (y j' : Nat), ins[j]? = some l → y ∈ indices l → argFn[y]? = some (some j') → rk j' < rk j)
    (queue : List Nat) (hq : ∀ i ∈ queue, i < argFn.length) :
    ∃ N, ∀ fuel, N ≤ fuel → ∃ b, bfs ins argFn o fuel queue = .ok b := by
  let K := (ins.map fun l => (indices l).length).sum
  let w : Nat → Nat := fun i => match argFn[i]? with
    | some (some j) => (K + 1) ^ (rk j + 1)
    | _ => 1
  refine ⟨(queue.map w).sum, fun fuel hf =>
    bfs_total_of_weight ins argFn o w hins hfn ?_ ?_ fuel queue hq hf⟩
  · intro i
    simp only [w]
    split
    · exact Nat.one_le_pow _ _ (by omega)
    · exact Nat.le_refl _
  · intro x j l hx hl
    have hK : (indices l).length ≤ K :=
      le_sum_map (fun l => (indices l).length) ins l (List.mem_of_getElem? hl)
    have hb := sum_map_le_const (indices l) w ((K + 1) ^ rk j) (by
      intro y hy
      simp only [w]
      split
      · rename_i j' hj'
        exact Nat.pow_le_pow_right (by omega) (hrk j l y j' hl hy hj')
      · exact Nat.one_le_pow _ _ (by omega))
    have hxw : w x = (K + 1) ^ (rk j + 1) := by simp only [w, hx]
    rw [hxw, pow_succ]
    have h1 : 1 ≤ (K + 1) ^ rk j := Nat.one_le_pow _ _ (by omega)
    have h2 : (indices l).length * (K + 1) ^ rk j ≤ K * (K + 1) ^ rk j :=
      Nat.mul_le_mul_right _ hK
    have h3 : (K + 1) ^ rk j * (K + 1) = K * (K + 1) ^ rk j + (K + 1) ^ rk j := by ring
    omega

/-! ## Depth-first ordering -/

/-- Constraint `i` reads a velocity variable computed by `j` according to `derFn`. -/
def DepV (ins : List Segs) (derFn : List (Option Nat)) (i j : Nat) : Prop :=
  ∃ l v, ins[i]? = some l ∧ v ∈ indices l ∧ derFn[v]? = some (some j)

/-- Constraint `i` depends, directly or not, on the velocity variable `k` that nobody computes. -/
def FreeDep (ins : List Segs) (derFn : List (Option Nat)) (i k : Nat) : Prop :=
  ∃ j l, ReflTransGen (DepV ins derFn) i j ∧ ins[j]? = some l ∧ k ∈ indices l ∧
    derFn[k]? = some none

/-- Invariant of the ordering. -/
structure OrdInv (ins : List Segs) (derFn : List (Option Nat)) (st : OrdSt) : Prop where
  clen : st.computed.length = ins.length
  nodup : st.order.Nodup
  mem : ∀ i, i ∈ st.order ↔ st.computed[i]? = some true
  closed : ∀ pre i post, st.order = pre ++ i :: post → ∀ j, DepV ins derFn i j → j ∈ pre
  dep : ∀ r ∈ st.order, ∀ k, st.dep r k ≠ 0 ↔ FreeDep ins derFn r k

theorem OrdInv.closed' {ins : List Segs} {derFn : List (Option Nat)} {st : OrdSt}
    (h : OrdInv ins derFn st) {i j : Nat} (hi : i ∈ st.order) (hd : DepV ins derFn i j) :
    j ∈ st.order := by
  obtain ⟨pre, post, e⟩ := List.append_of_mem hi
  have := h.closed pre i post e j hd
  rw [e]; simp [this]

/-- Hypotheses on the graph. -/
structure GraphOk (ins : List Segs) (derFn : List (Option Nat)) (rk : Nat → Nat) : Prop where
  range : ∀ l ∈ ins, ∀ v ∈ indices l, v < derFn.length
  fn : ∀ v j : Nat, derFn[v]? = some (some j) → j < ins.length
  rank : ∀ i j, DepV ins derFn i j → rk j < rk i

/-- Body of the loop over the input variables. -/
def ordStep (ins : List Segs) (derFn : List (Option Nat)) (fuel iE : Nat) (st : OrdSt) (v : Nat) :
    Except Err OrdSt :=
  match derFn[v]? with
  | none => .error .ub
  | some none =>
    .ok { st with dep := fun r k => if r = iE ∧ k = v then st.dep r k + 1 else st.dep r k }
  | some (some j) => do
    let st ← computeOrder ins derFn fuel j st
    .ok { st with dep := fun r k => if r = iE then st.dep r k + st.dep j k else st.dep r k }

theorem computeOrder_succ (ins : List Segs) (derFn : List (Option Nat)) (fuel iE : Nat) (st : OrdSt) :
    computeOrder ins derFn (fuel + 1) iE st =
    match st.computed[iE]?, ins[iE]? with
    | some true, _ => .ok st
    | some false, some l => do
      let st ← (indices l).foldlM (ordStep ins derFn fuel iE) st
      if st.order.length < ins.length then
        .ok { st with order := st.order ++ [iE], computed := st.computed.set iE true }
      else .error .ub
    | _, _ => .error .ub := rfl

/-- What a call of `computeOrder` on `i` guarantees. -/
structure OrdPost (ins : List Segs) (derFn : List (Option Nat)) (rk : Nat → Nat) (B : Nat)
    (st st' : OrdSt) : Prop where
  inv : OrdInv ins derFn st'
  pre : st.order <+: st'.order
  small : ∀ k ∈ st'.order, k ∈ st.order ∨ rk k ≤ B
  frame : ∀ r, r ∉ st'.order → st'.dep r = st.dep r

theorem computeOrder_spec (ins : List Segs) (derFn : List (Option Nat)) (rk : Nat → Nat)
    (hg : GraphOk ins derFn rk) (fuel : Nat) :
    ∀ i st, i < ins.length → rk i < fuel → OrdInv ins derFn st →
      (∀ r, r ∉ st.order → rk r ≤ rk i → st.dep r = fun _ => 0) →
      ∃ st', computeOrder ins derFn fuel i st = .ok st' ∧ OrdPost ins derFn rk (rk i) st st' ∧
        i ∈ st'.order := by
  induction fuel with
  | zero => intro i st _ h; omega
  | succ fuel ih =>
    intro i st hi hrk hinv hz
    rw [computeOrder_succ]
    have hcl : i < st.computed.length := by rw [hinv.clen]; exact hi
    rw [List.getElem?_eq_getElem hcl, List.getElem?_eq_getElem hi]
    cases hc : st.computed[i] with
    | true =>
      refine ⟨st, rfl, ⟨hinv, List.prefix_refl _, fun k hk => .inl hk, fun _ _ => rfl⟩, ?_⟩
      rw [hinv.mem, List.getElem?_eq_getElem hcl, hc]
    | false =>
      have hni : i ∉ st.order := by
        rw [hinv.mem, List.getElem?_eq_getElem hcl, hc]; simp
      simp only
      have hli : ins[i]? = some ins[i] := List.getElem?_eq_getElem hi
      -- the loop over the inputs
      have loop : ∀ (vs : List Nat) (done : List Nat) (st1 : OrdSt),
          done ++ vs = indices ins[i] →
          OrdInv ins derFn st1 → st.order <+: st1.order →
          (∀ k ∈ st1.order, k ∈ st.order ∨ rk k < rk i) →
          (∀ r, r ∉ st1.order → r ≠ i → st1.dep r = st.dep r) →
          (∀ v ∈ done, ∀ j, derFn[v]? = some (some j) → j ∈ st1.order) →
          (∀ k, st1.dep i k ≠ 0 ↔ ∃ v ∈ done, (v = k ∧ derFn[v]? = some none) ∨
            ∃ j, derFn[v]? = some (some j) ∧ FreeDep ins derFn j k) →
          ∃ st2, vs.foldlM (ordStep ins derFn fuel i) st1 = .ok st2 ∧
            OrdInv ins derFn st2 ∧ st.order <+: st2.order ∧
            (∀ k ∈ st2.order, k ∈ st.order ∨ rk k < rk i) ∧
            (∀ r, r ∉ st2.order → r ≠ i → st2.dep r = st.dep r) ∧
            (∀ v ∈ indices ins[i], ∀ j, derFn[v]? = some (some j) → j ∈ st2.order) ∧
            (∀ k, st2.dep i k ≠ 0 ↔ ∃ v ∈ indices ins[i], (v = k ∧ derFn[v]? = some none) ∨
              ∃ j, derFn[v]? = some (some j) ∧ FreeDep ins derFn j k) := by
        intro vs
        induction vs with
        | nil =>
          intro done st1 hd h1 h2 h3 h4 h5 h6
          simp only [List.append_nil] at hd; subst hd
          exact ⟨st1, rfl, h1, h2, h3, h4, h5, h6⟩
        | cons v vs ihv =>
          intro done st1 hd h1 h2 h3 h4 h5 h6
          have hvmem : v ∈ indices ins[i] := by rw [← hd]; simp
          have hvlt : v < derFn.length := hg.range _ (List.getElem_mem hi) v hvmem
          have hv : derFn[v]? = some derFn[v] := List.getElem?_eq_getElem hvlt
          have hi1 : i ∉ st1.order := by
            intro h
            rcases h3 i h with h | h
            · exact hni h
            · omega
          rw [List.foldlM_cons]
          cases hvc : derFn[v] with
          | none =>
            rw [hvc] at hv
            have hstep : ordStep ins derFn fuel i st1 v = .ok { st1 with
              dep := fun r k => if r = i ∧ k = v then st1.dep r k + 1 else st1.dep r k } := by
              unfold ordStep; rw [hv]
            rw [hstep]
            have := ihv (done ++ [v]) { st1 with
              dep := fun r k => if r = i ∧ k = v then st1.dep r k + 1 else st1.dep r k }
              (by simp [← hd])
              ⟨h1.clen, h1.nodup, h1.mem, h1.closed, by
                intro r hr k
                have hri : r ≠ i := fun e => hi1 (e ▸ hr)
                simp only [hri, false_and, if_false]
                exact h1.dep r hr k⟩
              h2 h3
              (by
                intro r hr hri
                funext k
                simp only [hri, false_and, if_false]
                rw [h4 r hr hri])
              (by
                intro v' hv' j hj
                rcases List.mem_append.1 hv' with hv' | hv'
                · exact h5 v' hv' j hj
                · simp only [List.mem_singleton] at hv'; subst hv'
                  rw [hv] at hj; simp at hj)
              (by
                intro k
                simp only [true_and]
                by_cases hk : k = v
                · subst hk
                  simp only [if_true]
                  constructor
                  · intro _; exact ⟨k, by simp, .inl ⟨rfl, hv⟩⟩
                  · intro _; omega
                · simp only [hk, if_false]
                  rw [h6]
                  constructor
                  · rintro ⟨v', hv', h⟩; exact ⟨v', by simp [hv'], h⟩
                  · rintro ⟨v', hv', h⟩
                    rcases List.mem_append.1 hv' with hv' | hv'
                    · exact ⟨v', hv', h⟩
                    · simp only [List.mem_singleton] at hv'; subst hv'
                      rcases h with ⟨h, -⟩ | ⟨j, hj, -⟩
                      · exact absurd h.symm hk
                      · rw [hv] at hj; simp at hj)
            exact this
          | some j =>
            rw [hvc] at hv
            have hdep : DepV ins derFn i j := ⟨_, v, hli, hvmem, hv⟩
            have hrj := hg.rank i j hdep
            obtain ⟨st', e1, e2, e3⟩ := ih j st1 (hg.fn v j hv) (by omega) h1 (by
              intro r hr hrr
              have hri : r ≠ i := fun e => by subst e; omega
              rw [h4 r hr hri]
              exact hz r (fun h => hr (h2.subset h)) (by omega))
            have hi' : i ∉ st'.order := by
              intro h
              rcases e2.small i h with h | h
              · exact hi1 h
              · omega
            have hstep : ordStep ins derFn fuel i st1 v = .ok { st' with
              dep := fun r k => if r = i then st'.dep r k + st'.dep j k else st'.dep r k } := by
              unfold ordStep; rw [hv]; simp only [e1]; rfl
            rw [hstep]
            have := ihv (done ++ [v]) { st' with
              dep := fun r k => if r = i then st'.dep r k + st'.dep j k else st'.dep r k }
              (by simp [← hd])
              ⟨e2.inv.clen, e2.inv.nodup, e2.inv.mem, e2.inv.closed, by
                intro r hr k
                have hri : r ≠ i := fun e => hi' (e ▸ hr)
                simp only [hri, if_false]
                exact e2.inv.dep r hr k⟩
              (h2.trans e2.pre)
              (by
                intro k hk
                rcases e2.small k hk with h | h
                · exact h3 k h
                · right; omega)
              (by
                intro r hr hri
                funext k
                simp only [hri, if_false]
                rw [e2.frame r hr, h4 r (fun h => hr (e2.pre.subset h)) hri])
              (by
                intro v' hv' j' hj'
                rcases List.mem_append.1 hv' with hv' | hv'
                · exact e2.pre.subset (h5 v' hv' j' hj')
                · simp only [List.mem_singleton] at hv'; subst hv'
                  rw [hv] at hj'; simp only [Option.some.injEq] at hj'; subst hj'
                  exact e3)
              (by
                intro k
                simp only [if_true]
                rw [e2.frame i hi']
                have hj := e2.inv.dep j e3 k
                have h6k := h6 k
                constructor
                · intro hne
                  by_cases ha : st1.dep i k ≠ 0
                  · obtain ⟨v', hv', h⟩ := h6k.1 ha
                    exact ⟨v', by simp [hv'], h⟩
                  · have : st'.dep j k ≠ 0 := by omega
                    exact ⟨v, by simp, .inr ⟨j, hv, hj.1 this⟩⟩
                · rintro ⟨v', hv', h⟩
                  rcases List.mem_append.1 hv' with hv' | hv'
                  · have := h6k.2 ⟨v', hv', h⟩; omega
                  · simp only [List.mem_singleton] at hv'; subst hv'
                    rcases h with ⟨-, h⟩ | ⟨j', hj', h⟩
                    · rw [hv] at h; simp at h
                    · rw [hv] at hj'; simp only [Option.some.injEq] at hj'; subst hj'
                      have := hj.2 h; omega)
            exact this
      obtain ⟨st2, e1, e2, e3, e4, e5, e6, e7⟩ := loop (indices ins[i]) [] st (by simp) hinv
        (List.prefix_refl _) (fun k hk => .inl hk) (fun _ _ _ => rfl) (by simp)
        (by
          intro k
          rw [hz i hni (Nat.le_refl _)]; simp)
      have hi2 : i ∉ st2.order := by
        intro h
        rcases e4 i h with h | h
        · exact hni h
        · omega
      have hlt : ∀ k ∈ st2.order, k < ins.length := by
        intro k hk
        rw [e2.mem] at hk
        rw [← e2.clen]
        by_contra h; rw [List.getElem?_eq_none (by omega)] at hk; simp at hk
      have hlen : st2.order.length < ins.length := by
        have hnd : (i :: st2.order).Nodup := List.nodup_cons.2 ⟨hi2, e2.nodup⟩
        have hsub : (i :: st2.order) ⊆ List.range ins.length := by
          intro k hk
          rcases List.mem_cons.1 hk with rfl | hk
          · simpa using hi
          · simpa using hlt k hk
        have := (List.subperm_of_subset hnd hsub).length_le
        simp at this; omega
      have hdepi : ∀ k, st2.dep i k ≠ 0 ↔ FreeDep ins derFn i k := by
        intro k
        rw [e7]
        constructor
        · rintro ⟨v, hv, ⟨rfl, h⟩ | ⟨j, hj, j', l, h1, h2, h3, h4⟩⟩
          · exact ⟨i, _, .refl, hli, hv, h⟩
          · exact ⟨j', l, ReflTransGen.head ⟨_, v, hli, hv, hj⟩ h1, h2, h3, h4⟩
        · rintro ⟨j, l, h1, h2, h3, h4⟩
          rcases ReflTransGen.cases_head h1 with rfl | ⟨z, ⟨l', v, hl', hv, hz'⟩, hzj⟩
          · rw [hli] at h2; simp only [Option.some.injEq] at h2; subst h2
            exact ⟨k, h3, .inl ⟨rfl, h4⟩⟩
          · rw [hli] at hl'; simp only [Option.some.injEq] at hl'; subst hl'
            exact ⟨v, hv, .inr ⟨z, hz', j, l, hzj, h2, h3, h4⟩⟩
      refine ⟨{ st2 with order := st2.order ++ [i], computed := st2.computed.set i true }, ?_, ?_, ?_⟩
      · rw [e1]
        show (if st2.order.length < ins.length then _ else _) = _
        rw [if_pos hlen]
      · refine ⟨⟨?_, ?_, ?_, ?_, ?_⟩, ?_, ?_, ?_⟩
        · simpa using e2.clen
        · simp only
          rw [List.nodup_append]
          refine ⟨e2.nodup, by simp, ?_⟩
          intro a ha b hb
          simp only [List.mem_singleton] at hb; subst hb
          intro e; exact hi2 (e ▸ ha)
        · intro k
          simp only [List.mem_append, List.mem_singleton, List.getElem?_set, e2.mem]
          have : i < st2.computed.length := by rw [e2.clen]; exact hi
          by_cases hk : i = k
          · subst hk; simp [this]
          · have hk' : ¬ k = i := fun h => hk h.symm
            simp [hk, hk']
        · intro pre k post heq j hj
          simp only at heq
          by_cases hp : post = []
          · subst hp
            have := List.append_inj' heq rfl
            obtain ⟨rfl, h2⟩ := this
            simp only [List.cons.injEq, and_true] at h2; subst h2
            obtain ⟨l, v, hl, hv, hd⟩ := hj
            rw [hli] at hl; simp only [Option.some.injEq] at hl; subst hl
            exact e6 v hv j hd
          · obtain ⟨post', x, rfl⟩ : ∃ post' x, post = post' ++ [x] :=
              ⟨post.dropLast, post.getLast hp, (List.dropLast_append_getLast hp).symm⟩
            have heq' : st2.order ++ [i] = (pre ++ k :: post') ++ [x] := by rw [heq]; simp
            have := List.append_inj' heq' rfl
            exact e2.closed pre k post' this.1 j hj
        · intro r hr k
          simp only [List.mem_append, List.mem_singleton] at hr
          rcases hr with hr | rfl
          · exact e2.dep r hr k
          · exact hdepi k
        · exact e3.trans (List.prefix_append _ _)
        · intro k hk
          simp only [List.mem_append, List.mem_singleton] at hk
          rcases hk with hk | rfl
          · rcases e4 k hk with h | h
            · exact .inl h
            · right; omega
          · right; omega
        · intro r hr
          simp only [List.mem_append, List.mem_singleton, not_or] at hr
          exact e5 r hr.1 hr.2
      · simp

/-- The whole ordering. -/
theorem orderAll_spec (ins : List Segs) (derFn : List (Option Nat)) (rk : Nat → Nat)
    (hg : GraphOk ins derFn rk) :
    ∃ N, ∀ fuel, N ≤ fuel → ∃ st, orderAll ins derFn fuel = .ok st ∧ OrdInv ins derFn st ∧
      st.order.Perm (List.range ins.length) := by
  refine ⟨((List.range ins.length).map rk).sum + 1, fun fuel hf => ?_⟩
  have hrk : ∀ i, i < ins.length → rk i < fuel := by
    intro i hi
    have := le_sum_map rk (List.range ins.length) i (by simpa using hi)
    omega
  have loop : ∀ (is done : List Nat) (st : OrdSt), done ++ is = List.range ins.length →
      OrdInv ins derFn st → (∀ i ∈ done, i ∈ st.order) →
      (∀ r, r ∉ st.order → st.dep r = fun _ => 0) →
      ∃ st', is.foldlM (fun st i => computeOrder ins derFn fuel i st) st = .ok st' ∧
        OrdInv ins derFn st' ∧ ∀ i < ins.length, i ∈ st'.order := by
    intro is
    induction is with
    | nil =>
      intro done st hd h1 h2 _
      refine ⟨st, rfl, h1, fun i hi => h2 i ?_⟩
      simp only [List.append_nil] at hd; rw [hd]; simpa using hi
    | cons i is ih =>
      intro done st hd h1 h2 h3
      have hi : i < ins.length := by
        have : i ∈ List.range ins.length := by rw [← hd]; simp
        simpa using this
      obtain ⟨st', e1, e2, e3⟩ := computeOrder_spec ins derFn rk hg fuel i st hi (hrk i hi) h1
        (fun r hr _ => h3 r hr)
      rw [List.foldlM_cons, e1]
      exact ih (done ++ [i]) st' (by simp [← hd]) e2.inv
        (by
          intro k hk
          rcases List.mem_append.1 hk with hk | hk
          · exact e2.pre.subset (h2 k hk)
          · simp only [List.mem_singleton] at hk; subst hk; exact e3)
        (by
          intro r hr
          rw [e2.frame r hr]
          exact h3 r (fun h => hr (e2.pre.subset h)))
  obtain ⟨st, e1, e2, e3⟩ := loop (List.range ins.length) []
    ⟨[], List.replicate ins.length false, fun _ _ => 0⟩ (by simp)
    ⟨by simp, by simp, by
      intro i
      simp only [List.not_mem_nil, false_iff, List.getElem?_replicate]
      split <;> simp, by simp, by simp⟩ (by simp) (by simp)
  refine ⟨st, e1, e2, ?_⟩
  rw [List.perm_ext_iff_of_nodup e2.nodup List.nodup_range]
  intro i
  simp only [List.mem_range]
  constructor
  · intro h
    rw [e2.mem] at h
    rw [← e2.clen]
    by_contra hlt; rw [List.getElem?_eq_none (by omega)] at h; simp at h
  · exact e3 i

end Hpp
