import Verif.HI.ReachProps
import Verif.Implicit.Props

/-!
# C130. A stack of constraints and its parts

Sources: `/repo/include/hpp/constraints/differentiable-function-set.hh`, lines 64-126,
`/repo/src/implicit.cc`, lines 114-136 and 190-200, `/repo/src/solver/hierarchical-iterative.cc`, lines 623-719 and 744-828, and
`/repo/include/hpp/constraints/solver/impl/hierarchical-iterative.hh`, lines 39-181.
-/

namespace Hpp

open Matrix

variable {A S κ : Type}

/-- A `DifferentiableFunctionSet` seen as a `DifferentiableFunction` (differentiable-function-set.hh:45-126).  The vector and the
matrix in which the results are written are zero (by C62 what they hold does not matter). -/
def FnSet.fn (F : FnSet ℝ κ) (key : κ) (spaceId : Nat) : Fn ℝ κ where
  key := key
  inputSize := F.inputSize
  inputDer := F.inputDer
  spaceId := spaceId
  space := F.space
  value q := F.value q (List.replicate F.space.nq 0)
  jac q := F.jacobian q fun _ _ => 0
  activeQ := F.activeQ
  active := F.active

/-- Specification: the constraint `c` has been created by stacking the functions, the comparison types and the masks of the
constraints `cs`. -/
def IsStack (cs : List (Impl ℝ κ)) (c : Impl ℝ κ) : Prop :=
  ∃ F key spaceId, FnSet.ofList (cs.map (·.fn)) = some F ∧
    Impl.create (F.fn key spaceId) (cs.flatMap (·.comp)) (cs.flatMap (·.mask)) = some c

/-- Specification: the derivative of the difference in a product of two Lie groups is diagonal by blocks
(hpp-pinocchio, `LiegroupSpace::dDifference_dq1`). -/
def BlockDiagonal (D : Space ℝ → List ℝ → List ℝ → Nat → Nat → ℝ) : Prop :=
  ∀ (a b : Space ℝ) (x y x' y' : List ℝ), x.length = a.nq → y.length = a.nq →
    (∀ r j, r < a.nv → j < a.nv → D (a.prod b) (x ++ x') (y ++ y') r j = D a x y r j) ∧
    (∀ r j, r < a.nv → a.nv ≤ j → D (a.prod b) (x ++ x') (y ++ y') r j = 0) ∧
    (∀ r j, a.nv ≤ r → j < a.nv → D (a.prod b) (x ++ x') (y ++ y') r j = 0) ∧
    (∀ r j, D (a.prod b) (x ++ x') (y ++ y') (a.nv + r) (a.nv + j) = D b x' y' r j)

theorem flatMap_nq (fs : List (Fn ℝ κ)) (g : Fn ℝ κ → List ℝ) (hg : ∀ f ∈ fs, (g f).length = f.space.nq) :
    (fs.flatMap g).length = (spaceOf fs).nq := by
  rw [spaceOf_nq]
  exact flatMap_length_sum _ _ _ hg

theorem spaceOf_sub (fs : List (Fn ℝ κ)) (g h : Fn ℝ κ → List ℝ) (hg : ∀ f ∈ fs, (g f).length = f.space.nq)
    (hh : ∀ f ∈ fs, (h f).length = f.space.nq) :
    (spaceOf fs).sub (fs.flatMap g) (fs.flatMap h) = fs.flatMap fun f => f.space.sub (g f) (h f) := by
  induction fs using List.reverseRecOn with
  | nil => rfl
  | append_singleton fs f ih =>
    have l1 := flatMap_nq fs g fun f hf => hg f (by simp [hf])
    have l2 := flatMap_nq fs h fun f hf => hh f (by simp [hf])
    rw [spaceOf_snoc, List.flatMap_append, List.flatMap_append, List.flatMap_append, List.flatMap_singleton,
      List.flatMap_singleton, List.flatMap_singleton]
    show (spaceOf fs).sub (List.take _ _) (List.take _ _) ++ f.space.sub (List.drop _ _) (List.drop _ _) = _
    rw [List.take_left' l1, List.take_left' l2, List.drop_left' l1, List.drop_left' l2,
      ih (fun f hf => hg f (by simp [hf])) (fun f hf => hh f (by simp [hf]))]

theorem sum_blockDiagonal {D : Space ℝ → List ℝ → List ℝ → Nat → Nat → ℝ} (hD : BlockDiagonal D) (g h : Fn ℝ κ → List ℝ)
    (Jc : Nat → ℝ) (pre : List (Fn ℝ κ)) (f : Fn ℝ κ) (post : List (Fn ℝ κ))
    (hg : ∀ e ∈ pre ++ f :: post, (g e).length = e.space.nq) (hh : ∀ e ∈ pre ++ f :: post, (h e).length = e.space.nq)
    (r : Nat) (hr : r < f.space.nv) :
    ∑ j ∈ Finset.range (spaceOf (pre ++ f :: post)).nv,
      D (spaceOf (pre ++ f :: post)) ((pre ++ f :: post).flatMap g) ((pre ++ f :: post).flatMap h)
        ((pre.map (·.space.nv)).sum + r) j * Jc j =
    ∑ j ∈ Finset.range f.space.nv, D f.space (g f) (h f) r j * Jc ((pre.map (·.space.nv)).sum + j) := by
  induction post using List.reverseRecOn with
  | nil =>
    have l1 := flatMap_nq pre g fun f hf => hg f (by simp [hf])
    have l2 := flatMap_nq pre h fun f hf => hh f (by simp [hf])
    rw [spaceOf_snoc, List.flatMap_append, List.flatMap_append, List.flatMap_singleton, List.flatMap_singleton, ← spaceOf_nv]
    obtain ⟨-, -, d3, d4⟩ := hD (spaceOf pre) f.space (pre.flatMap g) (pre.flatMap h) (g f) (h f) l1 l2
    show ∑ j ∈ Finset.range ((spaceOf pre).nv + f.space.nv), _ = _
    rw [Finset.sum_range_add]
    have z : ∑ j ∈ Finset.range (spaceOf pre).nv, D ((spaceOf pre).prod f.space) (pre.flatMap g ++ g f) (pre.flatMap h ++ h f)
        ((spaceOf pre).nv + r) j * Jc j = 0 :=
      Finset.sum_eq_zero fun j hj => by rw [d3 _ _ (by omega) (Finset.mem_range.1 hj), zero_mul]
    rw [z, zero_add]
    exact Finset.sum_congr rfl fun j _ => by rw [d4]
  | append_singleton post f' ih =>
    have e0 : pre ++ f :: (post ++ [f']) = (pre ++ f :: post) ++ [f'] := by simp
    rw [e0] at hg hh
    have hg0 : ∀ e ∈ pre ++ f :: post, (g e).length = e.space.nq := fun e he => hg e (List.mem_append_left _ he)
    have hh0 : ∀ e ∈ pre ++ f :: post, (h e).length = e.space.nq := fun e he => hh e (List.mem_append_left _ he)
    rw [← ih hg0 hh0, e0]
    generalize hF : pre ++ f :: post = F at *
    have l1 := flatMap_nq F g hg0
    have l2 := flatMap_nq F h hh0
    have hlt : (pre.map (·.space.nv)).sum + r < (spaceOf F).nv := by
      rw [spaceOf_nv, ← hF]
      simp only [List.map_append, List.map_cons, List.sum_append, List.sum_cons]
      omega
    rw [spaceOf_snoc, List.flatMap_append, List.flatMap_append, List.flatMap_singleton, List.flatMap_singleton]
    obtain ⟨d1, d2, -, -⟩ := hD (spaceOf F) f'.space (F.flatMap g) (F.flatMap h) (g f') (h f') l1 l2
    show ∑ j ∈ Finset.range ((spaceOf F).nv + f'.space.nv), _ = _
    rw [Finset.sum_range_add]
    have z : ∑ j ∈ Finset.range f'.space.nv, D ((spaceOf F).prod f'.space) (F.flatMap g ++ g f') (F.flatMap h ++ h f')
        ((pre.map (·.space.nv)).sum + r) ((spaceOf F).nv + j) * Jc ((spaceOf F).nv + j) = 0 :=
      Finset.sum_eq_zero fun j hj => by rw [d2 _ _ hlt (by omega), zero_mul]
    rw [z, add_zero]
    exact Finset.sum_congr rfl fun j hj => by rw [d1 _ _ hlt (Finset.mem_range.1 hj)]

theorem sqSum_app (u v : List ℝ) : sqSum (u ++ v) = sqSum u + sqSum v := by
  unfold sqSum
  rw [List.foldl_append, sqSum_foldl, sqSum_foldl v 0, zero_add]

theorem sqSum_pos (v : List ℝ) : 0 ≤ sqSum v := by
  rw [sqSum_eq_range]
  exact Finset.sum_nonneg fun i _ => mul_self_nonneg _

theorem sqSum_flatMap {β : Type} (cs : List β) (e : β → List ℝ) : sqSum (cs.flatMap e) = (cs.map fun c => sqSum (e c)).sum := by
  induction cs with
  | nil => rfl
  | cons c cs ih => rw [List.flatMap_cons, sqSum_app, ih, List.map_cons, List.sum_cons]

section
variable [DecidableEq κ] {El : Fn ℝ κ → List ℝ → Prop} {n n' : Nat} {h0 h h' : List (Impl ℝ κ × Nat)} {s s' : HI ℝ κ}
  {R : κ → List ℝ} {cs : List (Impl ℝ κ)} {c : Impl ℝ κ} {p : Nat}

/-- What the stack is, by parts. -/
structure StackOk (El : Fn ℝ κ → List ℝ → Prop) (R : κ → List ℝ) (cs : List (Impl ℝ κ)) (c : Impl ℝ κ) : Prop where
  space : c.fn.space = spaceOf (cs.map (·.fn))
  comp : c.comp = cs.flatMap (·.comp)
  mask : c.mask = cs.flatMap (·.mask)
  value : ∀ q, c.fn.value q = cs.flatMap (·.fn.value q)
  jac : ∀ q pre d post, cs = pre ++ d :: post → ∀ r k, r < d.fn.space.nv →
    c.fn.jac q ((pre.map (·.fn.space.nv)).sum + r) k = d.fn.jac q r k
  active : ∀ i : Nat, c.fn.active[i]? = some true ↔ ∃ d ∈ cs, d.fn.active[i]? = some true
  rhs : R c.fn.key = cs.flatMap fun d => R d.fn.key
  lens : ∀ d ∈ cs, (R d.fn.key).length = d.fn.space.nq ∧ (∀ q, (d.fn.value q).length = d.fn.space.nq) ∧
    (∀ q, (d.fn.space.sub (d.fn.value q) (R d.fn.key)).length = d.fn.space.nv) ∧ d.mask.length = d.fn.space.nv ∧
    d.comp.length = d.fn.space.nv

theorem IsStack.ok (hst : IsStack cs c) (hf : FnsOk El h') (hR' : HI.RhsIs El h' s' R)
    (hmem : ∀ d ∈ cs, (d, p) ∈ h') (hrhs : R c.fn.key = cs.flatMap fun d => R d.fn.key) : StackOk El R cs c := by
  obtain ⟨F, key, sid, hF, hc⟩ := hst
  have hok := FnSet.ofList_ok hF
  have lens : ∀ d ∈ cs, (R d.fn.key).length = d.fn.space.nq ∧ (∀ q, (d.fn.value q).length = d.fn.space.nq) ∧
      (∀ q, (d.fn.space.sub (d.fn.value q) (R d.fn.key)).length = d.fn.space.nv) ∧ d.mask.length = d.fn.space.nv ∧
      d.comp.length = d.fn.space.nv := by
    intro d hd
    have hm := hmem d hd
    have hE := hR'.el _ hm
    have hx := fun q => conSub_length hf hm hE q 0
    exact ⟨(hf.lawful _ hm).len _ hE, fun q => (hf.lawful _ hm).len _ (hf.value _ hm q), fun q => (hx q).1, (hx fun _ => 0).2.1,
      (hx fun _ => 0).2.2.1⟩
  have hml : (cs.flatMap (·.mask)).length = F.space.nv := by
    rw [hok.space, spaceOf_nv, List.map_map]
    exact flatMap_length_sum _ _ _ fun d hd => (lens d hd).2.2.2.1
  unfold Impl.create at hc
  have hm : (if (cs.flatMap (·.mask)).isEmpty then List.replicate (F.fn key sid).space.nv true else cs.flatMap (·.mask)) =
      cs.flatMap (·.mask) := by
    split
    · rename_i he
      have he' := List.isEmpty_iff.1 he
      rw [he'] at hml ⊢
      show List.replicate F.space.nv true = []
      rw [← hml]
      rfl
    · rfl
  rw [hm] at hc
  obtain ⟨-, c1, c2, c3⟩ := Impl.mk'_ok hc
  have hv : ∀ q, ∀ f ∈ cs.map (·.fn), (f.value q).length = f.space.nq := by
    intro q f hf
    obtain ⟨d, hd, rfl⟩ := List.mem_map.1 hf
    exact (lens d hd).2.1 q
  refine ⟨by rw [c1]; exact hok.space, c2, c3, fun q => ?_, ?_, fun i => ?_, hrhs, lens⟩
  · rw [c1]
    show F.value q _ = _
    rw [C62_value hF q (hv q) _ List.length_replicate, List.flatMap_map]
  · rintro q pre d post rfl r k hr
    rw [c1]
    have := (C62_jacobian hF q fun _ _ => 0).1 (pre.map (·.fn)) d.fn (post.map (·.fn)) (by simp) r k hr
    rw [List.map_map] at this
    exact this
  · rw [c1]
    refine (hok.active i).trans ?_
    simp

theorem StackOk.sub (hok : StackOk El R cs c) (q : Nat → ℝ) : c.fn.space.sub (c.fn.value q) (R c.fn.key) =
    cs.flatMap fun d => d.fn.space.sub (d.fn.value q) (R d.fn.key) := by
  rw [hok.space, hok.value, hok.rhs]
  have := spaceOf_sub (cs.map (·.fn)) (fun f => f.value q) (fun f => R f.key)
    (by intro f hf
        obtain ⟨d, hd, rfl⟩ := List.mem_map.1 hf
        exact (hok.lens d hd).2.1 q)
    (by intro f hf
        obtain ⟨d, hd, rfl⟩ := List.mem_map.1 hf
        exact (hok.lens d hd).1)
  rw [List.flatMap_map, List.flatMap_map, List.flatMap_map] at this
  exact this

theorem StackOk.error (hok : StackOk El R cs c) (thr : ℝ) (q : Nat → ℝ) :
    conError thr q c (R c.fn.key) = cs.flatMap fun d => conError thr q d (R d.fn.key) := by
  unfold conError
  rw [hok.sub, hok.comp, hok.mask, maskBy_flatMap]
  · rw [zipWith_flatMap]
    intro d hd
    obtain ⟨-, -, l1, l2, l3⟩ := hok.lens d hd
    unfold maskBy
    rw [List.length_zipWith, l1 q, l2, l3, Nat.min_self]
  · intro d hd
    obtain ⟨-, -, l1, l2, -⟩ := hok.lens d hd
    rw [l1 q, l2]

theorem StackOk.nv (hok : StackOk El R cs c) : c.fn.space.nv = (cs.map (·.fn.space.nv)).sum := by
  rw [hok.space, spaceOf_nv, List.map_map]
  rfl

theorem StackOk.depends (hok : StackOk El R cs c) (free : Segs) :
    dependsOnFree free c = true ↔ ∃ d ∈ cs, dependsOnFree free d = true := by
  unfold dependsOnFree
  simp only [List.any_eq_true, decide_eq_true_eq, hok.active]
  constructor
  · rintro ⟨i, hi, d, hd, hda⟩
    exact ⟨d, hd, i, hi, hda⟩
  · rintro ⟨d, hd, i, hi, hda⟩
    exact ⟨i, hi, d, hd, hda⟩

theorem StackOk.row (hok : StackOk El R cs c) {D : Space ℝ → List ℝ → List ℝ → Nat → Nat → ℝ} (hD : BlockDiagonal D) (thr : ℝ)
    (q : Nat → ℝ) {pre post : List (Impl ℝ κ)} {d : Impl ℝ κ} (hsplit : cs = pre ++ d :: post) (r k : Nat)
    (hr : r < d.fn.space.nv) :
    conRow thr D q c (R c.fn.key) ((pre.map (·.fn.space.nv)).sum + r) k = conRow thr D q d (R d.fn.key) r k := by
  have hd : d ∈ cs := by rw [hsplit]; simp
  have hpre : ∀ y ∈ pre, y ∈ cs := fun y hy => by rw [hsplit]; simp [hy]
  have hcomp : c.comp.getD ((pre.map (·.fn.space.nv)).sum + r) .equality = d.comp.getD r .equality := by
    rw [List.getD_eq_getElem?_getD, hok.comp, hsplit, flatMap_getElem?_mid _ _ _ _ (·.fn.space.nv)
      (fun y hy => (hok.lens y (hpre y hy)).2.2.2.2) _ (by rw [(hok.lens d hd).2.2.2.2]; exact hr), List.getD_eq_getElem?_getD]
  have hsub : (c.fn.space.sub (c.fn.value q) (R c.fn.key)).getD ((pre.map (·.fn.space.nv)).sum + r) 0 =
      (d.fn.space.sub (d.fn.value q) (R d.fn.key)).getD r 0 := by
    rw [List.getD_eq_getElem?_getD, hok.sub, hsplit, flatMap_getElem?_mid _ _ _ _ (·.fn.space.nv)
      (fun y hy => (hok.lens y (hpre y hy)).2.2.1 q) _ (by rw [(hok.lens d hd).2.2.1 q]; exact hr), List.getD_eq_getElem?_getD]
  unfold conRow
  rw [hcomp, hsub]
  congr 1
  have hg : ∀ e ∈ pre.map (·.fn) ++ d.fn :: post.map (·.fn), (R e.key).length = e.space.nq := by
    intro e he
    have : e ∈ cs.map (·.fn) := by rw [hsplit]; simpa using he
    obtain ⟨y, hy, rfl⟩ := List.mem_map.1 this
    exact (hok.lens y hy).1
  have hh : ∀ e ∈ pre.map (·.fn) ++ d.fn :: post.map (·.fn), (e.value q).length = e.space.nq := by
    intro e he
    have : e ∈ cs.map (·.fn) := by rw [hsplit]; simpa using he
    obtain ⟨y, hy, rfl⟩ := List.mem_map.1 this
    exact (hok.lens y hy).2.1 q
  have key := sum_blockDiagonal hD (fun f => R f.key) (fun f => f.value q) (fun j => c.fn.jac q j k) (pre.map (·.fn)) d.fn
    (post.map (·.fn)) hg hh r hr
  have e1 : pre.map (·.fn) ++ d.fn :: post.map (·.fn) = cs.map (·.fn) := by rw [hsplit]; simp
  rw [e1, List.flatMap_map, List.flatMap_map, ← hok.space, List.map_map] at key
  rw [hok.value, hok.rhs]
  refine Eq.trans key (Finset.sum_congr rfl fun j hj => ?_)
  congr 1
  exact hok.jac q pre d post hsplit j k (Finset.mem_range.1 hj)

theorem StackOk.cost (hok : StackOk El R cs c) {D : Space ℝ → List ℝ → List ℝ → Nat → Nat → ℝ} (hD : BlockDiagonal D) (free : Segs)
    (hdep : ∀ d ∈ cs, dependsOnFree free d = dependsOnFree free c) (thr : ℝ) (q : Nat → ℝ) (x : Fin (indices free).length → ℝ) :
    ∑ r ∈ Finset.range c.fn.space.nv, conCost free thr D q x (R c.fn.key) c r =
    (cs.map fun d => ∑ r ∈ Finset.range d.fn.space.nv, conCost free thr D q x (R d.fn.key) d r).sum := by
  rw [hok.nv]
  refine sum_blocks (fun d : Impl ℝ κ => d.fn.space.nv) _ _ _ fun pre d post hsplit r hr => ?_
  have hd : d ∈ cs := by rw [hsplit]; simp
  have hpre : ∀ y ∈ pre, y ∈ cs := fun y hy => by rw [hsplit]; simp [hy]
  have hmask : c.mask[(pre.map (fun d : Impl ℝ κ => d.fn.space.nv)).sum + r]? = d.mask[r]? := by
    rw [hok.mask, hsplit]
    exact flatMap_getElem?_mid _ _ _ _ _ (fun y hy => (hok.lens y (hpre y hy)).2.2.2.1) _
      (by rw [(hok.lens d hd).2.2.2.1]; exact hr)
  have hlen : ∀ y ∈ cs, (conError thr q y (R y.fn.key)).length = y.fn.space.nv := by
    intro y hy
    obtain ⟨-, -, l1, l2, l3⟩ := hok.lens y hy
    unfold conError maskBy
    rw [List.length_zipWith, List.length_zipWith, l1 q, l2, l3, Nat.min_self, Nat.min_self]
  have herr : (conError thr q c (R c.fn.key)).getD ((pre.map (fun d : Impl ℝ κ => d.fn.space.nv)).sum + r) 0 =
      (conError thr q d (R d.fn.key)).getD r 0 := by
    rw [List.getD_eq_getElem?_getD, hok.error, hsplit, flatMap_getElem?_mid _ _ _ _ _
      (fun y hy => hlen y (hpre y hy)) _ (by rw [hlen d hd]; exact hr), List.getD_eq_getElem?_getD]
  unfold conCost
  simp only [hmask, herr, hdep d hd, hok.row hD thr q hsplit r _ hr]

/-! ## The two solvers -/

theorem stack_atLevel (hp : h.Perm ((c, p) :: h0)) (hp' : h'.Perm (cs.map (fun d => (d, p)) ++ h0)) (i : Nat) :
    (atLevel h i).Perm (if p = i then c :: atLevel h0 i else atLevel h0 i) ∧
    (atLevel h' i).Perm (if p = i then cs ++ atLevel h0 i else atLevel h0 i) := by
  constructor
  · refine (atLevel_perm hp i).trans ?_
    unfold atLevel
    rw [List.filter_cons]
    by_cases hpi : p = i
    · simp [hpi]
    · simp [hpi]
  · refine (atLevel_perm hp' i).trans ?_
    unfold atLevel
    rw [List.filter_append, List.map_append]
    by_cases hpi : p = i
    · subst hpi
      rw [if_pos rfl, List.filter_eq_self.2, List.map_map]
      · have : (Prod.fst ∘ fun d : Impl ℝ κ => (d, p)) = id := rfl
        rw [this, List.map_id]
      · intro e he
        obtain ⟨d, -, rfl⟩ := List.mem_map.1 he
        simp
    · rw [if_neg hpi, List.filter_eq_nil_iff.2, List.map_nil, List.nil_append]
      intro e he
      obtain ⟨d, -, rfl⟩ := List.mem_map.1 he
      simpa using hpi

theorem stack_levels (hs : HI.Inv h s) (hs' : HI.Inv h' s') (hne : cs ≠ []) (hp : h.Perm ((c, p) :: h0))
    (hp' : h'.Perm (cs.map (fun d => (d, p)) ++ h0)) : s.levels.length = s'.levels.length := by
  obtain ⟨d, hd⟩ := List.exists_mem_of_ne_nil cs hne
  apply Nat.le_antisymm
  · rcases hs.nlev_min with h1 | ⟨e, he, hee⟩
    · omega
    · rcases List.mem_cons.1 (hp.mem_iff.1 he) with rfl | he
      · have := hs'.nlev (d, p) (hp'.mem_iff.2 (List.mem_append_left _ (List.mem_map.2 ⟨d, hd, rfl⟩)))
        dsimp only at this hee
        omega
      · have := hs'.nlev e (hp'.mem_iff.2 (List.mem_append_right _ he))
        omega
  · rcases hs'.nlev_min with h1 | ⟨e, he, hee⟩
    · omega
    · rcases List.mem_append.1 (hp'.mem_iff.1 he) with he | he
      · obtain ⟨d', -, rfl⟩ := List.mem_map.1 he
        have := hs.nlev (c, p) (hp.mem_iff.2 (List.mem_cons_self ..))
        dsimp only at this hee
        omega
      · have := hs.nlev e (hp.mem_iff.2 (List.mem_cons_of_mem _ he))
        omega

theorem perm_flatMap_if {β : Type} (X : List β) (f : Nat → List β) (m : Nat) :
    ((List.range m).flatMap fun i => if p = i then X ++ f i else f i).Perm
      (if p < m then X ++ (List.range m).flatMap f else (List.range m).flatMap f) := by
  induction m with
  | zero => simp
  | succ m ih =>
    rw [List.range_succ, List.flatMap_append, List.flatMap_append, List.flatMap_singleton, List.flatMap_singleton]
    refine (ih.append_right _).trans ?_
    by_cases a1 : p < m
    · rw [if_pos a1, if_pos (Nat.lt_succ_of_lt a1), if_neg (by omega), List.append_assoc]
    · rw [if_neg a1]
      by_cases a2 : p = m
      · rw [if_pos a2, if_pos (by omega), ← List.append_assoc, ← List.append_assoc]
        exact (List.perm_append_comm).append_right _
      · rw [if_neg a2, if_neg (by omega)]

theorem foldl_maxOf_le {β : Type} (f : β → ℝ) (l : List β) (a b : ℝ) :
    l.foldl (fun m c => max m (f c)) a ≤ b ↔ a ≤ b ∧ ∀ c ∈ l, f c ≤ b := by
  induction l generalizing a with
  | nil => simp
  | cons c l ih =>
    rw [List.foldl_cons, ih, max_le_iff]
    simp only [List.mem_cons, forall_eq_or_imp, and_assoc]

/-- C130. Error of the stack: the concatenation of the errors of the parts.  The squared error of the solver with the parts is at
most the one of the solver with the stack, which is at most as many times larger as there are parts. -/
theorem C130_norm (hb : HI.Built El n h s) (hb' : HI.Built El n' h' s') (hst : IsStack cs c) (hcs : cs ≠ [])
    (hp : h.Perm ((c, p) :: h0)) (hp' : h'.Perm (cs.map (fun d => (d, p)) ++ h0))
    (hl : ∀ e ∈ h, e.1.fn.space.Lawful (El e.1.fn)) (hv : ∀ e ∈ h, ∀ q, El e.1.fn (e.1.fn.value q))
    (hl' : ∀ e ∈ h', e.1.fn.space.Lawful (El e.1.fn)) (hv' : ∀ e ∈ h', ∀ q, El e.1.fn (e.1.fn.value q))
    (hR : HI.RhsIs El h s R) (hR' : HI.RhsIs El h' s' R) (hrhs : R c.fn.key = cs.flatMap fun d => R d.fn.key)
    (hopt : s.SameOptions s') (hne : s.lastIsOptional = true → s.levels ≠ []) (q : Nat → ℝ) :
    conError s.ineqThr q c (R c.fn.key) = cs.flatMap (fun d => conError s.ineqThr q d (R d.fn.key)) ∧
    ∃ N N', s.sqNorm q = some N ∧ s'.sqNorm q = some N' ∧ N' ≤ N ∧ N ≤ cs.length * N' := by
  obtain ⟨hs, hf, -⟩ := hb.inv hl hv
  obtain ⟨hs', hf', -⟩ := hb'.inv hl' hv'
  have hmem : ∀ d ∈ cs, (d, p) ∈ h' := fun d hd => hp'.mem_iff.2 (List.mem_append_left _ (List.mem_map.2 ⟨d, hd, rfl⟩))
  have hok := hst.ok hf' hR' hmem hrhs
  have hlen := stack_levels hs hs' hcs hp hp'
  have hne' : s'.lastIsOptional = true → s'.levels ≠ [] := by
    rw [hopt.lastIsOptional]
    intro h1 h2
    apply hne h1
    rw [h2] at hlen
    exact List.length_eq_zero_iff.1 hlen
  refine ⟨hok.error _ _, _, _, solver_sqNorm_eq hs hf hR hne q, solver_sqNorm_eq hs' hf' hR' hne' q, ?_⟩
  have hn : s'.nMandatory = s.nMandatory := by
    unfold HI.nMandatory
    rw [hopt.lastIsOptional, hlen]
  rw [hn, hopt.ineqThr]
  set e : Impl ℝ κ → ℝ := fun c => sqSum (conError s.ineqThr q c (R c.fn.key)) with he
  have hec : e c = (cs.map e).sum := by
    show sqSum (conError s.ineqThr q c (R c.fn.key)) = _
    rw [hok.error, sqSum_flatMap]
  have hpos : ∀ d, 0 ≤ e d := fun d => sqSum_pos _
  set L0 := (List.range s.nMandatory).flatMap (atLevel h0) with hL0
  have p1 : ((List.range s.nMandatory).flatMap (atLevel h)).Perm (if p < s.nMandatory then [c] ++ L0 else L0) :=
    (List.Perm.flatMap_left _ fun i _ => (stack_atLevel hp hp' i).1).trans (perm_flatMap_if [c] (atLevel h0) _)
  have p2 : ((List.range s.nMandatory).flatMap (atLevel h')).Perm (if p < s.nMandatory then cs ++ L0 else L0) :=
    (List.Perm.flatMap_left _ fun i _ => (stack_atLevel hp hp' i).2).trans (perm_flatMap_if cs (atLevel h0) _)
  have hrc : RightCommutative fun (m : ℝ) (c : Impl ℝ κ) => max m (e c) := ⟨fun a b c => max_right_comm _ _ _⟩
  rw [p1.foldl_eq 0, p2.foldl_eq 0]
  have hlen1 : (1 : ℝ) ≤ cs.length := by
    have : 1 ≤ cs.length := List.length_pos_iff.2 hcs
    exact_mod_cast this
  have hself : ∀ (l : List (Impl ℝ κ)), 0 ≤ l.foldl (fun m c => max m (e c)) 0 ∧
      ∀ d ∈ l, e d ≤ l.foldl (fun m c => max m (e c)) 0 := fun l => (foldl_maxOf_le e l 0 _).1 le_rfl
  by_cases hpm : p < s.nMandatory
  · rw [if_pos hpm, if_pos hpm]
    obtain ⟨a1, a2⟩ := hself ([c] ++ L0)
    obtain ⟨b1, b2⟩ := hself (cs ++ L0)
    set N := ([c] ++ L0).foldl (fun m c => max m (e c)) 0
    set N' := (cs ++ L0).foldl (fun m c => max m (e c)) 0
    have hN' : N' ≤ cs.length * N' := by nlinarith
    constructor
    · refine (foldl_maxOf_le e _ 0 N).2 ⟨a1, fun d hd => ?_⟩
      rcases List.mem_append.1 hd with hd | hd
      · refine le_trans ?_ (a2 c (by simp))
        rw [hec]
        exact List.single_le_sum (fun x hx => by
          obtain ⟨y, -, rfl⟩ := List.mem_map.1 hx
          exact hpos y) _ (List.mem_map.2 ⟨d, hd, rfl⟩)
      · exact a2 d (by simp [hd])
    · refine (foldl_maxOf_le e _ 0 _).2 ⟨le_trans b1 hN', fun d hd => ?_⟩
      rcases List.mem_append.1 hd with hd | hd
      · obtain rfl := List.mem_singleton.1 hd
        rw [hec]
        have := List.sum_le_card_nsmul (cs.map e) N' (fun x hx => by
          obtain ⟨y, hy, rfl⟩ := List.mem_map.1 hx
          exact b2 y (by simp [hy]))
        rwa [List.length_map, nsmul_eq_mul] at this
      · exact le_trans (b2 d (by simp [hd])) hN'
  · rw [if_neg hpm, if_neg hpm]
    obtain ⟨a1, -⟩ := hself L0
    refine ⟨le_rfl, ?_⟩
    nlinarith

theorem stack_same (hb : HI.Built El n h s) (hb' : HI.Built El n' h' { s' with free := s.free }) (hst : IsStack cs c)
    (hp : h.Perm ((c, p) :: h0)) (hp' : h'.Perm (cs.map (fun d => (d, p)) ++ h0))
    (hl : ∀ e ∈ h, e.1.fn.space.Lawful (El e.1.fn)) (hv : ∀ e ∈ h, ∀ q, El e.1.fn (e.1.fn.value q))
    (hl' : ∀ e ∈ h', e.1.fn.space.Lawful (El e.1.fn)) (hv' : ∀ e ∈ h', ∀ q, El e.1.fn (e.1.fn.value q))
    (hR : HI.RhsIs El h s R) (hR' : HI.RhsIs El h' { s' with free := s.free } R)
    (hrhs : R c.fn.key = cs.flatMap fun d => R d.fn.key) (h2 : s'.ineqThr = s.ineqThr)
    (hdep : ∀ d ∈ cs, dependsOnFree s.free.segs d = dependsOnFree s.free.segs c)
    {D : Space ℝ → List ℝ → List ℝ → Nat → Nat → ℝ} (hD : BlockDiagonal D) (J0 J0' : Jac ℝ) (q : Nat → ℝ) {i : Nat}
    {l l' : Level ℝ κ} (hi : s.levels[i]? = some l) (hi' : s'.levels[i]? = some l') :
    DLevel.Same (s.dLevel D J0 q l) (HI.dLevel { s' with free := s.free } D J0' q l') := by
  obtain ⟨hs, hf, -⟩ := hb.inv hl hv
  obtain ⟨hs', hf', -⟩ := hb'.inv hl' hv'
  have hmem : ∀ d ∈ cs, (d, p) ∈ h' := fun d hd => hp'.mem_iff.2 (List.mem_append_left _ (List.mem_map.2 ⟨d, hd, rfl⟩))
  have hok := hst.ok hf' hR' hmem hrhs
  obtain ⟨p1, p2⟩ := stack_atLevel hp hp' i
  refine ⟨?_, fun x => ?_⟩
  · refine (dLevel_empty hb hl hv hi _ _).trans (Iff.trans ?_ (dLevel_empty hb' hl' hv' hi' J0' q).symm)
    show _ ↔ ∀ d ∈ atLevel h' i, dependsOnFree s.free.segs d = true → true ∉ d.mask
    simp only [p1.mem_iff, p2.mem_iff]
    by_cases hpi : p = i
    · rw [if_pos hpi, if_pos hpi]
      simp only [List.mem_cons, List.mem_append, or_imp, forall_and, forall_eq]
      refine and_congr_left fun _ => ?_
      rw [hok.mask, List.mem_flatMap]
      constructor
      · intro H d hd hdd hm
        exact H (by rw [← hdep d hd]; exact hdd) ⟨d, hd, hm⟩
      · rintro H hcd ⟨d, hd, hm⟩
        exact H d hd (by rw [hdep d hd]; exact hcd) hm
    · rw [if_neg hpi, if_neg hpi]
  · refine (dLevel_cost hb hl hv hR hi _ _ x).trans (Eq.trans ?_ (dLevel_cost hb' hl' hv' hR' hi' J0' q x).symm)
    simp only [h2]
    rw [(p1.map _).sum_eq, (p2.map _).sum_eq]
    by_cases hpi : p = i
    · rw [if_pos hpi, if_pos hpi, List.map_cons, List.sum_cons, List.map_append, List.sum_append,
        hok.cost hD s.free.segs hdep]
    · rw [if_neg hpi, if_neg hpi]

/-- Specification: a line search that only integrates. -/
def LineSearch.Blind (ls : LineSearch A S) : Prop :=
  ∀ (V : Type) (env env' : LsEnv A V ℝ) (slope slope' : A → V → ℝ) (st : S) (q : A) (u : V),
    env.integrate = env'.integrate → env.smul = env'.smul → ls V env slope st q u = ls V env' slope' st q u

/-- C130. `Constant` and `FixedSequence` only integrate. -/
theorem C130_line_searches : (lineConstant : LineSearch A Unit).Blind ∧ (lineFixedSequence : LineSearch A (FixedSeq ℝ)).Blind := by
  constructor
  · intro V env env' slope slope' st q u h1 h2
    unfold lineConstant lsConstant
    rw [h1]
  · intro V env env' slope slope' st q u h1 h2
    unfold lineFixedSequence FixedSeq.call
    rw [h1, h2]

/-- C130. Whether constraints are stacked or inserted one by one with the same priority, if all of them depend on the free
variables: the descent direction is the same at each configuration, and `solve` visits the same configurations with the line
searches `Constant` and `FixedSequence`; if both succeed the solver with the parts stops first. -/
theorem C130_path (hb : HI.Built El n h s) (hb' : HI.Built El n' h' s') (hst : IsStack cs c) (hcs : cs ≠ [])
    (hp : h.Perm ((c, p) :: h0)) (hp' : h'.Perm (cs.map (fun d => (d, p)) ++ h0))
    (hl : ∀ e ∈ h, e.1.fn.space.Lawful (El e.1.fn)) (hv : ∀ e ∈ h, ∀ q, El e.1.fn (e.1.fn.value q))
    (hl' : ∀ e ∈ h', e.1.fn.space.Lawful (El e.1.fn)) (hv' : ∀ e ∈ h', ∀ q, El e.1.fn (e.1.fn.value q))
    (hR : HI.RhsIs El h s R) (hR' : HI.RhsIs El h' s' R) (hrhs : R c.fn.key = cs.flatMap fun d => R d.fn.key)
    (hopt : s.SameOptions s') (hne : s.lastIsOptional = true → s.levels ≠ [])
    (hdep : ∀ d ∈ cs, dependsOnFree s.free.segs d = dependsOnFree s.free.segs c)
    {D : Space ℝ → List ℝ → List ℝ → Nat → Nat → ℝ} (hD : BlockDiagonal D) {o o' : SvdOps ℝ}
    (ho : o.Exact) (hor : o.Ortho) (ho' : o'.Exact) (hor' : o'.Ortho) (J0 J0' : A → Jac ℝ) (conf : A → Nat → ℝ)
    (sat : A → Nat → ℝ) (move : A → (Nat → ℝ) → A) (ls : LineSearch A S) (hls : ls.Blind) (dqMin : ℝ) (q : A) (dq : Nat → ℝ)
    (st : S) :
    let ops := s.fullOps D o J0 conf sat move ls
    let ops' := s'.fullOps D o' J0' conf sat move ls
    let r := solve ops s.sqThr dqMin s.maxIter s.reducedDim q (fun j => dq (hiFree s j), st)
    let r' := solve ops' s'.sqThr dqMin s'.maxIter s'.reducedDim q (fun j => dq (hiFree s' j), st)
    (∀ (a : A) (v : Nat → ℝ),
      expand (hiFree s') ((descend o' s'.byLevel s'.sqThr (s'.dLevels D J0' conf sat a) fun j => v (hiFree s' j)).getD 0) 0 =
      expand (hiFree s) ((descend o s.byLevel s.sqThr (s.dLevels D J0 conf sat a) fun j => v (hiFree s j)).getD 0) 0) ∧
    (∀ k, (traj ops' q (fun j => dq (hiFree s' j), st) k).1 = (traj ops q (fun j => dq (hiFree s j), st) k).1) ∧
    r.arg = (traj ops q (fun j => dq (hiFree s j), st) r.iter).1 ∧ r'.arg = (traj ops q (fun j => dq (hiFree s j), st) r'.iter).1 ∧
    (r.status = some .success → r'.status = some .success → r'.iter ≤ r.iter) := by
  have hnorm := C130_norm hb hb' hst hcs hp hp' hl hv hl' hv' hR hR' hrhs hopt hne
  obtain ⟨hs, hf, -⟩ := hb.inv hl hv
  obtain ⟨hs', hf', -⟩ := hb'.inv hl' hv'
  have hlen := stack_levels hs hs' hcs hp hp'
  obtain ⟨hfree, h1, h2, h3, h4, h5⟩ := hopt
  obtain ⟨s'', rfl⟩ : ∃ s'', s' = { s'' with free := s.free } := ⟨s', by rw [← hfree]⟩
  have hlev : ∀ q, List.Forall₂ DLevel.Same (s.dLevels D J0 conf sat q)
      (HI.dLevels { s'' with free := s.free } D J0' conf sat q) := by
    intro q
    refine forall₂_of_index _ _ ?_ ?_
    · unfold HI.dLevels
      rw [List.length_map, List.length_map]
      exact hlen
    · intro i a b ha hb1
      unfold HI.dLevels at ha hb1
      rw [List.getElem?_map] at ha hb1
      obtain ⟨l, hl1, rfl⟩ := Option.map_eq_some_iff.1 ha
      obtain ⟨l', hl2, rfl⟩ := Option.map_eq_some_iff.1 hb1
      exact C128_saturation (stack_same hb hb' hst hp hp' hl hv hl' hv' hR hR' hrhs h2 hdep hD _ _ _ hl1 hl2) _
  have h1' : s''.sqThr = s.sqThr := h1
  have hd : ∀ q (v : Fin (indices s.free.segs).length → ℝ), descend o s.byLevel s.sqThr (s.dLevels D J0 conf sat q) v =
      descend o' s''.byLevel s''.sqThr (HI.dLevels { s'' with free := s.free } D J0' conf sat q) v := by
    intro q v
    have h5' : s''.byLevel = s.byLevel := h5
    rw [h1', h5']
    exact C128_direction ho hor ho' hor' s.byLevel s.sqThr (hlev q) v
  intro ops ops' r r'
  have htraj : ∀ k, traj ops' q (fun j => dq (hiFree s j), st) k = traj ops q (fun j => dq (hiFree s j), st) k := by
    intro k
    induction k with
    | zero => rfl
    | succ k ih =>
      have e1 : ∀ (O : Ops A ((Fin (indices s.free.segs).length → ℝ) × S) ℝ) m, traj O q m (k + 1) =
        O.search (traj O q m k).1 (O.dir (traj O q m k).1 (traj O q m k).2).1 := fun _ _ => rfl
      rw [e1, e1, ih]
      generalize traj ops q (fun j => dq (hiFree s j), st) k = m
      have e2 : (ops'.dir m.1 m.2).1 = (ops.dir m.1 m.2).1 := by
        show ((descend o' s''.byLevel s''.sqThr (HI.dLevels { s'' with free := s.free } D J0' conf sat m.1) m.2.1).getD 0, m.2.2) =
          ((descend o s.byLevel s.sqThr (s.dLevels D J0 conf sat m.1) m.2.1).getD 0, m.2.2)
        rw [hd]
      rw [e2]
      generalize (ops.dir m.1 m.2).1 = u
      have e3 := hls _ (HI.lsEnv { s'' with free := s.free } conf move) (s.lsEnv conf move)
        (fun q u => localSlope (HI.dLevels { s'' with free := s.free } D J0' conf sat q) u)
        (fun q u => localSlope (s.dLevels D J0 conf sat q) u) u.2 m.1 u.1 rfl rfl
      show ((ls _ (HI.lsEnv { s'' with free := s.free } conf move) _ u.2 m.1 u.1).2.arg, (u.1, _)) =
        ((ls _ (s.lsEnv conf move) _ u.2 m.1 u.1).2.arg, (u.1, _))
      rw [e3]
  have t1 := C29_statuses ops s.sqThr dqMin s.maxIter s.reducedDim q (fun j => dq (hiFree s j), st)
  have t2 := C29_statuses ops' s''.sqThr dqMin s''.maxIter (HI.reducedDim { s'' with free := s.free }) q
    (fun j => dq (hiFree s j), st)
  refine ⟨fun a v => ?_, fun k => congrArg Prod.fst (htraj k), t1.1, ?_, fun g1 g2 => ?_⟩
  · have := hd a fun j => v (hiFree s j)
    show expand (hiFree s) _ 0 = _
    rw [this]
    rfl
  · rw [← htraj]
    exact t2.1
  · by_contra hlt
    have hlt' : r.iter < r'.iter := not_le.1 hlt
    have q1 := t1.2.1.1 g1
    have q2 := (t2.2.2.2.2.2.2 r.iter hlt').1
    dsimp only at q1 q2
    rw [htraj] at q2
    generalize (traj ops q (fun j => dq (hiFree s j), st) r.iter).1 = a at q1 q2
    obtain ⟨-, N, N', n1, n2, n3, -⟩ := hnorm (conf a)
    have q1' : (s.sqNorm (conf a)).getD 0 ≤ s.sqThr := q1
    have q2' : s''.sqThr < (HI.sqNorm { s'' with free := s.free } (conf a)).getD 0 := q2
    rw [n1, Option.getD_some] at q1'
    rw [n2, Option.getD_some, h1'] at q2'
    linarith

end

namespace StackEx
open HINewtonEx

/-- `q ↦ qᵢ` -/
noncomputable def fnI (i : Nat) : Fn ℝ Nat where
  key := i
  inputSize := 2
  inputDer := 2
  spaceId := 1
  space := vectorSpace ℝ 1
  value q := [q i]
  jac _ := fun _ k => if k = i then 1 else 0
  activeQ := [i == 0, i == 1]
  active := [i == 0, i == 1]

/-- `qᵢ = 0` -/
noncomputable def conI (i : Nat) : Impl ℝ Nat := (Impl.create (fnI i) [.equality] []).get rfl

/-- The functions `q₀` and `q₁`, stacked -/
noncomputable def fns : FnSet ℝ Nat := (FnSet.ofList [fnI 0, fnI 1]).get rfl

/-- `q₀ = 0` and `q₁ = 0`, stacked -/
noncomputable def conS : Impl ℝ Nat := (Impl.create (fns.fn 2 2) [.equality, .equality] [true, true]).get rfl

theorem isStack : IsStack [conI 0, conI 1] conS :=
  ⟨fns, 2, 2, (Option.some_get _).symm, (Option.some_get _).symm⟩

/-- The solver with the stack -/
noncomputable def sol1 : HI ℝ Nat :=
  { ((HI.init ℝ Nat 2).add conS 0).1.setFreeIndices (Blocks.empty.add 0 2) with
    sqThr := 1 / 10 ^ 8, ineqThr := 0, maxIter := 20, lastIsOptional := false, byLevel := false }

/-- The solver with the parts -/
noncomputable def sol2 : HI ℝ Nat :=
  { (((HI.init ℝ Nat 2).add (conI 0) 0).1.add (conI 1) 0).1.setFreeIndices (Blocks.empty.add 0 2) with
    sqThr := 1 / 10 ^ 8, ineqThr := 0, maxIter := 20, lastIsOptional := false, byLevel := false }

theorem built1 : HI.Built El 2 [(conS, 0)] sol1 :=
  .params _ _ _ _ _ (.free (.add (h := []) .init
    ⟨fns.fn 2 2, [true, true], [.equality, .equality], .create _ _ (Option.some_get _).symm⟩ (Prod.ext rfl rfl)))

theorem built2 : HI.Built El 2 [(conI 0, 0), (conI 1, 0)] sol2 :=
  .params _ _ _ _ _ (.free (.add (h := [(conI 0, 0)]) (.add (h := []) .init
    ⟨fnI 0, [], [.equality], .create _ _ (Option.some_get _).symm⟩ (Prod.ext rfl rfl))
    ⟨fnI 1, [], [.equality], .create _ _ (Option.some_get _).symm⟩ (Prod.ext rfl rfl)))

/-- Right hand sides -/
def R : Nat → List ℝ := fun k => if k = 2 then [0, 0] else [0]

theorem rhs1 : HI.RhsIs El [(conS, 0)] sol1 R where
  el := by
    intro e he
    obtain rfl := List.mem_singleton.1 he
    rfl
  eq := by
    intro i l hi
    have h0 : i < 1 := lt_of_getElem?_some (l := sol1.levels) hi
    obtain rfl : i = 0 := by omega
    obtain rfl : (sol1.levels[0]?).get rfl = l := Option.some.inj ((Option.some_get _).trans hi)
    rfl

theorem rhs2 : HI.RhsIs El [(conI 0, 0), (conI 1, 0)] sol2 R where
  el := by
    intro e he
    simp only [List.mem_cons, List.not_mem_nil, or_false] at he
    rcases he with rfl | rfl <;> rfl
  eq := by
    intro i l hi
    have h0 : i < 1 := lt_of_getElem?_some (l := sol2.levels) hi
    obtain rfl : i = 0 := by omega
    obtain rfl : (sol2.levels[0]?).get rfl = l := Option.some.inj ((Option.some_get _).trans hi)
    rfl

theorem prod_length_lawful {a b : Space ℝ} (ha : a.Lawful fun g => g.length = a.nq) (hb : b.Lawful fun g => g.length = b.nq) :
    (a.prod b).Lawful fun g => g.length = (a.prod b).nq := by
  have : (fun g : List ℝ => g.length = (a.prod b).nq) = prodEl a.nq (fun g => g.length = a.nq) fun g => g.length = b.nq := by
    funext g
    unfold prodEl
    dsimp only
    rw [List.length_take, List.length_drop]
    show (g.length = a.nq + b.nq) = _
    apply propext
    omega
  rw [this]
  exact ha.prod hb

theorem law1 : ∀ e ∈ [(conS, 0)], e.1.fn.space.Lawful (El e.1.fn) := by
  intro e he
  obtain rfl := List.mem_singleton.1 he
  refine prod_length_lawful (prod_length_lawful ?_ (vectorSpace_lawful 1)) (vectorSpace_lawful 1)
  exact
    { neutral_mem := rfl
      log_len := fun _ _ => rfl
      len := fun _ h => h
      exp_mem := fun _ _ => rfl
      exp_log := fun g h => (List.length_eq_zero_iff.1 h).symm
      exp_zero := rfl
      log_exp_mask := fun g c _ h => by
        obtain rfl := List.length_eq_zero_iff.1 h
        rfl
      sub_len := fun _ _ _ _ => rfl
      sub_eq_zero := fun g h h1 h2 => by
        obtain rfl := List.length_eq_zero_iff.1 h1
        obtain rfl := List.length_eq_zero_iff.1 h2
        exact ⟨fun _ => rfl, fun _ => rfl⟩ }

theorem val1 : ∀ e ∈ [(conS, 0)], ∀ q, El e.1.fn (e.1.fn.value q) := by
  intro e he q
  obtain rfl := List.mem_singleton.1 he
  rfl

theorem law2 : ∀ e ∈ [(conI 0, 0), (conI 1, 0)], e.1.fn.space.Lawful (El e.1.fn) := by
  intro e he
  simp only [List.mem_cons, List.not_mem_nil, or_false] at he
  rcases he with rfl | rfl <;> exact vectorSpace_lawful 1

theorem val2 : ∀ e ∈ [(conI 0, 0), (conI 1, 0)], ∀ q, El e.1.fn (e.1.fn.value q) := by
  intro e he q
  simp only [List.mem_cons, List.not_mem_nil, or_false] at he
  rcases he with rfl | rfl <;> rfl

theorem blockDiagonal : BlockDiagonal D := by
  intro a b x y x' y' _ _
  refine ⟨fun r j _ _ => rfl, fun r j h1 h2 => ?_, fun r j h1 h2 => ?_, fun r j => ?_⟩
  · show (if r = j then (1 : ℝ) else 0) = 0
    rw [if_neg (by omega)]
  · show (if r = j then (1 : ℝ) else 0) = 0
    rw [if_neg (by omega)]
  · show (if a.nv + r = a.nv + j then (1 : ℝ) else 0) = if r = j then 1 else 0
    simp only [Nat.add_left_cancel_iff]

example (o o' : SvdOps ℝ) (ho : o.Exact) (hor : o.Ortho) (ho' : o'.Exact) (hor' : o'.Ortho) (J0 J0' : (Nat → ℝ) → Jac ℝ)
    (q : Nat → ℝ) (k : Nat) :
    (traj (sol2.fullOps D o' J0' id (fun _ _ => 0) (fun q v i => q i + v i) lineConstant) q (fun _ => 0, ()) k).1 =
    (traj (sol1.fullOps D o J0 id (fun _ _ => 0) (fun q v i => q i + v i) lineConstant) q (fun _ => 0, ()) k).1 :=
  (C130_path built1 built2 isStack (by simp) (p := 0) (h0 := []) (List.Perm.refl _) (List.Perm.refl _) law1 val1 law2 val2 rhs1 rhs2
    rfl ⟨rfl, rfl, rfl, rfl, rfl, rfl⟩ (fun h => by cases h)
    (by intro d hd
        simp only [List.mem_cons, List.not_mem_nil, or_false] at hd
        rcases hd with rfl | rfl <;> rfl)
    blockDiagonal ho hor ho' hor' J0 J0' id (fun _ _ => 0) (fun q v i => q i + v i) lineConstant C130_line_searches.1 (1 / 10 ^ 12) q
    (fun _ => 0) ()).2.1 k

/-- A configuration where each of the two constraints is satisfied up to the threshold, but not their stack -/
noncomputable def qb : Nat → ℝ := fun _ => 9 / 100000

end StackEx

open StackEx HINewtonEx in
/-- C130. The statuses are not the same: at the same configuration, the solver with the parts returns SUCCESS and the solver with the
stack does not (or it changes the configuration). -/
theorem C130_status_refuted (o o' : SvdOps ℝ) (J0 J0' : (Nat → ℝ) → Jac ℝ) (sat : (Nat → ℝ) → Nat → ℝ)
    (move : (Nat → ℝ) → (Nat → ℝ) → Nat → ℝ) (ls : LineSearch (Nat → ℝ) S) (dqMin : ℝ) (st : S) :
    let r := solve (sol1.fullOps D o J0 id sat move ls) sol1.sqThr dqMin sol1.maxIter sol1.reducedDim qb (fun _ => 0, st)
    let r' := solve (sol2.fullOps D o' J0' id sat move ls) sol2.sqThr dqMin sol2.maxIter sol2.reducedDim qb (fun _ => 0, st)
    IsStack [conI 0, conI 1] conS ∧ r'.status = some .success ∧ r'.iter = 0 ∧ r'.arg = qb ∧
    (r.status = some .success → 0 < r.iter) := by
  intro r r'
  have n1 : sol1.sqNorm qb = some (max 0 (sqSum [qb 0 - 0, qb 1 - 0])) := by
    obtain ⟨hs, hf, -⟩ := built1.inv law1 val1
    rw [solver_sqNorm_eq hs hf rhs1 (fun h => by cases h)]
    rfl
  have n2 : sol2.sqNorm qb = some (max (max 0 (sqSum [qb 0 - 0])) (sqSum [qb 1 - 0])) := by
    obtain ⟨hs, hf, -⟩ := built2.inv law2 val2
    rw [solver_sqNorm_eq hs hf rhs2 (fun h => by cases h)]
    rfl
  have m1 : sol1.sqThr < (sol1.fullOps D o J0 id sat move ls).norm qb := by
    show (1 / 10 ^ 8 : ℝ) < (sol1.sqNorm qb).getD 0
    rw [n1, Option.getD_some]
    refine lt_of_lt_of_le ?_ (le_max_right _ _)
    norm_num [sqSum, qb]
  have m2 : (sol2.fullOps D o' J0' id sat move ls).norm qb ≤ sol2.sqThr := by
    show (sol2.sqNorm qb).getD 0 ≤ (1 / 10 ^ 8 : ℝ)
    rw [n2, Option.getD_some]
    refine max_le (max_le ?_ ?_) ?_ <;> norm_num [sqSum, qb]
  have t1 := C29_statuses (sol1.fullOps D o J0 id sat move ls) sol1.sqThr dqMin sol1.maxIter sol1.reducedDim qb (fun _ => 0, st)
  have t2 := C29_statuses (sol2.fullOps D o' J0' id sat move ls) sol2.sqThr dqMin sol2.maxIter sol2.reducedDim qb (fun _ => 0, st)
  have hi : r'.iter = 0 := by
    by_contra hi
    have := (t2.2.2.2.2.2.2 0 (Nat.pos_of_ne_zero hi)).1
    exact absurd m2 (not_le.2 this)
  refine ⟨isStack, t2.2.1.2 ?_, hi, ?_, fun hs => ?_⟩
  · show (sol2.fullOps D o' J0' id sat move ls).norm (traj _ _ _ r'.iter).1 ≤ _
    rw [hi]
    exact m2
  · have := t2.1
    show r'.arg = _
    rw [show r'.arg = _ from this]
    show (traj _ _ _ r'.iter).1 = _
    rw [hi]
    rfl
  · by_contra h0
    have h1 : r.iter = 0 := by omega
    have h2 : (sol1.fullOps D o J0 id sat move ls).norm (traj _ _ _ r.iter).1 ≤ _ := t1.2.1.1 hs
    rw [h1] at h2
    exact absurd h2 (not_le.2 m1)

end Hpp
