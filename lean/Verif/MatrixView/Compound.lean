import Verif.MatrixView.Props

/-!
# Compound assignments from views (C124)

Source: `/repo/include/hpp/constraints/matrix-view.hh`, lines 224-244, and
`/repo/include/hpp/constraints/impl/matrix-view-operation.hh`, lines 72-82.

Eigen evaluates `dst = e`, `dst += e`, `dst -= e` by `Assignment<Dst, E, Functor>::run(dst, e, functor)` where the functor is
`assign_op`, `add_assign_op`, `sub_assign_op`.  The library specialises this class for views and for element-wise operations
between views and matrices.  A functor is here a function of the coefficient of the destination and of the one of the expression:
`fun _ y => y`, `(· + ·)`, `(· - ·)`.
-/

namespace Hpp

/-- Body of the loop of `Assignment<Derived, MatrixBlockView, Functor>::run` (matrix-view.hh:239-242): each block of the
destination is combined with the block of the view. -/
def accBlocks {α : Type} (f : α → α → α) (src : Mat α) : List Blk → Mat α → Option (Mat α)
  | [], dst => some dst
  | b :: bs, dst => do
    let w ← dst.getBlock b.ro b.co b.rs b.cs
    let v ← src.getBlock b.ri b.ci b.rs b.cs
    let dst ← dst.setBlock b.ro b.co b.rs b.cs fun i j => f (w i j) (v i j)
    accBlocks f src bs dst

/-- `dst.resize(rows, cols)` (Eigen): nothing if the sizes are the same, arbitrary coefficients otherwise. -/
def Mat.resize {α : Type} (m : Mat α) (r c : Nat) (junk : Nat → Nat → α) : Mat α :=
  if m.rows = r ∧ m.cols = c then m else ⟨r, c, junk⟩

/-- `Assignment<Derived, MatrixBlockView, Functor>::run` (matrix-view.hh:233-243). -/
def accView {α : Type} (f : α → α → α) (rows cols : Blocks) (src dst : Mat α) (junk : Nat → Nat → α) : Option (Mat α) := do
  let bs ← visit rows.segs cols.segs
  accBlocks f src bs (dst.resize rows.nb cols.nb junk)

/-- `Assignment<Derived, CwiseBinaryOp<matrix, view>, Functor>::run` (impl/matrix-view-operation.hh:78-81): the functor is not
used. -/
def accMatView {α : Type} (_f op : α → α → α) (rrows rcols : Blocks) (lhs rhs dst : Mat α) : Option (Mat α) :=
  binMatView op rrows rcols lhs rhs dst

/-- `Assignment<Derived, CwiseBinaryOp<view, matrix>, Functor>::run` (impl/matrix-view-operation.hh:78-81): the functor is not
used. -/
def accViewMat {α : Type} (_f op : α → α → α) (lrows lcols : Blocks) (lhs rhs dst : Mat α) : Option (Mat α) :=
  binViewMat op lrows lcols lhs rhs dst

/-- The output parts of two blocks have no common coefficient. -/
def ApartOut (b b' : Blk) : Prop := ¬ ∃ k l, (b.ro ≤ k ∧ k < b.ro + b.rs ∧ b.co ≤ l ∧ l < b.co + b.cs) ∧
  (b'.ro ≤ k ∧ k < b'.ro + b'.rs ∧ b'.co ≤ l ∧ l < b'.co + b'.cs)

theorem withOff_apart (o : Nat) (l : Segs) : (withOff o l).Pairwise fun p q => p.1 + p.2.len ≤ q.1 := by
  induction l generalizing o with
  | nil => exact .nil
  | cons s l ih => exact .cons (fun q hq => (withOff_le _ _ q hq).1) (ih _)

theorem nested_apart (rows cols : Segs) : (nested rows cols).Pairwise ApartOut := by
  unfold nested
  rw [List.pairwise_flatMap]
  refine ⟨fun c _ => List.pairwise_map.2 ((withOff_apart 0 rows).imp fun {p q} h => ?_),
    (withOff_apart 0 cols).imp fun {p q} h => ?_⟩
  · rintro ⟨k, l, h1, h2⟩
    simp only at h1 h2
    omega
  · intro x hx y hy
    obtain ⟨r, -, rfl⟩ := List.mem_map.1 hx
    obtain ⟨r', -, rfl⟩ := List.mem_map.1 hy
    rintro ⟨k, l, h1, h2⟩
    simp only at h1 h2
    omega

theorem accBlocks_spec {α : Type} (f : α → α → α) (src : Mat α) (val : Nat → Nat → α) (bs : List Blk) (dst : Mat α)
    (h1 : ∀ b ∈ bs, b.ri + b.rs ≤ src.rows ∧ b.ci + b.cs ≤ src.cols)
    (h2 : ∀ b ∈ bs, b.ro + b.rs ≤ dst.rows ∧ b.co + b.cs ≤ dst.cols)
    (h3 : ∀ b ∈ bs, ∀ s t, s < b.rs → t < b.cs → val (b.ro + s) (b.co + t) = src.coeff (b.ri + s) (b.ci + t))
    (h4 : bs.Pairwise ApartOut) :
    ∃ r, accBlocks f src bs dst = some r ∧ r.rows = dst.rows ∧ r.cols = dst.cols ∧
      (∀ k l, (∃ b ∈ bs, b.ro ≤ k ∧ k < b.ro + b.rs ∧ b.co ≤ l ∧ l < b.co + b.cs) →
        r.coeff k l = f (dst.coeff k l) (val k l)) ∧
      (∀ k l, (¬ ∃ b ∈ bs, b.ro ≤ k ∧ k < b.ro + b.rs ∧ b.co ≤ l ∧ l < b.co + b.cs) → r.coeff k l = dst.coeff k l) := by
  induction bs generalizing dst with
  | nil => exact ⟨dst, rfl, rfl, rfl, by simp, by simp⟩
  | cons b bs ih =>
    have e1 := getBlock_some dst b.ro b.co b.rs b.cs (h2 b (by simp))
    have e2 := getBlock_some src b.ri b.ci b.rs b.cs (h1 b (by simp))
    have e3 := setBlock_some dst b.ro b.co b.rs b.cs
      (fun i j => f (dst.coeff (b.ro + i) (b.co + j)) (src.coeff (b.ri + i) (b.ci + j))) (h2 b (by simp))
    obtain ⟨hb, h4⟩ := List.pairwise_cons.1 h4
    obtain ⟨r, g1, g2, g3, g4, g5⟩ := ih { dst with coeff := fun i j =>
          if b.ro ≤ i ∧ i < b.ro + b.rs ∧ b.co ≤ j ∧ j < b.co + b.cs then
            (f (dst.coeff (b.ro + (i - b.ro)) (b.co + (j - b.co)))
              (src.coeff (b.ri + (i - b.ro)) (b.ci + (j - b.co)))) else dst.coeff i j }
      (fun x hx => h1 x (by simp [hx])) (fun x hx => h2 x (by simp [hx])) (fun x hx => h3 x (by simp [hx])) h4
    refine ⟨r, by simp [accBlocks, e1, e2, e3, g1], g2, g3, ?_, ?_⟩
    · rintro i j ⟨x, hx, hc⟩
      rcases List.mem_cons.1 hx with rfl | hx
      · rw [g5 i j fun ⟨y, hy, hy'⟩ => hb y hy ⟨i, j, hc, hy'⟩]
        simp only [hc, and_self, if_true]
        have := h3 x (by simp) (i - x.ro) (j - x.co) (by omega) (by omega)
        rw [← this, show x.ro + (i - x.ro) = i by omega, show x.co + (j - x.co) = j by omega]
      · rw [g4 i j ⟨x, hx, hc⟩]
        dsimp only
        rw [if_neg fun h => hb x hx ⟨i, j, h, hc⟩]
    · intro i j hno
      rw [g5 i j (fun ⟨x, hx, hc⟩ => hno ⟨x, by simp [hx], hc⟩)]
      exact if_neg (fun hc => hno ⟨b, by simp, hc⟩)

/-- C124. `dst op= view`: each coefficient of the destination is combined once with the coefficient of the same rank of the view. -/
theorem C124_view {α : Type} (f : α → α → α) (rows cols : Blocks) (src dst : Mat α) (junk : Nat → Nat → α)
    (hnr : rows.nb = (indices rows.segs).length) (hnc : cols.nb = (indices cols.segs).length)
    (hd : dst.rows = rows.nb ∧ dst.cols = cols.nb) (hr : Within rows.segs src.rows) (hc : Within cols.segs src.cols) :
    ∃ r, accView f rows cols src dst junk = some r ∧ r.rows = dst.rows ∧ r.cols = dst.cols ∧
      ∀ k l i j, (indices rows.segs)[k]? = some i → (indices cols.segs)[l]? = some j →
        r.coeff k l = f (dst.coeff k l) (src.coeff i j) := by
  obtain ⟨r, h1, h2, h3, h4, -⟩ := accBlocks_spec f src
    (fun k l => src.coeff ((indices rows.segs).getD k 0) ((indices cols.segs).getD l 0)) (nested rows.segs cols.segs) dst
    (nested_within hr hc)
    (by
      intro b hb
      have := nested_rank b hb
      rw [cardinal_eq_length, cardinal_eq_length] at this
      omega)
    (by
      intro b hb s t hs ht
      obtain ⟨e1, e2⟩ := nested_indices b hb s t hs ht
      simp [List.getD, e1, e2])
    (nested_apart _ _)
  refine ⟨r, ?_, h2, h3, ?_⟩
  · simp only [accView, visit_eq, Option.bind_eq_bind, Option.bind_some, Mat.resize, if_pos hd, h1]
  · intro k l i j hi hj
    rw [h4 k l (covered_rank (by rw [cardinal_eq_length]; exact lt_of_getElem?_some hi)
      (by rw [cardinal_eq_length]; exact lt_of_getElem?_some hj))]
    simp [List.getD, hi, hj]

/-- C124. `dst = view` and `dst += view`, without repeated ranks but with repeated indices: rows 2, 2 and 0. -/
example : ∃ r : Mat Nat, accView (· + ·) ⟨[⟨2, 1⟩, ⟨2, 1⟩, ⟨0, 1⟩], 3⟩ ⟨[⟨0, 1⟩], 1⟩ ⟨3, 1, fun i _ => i⟩ ⟨3, 1, fun i _ => 10 * i⟩
    (fun _ _ => 99) = some r ∧ r.coeff 0 0 = 2 ∧ r.coeff 1 0 = 12 ∧ r.coeff 2 0 = 20 := by
  obtain ⟨r, h, -, -, hc⟩ := C124_view (· + ·) ⟨[⟨2, 1⟩, ⟨2, 1⟩, ⟨0, 1⟩], 3⟩ ⟨[⟨0, 1⟩], 1⟩ (⟨3, 1, fun i _ => i⟩ : Mat Nat)
    ⟨3, 1, fun i _ => 10 * i⟩ (fun _ _ => 99) (by decide) (by decide) ⟨rfl, rfl⟩ (by simp [Within]) (by simp [Within])
  exact ⟨r, h, by rw [hc 0 0 2 0 (by decide) (by decide)]; rfl, by rw [hc 1 0 2 0 (by decide) (by decide)]; rfl,
    by rw [hc 2 0 0 0 (by decide) (by decide)]; rfl⟩

/-- C124. A plain assignment does not depend on the previous size of the destination, nor on its coefficients. -/
theorem C124_assign {α : Type} (rows cols : Blocks) (src dst : Mat α) (junk : Nat → Nat → α)
    (hnr : rows.nb = (indices rows.segs).length) (hnc : cols.nb = (indices cols.segs).length)
    (hr : Within rows.segs src.rows) (hc : Within cols.segs src.cols) :
    ∃ r, accView (fun _ y => y) rows cols src dst junk = some r ∧ r.rows = rows.nb ∧ r.cols = cols.nb ∧
      ∀ k l i j, (indices rows.segs)[k]? = some i → (indices cols.segs)[l]? = some j → r.coeff k l = src.coeff i j := by
  by_cases hd : dst.rows = rows.nb ∧ dst.cols = cols.nb
  · obtain ⟨r, h1, h2, h3, h4⟩ := C124_view (fun _ y => y) rows cols src dst junk hnr hnc hd hr hc
    exact ⟨r, h1, h2.trans hd.1, h3.trans hd.2, h4⟩
  · obtain ⟨r, h1, h2, h3, h4⟩ := C124_view (fun _ y => y) rows cols src ⟨rows.nb, cols.nb, junk⟩ junk hnr hnc ⟨rfl, rfl⟩ hr hc
    refine ⟨r, ?_, h2, h3, h4⟩
    rw [← h1]
    simp [accView, visit_eq, Mat.resize, hd]

/-- What `dst op= matrix op' view` has to compute. -/
def IsCompound {α : Type} (f op : α → α → α) (rr rc : List Nat) (lhs rhs dst r : Mat α) : Prop :=
  ∀ k l i j, rr[k]? = some i → rc[l]? = some j → r.coeff k l = f (dst.coeff k l) (op (lhs.coeff k l) (rhs.coeff i j))

/-- C124. What holds for `dst op= matrix op' view` and `dst op= view op' matrix`: plain assignments. -/
theorem C124_expression_partial {α : Type} (op : α → α → α) (rows cols : Blocks) (m v dst : Mat α)
    (hd : dst.rows = (indices rows.segs).length ∧ dst.cols = (indices cols.segs).length)
    (hm : m.rows = (indices rows.segs).length ∧ m.cols = (indices cols.segs).length)
    (hr : Within rows.segs v.rows) (hc : Within cols.segs v.cols) :
    (∃ r, accMatView (fun _ y => y) op rows cols m v dst = some r ∧
      IsCompound (fun _ y => y) op (indices rows.segs) (indices cols.segs) m v dst r) ∧
    ∃ r, accViewMat (fun _ y => y) op rows cols v m dst = some r ∧
      IsCompound (fun _ y => y) (fun x y => op y x) (indices rows.segs) (indices cols.segs) m v dst r :=
  ⟨C67_matrix_op_view op rows cols m v dst hd hm hr hc, C67_view_op_matrix op rows cols v m dst hd hm hr hc⟩

/-- C124. False of the other assignments: whatever the functor, the destination is overwritten.  `dst += matrix + view` is right
only at coefficients where the destination was null. -/
theorem C124_expression_refuted (rows cols : Blocks) (m v dst : Mat ℤ)
    (hd : dst.rows = (indices rows.segs).length ∧ dst.cols = (indices cols.segs).length)
    (hm : m.rows = (indices rows.segs).length ∧ m.cols = (indices cols.segs).length)
    (hr : Within rows.segs v.rows) (hc : Within cols.segs v.cols) :
    (∃ r, accMatView (· + ·) (· + ·) rows cols m v dst = some r ∧
      (IsCompound (· + ·) (· + ·) (indices rows.segs) (indices cols.segs) m v dst r ↔
        ∀ k l, k < dst.rows → l < dst.cols → dst.coeff k l = 0)) ∧
    ∃ r, accViewMat (· + ·) (· + ·) rows cols v m dst = some r ∧
      (IsCompound (· + ·) (· + ·) (indices rows.segs) (indices cols.segs) m v dst r ↔
        ∀ k l, k < dst.rows → l < dst.cols → dst.coeff k l = 0) := by
  have key : ∀ r : Mat ℤ, (∀ k l i j, (indices rows.segs)[k]? = some i → (indices cols.segs)[l]? = some j →
      r.coeff k l = m.coeff k l + v.coeff i j) →
      (IsCompound (· + ·) (· + ·) (indices rows.segs) (indices cols.segs) m v dst r ↔
        ∀ k l, k < dst.rows → l < dst.cols → dst.coeff k l = 0) := by
    intro r h
    constructor
    · intro g k l hk hl
      have hi := List.getElem?_eq_getElem (l := indices rows.segs) (i := k) (by omega)
      have hj := List.getElem?_eq_getElem (l := indices cols.segs) (i := l) (by omega)
      have := g k l _ _ hi hj
      rw [h k l _ _ hi hj] at this
      simp only at this
      omega
    · intro g k l i j hi hj
      rw [h k l i j hi hj]
      simp only
      rw [g k l (by rw [hd.1]; exact lt_of_getElem?_some hi) (by rw [hd.2]; exact lt_of_getElem?_some hj), Int.zero_add]
  obtain ⟨r, h1, h2⟩ := C67_matrix_op_view (· + ·) rows cols m v dst hd hm hr hc
  obtain ⟨r', h1', h2'⟩ := C67_view_op_matrix (· + ·) rows cols v m dst hd hm hr hc
  exact ⟨⟨r, h1, key r h2⟩, r', h1', key r' fun k l i j hi hj => by rw [h2' k l i j hi hj, Int.add_comm]⟩

example : ∃ r : Mat ℤ, accMatView (· + ·) (· + ·) ⟨[⟨1, 1⟩], 1⟩ ⟨[⟨0, 1⟩], 1⟩ ⟨1, 1, fun _ _ => 3⟩
    (⟨2, 1, fun i _ => 10 * i⟩ : Mat ℤ) ⟨1, 1, fun _ _ => 100⟩ = some r ∧ r.coeff 0 0 = 13 := ⟨_, rfl, by decide⟩

end Hpp
