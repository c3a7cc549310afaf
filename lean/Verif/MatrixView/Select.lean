import Verif.MatrixView.Props
import Verif.Segments.Props

/-!
# C113: selections of rows and columns

Source: `/repo/include/hpp/constraints/matrix-view.hh`: `MatrixBlocks<_allRows, _allCols>`, `MatrixBlocksRef`, their views, and
`MatrixBlockView::isZero`.  `Verif.MatrixView.Model` models the views where intervals are given for rows and columns; here,
the template arguments `_allRows` and `_allCols` are modelled.
-/

namespace Hpp

/-! ## Model -/

/-- `MatrixBlocks<allRows, allCols>` and `MatrixBlocksRef<allRows, allCols>` (members: matrix-view.hh:688-698 and 773-775).
When `allRows` is true, `m_rows` is an `empty_struct` (163-173, 178-196): `rows.segs` is then meaningless. -/
structure Sel where
  allRows : Bool
  allCols : Bool
  rows : Blocks
  cols : Blocks

/-- `m_rows.size()`, which is 1 for an `empty_struct` (matrix-view.hh:171). -/
def selSize (all : Bool) (l : Segs) : Nat := if all then 1 else l.length

/-- `valid()` (matrix-view.hh:904-907). -/
def BlockIt.validG (s : Sel) (it : BlockIt) : Bool :=
  (s.allRows || decide (s.rows.segs.length > 0)) &&
    decide (it.col < (if s.allCols then 1 else s.cols.segs.length))

/-- `static_if<all>::pp(make_pair(0, nb), v[k])` (matrix-view.hh:852-876). -/
def selSeg (all : Bool) (nb : Nat) (l : Segs) (k : Nat) : Option Seg := if all then some ⟨0, nb⟩ else l[k]?

/-- The current block; `nr`, `nc`: `m_nbRows`, `m_nbCols` (matrix-view.hh:846-876). -/
def BlockIt.blkG (s : Sel) (nr nc : Nat) (it : BlockIt) : Option Blk :=
  match selSeg s.allRows nr s.rows.segs it.row, selSeg s.allCols nc s.cols.segs it.col with
  | some r, some c => some ⟨it.ro, it.co, r.first, c.first, r.len, c.len⟩
  | _, _ => none

/-- `operator++` (matrix-view.hh:878-901). -/
def BlockIt.nextG (s : Sel) (b : Blk) (it : BlockIt) : BlockIt :=
  let ro := if s.allRows then it.ro else it.ro + b.rs
  let row := it.row + 1
  if row = selSize s.allRows s.rows.segs then ⟨0, it.col + 1, 0, if s.allCols then it.co else it.co + b.cs⟩
  else ⟨row, it.col, ro, it.co⟩

/-- `for (block_iterator b(view); b.valid(); ++b)` -/
def visitLoopG (s : Sel) (nr nc : Nat) : Nat → BlockIt → Option (List Blk)
  | 0, _ => none
  | fuel + 1, it =>
    if it.validG s then
      match it.blkG s nr nc with
      | none => none
      | some b => (visitLoopG s nr nc fuel (it.nextG s b)).map (b :: ·)
    else some []

/-- `nbIndices` (matrix-view.hh:493-495). -/
def Sel.nbIndices (s : Sel) : Nat := if s.allRows then s.cols.nb else s.rows.nb

/-- Sizes of the view that `lview` and `rview` build (matrix-view.hh:437-461) with the constructors of `MatrixBlockView`
(943-961). -/
def Sel.sizes {α : Type} (s : Sel) (m : Mat α) : Nat × Nat :=
  if s.allRows || s.allCols then
    (if s.allRows then m.rows else s.nbIndices, if s.allCols then m.cols else s.nbIndices)
  else (s.rows.nb, s.cols.nb)

def Sel.visit {α : Type} (s : Sel) (m : Mat α) : Option (List Blk) :=
  visitLoopG s (s.sizes m).1 (s.sizes m).2 (selSize s.allRows s.rows.segs * selSize s.allCols s.cols.segs + 1)
    ⟨0, 0, 0, 0⟩

/-- `rview(m).eval()`: `writeTo` (matrix-view.hh:987-1001, 301-312). -/
def Sel.read {α : Type} (s : Sel) (m : Mat α) (junk : Nat → Nat → α) : Option (Mat α) :=
  (s.visit m).bind fun bs => readBlocks m bs ⟨(s.sizes m).1, (s.sizes m).2, junk⟩

/-- `lview(m) = src` (matrix-view.hh:1003-1010, 287-298). -/
def Sel.write {α : Type} (s : Sel) (m src : Mat α) : Option (Mat α) :=
  (s.visit m).bind fun bs => writeBlocks src bs m

/-- `transpose()` (matrix-view.hh:463-466). -/
def Sel.transpose (s : Sel) : Sel := ⟨s.allCols, s.allRows, s.cols, s.rows⟩

/-- `keepRows()` (matrix-view.hh:468-471), with the constructor of `MatrixBlocksRef` by indices (744-749).  `none`: the
assertion fails. -/
def Sel.keepRows (s : Sel) : Option Sel :=
  if s.allRows then none else some ⟨s.allRows, true, ⟨s.rows.segs, if s.allRows then 0 else s.rows.nb⟩, ⟨[], 0⟩⟩

/-- `keepCols()` (matrix-view.hh:473-476). -/
def Sel.keepCols (s : Sel) : Option Sel :=
  if s.allCols then none else some ⟨true, s.allCols, ⟨[], 0⟩, ⟨s.cols.segs, if s.allCols then 0 else s.cols.nb⟩⟩

/-- `block` (matrix-view.hh:506-510), for `MatrixBlocks<false, false>`: the code does not compile otherwise.  The
constructor by two vectors of segments computes the numbers of indices (557-561).  `none`: an assertion of
`BlockIndex::extract` fails. -/
def Sel.block (s : Sel) (i j ni nj : Nat) : Option Sel :=
  (extract? s.rows.segs i ni).bind fun r => (extract? s.cols.segs j nj).map fun c =>
    ⟨false, false, .ofSegs r, .ofSegs c⟩

/-- `middleRows` (matrix-view.hh:515-518). -/
def Sel.middleRows (s : Sel) (i ni : Nat) : Option Sel :=
  (extract? s.rows.segs i ni).map fun r => ⟨false, false, .ofSegs r, .ofSegs s.cols.segs⟩

/-- `middleCols` (matrix-view.hh:523-526). -/
def Sel.middleCols (s : Sel) (j nj : Nat) : Option Sel :=
  (extract? s.cols.segs j nj).map fun c => ⟨false, false, .ofSegs s.rows.segs, .ofSegs c⟩

/-- Loop of `isZero` (matrix-view.hh:1030-1037).  `small` is the test of Eigen on each coefficient, `|x| ≤ prec`. -/
def zeroBlocks {α : Type} (small : α → Bool) (m : Mat α) : List Blk → Option Bool
  | [] => some true
  | b :: bs => (m.getBlock b.ri b.ci b.rs b.cs).bind fun v =>
    if (List.range b.rs).all fun i => (List.range b.cs).all fun j => small (v i j) then zeroBlocks small m bs
    else some false

def Sel.isZero {α : Type} (s : Sel) (small : α → Bool) (m : Mat α) : Option Bool :=
  (s.visit m).bind (zeroBlocks small m)

/-! ## Specification -/

/-- The rows of the matrix that are selected, in order. -/
def Sel.rowIdx {α : Type} (s : Sel) (m : Mat α) : List Nat := if s.allRows then List.range m.rows else indices s.rows.segs

def Sel.colIdx {α : Type} (s : Sel) (m : Mat α) : List Nat := if s.allCols then List.range m.cols else indices s.cols.segs

/-- The intervals fit in the matrix and the numbers of indices are right. -/
structure Sel.Fits {α : Type} (s : Sel) (m : Mat α) : Prop where
  rows : s.allRows = false → Within s.rows.segs m.rows ∧ s.rows.nb = (indices s.rows.segs).length
  cols : s.allCols = false → Within s.cols.segs m.cols ∧ s.cols.nb = (indices s.cols.segs).length

/-- `r` is the matrix of the coefficients of `m` on the given rows and columns. -/
def IsSelection {α : Type} (m : Mat α) (rows cols : List Nat) (r : Mat α) : Prop :=
  r.rows = rows.length ∧ r.cols = cols.length ∧
  ∀ k l i j : Nat, rows[k]? = some i → cols[l]? = some j → r.coeff k l = m.coeff i j

def Mat.tr {α : Type} (m : Mat α) : Mat α := ⟨m.cols, m.rows, fun i j => m.coeff j i⟩

/-! ## One or two dimensions: same iteration -/

/-- The intervals of a dimension: a single one when all the indices are selected. -/
def effSegs (all : Bool) (n : Nat) (l : Segs) : Segs := if all then [⟨0, n⟩] else l

theorem effSegs_length (all : Bool) (n : Nat) (l : Segs) : (effSegs all n l).length = selSize all l := by
  cases all <;> rfl

theorem indices_effSegs (all : Bool) (n : Nat) (l : Segs) :
    indices (effSegs all n l) = if all then List.range n else indices l := by
  cases all
  · rfl
  · simp [effSegs, indices, List.range_eq_range']

theorem visitLoopG_eq (s : Sel) (nr nc : Nat) : ∀ (fuel : Nat) (a b : BlockIt),
    a.row = b.row → a.col = b.col → a.ro = b.ro → (s.allCols = true → 1 ≤ a.col ∨ a.co = b.co) →
    (s.allCols = false → a.co = b.co) → (s.allRows = true → a.row = 0) →
    visitLoopG s nr nc fuel a = visitLoop (effSegs s.allRows nr s.rows.segs) (effSegs s.allCols nc s.cols.segs) fuel b := by
  intro fuel
  induction fuel with
  | zero => intros; rfl
  | succ fuel ih =>
    intro a b h1 h2 h3 h4 h5 h6
    have hv : a.validG s = b.valid (effSegs s.allRows nr s.rows.segs) (effSegs s.allCols nc s.cols.segs) := by
      unfold BlockIt.validG BlockIt.valid
      rw [h2]
      cases s.allRows <;> cases s.allCols <;> simp [effSegs]
    unfold visitLoopG visitLoop
    rw [hv]
    by_cases hval : b.valid (effSegs s.allRows nr s.rows.segs) (effSegs s.allCols nc s.cols.segs) = true
    · rw [if_pos hval, if_pos hval]
      have hcol : s.allCols = true → a.col = 0 := by
        intro hc
        unfold BlockIt.valid at hval
        rw [hc] at hval
        simp [effSegs] at hval
        omega
      have hco : a.co = b.co := by
        cases hc : s.allCols with
        | false => exact h5 hc
        | true => rcases h4 hc with h | h
                  · have := hcol hc; omega
                  · exact h
      have hb : a.blkG s nr nc =
          b.blk (effSegs s.allRows nr s.rows.segs) (effSegs s.allCols nc s.cols.segs) := by
        have e1 : selSeg s.allRows nr s.rows.segs a.row = (effSegs s.allRows nr s.rows.segs)[b.row]? := by
          cases hr : s.allRows with
          | false => simp [selSeg, effSegs, h1]
          | true => rw [← h1, h6 hr]; rfl
        have e2 : selSeg s.allCols nc s.cols.segs a.col = (effSegs s.allCols nc s.cols.segs)[b.col]? := by
          cases hr : s.allCols with
          | false => simp [selSeg, effSegs, h2]
          | true => rw [← h2, hcol hr]; rfl
        unfold BlockIt.blkG BlockIt.blk
        rw [e1, e2, h3, hco]
        cases (effSegs s.allRows nr s.rows.segs)[b.row]? <;> cases (effSegs s.allCols nc s.cols.segs)[b.col]? <;> rfl
      rw [hb]
      cases b.blk (effSegs s.allRows nr s.rows.segs) (effSegs s.allCols nc s.cols.segs) with
      | none => rfl
      | some k =>
        show Option.map _ _ = Option.map _ _
        congr 1
        have hlen := effSegs_length s.allRows nr s.rows.segs
        by_cases hr : a.row + 1 = selSize s.allRows s.rows.segs
        · have hr' : b.row + 1 = (effSegs s.allRows nr s.rows.segs).length := by omega
          have ea : a.nextG s k = ⟨0, a.col + 1, 0, if s.allCols then a.co else a.co + k.cs⟩ := if_pos hr
          have eb : b.next (effSegs s.allRows nr s.rows.segs) k = ⟨0, b.col + 1, 0, b.co + k.cs⟩ := if_pos hr'
          rw [ea, eb]
          refine ih _ _ rfl (by simp [h2]) rfl (fun _ => .inl (by simp)) (fun hc => ?_) fun _ => rfl
          rw [hc]
          show a.co + k.cs = b.co + k.cs
          rw [hco]
        · have hr' : ¬ b.row + 1 = (effSegs s.allRows nr s.rows.segs).length := by omega
          have hall : s.allRows = false := by
            cases h : s.allRows with
            | false => rfl
            | true =>
              have := h6 h
              rw [h] at hr
              exact absurd (by rw [this]; rfl) hr
          have ea : a.nextG s k = ⟨a.row + 1, a.col, if s.allRows then a.ro else a.ro + k.rs, a.co⟩ := if_neg hr
          have eb : b.next (effSegs s.allRows nr s.rows.segs) k = ⟨b.row + 1, b.col, b.ro + k.rs, b.co⟩ := if_neg hr'
          rw [ea, eb, hall]
          rw [hall] at ih
          refine ih _ _ (by simp [h1]) h2 (by simp [h3]) (fun hc => .inr hco) (fun _ => hco) fun h => by cases h
    · rw [if_neg hval, if_neg hval]

theorem Sel.visit_eq {α : Type} (s : Sel) (m : Mat α) : s.visit m =
    some (nested (effSegs s.allRows (s.sizes m).1 s.rows.segs) (effSegs s.allCols (s.sizes m).2 s.cols.segs)) := by
  rw [← Hpp.visit_eq]
  unfold Sel.visit Hpp.visit
  rw [effSegs_length, effSegs_length]
  exact visitLoopG_eq s _ _ _ _ _ rfl rfl rfl (fun _ => .inr rfl) (fun _ => rfl) fun _ => rfl

theorem Sel.sizes_eq {α : Type} {s : Sel} {m : Mat α} (h : s.Fits m) :
    s.sizes m = ((s.rowIdx m).length, (s.colIdx m).length) := by
  unfold Sel.sizes Sel.rowIdx Sel.colIdx Sel.nbIndices
  cases hr : s.allRows <;> cases hc : s.allCols <;> simp [h.rows, h.cols, hr, hc]

theorem Sel.eff {α : Type} {s : Sel} {m : Mat α} (h : s.Fits m) :
    Within (effSegs s.allRows (s.sizes m).1 s.rows.segs) m.rows ∧
    Within (effSegs s.allCols (s.sizes m).2 s.cols.segs) m.cols ∧
    indices (effSegs s.allRows (s.sizes m).1 s.rows.segs) = s.rowIdx m ∧
    indices (effSegs s.allCols (s.sizes m).2 s.cols.segs) = s.colIdx m := by
  rw [indices_effSegs, indices_effSegs, Sel.sizes_eq h]
  unfold Sel.rowIdx Sel.colIdx
  refine ⟨?_, ?_, ?_, ?_⟩
  · cases hr : s.allRows with
    | false => exact (h.rows hr).1
    | true => simp [effSegs, Within]
  · cases hr : s.allCols with
    | false => exact (h.cols hr).1
    | true => simp [effSegs, Within]
  · cases hr : s.allRows <;> simp
  · cases hr : s.allCols <;> simp

/-! ## Theorems -/

/-- C113. Reading through a selection of all the rows, of all the columns, of both or of none. -/
theorem C113_read {α : Type} (s : Sel) (m : Mat α) (h : s.Fits m) (junk : Nat → Nat → α) :
    ∃ r, s.read m junk = some r ∧ IsSelection m (s.rowIdx m) (s.colIdx m) r := by
  obtain ⟨h1, h2, h3, h4⟩ := Sel.eff h
  have hs := Sel.sizes_eq h
  obtain ⟨r, hr, e1, e2, e3⟩ := C07_read ⟨effSegs s.allRows (s.sizes m).1 s.rows.segs, (s.sizes m).1⟩
    ⟨effSegs s.allCols (s.sizes m).2 s.cols.segs, (s.sizes m).2⟩ m junk (by rw [h3, hs]) (by rw [h4, hs]) h1 h2
  refine ⟨r, ?_, ?_⟩
  · unfold Sel.read
    rw [Sel.visit_eq]
    unfold readView at hr
    rw [Hpp.visit_eq] at hr
    exact hr
  · simp only [h3, h4] at e1 e2 e3
    exact ⟨e1, e2, e3⟩

/-- C113. Writing through a selection without repeated index. -/
theorem C113_write {α : Type} (s : Sel) (m src : Mat α) (h : s.Fits m) (hsr : src.rows = (s.rowIdx m).length)
    (hsc : src.cols = (s.colIdx m).length) (ndr : (s.rowIdx m).Nodup) (ndc : (s.colIdx m).Nodup) :
    ∃ r, s.write m src = some r ∧ r.rows = m.rows ∧ r.cols = m.cols ∧
      IsSelection r (s.rowIdx m) (s.colIdx m) src ∧
      ∀ i j, ¬ (i ∈ s.rowIdx m ∧ j ∈ s.colIdx m) → r.coeff i j = m.coeff i j := by
  obtain ⟨h1, h2, h3, h4⟩ := Sel.eff h
  obtain ⟨r, hr, e1, e2, e3, e4⟩ := C07_write ⟨effSegs s.allRows (s.sizes m).1 s.rows.segs, (s.sizes m).1⟩
    ⟨effSegs s.allCols (s.sizes m).2 s.cols.segs, (s.sizes m).2⟩ m src (by rw [h3, hsr]) (by rw [h4, hsc]) h1 h2
    (by rw [h3]; exact ndr) (by rw [h4]; exact ndc)
  simp only [h3, h4] at e3 e4
  refine ⟨r, ?_, e1, e2, ⟨hsr, hsc, fun k l i j hi hj => (e3 k l i j hi hj).symm⟩, e4⟩
  unfold Sel.write
  rw [Sel.visit_eq]
  unfold writeView at hr
  rw [Hpp.visit_eq] at hr
  exact hr

/-- C113. The transposed selection reads in the transposed matrix the transpose of what the selection reads. -/
theorem C113_transpose {α : Type} (s : Sel) (m : Mat α) (h : s.Fits m) (junk junk' : Nat → Nat → α) :
    ∃ r r', s.read m junk = some r ∧ s.transpose.read m.tr junk' = some r' ∧ r'.rows = r.cols ∧ r'.cols = r.rows ∧
      ∀ k l, k < r'.rows → l < r'.cols → r'.coeff k l = r.coeff l k := by
  obtain ⟨r, hr, e1, e2, e3⟩ := C113_read s m h junk
  obtain ⟨r', hr', f1, f2, f3⟩ := C113_read s.transpose m.tr ⟨h.cols, h.rows⟩ junk'
  have g1 : s.transpose.rowIdx m.tr = s.colIdx m := rfl
  have g2 : s.transpose.colIdx m.tr = s.rowIdx m := rfl
  rw [g1] at f1 f3
  rw [g2] at f2 f3
  refine ⟨r, r', hr, hr', by omega, by omega, fun k l hk hl => ?_⟩
  have hk' : k < (s.colIdx m).length := by omega
  have hl' : l < (s.rowIdx m).length := by omega
  rw [f3 k l _ _ (List.getElem?_eq_getElem hk') (List.getElem?_eq_getElem hl'),
    e3 l k _ _ (List.getElem?_eq_getElem hl') (List.getElem?_eq_getElem hk')]
  rfl

/-- C113. `keepRows` selects the same rows and all the columns; `keepCols` the same columns and all the rows. -/
theorem C113_keep {α : Type} (s : Sel) (m : Mat α) (h : s.Fits m) :
    (s.allRows = false → ∃ t, s.keepRows = some t ∧ t.Fits m ∧ t.rowIdx m = s.rowIdx m ∧
      t.colIdx m = List.range m.cols) ∧
    (s.allCols = false → ∃ t, s.keepCols = some t ∧ t.Fits m ∧ t.rowIdx m = List.range m.rows ∧
      t.colIdx m = s.colIdx m) := by
  refine ⟨fun hr => ⟨_, by unfold Sel.keepRows; rw [if_neg (by rw [hr]; decide)], ⟨fun _ => ?_, fun h => by cases h⟩, ?_, ?_⟩,
    fun hr => ⟨_, by unfold Sel.keepCols; rw [if_neg (by rw [hr]; decide)], ⟨fun h => (by cases h), fun _ => ?_⟩, ?_, ?_⟩⟩
  · have := h.rows hr
    simpa [hr] using this
  · simp [Sel.rowIdx]
  · simp [Sel.colIdx]
  · have := h.cols hr
    simpa [hr] using this
  · simp [Sel.rowIdx]
  · simp [Sel.colIdx]

theorem extract?_mem {l r : Segs} {start n : Nat} (h : extract? l start n = some r) :
    ∀ s ∈ r, ∃ t ∈ l, t.first ≤ s.first ∧ s.first + s.len ≤ t.first + t.len := by
  have hend : ∀ (l : Segs) (n : Nat) (r : Segs), extractEnd l n = some r →
      ∀ s ∈ r, ∃ t ∈ l, t.first ≤ s.first ∧ s.first + s.len ≤ t.first + t.len := by
    intro l
    induction l with
    | nil => intro n r h; simp [extractEnd] at h
    | cons a l ih =>
      intro n r h s hs
      unfold extractEnd at h
      split at h
      · obtain rfl := Option.some.inj h
        simp only [List.mem_singleton] at hs
        subst hs
        exact ⟨a, by simp, by simp, by simp; omega⟩
      · cases he : extractEnd l (n - a.len) with
        | none => rw [he] at h; cases h
        | some r' =>
          rw [he] at h
          obtain rfl := Option.some.inj h
          rcases List.mem_cons.1 hs with rfl | hs
          · exact ⟨_, List.mem_cons_self, le_refl _, le_refl _⟩
          · obtain ⟨t, ht, h'⟩ := ih _ _ he s hs
            exact ⟨t, List.mem_cons_of_mem _ ht, h'⟩
  induction l generalizing start r with
  | nil => simp [extract?] at h
  | cons a l ih =>
    unfold extract? at h
    split at h
    · split at h
      · obtain rfl := Option.some.inj h
        intro s hs
        simp only [List.mem_singleton] at hs
        subst hs
        exact ⟨a, by simp, by simp, by simp; omega⟩
      · cases he : extractEnd l (n - (a.len - start)) with
        | none => rw [he] at h; cases h
        | some r' =>
          rw [he] at h
          obtain rfl := Option.some.inj h
          intro s hs
          rcases List.mem_cons.1 hs with rfl | hs
          · exact ⟨a, by simp, by simp, by simp; omega⟩
          · obtain ⟨t, ht, h'⟩ := hend _ _ _ he s hs
            exact ⟨t, List.mem_cons_of_mem _ ht, h'⟩
    · intro s hs
      obtain ⟨t, ht, h'⟩ := ih h s hs
      exact ⟨t, List.mem_cons_of_mem _ ht, h'⟩

theorem within_extract {l r : Segs} {start n k : Nat} (h : extract? l start n = some r) (hw : Within l k) :
    Within r k := by
  intro s hs
  obtain ⟨t, ht, -, h2⟩ := extract?_mem h s hs
  exact le_trans h2 (hw t ht)

/-- C113. A block of a selection of rows and columns selects the rows of ranks `i, ..., i + ni - 1` and the columns
of ranks `j, ..., j + nj - 1`, in order. -/
theorem C113_block {α : Type} (s : Sel) (m : Mat α) (h : s.Fits m) (h0 : s.allRows = false ∧ s.allCols = false)
    (i j ni nj : Nat) (hi : i < (s.rowIdx m).length ∧ i + ni ≤ (s.rowIdx m).length)
    (hj : j < (s.colIdx m).length ∧ j + nj ≤ (s.colIdx m).length) :
    (∃ t, s.block i j ni nj = some t ∧ t.Fits m ∧ t.rowIdx m = ((s.rowIdx m).drop i).take ni ∧
      t.colIdx m = ((s.colIdx m).drop j).take nj) ∧
    (∃ t, s.middleRows i ni = some t ∧ t.Fits m ∧ t.rowIdx m = ((s.rowIdx m).drop i).take ni ∧
      t.colIdx m = s.colIdx m) ∧
    (∃ t, s.middleCols j nj = some t ∧ t.Fits m ∧ t.rowIdx m = s.rowIdx m ∧
      t.colIdx m = ((s.colIdx m).drop j).take nj) := by
  have er : s.rowIdx m = indices s.rows.segs := by simp [Sel.rowIdx, h0.1]
  have ec : s.colIdx m = indices s.cols.segs := by simp [Sel.colIdx, h0.2]
  rw [er] at hi ⊢
  rw [ec] at hj ⊢
  rw [← cardinal_eq_length] at hi hj
  obtain ⟨r, hr, hr'⟩ := C05_extract s.rows.segs i ni hi.1 hi.2
  obtain ⟨c, hc, hc'⟩ := C05_extract s.cols.segs j nj hj.1 hj.2
  have wr := within_extract hr (h.rows h0.1).1
  have wc := within_extract hc (h.cols h0.2).1
  refine ⟨⟨⟨false, false, .ofSegs r, .ofSegs c⟩, by simp [Sel.block, hr, hc], ⟨fun _ => ⟨wr, cardinal_eq_length r⟩,
      fun _ => ⟨wc, cardinal_eq_length c⟩⟩, ?_, ?_⟩,
    ⟨⟨false, false, .ofSegs r, .ofSegs s.cols.segs⟩, by simp [Sel.middleRows, hr],
      ⟨fun _ => ⟨wr, cardinal_eq_length r⟩, fun _ => ⟨(h.cols h0.2).1, cardinal_eq_length _⟩⟩, ?_, ?_⟩,
    ⟨⟨false, false, .ofSegs s.rows.segs, .ofSegs c⟩, by simp [Sel.middleCols, hc],
      ⟨fun _ => ⟨(h.rows h0.1).1, cardinal_eq_length _⟩, fun _ => ⟨wc, cardinal_eq_length c⟩⟩, ?_, ?_⟩⟩ <;>
  simp [Sel.rowIdx, Sel.colIdx, Blocks.ofSegs, hr', hc']

theorem zeroBlocks_spec {α : Type} (small : α → Bool) (m : Mat α) (bs : List Blk)
    (h : ∀ b ∈ bs, b.ri + b.rs ≤ m.rows ∧ b.ci + b.cs ≤ m.cols) :
    ∃ z, zeroBlocks small m bs = some z ∧
      (z = true ↔ ∀ b ∈ bs, ∀ i j, i < b.rs → j < b.cs → small (m.coeff (b.ri + i) (b.ci + j)) = true) := by
  induction bs with
  | nil => exact ⟨true, rfl, by simp⟩
  | cons b bs ih =>
    obtain ⟨z, hz, hz'⟩ := ih fun c hc => h c (by simp [hc])
    have hb := h b (by simp)
    unfold zeroBlocks Mat.getBlock
    rw [if_pos hb]
    simp only [Option.bind_some]
    by_cases hall : (List.range b.rs).all (fun i => (List.range b.cs).all fun j =>
        small (m.coeff (b.ri + i) (b.ci + j))) = true
    · rw [if_pos hall]
      refine ⟨z, hz, ?_⟩
      rw [hz']
      simp only [List.all_eq_true, List.mem_range] at hall
      constructor
      · intro h c hc i j hi hj
        rcases List.mem_cons.1 hc with rfl | hc
        · exact hall i hi j hj
        · exact h c hc i j hi hj
      · exact fun h c hc => h c (by simp [hc])
    · rw [if_neg hall]
      refine ⟨false, rfl, ⟨fun h => (by cases h), fun h => ?_⟩⟩
      refine absurd ?_ hall
      simp only [List.all_eq_true, List.mem_range]
      exact fun i hi j hj => h b (by simp) i j hi hj

/-- C113. `isZero` tells whether all the coefficients of the view pass the test. -/
theorem C113_isZero {α : Type} (s : Sel) (m : Mat α) (h : s.Fits m) (small : α → Bool) :
    ∃ z, s.isZero small m = some z ∧
      (z = true ↔ ∀ i ∈ s.rowIdx m, ∀ j ∈ s.colIdx m, small (m.coeff i j) = true) := by
  obtain ⟨h1, h2, h3, h4⟩ := Sel.eff h
  obtain ⟨z, hz, hz'⟩ := zeroBlocks_spec small m _ (nested_within h1 h2)
  refine ⟨z, ?_, ?_⟩
  · unfold Sel.isZero
    rw [Sel.visit_eq]
    exact hz
  rw [hz']
  constructor
  · intro hall i hi j hj
    obtain ⟨k, hk, ek⟩ := List.getElem_of_mem hi
    obtain ⟨l, hl, el⟩ := List.getElem_of_mem hj
    rw [← h3, ← cardinal_eq_length] at hk
    rw [← h4, ← cardinal_eq_length] at hl
    obtain ⟨b, hb, a1, a2, a3, a4⟩ := covered_rank hk hl
    obtain ⟨f1, f2⟩ := nested_indices b hb (k - b.ro) (l - b.co) (by omega) (by omega)
    rw [show b.ro + (k - b.ro) = k by omega, h3] at f1
    rw [show b.co + (l - b.co) = l by omega, h4] at f2
    rw [List.getElem?_eq_getElem (by rw [← h3, ← cardinal_eq_length]; exact hk), ek] at f1
    rw [List.getElem?_eq_getElem (by rw [← h4, ← cardinal_eq_length]; exact hl), el] at f2
    have := hall b hb (k - b.ro) (l - b.co) (by omega) (by omega)
    rw [← Option.some.inj f1, ← Option.some.inj f2] at this
    exact this
  · intro hall b hb i j hi hj
    obtain ⟨f1, f2⟩ := nested_indices b hb i j hi hj
    rw [h3] at f1
    rw [h4] at f2
    exact hall _ (List.mem_of_getElem? f1) _ (List.mem_of_getElem? f2)

/-! ## Examples -/

/-- Rows 3, 0 and 1 of a matrix with 4 rows and 2 columns. -/
def selEx : Sel := ⟨false, true, ⟨[⟨3, 1⟩, ⟨0, 2⟩], 3⟩, ⟨[], 0⟩⟩

def matEx : Mat Int := ⟨4, 2, fun i j => 10 * i + j⟩

theorem selEx_fits : selEx.Fits matEx := ⟨fun _ => by simp [Within, selEx, matEx, indices], fun h => by cases h⟩

example : ∃ r, selEx.read matEx (fun _ _ => 99) = some r ∧ r.rows = 3 ∧ r.cols = 2 ∧ r.coeff 0 1 = 31 ∧
    r.coeff 2 0 = 10 := by
  obtain ⟨r, hr, h1, h2, h3⟩ := C113_read selEx matEx selEx_fits fun _ _ => 99
  exact ⟨r, hr, h1, h2, h3 0 1 3 1 rfl rfl, h3 2 0 1 0 rfl rfl⟩

example : selEx.isZero (fun x => decide (x = 0)) matEx = some false ∧
    selEx.isZero (fun x => decide (x ≤ 31)) matEx = some true := by decide

example : ∃ r, (selEx.transpose).read matEx.tr (fun _ _ => 99) = some r ∧ r.rows = 2 ∧ r.coeff 1 0 = 31 :=
  ⟨_, rfl, rfl, rfl⟩

/-- Two dimensions: a block of the rows 3, 0, 1 and of the column 1. -/
example : let s : Sel := ⟨false, false, ⟨[⟨3, 1⟩, ⟨0, 2⟩], 3⟩, ⟨[⟨1, 1⟩], 1⟩⟩
    s.Fits matEx ∧ (s.rowIdx matEx).length = 3 ∧ ∃ t, s.block 1 0 2 1 = some t ∧ t.rowIdx matEx = [0, 1] ∧
      t.colIdx matEx = [1] :=
  ⟨⟨fun _ => by simp [Within, matEx, indices], fun _ => by simp [Within, matEx, indices]⟩, rfl, _, rfl, rfl, rfl⟩

end Hpp
