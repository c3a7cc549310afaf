import Verif.Segments.Model

/-!
# Model of matrix views

Source: `/repo/include/hpp/constraints/matrix-view.hh` (`MatrixBlockView`, block iterators) and
`/repo/include/hpp/constraints/impl/matrix-view-operation.hh`.

The variants "all rows" / "all columns" (template arguments `_allRows`, `_allCols`) are the general
case with the single interval `(0, number of rows)` (resp. columns): see `ri`, `rs`, `ci`, `cs`
(matrix-view.hh:852-876) and `operator++` (matrix-view.hh:878-901).

`none` stands for an access outside the matrix or for blocks of different sizes (an Eigen assertion,
undefined behaviour without assertions).
-/

namespace Hpp

/-- A dense matrix: sizes and coefficients (only those within the sizes are meaningful). -/
structure Mat (α : Type) where
  rows : Nat
  cols : Nat
  coeff : Nat → Nat → α

/-- Eigen `m.block(r, c, rs, cs)` used as a value. -/
def Mat.getBlock {α : Type} (m : Mat α) (r c rs cs : Nat) : Option (Nat → Nat → α) :=
  if r + rs ≤ m.rows ∧ c + cs ≤ m.cols then some fun i j => m.coeff (r + i) (c + j) else none

/-- Eigen `m.block(r, c, rs, cs) = f`. -/
def Mat.setBlock {α : Type} (m : Mat α) (r c rs cs : Nat) (f : Nat → Nat → α) : Option (Mat α) :=
  if r + rs ≤ m.rows ∧ c + cs ≤ m.cols then
    some { m with coeff := fun i j =>
      if r ≤ i ∧ i < r + rs ∧ c ≤ j ∧ j < c + cs then f (i - r) (j - c) else m.coeff i j }
  else none

/-- One position of `block_iterator` as seen by its users: row and column in the output (`ro`,
`co`), in the viewed matrix (`ri`, `ci`) and block sizes (matrix-view.hh:846-876). -/
structure Blk where
  ro : Nat
  co : Nat
  ri : Nat
  ci : Nat
  rs : Nat
  cs : Nat
deriving DecidableEq, Repr

/-- State of `block_iterator` (matrix-view.hh:839-845). -/
structure BlockIt where
  row : Nat
  col : Nat
  ro : Nat
  co : Nat
deriving DecidableEq, Repr

/-- `valid()` (matrix-view.hh:904-907). -/
def BlockIt.valid (rows cols : Segs) (it : BlockIt) : Bool :=
  decide (rows.length > 0) && decide (it.col < cols.length)

/-- The block at the current position (`ri`, `ci`, `rs`, `cs`, matrix-view.hh:852-876).
`none`: `m_rows[row]` or `m_cols[col]` out of range. -/
def BlockIt.blk (rows cols : Segs) (it : BlockIt) : Option Blk :=
  match rows[it.row]?, cols[it.col]? with
  | some r, some c => some ⟨it.ro, it.co, r.first, c.first, r.len, c.len⟩
  | _, _ => none

/-- `operator++` (matrix-view.hh:878-901): rows first, then columns. -/
def BlockIt.next (rows : Segs) (b : Blk) (it : BlockIt) : BlockIt :=
  let ro := it.ro + b.rs
  let row := it.row + 1
  if row = rows.length then ⟨0, it.col + 1, 0, it.co + b.cs⟩
  else ⟨row, it.col, ro, it.co⟩

/-- `for (block_iterator b(view); b.valid(); ++b)`: the list of visited blocks. -/
def visitLoop (rows cols : Segs) : Nat → BlockIt → Option (List Blk)
  | 0, _ => none
  | fuel + 1, it =>
    if it.valid rows cols then
      match it.blk rows cols with
      | none => none
      | some b => (visitLoop rows cols fuel (it.next rows b)).map (b :: ·)
    else some []

/-- All the blocks visited by the iterator; the fuel is larger than the number of blocks. -/
def visit (rows cols : Segs) : Option (List Blk) :=
  visitLoop rows cols (rows.length * cols.length + 1) ⟨0, 0, 0, 0⟩

/-- Body of the loop "matrix <- view" (matrix-view.hh:309-312). -/
def readBlocks {α : Type} (src : Mat α) : List Blk → Mat α → Option (Mat α)
  | [], dst => some dst
  | b :: bs, dst => do
    let v ← src.getBlock b.ri b.ci b.rs b.cs
    let dst ← dst.setBlock b.ro b.co b.rs b.cs v
    readBlocks src bs dst

/-- `matrix <- view` (`writeTo`, matrix-view.hh:987-1001, and 301-312): the destination is resized
to the announced sizes `nbRows x nbCols`, its coefficients are first arbitrary (`junk`). -/
def readView {α : Type} (rows cols : Blocks) (src : Mat α) (junk : Nat → Nat → α) :
    Option (Mat α) := do
  let bs ← visit rows.segs cols.segs
  readBlocks src bs ⟨rows.nb, cols.nb, junk⟩

/-- Body of the loop "view <- matrix" (matrix-view.hh:294-297). -/
def writeBlocks {α : Type} (src : Mat α) : List Blk → Mat α → Option (Mat α)
  | [], dst => some dst
  | b :: bs, dst => do
    let v ← src.getBlock b.ro b.co b.rs b.cs
    let dst ← dst.setBlock b.ri b.ci b.rs b.cs v
    writeBlocks src bs dst

/-- `view <- matrix` (`operator=`, matrix-view.hh:1003-1010 and 287-298). -/
def writeView {α : Type} (rows cols : Blocks) (dst src : Mat α) : Option (Mat α) := do
  let bs ← visit rows.segs cols.segs
  writeBlocks src bs dst

/-- Body of the loop "view <- view" (matrix-view.hh:322-329): the two block sequences are walked
together; blocks must have the same sizes, and there must be as many of them. -/
def copyBlocks {α : Type} (src : Mat α) : List Blk → List Blk → Mat α → Option (Mat α)
  | [], [], dst => some dst
  | sb :: sbs, db :: dbs, dst =>
    if sb.rs = db.rs ∧ sb.cs = db.cs then do
      let v ← src.getBlock sb.ri sb.ci sb.rs sb.cs
      let dst ← dst.setBlock db.ri db.ci db.rs db.cs v
      copyBlocks src sbs dbs dst
    else none
  | _, _, _ => none

/-- `view <- view` (matrix-view.hh:313-330). -/
def copyView {α : Type} (srows scols drows dcols : Blocks) (dst src : Mat α) : Option (Mat α) := do
  let sb ← visit srows.segs scols.segs
  let db ← visit drows.segs dcols.segs
  copyBlocks src sb db dst

/-- Body of the loop "view op view" (impl/matrix-view-operation.hh:213-226).  Line 218 reads the right
hand side with the *left* iterator: `BlockRhs rhs = d.rhs()._block(lblock)`. -/
def binBlocks {α : Type} (op : α → α → α) (lhs rhs : Mat α) :
    List Blk → List Blk → Mat α → Option (Mat α)
  | [], [], dst => some dst
  | lb :: lbs, rb :: rbs, dst =>
    if lb.rs = rb.rs ∧ lb.cs = rb.cs ∧ lb.ro = rb.ro ∧ lb.co = rb.co then do
      let l ← lhs.getBlock lb.ri lb.ci lb.rs lb.cs
      let r ← rhs.getBlock lb.ri lb.ci lb.rs lb.cs
      let dst ← dst.setBlock rb.ro rb.co rb.rs rb.cs fun i j => op (l i j) (r i j)
      binBlocks op lhs rhs lbs rbs dst
    else none
  | _, _, _ => none

/-- `dst = view op view` (impl/matrix-view-operation.hh:200-227). -/
def binView {α : Type} (op : α → α → α) (lrows lcols rrows rcols : Blocks) (lhs rhs dst : Mat α) :
    Option (Mat α) := do
  let lb ← visit lrows.segs lcols.segs
  let rb ← visit rrows.segs rcols.segs
  binBlocks op lhs rhs lb rb dst

/-- Body of the loop "matrix op view" (impl/matrix-view-operation.hh:139-145). -/
def binMatBlocks {α : Type} (op : α → α → α) (lhs rhs : Mat α) :
    List Blk → Mat α → Option (Mat α)
  | [], dst => some dst
  | b :: bs, dst => do
    let r ← rhs.getBlock b.ri b.ci b.rs b.cs
    let l ← lhs.getBlock b.ro b.co b.rs b.cs
    let dst ← dst.setBlock b.ro b.co b.rs b.cs fun i j => op (l i j) (r i j)
    binMatBlocks op lhs rhs bs dst

/-- `dst = matrix op view` (impl/matrix-view-operation.hh:121-146). -/
def binMatView {α : Type} (op : α → α → α) (rrows rcols : Blocks) (lhs rhs dst : Mat α) :
    Option (Mat α) := do
  let rb ← visit rrows.segs rcols.segs
  binMatBlocks op lhs rhs rb dst

/-- Body of the loop "view op matrix" (impl/matrix-view-operation.hh:174-180). -/
def binViewMatBlocks {α : Type} (op : α → α → α) (lhs rhs : Mat α) :
    List Blk → Mat α → Option (Mat α)
  | [], dst => some dst
  | b :: bs, dst => do
    let l ← lhs.getBlock b.ri b.ci b.rs b.cs
    let r ← rhs.getBlock b.ro b.co b.rs b.cs
    let dst ← dst.setBlock b.ro b.co b.rs b.cs fun i j => op (l i j) (r i j)
    binViewMatBlocks op lhs rhs bs dst

/-- `dst = view op matrix` (impl/matrix-view-operation.hh:157-181). -/
def binViewMat {α : Type} (op : α → α → α) (lrows lcols : Blocks) (lhs rhs dst : Mat α) :
    Option (Mat α) := do
  let lb ← visit lrows.segs lcols.segs
  binViewMatBlocks op lhs rhs lb dst

end Hpp
