/-!
# Model of `Eigen::BlockIndex` (intervals of indices)

Source: `/repo/src/matrix-view.cc`, `/repo/include/hpp/constraints/matrix-view.hh`.
An interval (`segment_t`) is a pair (first index, number of indices); `segments_t`
is a `std::vector` of such pairs, modelled by a `List`.

Simplification: `size_type` is a signed 64 bit integer in the code.  Interval bounds and
lengths are non negative there, so `Nat` is used; every subtraction below is guarded by the code
(or by a `max`) so that it never goes below zero on non negative data.
-/

namespace Hpp

/-- `segment_t` = `std::pair<size_type, size_type>` (matrix-view.hh:54). -/
structure Seg where
  first : Nat
  len : Nat
deriving DecidableEq, Repr, Inhabited

/-- `first + second`, one past the last index (matrix-view.cc:39). -/
def Seg.stop (s : Seg) : Nat := s.first + s.len

/-- `segments_t` (matrix-view.hh:55). -/
abbrev Segs := List Seg

/-! ## Comparators -/

/-- `BlockIndexCompFull` (matrix-view.cc:43-48): lexicographic strict order. -/
def compFull (l r : Seg) : Bool :=
  decide (l.first < r.first) || (decide (l.first = r.first) && decide (l.len < r.len))

/-- `BlockIndexComp<true,false>` (matrix-view.cc:36-42): first of left < end of right. -/
def compFirstEnd (l r : Seg) : Bool := decide (l.first < r.stop)

/-- `BlockIndexComp<false,true>` (matrix-view.cc:36-42): end of left < first of right. -/
def compEndFirst (l r : Seg) : Bool := decide (l.stop < r.first)

/-! ## `std::upper_bound` and `std::vector::insert` -/

/-- Main loop of libstdc++ `std::upper_bound` on the positions `[first, first+n)`;
`p x` stands for `comp(value, x)`.  `fuel` bounds the number of iterations (it is never exhausted:
the range at least halves, and the callers give `fuel = n`).  Positions outside the list cannot be
visited by the callers; the `none` branch only makes the function total. -/
def upperBoundLoop {α : Type} (p : α → Bool) (l : List α) : Nat → Nat → Nat → Nat
  | 0, first, _ => first
  | fuel + 1, first, n =>
    if n = 0 then first
    else
      match l[first + n / 2]? with
      | none => first
      | some x =>
        if p x then upperBoundLoop p l fuel first (n / 2)
        else upperBoundLoop p l fuel (first + n / 2 + 1) (n - n / 2 - 1)

/-- `std::upper_bound(l.begin() + from, l.end(), ...)` as a position in `l`. -/
def upperBound {α : Type} (p : α → Bool) (l : List α) (start : Nat) : Nat :=
  upperBoundLoop p l (l.length - start) start (l.length - start)

/-- `std::vector::insert` before position `p`. -/
def insertAt {α : Type} (l : List α) (p : Nat) (x : α) : List α := l.take p ++ x :: l.drop p

/-! ## `BlockIndex` -/

/-- Non strict order associated with `compFull`, used to sort. -/
def leFull (l r : Seg) : Bool := !compFull r l

/-- Sorted insertion, used by `sort`. -/
def sortInsert (x : Seg) : Segs → Segs
  | [] => [x]
  | y :: l => if leFull x y then x :: y :: l else y :: sortInsert x l

/-- `BlockIndex::sort` (matrix-view.cc:51-53).  `std::sort` with a strict total order has a unique
result, whatever the algorithm; it is computed here by insertion. -/
def sort : Segs → Segs
  | [] => []
  | x :: l => sortInsert x (sort l)

/-- Loop of `BlockIndex::shrink` (matrix-view.cc:61-69): `e1` is the current interval, the list is
what follows it. -/
def shrinkLoop (e1 : Seg) : Segs → Segs
  | [] => [e1]
  | e2 :: rest =>
    if compEndFirst e1 e2 then e1 :: shrinkLoop e2 rest
    else shrinkLoop { e1 with len := max e1.len (e2.first + e2.len - e1.first) } rest

/-- `BlockIndex::shrink` (matrix-view.cc:55-70). -/
def shrink : Segs → Segs
  | [] => []
  | e1 :: rest => shrinkLoop e1 rest

/-- `BlockIndex::overlap` (matrix-view.cc:72-82). -/
def overlap (a b : Seg) : Bool :=
  if a.len = 0 then false
  else if b.len = 0 then false
  else if a.first ≤ b.first ∧ b.first < a.stop then true
  else if a.first < b.stop ∧ b.stop ≤ a.stop then true
  else false

/-- `BlockIndex::cardinal` (matrix-view.cc:84-89). -/
def cardinal (a : Segs) : Nat := a.foldl (fun c s => c + s.len) 0

/-- `BlockIndex::sum` once `a.first <= b.first` (matrix-view.cc:93-99). -/
def sumOrdered (a b : Seg) : Segs :=
  if a.stop ≥ b.first then [{ a with len := max a.len (b.first + b.len - a.first) }]
  else [a, b]

/-- `BlockIndex::sum` (matrix-view.cc:91-100); the recursive call is inlined. -/
def sum (a b : Seg) : Segs := if a.first > b.first then sumOrdered b a else sumOrdered a b

/-- `BlockIndex::add(segments_t&, const segment_t&)` (matrix-view.cc:102-109). -/
def addSeg (a : Segs) (b : Seg) : Segs := insertAt a (upperBound (compFull b) a 0) b

/-- Loop of `BlockIndex::add(segments_t&, const segments_t&)` (matrix-view.cc:117-122), `pos` is the
position of the iterator `_a`. -/
def addSegsLoop (a : Segs) (pos : Nat) : Segs → Segs
  | [] => a
  | b :: bs =>
    let p := upperBound (compFull b) a pos
    addSegsLoop (insertAt a p b) (p + 1) bs

/-- `BlockIndex::add(segments_t&, const segments_t&)` (matrix-view.cc:111-123). -/
def addSegs (a b : Segs) : Segs := if a.isEmpty then b else addSegsLoop a 0 b

/-- `BlockIndex::difference(segment_t, segment_t)` (matrix-view.cc:125-143). -/
def diffSegSeg (a b : Seg) : Segs :=
  if a.len = 0 then []
  else if b.len = 0 then [a]
  else
    (if a.first < b.first then [⟨a.first, min a.stop b.first - a.first⟩] else []) ++
    (if b.stop < a.stop then [⟨max a.first b.stop, a.stop - max a.first b.stop⟩] else [])

/-- `BlockIndex::difference(segments_t, segment_t)` (matrix-view.cc:145-162).
`none` is undefined behaviour: the loop `for (_a = first; _a != last; ++_a)` started after `last`
runs past the end of the vector. -/
def diffSegsSeg (a : Segs) (b : Seg) : Option Segs :=
  let first := upperBound (compFirstEnd b) a 0
  let last := upperBound (compEndFirst b) a 0
  if last < first then none
  else some (a.take first ++ ((a.drop first).take (last - first)).flatMap (diffSegSeg · b)
    ++ a.drop last)

/-- Loop of `BlockIndex::difference(segment_t, segments_t)` (matrix-view.cc:167-168). -/
def diffLoop (diff : Segs) : Segs → Option Segs
  | [] => some diff
  | b :: bs => do diffLoop (← diffSegsSeg diff b) bs

/-- `BlockIndex::difference(segment_t, segments_t)` (matrix-view.cc:164-170). -/
def diffSegSegs (a : Seg) (b : Segs) : Option Segs := diffLoop [a] b

/-- `BlockIndex::difference(segments_t, segments_t)` (matrix-view.cc:172-181). -/
def diffSegsSegs : Segs → Segs → Option Segs
  | [], _ => some []
  | a :: as, b => do
    let d ← diffSegSegs a b
    let r ← diffSegsSegs as b
    return d ++ r

/-- `BlockIndex::split` (matrix-view.cc:183-207).  Returns (returned intervals, intervals left in
the modified argument). -/
def split : Segs → Nat → Segs × Segs
  | [], _ => ([], [])
  | s :: rest, remaining =>
    if s.len > remaining then
      ([⟨s.first, remaining⟩], ⟨s.first + remaining, s.len - remaining⟩ :: rest)
    else if s.len = remaining then ([s], rest)
    else
      let (res, left) := split rest (remaining - s.len)
      (s :: res, left)

/-- Second phase of `BlockIndex::extract` ("looking for end", matrix-view.cc:242-250).
`none`: the loop falls off the end and `assert(false)` is reached. -/
def extractEnd : Segs → Nat → Option Segs
  | [], _ => none
  | s :: rest, remainingToEnd =>
    if s.len ≥ remainingToEnd then some [⟨s.first, remainingToEnd⟩]
    else (extractEnd rest (remainingToEnd - s.len)).map (s :: ·)

/-- First phase of `BlockIndex::extract` ("looking for start", matrix-view.cc:222-240). -/
def extract? : Segs → Nat → Nat → Option Segs
  | [], _, _ => none
  | s :: rest, remainingToStart, card =>
    if s.len > remainingToStart then
      if s.len - remainingToStart ≥ card then some [⟨s.first + remainingToStart, card⟩]
      else (extractEnd rest (card - (s.len - remainingToStart))).map
        (⟨s.first + remainingToStart, s.len - remainingToStart⟩ :: ·)
    else extract? rest (remainingToStart - s.len) card

/-- `BlockIndex::extract` compiled without assertions (matrix-view.cc:209-256): falling off the end
returns the empty vector. -/
def extract (a : Segs) (start card : Nat) : Segs := (extract? a start card).getD []

/-- Loop of `fromLogicalExpression` (impl/matrix-view.hh:34-35) and of `vectorOfBoolToIntervals`
(explicit/relative-transformation.cc:69-70), starting at index `i`. -/
def onesFrom (i : Nat) : List Bool → Segs
  | [] => []
  | b :: bs => (if b then [⟨i, 1⟩] else []) ++ onesFrom (i + 1) bs

/-- `BlockIndex::fromLogicalExpression` (impl/matrix-view.hh:31-38),
`vectorOfBoolToIntervals` (explicit/relative-transformation.cc:67-73). -/
def fromLogical (v : List Bool) : Segs := shrink (onesFrom 0 v)

/-! ## `MatrixBlocks` index bookkeeping (matrix-view.hh:545-707), one dimension -/

/-- One dimension (rows or columns) of a `MatrixBlocks`: intervals and announced number of
indices (matrix-view.hh:691-693). -/
structure Blocks where
  segs : Segs
  nb : Nat
deriving DecidableEq, Repr

/-- Empty constructor (matrix-view.hh:551). -/
def Blocks.empty : Blocks := ⟨[], 0⟩

/-- Constructor from intervals (matrix-view.hh:557-561, 589-593). -/
def Blocks.ofSegs (s : Segs) : Blocks := ⟨s, cardinal s⟩

/-- `addRow`/`addCol` (matrix-view.hh:638-649). -/
def Blocks.add (b : Blocks) (row size : Nat) : Blocks :=
  ⟨b.segs ++ [⟨row, size⟩], b.nb + size⟩

/-- `update<Sort,Shrink,Cardinal>` (matrix-view.hh:696-701). -/
def Blocks.update (doSort doShrink doCard : Bool) (b : Blocks) : Blocks :=
  let s := if doSort then sort b.segs else b.segs
  let s := if doShrink then shrink s else s
  ⟨s, if doCard then cardinal s else b.nb⟩

end Hpp
