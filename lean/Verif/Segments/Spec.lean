import Verif.Segments.Model

/-!
# Specification vocabulary for sets of indices

These definitions do not use any function of the model: they only say which indices a list of
intervals denotes.
-/

namespace Hpp

/-- Index `i` belongs to interval `s`. -/
def Seg.Has (s : Seg) (i : Nat) : Prop := s.first ≤ i ∧ i < s.first + s.len

/-- Index `i` belongs to one of the intervals of `l`. -/
def Covers (l : Segs) (i : Nat) : Prop := ∃ s ∈ l, s.Has i

/-- The indices of `l` in the order in which they are visited: rank `k` of the view is the `k`-th
element of this list. -/
def indices (l : Segs) : List Nat := l.flatMap fun s => List.range' s.first s.len

/-- Intervals are in increasing order and never share an index (empty intervals allowed). -/
def Disjoint' (l : Segs) : Prop := l.Pairwise fun a b => a.first + a.len ≤ b.first

/-- Intervals are in increasing order, disjoint, and two successive ones are separated by at least
one index. -/
def Canonical (l : Segs) : Prop := l.Pairwise fun a b => a.first + a.len < b.first

/-- Intervals are in increasing order of their first index. -/
def SortedFirst (l : Segs) : Prop := l.Pairwise fun a b => a.first ≤ b.first

/-- Lexicographic order (first index, then length). -/
def lexLe (a b : Seg) : Prop := a.first < b.first ∨ (a.first = b.first ∧ a.len ≤ b.len)

instance (s : Seg) (i : Nat) : Decidable (s.Has i) := by unfold Seg.Has; infer_instance
instance (l : Segs) (i : Nat) : Decidable (Covers l i) := by unfold Covers; infer_instance
instance (l : Segs) : Decidable (Disjoint' l) := by unfold Disjoint'; infer_instance
instance (l : Segs) : Decidable (Canonical l) := by unfold Canonical; infer_instance
instance (l : Segs) : Decidable (SortedFirst l) := by unfold SortedFirst; infer_instance
instance (a b : Seg) : Decidable (lexLe a b) := by unfold lexLe; infer_instance

end Hpp
