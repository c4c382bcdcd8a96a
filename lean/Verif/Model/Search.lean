import Verif.Model.Seg

/-!
# Searching in trees

The models of the containers describe `lower_bound`, `upper_bound`, `equal_range`, `find`, `insert` and hinted `insert` of
the implementing `std::set`/`std::map` by lists (`Verif/Model/Seg.lean`). The standard guarantees such a description only
for a comparator that is a strict weak order, and `exclusive_less_than`, detail/exclusive_less_than.hpp:17-25, is none: an
interval can be equivalent to two intervals, by overlapping both, that are not equivalent to each other. Here the searches
descend in a binary tree, as they do in the implementation of the GNU C++ library (bits/stl_tree.h of GCC 13, which is not
part of the repository). The comparator's assertion is evaluated for the nodes that the descent visits, and for no other.

Simplification: colours and rebalancing are left out, the theorems are about trees of every shape; so is the place of a new
node within the tree, apart from the place in the sequence.
-/

namespace ICL

/-- A binary tree of segments. -/
inductive Shape (S : Type) where
  | leaf
  | node (l : Shape S) (s : S) (r : Shape S)

namespace Shape
section
variable {D I V S : Type} (o : IntervalOps D I) (g : SegOps I V S)

/-- The segments in the order of iteration. -/
def toList : Shape S → List S
  | leaf => []
  | node l s r => l.toList ++ s :: r.toList

/-- `exclusive_less_than::operator()`, detail/exclusive_less_than.hpp:20-24, with the assertion of
`non_empty::exclusive_less`, concept/interval.hpp:803-841 -/
def compare (a b : I) : Option Bool := if o.isEmpty a || o.isEmpty b then none else some (o.neLess a b)

/-- `_M_lower_bound`, stl_tree.h:1946-1958; a place is given by the segments before it and those from it on. -/
def lowerBound (k : I) : Shape S → Option (List S × List S)
  | leaf => some ([], [])
  | node l s r => do
    if ← compare o (g.key s) k then
      let (a, b) ← r.lowerBound k
      return (l.toList ++ s :: a, b)
    else
      let (a, b) ← l.lowerBound k
      return (a, b ++ s :: r.toList)

/-- `_M_upper_bound`, stl_tree.h:1978-1990 -/
def upperBound (k : I) : Shape S → Option (List S × List S)
  | leaf => some ([], [])
  | node l s r => do
    if ← compare o k (g.key s) then
      let (a, b) ← l.upperBound k
      return (a, b ++ s :: r.toList)
    else
      let (a, b) ← r.upperBound k
      return (l.toList ++ s :: a, b)

/-- `equal_range`, stl_tree.h:2008-2037 -/
def equalRange (k : I) : Shape S → Option (List S × List S × List S)
  | leaf => some ([], [], [])
  | node l s r => do
    if ← compare o (g.key s) k then
      let (a, b, c) ← r.equalRange k
      return (l.toList ++ s :: a, b, c)
    else if ← compare o k (g.key s) then
      let (a, b, c) ← l.equalRange k
      return (a, b, c ++ s :: r.toList)
    else
      let (a, b) ← l.lowerBound o g k
      let (b', c) ← r.upperBound o g k
      return (a, b ++ s :: b', c)

/-- `find`, stl_tree.h:2527-2538: the node, or `none` for `end()` -/
def find (k : I) (t : Shape S) : Option (Option S) := do
  let (_, b) ← t.lowerBound o g k
  match b with
  | [] => return none
  | s :: _ => if ← compare o k (g.key s) then return none else return some s

/-- `insert(s)` by `_M_get_insert_unique_pos`, stl_tree.h:2108-2131, whose descent is that of `upper_bound`: the new
content, the node that the iterator refers to, and whether it has been inserted. -/
def insert (s : S) (t : Shape S) : Option (List S × S × Bool) := do
  let (a, c) ← t.upperBound o g (g.key s)
  match a.getLast? with
  | none => return (a ++ s :: c, s, true)
  | some j => if ← compare o (g.key j) (g.key s) then return (a ++ s :: c, s, true) else return (t.toList, j, false)

/-- `insert(hint, s)` by `_M_get_insert_hint_unique_pos`, stl_tree.h:2204-2262; `n` is the number of nodes before the
hint. -/
def insertHint (n : Nat) (s : S) (t : Shape S) : Option (List S × S × Bool) := do
  let left := t.toList.take n
  match t.toList.drop n with
  | [] =>
    match left.getLast? with
    | none => insert o g s t
    | some last => if ← compare o (g.key last) (g.key s) then return (left ++ [s], s, true) else insert o g s t
  | pos :: right =>
    if ← compare o (g.key s) (g.key pos) then
      match left.getLast? with
      | none => return (left ++ s :: pos :: right, s, true)
      | some before =>
        if ← compare o (g.key before) (g.key s) then return (left ++ s :: pos :: right, s, true) else insert o g s t
    else if ← compare o (g.key pos) (g.key s) then
      match right with
      | [] => return (left ++ [pos, s], s, true)
      | after :: _ =>
        if ← compare o (g.key s) (g.key after) then return (left ++ pos :: s :: right, s, true) else insert o g s t
    else return (t.toList, pos, false)

end
end Shape
end ICL
