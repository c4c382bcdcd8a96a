import Verif.Ops

/-!
# Segment sequences

The implementing container of every interval container is a `std::set<interval>` or
`std::map<interval, value>` ordered by `exclusive_less_than` (detail/exclusive_less_than.hpp).
We model its content as the list of its nodes in iteration order, and an iterator as a position
in that list (`Zip`).

Functions that can trip an assertion or use an iterator outside its range return `Option`:
`none` stands for *any* behaviour (assertion failure, undefined behaviour, a `std` insertion at an
unexpected place).  A result `some r` is only returned if the code surely yields `r`.  All
property theorems show that the result is `some`.

Simplification: iterator arguments that only serve as insertion hints are dropped (a hint has no
influence on the effect of `std::set::insert`/`std::map::insert`).
-/

namespace ICL

/-- How a segment (node) of a container is made up: for sets it is the interval itself, for maps
the pair of an interval and a value.  Models `key_value`, `co_value` and the
`const_cast<interval_type&>` key updates; concept/set_value.hpp, concept/map_value.hpp. -/
structure SegOps (I V S : Type) where
  key : S → I
  val : S → V
  setKey : S → I → S

/-- Segments of interval sets. `co_equal` is always true: concept/set_value.hpp -/
def setSeg {I : Type} : SegOps I Unit I := ⟨id, fun _ => (), fun _ k => k⟩
/-- Segments of interval maps. concept/map_value.hpp -/
def mapSeg {I V : Type} : SegOps I V (I × V) := ⟨Prod.fst, Prod.snd, fun s k => (k, s.2)⟩

/-- A position in a container.  `left` holds the predecessors, nearest first. -/
structure Zip (S : Type) where
  left : List S
  cur : S
  right : List S

/-- The container content of a position. -/
def Zip.toList {S : Type} (z : Zip S) : List S := z.left.reverse ++ z.cur :: z.right

section
variable {D I V S : Type} (o : IntervalOps D I) (g : SegOps I V S)

/-- No comparison of a key `k` with the nodes of `l` trips the assertion
`!(is_empty(left) || is_empty(right))` of `non_empty::exclusive_less`, interval.hpp:803-841 -/
def cmpOk (l : List S) (k : I) : Bool :=
  l.isEmpty || (!o.isEmpty k && l.all fun s => !o.isEmpty (g.key s))

/-- `equal_range` = (`lower_bound`, `upper_bound`), interval_base_set.hpp:375-386,
interval_base_map.hpp (same): the nodes before `lower_bound(k)`, the nodes of
`[lower_bound(k), upper_bound(k))`, and the nodes from `upper_bound(k)` on. -/
def equalRange (l : List S) (k : I) : Option (List S × List S × List S) :=
  if cmpOk o g l k then
    let rest := l.dropWhile fun s => o.neLess (g.key s) k
    some (l.takeWhile (fun s => o.neLess (g.key s) k),
      rest.takeWhile (fun s => !o.neLess k (g.key s)),
      rest.dropWhile (fun s => !o.neLess k (g.key s)))
  else none

/-- `std::set/map::insert` of a node that must go exactly between `left` (nearest first) and
`right`.  `none` if the comparator does not put it there. -/
def insertAt (left : List S) (s : S) (right : List S) : Option (Zip S) :=
  if cmpOk o g left (g.key s) && cmpOk o g right (g.key s)
      && (left.all fun p => o.neLess (g.key p) (g.key s))
      && (right.all fun q => o.neLess (g.key s) (g.key q))
  then some ⟨left, s, right⟩ else none

/-- `std::set/map::insert(value)`: inserted if no node is equivalent, unchanged otherwise. -/
def stdInsert (l : List S) (s : S) : Option (List S) := do
  let (a, b, c) ← equalRange o g l (g.key s)
  match b with
  | [] => return a ++ s :: c
  | _ => return l

variable [DecidableEq V]

/-- What `segmental::joinable`, detail/interval_set_algo.hpp:225-231, is about: the intervals touch and the
values are equal. -/
def joinable (a b : S) : Bool :=
  o.touches (g.key a) (g.key b) && decide (g.val a = g.val b)

/-- `segmental::joinable` as it is called, detail/interval_set_algo.hpp:225-231: `none` if `touches`
overflows or fails an assertion. -/
def joinableC (a b : S) : Option Bool :=
  (o.touchesC (g.key a) (g.key b)).map fun t => t && decide (g.val a = g.val b)

/-- `join_on_left`/`join_on_right` and `join_nodes`, detail/interval_set_algo.hpp:233-271:
the node that replaces the neighbours `a` and `b`. -/
def joinNodes (a b : S) : Option S :=
  if o.exclusiveLess (g.key a) (g.key b) && joinable o g a b then
    some (g.setKey a (o.hull (g.key a) (g.key b)))
  else none

/-- `join_left`, detail/interval_set_algo.hpp:273-287 -/
def joinLeft (z : Zip S) : Option (Zip S) :=
  match z.left with
  | [] => some z
  | p :: left =>
    match joinableC o g p z.cur with
    | none => none
    | some true => do
      let j ← joinNodes o g p z.cur
      return ⟨left, j, z.right⟩
    | some false => some z

/-- `join_right`, detail/interval_set_algo.hpp:289-304 -/
def joinRight (z : Zip S) : Option (Zip S) :=
  match z.right with
  | [] => some z
  | q :: right =>
    match joinableC o g z.cur q with
    | none => none
    | some true => do
      let j ← joinNodes o g z.cur q
      return ⟨z.left, j, right⟩
    | some false => some z

/-- `join_neighbours`, detail/interval_set_algo.hpp:306-311 -/
def joinNeighbours (z : Zip S) : Option (Zip S) := do
  let z ← joinLeft o g z
  joinRight o g z

end
end ICL
