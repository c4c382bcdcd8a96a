import Verif.Model.Seg

/-!
# Nodes and iterators

The models in `Verif/Model/Seg.lean`, `Set.lean` and `Map.lean` see a container as a list and an iterator as a place in
it.  Here the nodes of the `std::set`/`std::map` have addresses and an iterator is an address, so that the code can
keep an iterator to a node that it erases.  The member functions of the containers are modelled once more in
`Verif/Model/TreeSet.lean` and `TreeMap.lean`, statement by statement, with every iterator variable that the code has.

Any use of an iterator to a node that is no longer there (to dereference, to increment or decrement, to erase, to pass
as a hint) has the outcome `none`.

Simplification: an address is never used a second time, so that an iterator to an erased node does not become valid
again by chance.  Comparing iterators is allowed for all of them.
-/

namespace ICL

/-- An iterator: the address of a node, `none` is `end()`. -/
abbrev It := Option Nat

/-- A `std::set` or `std::map` in the order of its iteration: address and content of each node. All addresses from
`fresh` on are free. -/
structure Tree (S : Type) where
  nodes : List (Nat × S)
  fresh : Nat
  deriving DecidableEq, Repr

/-- A program that works on a container. -/
abbrev TreeM (S α : Type) := StateT (Tree S) Option α

namespace Tree
section
variable {S α : Type}

/-- The segments in the order of iteration. -/
def segs (t : Tree S) : List S := t.nodes.map Prod.snd

/-- The iterator is `end()` or refers to a node. -/
def Valid (t : Tree S) (it : It) : Prop := ∀ i, it = some i → i ∈ t.nodes.map Prod.fst

instance (t : Tree S) (it : It) : Decidable (t.Valid it) :=
  match it with
  | none => isTrue (by simp [Valid])
  | some i => decidable_of_iff (i ∈ t.nodes.map Prod.fst) (by simp [Valid])

/-- The node with the address `i`: the nodes before it, nearest first (`left` are those passed already), its content, and
the nodes behind it. -/
def locate (i : Nat) (left : List (Nat × S)) : List (Nat × S) → Option (List (Nat × S) × S × List (Nat × S))
  | [] => none
  | n :: r => if n.1 = i then some (left, n.2, r) else locate i (n :: left) r

/-- What an iterator refers to; `none` for `end()` and for an erased node. -/
def find (it : It) (t : Tree S) : Option (List (Nat × S) × S × List (Nat × S)) :=
  it.bind fun i => locate i [] t.nodes

/-- Outcome of a computation that does not touch the container; `none` is any misbehaviour. -/
def ofOption (a : Option α) : TreeM S α := fun t => a.map fun a => (a, t)

/-- `begin()` -/
def first : TreeM S It := fun t => some (t.nodes.head?.map Prod.fst, t)

/-- `*it` -/
def deref (it : It) : TreeM S S := fun t => (find it t).map fun z => (z.2.1, t)

/-- `++it` -/
def next (it : It) : TreeM S It := fun t => (find it t).map fun z => (z.2.2.head?.map Prod.fst, t)

/-- `--it` and `prior(it)`; `none` at `begin()` -/
def prior (it : It) : TreeM S It := fun t =>
  match it with
  | none => t.nodes.getLast?.map fun n => (some n.1, t)
  | some i => (find (some i) t).bind fun z => z.1.head?.map fun n => (some n.1, t)

/-- `cyclic_prior(object, it_)`, concept/container.hpp:70-79 -/
def cyclicPrior (it : It) : TreeM S It := do
  let b ← first
  if it = b then return none else prior it

/-- An assignment to (a part of) the content of the node, such as `const_cast<interval_type&>(*it) = ...` and
`Combiner()((*it).second, co_val)` -/
def modify (it : It) (f : S → S) : TreeM S Unit := fun t =>
  match it with
  | none => none
  | some i => (find (some i) t).map fun z => ((), ⟨z.1.reverse ++ (i, f z.2.1) :: z.2.2, t.fresh⟩)

/-- `erase(it)` -/
def erase (it : It) : TreeM S Unit := fun t =>
  (find it t).map fun z => ((), ⟨z.1.reverse ++ z.2.2, t.fresh⟩)

/-- The nodes before the address `i` and those from it on (all and none for `end()`). -/
def cut (it : It) (l : List (Nat × S)) : Option (List (Nat × S) × List (Nat × S)) :=
  match it with
  | none => some (l, [])
  | some i => (locate i [] l).map fun z => (z.1.reverse, (i, z.2.1) :: z.2.2)

/-- `erase(first, last)`; `none` if `last` is not reachable from `first`. -/
def eraseRange (first last : It) : TreeM S Unit := fun t =>
  (cut first t.nodes).bind fun z => (cut last z.2).map fun y => ((), ⟨z.1 ++ y.2, t.fresh⟩)

end

section
variable {D I V S : Type} (o : IntervalOps D I) (g : SegOps I V S)

/-- Nodes as segments. -/
def nodeSeg : SegOps I V (Nat × S) := ⟨fun n => g.key n.2, fun n => g.val n.2, fun n k => (n.1, g.setKey n.2 k)⟩

/-- `equal_range(k)`: the first iterator is `lower_bound(k)`, the second `upper_bound(k)` -/
def equalRange (k : I) : TreeM S (It × It) := fun t =>
  (ICL.equalRange o (nodeSeg g) t.nodes k).map fun r =>
    (((r.2.1 ++ r.2.2).head?.map Prod.fst, r.2.2.head?.map Prod.fst), t)

/-- `lower_bound(k)` -/
def lowerBound (k : I) : TreeM S It := do return (← equalRange o g k).1
/-- `upper_bound(k)` -/
def upperBound (k : I) : TreeM S It := do return (← equalRange o g k).2

/-- `std::set/map::insert(x)`: a new node, unless some nodes are equivalent to it.  Then it is left open which of
these is returned: it is the one with the number `pick`. -/
def insert (pick : Nat) (s : S) : TreeM S (It × Bool) := fun t =>
  (ICL.equalRange o (nodeSeg g) t.nodes (g.key s)).map fun r =>
    match r.2.1 with
    | [] => ((some t.fresh, true), ⟨r.1 ++ (t.fresh, s) :: r.2.2, t.fresh + 1⟩)
    | f :: b => ((some ((f :: b).getD (pick % (b.length + 1)) f).1, false), t)

/-- `std::set/map::insert(hint, x)`: the hint must be valid, and has no other influence. -/
def insertHint (pick : Nat) (hint : It) (s : S) : TreeM S It := fun t =>
  if t.Valid hint then (insert o g pick s t).map fun r => (r.1.1, r.2) else none

variable [DecidableEq V]

/-- `segmental::joinable`, detail/interval_set_algo.hpp:225-231 -/
def joinable (some_ next_ : It) : TreeM S Bool := do
  let a ← deref some_
  let b ← deref next_
  ofOption (joinableC o g a b)

omit [DecidableEq V] in
/-- `join_nodes(object, left_, right_)`, detail/interval_set_algo.hpp:233-242 -/
def joinNodes (left_ right_ : It) : TreeM S Unit := do
  let rightInterval := g.key (← deref right_)
  erase right_
  modify left_ fun a => g.setKey a (o.hull (g.key a) rightInterval)

/-- `join_on_left` and `join_on_right`, detail/interval_set_algo.hpp:244-271: the assertions, the joining, and the node
that is left, which is `left_` in both -/
def joinOn (left_ right_ : It) : TreeM S It := do
  let a ← deref left_
  let b ← deref right_
  if o.exclusiveLess (g.key a) (g.key b) && ICL.joinable o g a b then
    joinNodes o g left_ right_
    return left_
  else ofOption none

/-- `join_left(object, it_)`, detail/interval_set_algo.hpp:273-287; yields the new value of the reference `it_` -/
def joinLeft (it : It) : TreeM S It := do
  if it = (← first) then return it
  else
    let pred ← prior it
    if ← joinable o g pred it then joinOn o g pred it
    else return it

/-- `join_right(object, it_)`, detail/interval_set_algo.hpp:289-304 -/
def joinRight (it : It) : TreeM S It := do
  if it = none then return it
  else
    let succ ← next it
    if succ = none then return it
    else if ← joinable o g it succ then joinOn o g it succ
    else return it

/-- `join_neighbours(object, it_)`, detail/interval_set_algo.hpp:306-311 -/
def joinNeighbours (it : It) : TreeM S It := do
  let it ← joinLeft o g it
  joinRight o g it

end
end Tree
end ICL
