import Verif.Model.Seg

/-!
# Interval sets

Model of `interval_base_set.hpp`, `interval_set.hpp`, `separate_interval_set.hpp`,
`split_interval_set.hpp`, and of the free functions for interval sets in
`concept/interval_set.hpp` and `concept/interval_associator.hpp`.
-/

namespace ICL

/-- The combining style: `interval_set` (joining), `separate_interval_set` (separating),
`split_interval_set` (splitting). -/
inductive Style
  | joining | separating | splitting
  deriving DecidableEq, Repr

section
variable {D I : Type} (o : IntervalOps D I)

namespace ISet

/-- `handle_inserted`, interval_set.hpp:173-176, separate_interval_set.hpp:160-163,
split_interval_set.hpp:158-161 -/
def handleInserted (st : Style) (z : Zip I) : Option (List I) :=
  match st with
  | .joining => do return (← joinNeighbours o setSeg z).toList
  | .separating => some z.toList
  | .splitting => some z.toList

/-- `join_under(object, addend, last_)`, detail/interval_set_algo.hpp:338-361, where
`a` are the nodes before the collision sequence `f :: b`, and `c` those behind it. -/
def joinUnder (a : List I) (f : I) (b c : List I) (addend : I) : Zip I :=
  let leftResid := o.rightSubtract f addend
  let rightResid := o.leftSubtract (b.getLastD f) addend
  ⟨a.reverse, o.hull (o.hull leftResid addend) rightResid, c⟩

/-- `add_front`, interval_base_set.hpp:409-430.  Returns the predecessors of `first_` and the new
`*first_`. -/
def addFront (left : List I) (cur : I) (right : List I) (interVal : I) :
    Option (List I × I) :=
  let leftResid := o.rightSubtract cur interVal
  if o.isEmpty leftResid then some (left, cur)
  else do
    let cur' := o.leftSubtract cur leftResid
    let z ← insertAt o setSeg left leftResid (cur' :: right)
    return (z.cur :: z.left, cur')

/-- The insertion of the part `lead_gap` of `inter_val` in front of `*it_` (if there is one), which
`add_segment` and `add_rear` have in common, interval_base_set.hpp:432-440 and 461-472.
Returns the nodes before `it_`. -/
def addLeadGap (left : List I) (cur : I) (right : List I) (interVal : I) : Option (List I) :=
  let leadGap := o.rightSubtract interVal cur
  if o.isEmpty leadGap then some left
  else (insertAt o setSeg left leadGap (cur :: right)).map fun z => z.cur :: z.left

/-- `add_segment`, interval_base_set.hpp:432-445.  Returns the nodes before the advanced
iterator. -/
def addSegment (left : List I) (cur : I) (right : List I) (interVal : I) : Option (List I) :=
  (addLeadGap o left cur right interVal).map fun left => cur :: left

/-- `add_main`, interval_base_set.hpp:447-459.  `cur :: mid` are the nodes from `it_` to `last_`,
`post` those behind `last_`.  Returns the predecessors of `last_`, `*last_` and the rest of the
interval. -/
def addMain (left : List I) (rest : I) (cur : I) (mid post : List I) :
    Option (List I × I × I) :=
  match mid with
  | [] => some (left, cur, rest)
  | nxt :: more => do
    let left' ← addSegment o left cur (nxt :: more ++ post) rest
    addMain left' (o.leftSubtract rest cur) nxt more post

/-- `add_rear`, interval_base_set.hpp:461-492 -/
def addRear (left : List I) (cur : I) (post : List I) (interVal : I) : Option (List I) := do
  let left' ← addLeadGap o left cur post interVal
  let endGap := o.leftSubtract interVal cur
  if !o.isEmpty endGap then
    return (← insertAt o setSeg (cur :: left') endGap post).toList
  else
    let rightResid := o.leftSubtract cur interVal
    if !o.isEmpty rightResid then
      return (← insertAt o setSeg (o.rightSubtract cur rightResid :: left') rightResid post).toList
    else
      return (⟨left', cur, post⟩ : Zip I).toList

/-- `add_over`, interval_set.hpp:178-182, separate_interval_set.hpp:165-168,
split_interval_set.hpp:163-175, for the collision sequence `f :: b`. -/
def addOver (st : Style) (a : List I) (f : I) (b c : List I) (addend : I) : Option (List I) :=
  match st with
  | .joining => do return (← joinNeighbours o setSeg (joinUnder o a f b c addend)).toList
  | .separating => some (joinUnder o a f b c addend).toList
  | .splitting => do
    let (left, cur) ← addFront o a.reverse f (b ++ c) addend
    let (left, cur, rest) ← addMain o left addend cur b c
    addRear o left cur c rest

/-- `add(segment)` = `_add`, interval_base_set.hpp:498-515.
Also `insert(segment)`, interval_base_set.hpp:293-296 and concept/interval_set.hpp:67-115. -/
def add (st : Style) (l : List I) (addend : I) : Option (List I) :=
  if o.isEmpty addend then some l
  else do
    let (a, b, c) ← equalRange o setSeg l addend
    match b with
    | [] => handleInserted o st ⟨a.reverse, addend, c⟩
    | f :: b => addOver o st a f b c addend

/-- `add(prior, segment)` = `_add(prior, ...)`, interval_base_set.hpp:517-535.
If the insertion fails, `std::set::insert(hint, x)` returns an iterator to one of the equivalent
nodes; which one is left open here: `oracle` chooses its index in the collision sequence. -/
def addHint (st : Style) (oracle : Nat) (l : List I) (addend : I) : Option (List I) :=
  if o.isEmpty addend then some l
  else do
    let (a, b, c) ← equalRange o setSeg l addend
    match b with
    | [] => handleInserted o st ⟨a.reverse, addend, c⟩
    | f :: b =>
      let k := oracle % (b.length + 1)
      let insertion := (f :: b).getD k f
      if o.eq insertion addend then
        handleInserted o st ⟨((f :: b).take k).reverse ++ a.reverse, insertion,
          (f :: b).drop (k + 1) ++ c⟩
      else addOver o st a f b c addend

/-- `if(!icl::is_empty(resid)) this->_set.insert(resid)`, interval_base_set.hpp:561-565 -/
def insertResid (l : List I) (resid : I) : Option (List I) :=
  if o.isEmpty resid then some l else stdInsert o setSeg l resid

/-- `subtract(segment)`, interval_base_set.hpp:540-569; also `erase`,
interval_base_set.hpp:318-321, concept/interval_set.hpp:146-163 -/
def subtract (l : List I) (minuend : I) : Option (List I) :=
  if o.isEmpty minuend then some l
  else do
    let (a, b, c) ← equalRange o setSeg l minuend
    match b with
    | [] => some l
    | f :: b =>
      let leftResid := o.rightSubtract f minuend
      let rightResid := o.leftSubtract (b.getLastD f) minuend
      let l ← insertResid o (a ++ c) leftResid
      insertResid o l rightResid

end ISet
end
end ICL
