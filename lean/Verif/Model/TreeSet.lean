import Verif.Model.Tree
import Verif.Model.Set

/-!
# Interval sets, with iterators

The member functions of the interval sets on nodes and iterators.
Parameters that the code takes by reference and changes are results here.
-/

namespace ICL
namespace Tree
namespace Sets

section
variable {D I : Type} (o : IntervalOps D I)

/-- `handle_inserted(it_)`, interval_set.hpp:173-176, separate_interval_set.hpp:160-163,
split_interval_set.hpp:158-161 -/
def handleInserted (st : Style) (it : It) : TreeM I It :=
  match st with
  | .joining => joinNeighbours o setSeg it
  | .separating => return it
  | .splitting => return it

/-- `join_under(object, addend, last_)`, detail/interval_set_algo.hpp:338-361 -/
def joinUnder (addend : I) (last_ : It) : TreeM I It := do
  let first_ ← lowerBound o setSeg addend
  let second_ ← next first_
  let end_ ← next last_
  let leftResid := o.rightSubtract (← deref first_) addend
  let rightResid := o.leftSubtract (← deref last_) addend
  eraseRange second_ end_
  modify first_ fun _ => o.hull (o.hull leftResid addend) rightResid
  return first_

/-- `add_front(inter_val, first_)`, interval_base_set.hpp:409-430 -/
def addFront (interVal : I) (first_ : It) : TreeM I Unit := do
  let leftResid := o.rightSubtract (← deref first_) interVal
  if o.isEmpty leftResid then return ()
  else
    let prior_ ← cyclicPrior first_
    modify first_ fun s => o.leftSubtract s leftResid
    let _ ← insertHint o setSeg 0 prior_ leftResid
    return ()

/-- `if(!icl::is_empty(lead_gap)) this->_set.insert(prior_, lead_gap)`, interval_base_set.hpp:436-440 and 467-472 -/
def insertGap (prior_ : It) (leadGap : I) : TreeM I Unit :=
  if o.isEmpty leadGap then return ()
  else do
    let _ ← insertHint o setSeg 0 prior_ leadGap
    return ()

/-- `add_segment(inter_val, it_)`, interval_base_set.hpp:432-445.
Simplification: `cyclic_prior` is evaluated also if there is no gap. -/
def addSegment (interVal : I) (it : It) : TreeM I It := do
  let leadGap := o.rightSubtract interVal (← deref it)
  let prior_ ← cyclicPrior it
  insertGap o prior_ leadGap
  next it

/-- `add_main(rest_interval, it_, last_)`, interval_base_set.hpp:447-459: the new values of `it_` and
`rest_interval`. The number bounds the rounds; `none` if it is too small. -/
def addMain (last_ : It) : Nat → I → It → TreeM I (It × I)
  | 0, _, _ => ofOption none
  | n + 1, rest, it =>
    if it = last_ then return (it, rest)
    else do
      let cur ← deref it
      let it ← addSegment o rest it
      addMain last_ n (o.leftSubtract rest cur) it

/-- `add_rear(inter_val, it_)`, interval_base_set.hpp:461-492 -/
def addRear (interVal : I) (it : It) : TreeM I It := do
  let prior_ ← cyclicPrior it
  let cur ← deref it
  let leadGap := o.rightSubtract interVal cur
  insertGap o prior_ leadGap
  let endGap := o.leftSubtract interVal cur
  if !o.isEmpty endGap then insertHint o setSeg 0 it endGap
  else
    let rightResid := o.leftSubtract cur interVal
    if !o.isEmpty rightResid then
      modify it fun s => o.rightSubtract s rightResid
      insertHint o setSeg 0 it rightResid
    else return it

/-- `add_over(addend, last_)`, interval_set.hpp:178-182, separate_interval_set.hpp:165-168,
split_interval_set.hpp:163-175 -/
def addOver (st : Style) (addend : I) (last_ : It) : TreeM I It :=
  match st with
  | .joining => do
    let joined ← joinUnder o addend last_
    joinNeighbours o setSeg joined
  | .separating => joinUnder o addend last_
  | .splitting => do
    let it ← lowerBound o setSeg addend
    addFront o addend it
    let (it, rest) ← addMain o last_ ((← get).nodes.length) addend it
    addRear o rest it

/-- `_add(addend)`, interval_base_set.hpp:498-515. Also `insert(segment)`, interval_base_set.hpp:293-296. -/
def add (st : Style) (pick : Nat) (addend : I) : TreeM I It :=
  if o.isEmpty addend then return none
  else do
    let (it, inserted) ← insert o setSeg pick addend
    if inserted then handleInserted o st it
    else
      let last_ ← prior (← upperBound o setSeg addend)
      addOver o st addend last_

/-- `_add(prior_, addend)`, interval_base_set.hpp:517-535; also `add(prior, segment)`, 262-268, and
`insert(prior, segment)`, 298-304 -/
def addHint (st : Style) (pick : Nat) (prior_ : It) (addend : I) : TreeM I It :=
  if o.isEmpty addend then return prior_
  else do
    let insertion ← insertHint o setSeg pick prior_ addend
    if o.eq (← deref insertion) addend then handleInserted o st insertion
    else
      let last_ ← prior (← upperBound o setSeg addend)
      addOver o st addend last_

/-- `if(!icl::is_empty(resid)) this->_set.insert(resid)`, interval_base_set.hpp:561-565 -/
def insertResid (resid : I) : TreeM I Unit :=
  if o.isEmpty resid then return ()
  else do
    let _ ← insert o setSeg 0 resid
    return ()

/-- `subtract(segment)`, interval_base_set.hpp:540-569; also `erase(segment)`, 318-321 -/
def subtract (minuend : I) : TreeM I Unit :=
  if o.isEmpty minuend then return ()
  else do
    let (first_, end_) ← equalRange o setSeg minuend
    if first_ = end_ then return ()
    else
      let last_ ← prior end_
      let leftResid := o.rightSubtract (← deref first_) minuend
      let rightResid := o.leftSubtract (← deref last_) minuend
      eraseRange first_ end_
      insertResid o leftResid
      insertResid o rightResid

end
end Sets
end Tree
end ICL
