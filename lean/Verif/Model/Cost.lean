import Verif.Model.TreeSet
import Verif.Model.TreeMap

/-!
# What the functions of interval containers cost

The functions of `Verif/Model/Tree.lean`, `TreeSet.lean` and `TreeMap.lean` once more, statement by statement, in a monad that also
counts what they do with the `std::set` or `std::map`:

* searches: `insert(x)`, `lower_bound`, `upper_bound`, `equal_range`, each of which compares with O(log n) nodes, and
  `erase(first, last)`, which takes O(log n) and the time to erase the nodes;
* hinted insertions `insert(hint, x)`: never worse than a search, and of constant time if the hint is next to the place of the new node;
* steps: `begin`, `++`, `--`, `*it` and changes of the content of a node, and erasing a single node;
* nodes that are erased, and nodes that are allocated.

Calls of interval functions and functors are not counted: there is a bounded number of them between two counted
operations.  Searches in assertions are not counted.
-/

namespace ICL

/-- What has been done. -/
structure Work where
  searches : Nat := 0
  hinted : Nat := 0
  steps : Nat := 0
  erased : Nat := 0
  allocated : Nat := 0
  deriving DecidableEq, Repr

instance : Add Work := ⟨fun a b => ⟨a.searches + b.searches, a.hinted + b.hinted, a.steps + b.steps, a.erased + b.erased,
  a.allocated + b.allocated⟩⟩

/-- A program that works on a container, with its costs. -/
def CostM (S α : Type) := Tree S → Option ((α × Tree S) × Work)

namespace Cost
section
variable {S α : Type}

instance : Monad (CostM S) where
  pure a := fun t => some ((a, t), {})
  bind m f := fun t => (m t).bind fun r => (f r.1.1 r.1.2).map fun q => (q.1, r.2 + q.2)

/-- An operation and what it costs, given the container before and after it. -/
def charge (w : Tree S → Tree S → Work) (m : TreeM S α) : CostM S α := fun t => (m t).map fun r => (r, w t r.2)

/-- Nothing that counts. -/
def free (m : TreeM S α) : CostM S α := charge (fun _ _ => {}) m
/-- One step. -/
def step (m : TreeM S α) : CostM S α := charge (fun _ _ => { steps := 1 }) m
/-- One search. -/
def search (m : TreeM S α) : CostM S α := charge (fun _ _ => { searches := 1 }) m

instance : MonadState (Tree S) (CostM S) where
  get := free get
  set t := free (set t)
  modifyGet f := free (modifyGet f)

/-- Outcome of a computation that does not touch the container -/
def ofOption (a : Option α) : CostM S α := free (Tree.ofOption a)
/-- `begin()` -/
def first : CostM S It := step Tree.first
/-- `*it` -/
def deref (it : It) : CostM S S := step (Tree.deref it)
/-- `++it` -/
def next (it : It) : CostM S It := step (Tree.next it)
/-- `--it` -/
def prior (it : It) : CostM S It := step (Tree.prior it)
/-- An assignment to the content of a node -/
def modify (it : It) (f : S → S) : CostM S Unit := step (Tree.modify it f)

/-- `erase(it)` -/
def erase (it : It) : CostM S Unit :=
  charge (fun t t' => { steps := 1, erased := t.nodes.length - t'.nodes.length }) (Tree.erase it)

/-- `erase(first, last)` -/
def eraseRange (first last : It) : CostM S Unit :=
  charge (fun t t' => { searches := 1, erased := t.nodes.length - t'.nodes.length }) (Tree.eraseRange first last)

/-- `cyclic_prior(object, it_)`, concept/container.hpp:70-79 -/
def cyclicPrior (it : It) : CostM S It := do
  let b ← first
  if it = b then return none else prior it

end

section
variable {D I V S : Type} (o : IntervalOps D I) (g : SegOps I V S)

/-- `equal_range(k)` -/
def equalRange (k : I) : CostM S (It × It) := search (Tree.equalRange o g k)
/-- `lower_bound(k)` -/
def lowerBound (k : I) : CostM S It := search (Tree.lowerBound o g k)
/-- `upper_bound(k)` -/
def upperBound (k : I) : CostM S It := search (Tree.upperBound o g k)

/-- `insert(x)` -/
def insert (pick : Nat) (s : S) : CostM S (It × Bool) :=
  charge (fun t t' => { searches := 1, allocated := t'.nodes.length - t.nodes.length }) (Tree.insert o g pick s)

/-- `insert(hint, x)` -/
def insertHint (pick : Nat) (hint : It) (s : S) : CostM S It :=
  charge (fun t t' => { hinted := 1, allocated := t'.nodes.length - t.nodes.length }) (Tree.insertHint o g pick hint s)

variable [DecidableEq V]

/-- `segmental::joinable`, detail/interval_set_algo.hpp:225-231 -/
def joinable (some_ next_ : It) : CostM S Bool := do
  let a ← deref some_
  let b ← deref next_
  ofOption (joinableC o g a b)

omit [DecidableEq V] in
/-- `join_nodes(object, left_, right_)`, detail/interval_set_algo.hpp:233-242 -/
def joinNodes (left_ right_ : It) : CostM S Unit := do
  let rightInterval := g.key (← deref right_)
  erase right_
  modify left_ fun a => g.setKey a (o.hull (g.key a) rightInterval)

/-- `join_on_left` and `join_on_right`, detail/interval_set_algo.hpp:244-271: the assertions, the joining, and the node
that is left, which is `left_` in both -/
def joinOn (left_ right_ : It) : CostM S It := do
  let a ← deref left_
  let b ← deref right_
  if o.exclusiveLess (g.key a) (g.key b) && ICL.joinable o g a b then
    joinNodes o g left_ right_
    return left_
  else ofOption none

/-- `join_left(object, it_)`, detail/interval_set_algo.hpp:273-287; yields the new value of the reference `it_` -/
def joinLeft (it : It) : CostM S It := do
  if it = (← first) then return it
  else
    let pred ← prior it
    if ← joinable o g pred it then joinOn o g pred it
    else return it

/-- `join_right(object, it_)`, detail/interval_set_algo.hpp:289-304 -/
def joinRight (it : It) : CostM S It := do
  if it = none then return it
  else
    let succ ← next it
    if succ = none then return it
    else if ← joinable o g it succ then joinOn o g it succ
    else return it

/-- `join_neighbours(object, it_)`, detail/interval_set_algo.hpp:306-311 -/
def joinNeighbours (it : It) : CostM S It := do
  let it ← joinLeft o g it
  joinRight o g it

end

namespace Sets

section
variable {D I : Type} (o : IntervalOps D I)

/-- `handle_inserted(it_)`, interval_set.hpp:173-176, separate_interval_set.hpp:160-163,
split_interval_set.hpp:158-161 -/
def handleInserted (st : Style) (it : It) : CostM I It :=
  match st with
  | .joining => joinNeighbours o setSeg it
  | .separating => return it
  | .splitting => return it

/-- `join_under(object, addend, last_)`, detail/interval_set_algo.hpp:338-361 -/
def joinUnder (addend : I) (last_ : It) : CostM I It := do
  let first_ ← lowerBound o setSeg addend
  let second_ ← next first_
  let end_ ← next last_
  let leftResid := o.rightSubtract (← deref first_) addend
  let rightResid := o.leftSubtract (← deref last_) addend
  eraseRange second_ end_
  modify first_ fun _ => o.hull (o.hull leftResid addend) rightResid
  return first_

/-- `add_front(inter_val, first_)`, interval_base_set.hpp:409-430 -/
def addFront (interVal : I) (first_ : It) : CostM I Unit := do
  let leftResid := o.rightSubtract (← deref first_) interVal
  if o.isEmpty leftResid then return ()
  else
    let prior_ ← cyclicPrior first_
    modify first_ fun s => o.leftSubtract s leftResid
    let _ ← insertHint o setSeg 0 prior_ leftResid
    return ()

/-- `if(!icl::is_empty(lead_gap)) this->_set.insert(prior_, lead_gap)`, interval_base_set.hpp:436-440 and 467-472 -/
def insertGap (prior_ : It) (leadGap : I) : CostM I Unit :=
  if o.isEmpty leadGap then return ()
  else do
    let _ ← insertHint o setSeg 0 prior_ leadGap
    return ()

/-- `add_segment(inter_val, it_)`, interval_base_set.hpp:432-445.
Simplification: `cyclic_prior` is evaluated also if there is no gap. -/
def addSegment (interVal : I) (it : It) : CostM I It := do
  let leadGap := o.rightSubtract interVal (← deref it)
  let prior_ ← cyclicPrior it
  insertGap o prior_ leadGap
  next it

/-- `add_main(rest_interval, it_, last_)`, interval_base_set.hpp:447-459: the new values of `it_` and
`rest_interval`. The number bounds the rounds; `none` if it is too small. -/
def addMain (last_ : It) : Nat → I → It → CostM I (It × I)
  | 0, _, _ => ofOption none
  | n + 1, rest, it =>
    if it = last_ then return (it, rest)
    else do
      let cur ← deref it
      let it ← addSegment o rest it
      addMain last_ n (o.leftSubtract rest cur) it

/-- `add_rear(inter_val, it_)`, interval_base_set.hpp:461-492 -/
def addRear (interVal : I) (it : It) : CostM I It := do
  let prior_ ← cyclicPrior it
  let cur ← deref it
  let leadGap := o.rightSubtract interVal cur
  insertGap o prior_ leadGap
  let endGap := o.leftSubtract interVal cur
  if !o.isEmpty endGap then insertHint o setSeg 0 it endGap
  else
    let rightResid := o.leftSubtract cur interVal
    if !o.isEmpty rightResid then
      modify it fun s => o.rightSubtract s rightResid
      insertHint o setSeg 0 it rightResid
    else return it

/-- `add_over(addend, last_)`, interval_set.hpp:178-182, separate_interval_set.hpp:165-168,
split_interval_set.hpp:163-175 -/
def addOver (st : Style) (addend : I) (last_ : It) : CostM I It :=
  match st with
  | .joining => do
    let joined ← joinUnder o addend last_
    joinNeighbours o setSeg joined
  | .separating => joinUnder o addend last_
  | .splitting => do
    let it ← lowerBound o setSeg addend
    addFront o addend it
    let (it, rest) ← addMain o last_ ((← get).nodes.length) addend it
    addRear o rest it

/-- `_add(addend)`, interval_base_set.hpp:498-515. Also `insert(segment)`, interval_base_set.hpp:293-296. -/
def add (st : Style) (pick : Nat) (addend : I) : CostM I It :=
  if o.isEmpty addend then return none
  else do
    let (it, inserted) ← insert o setSeg pick addend
    if inserted then handleInserted o st it
    else
      let last_ ← prior (← upperBound o setSeg addend)
      addOver o st addend last_

/-- `_add(prior_, addend)`, interval_base_set.hpp:517-535; also `add(prior, segment)`, 262-268, and
`insert(prior, segment)`, 298-304 -/
def addHint (st : Style) (pick : Nat) (prior_ : It) (addend : I) : CostM I It :=
  if o.isEmpty addend then return prior_
  else do
    let insertion ← insertHint o setSeg pick prior_ addend
    if o.eq (← deref insertion) addend then handleInserted o st insertion
    else
      let last_ ← prior (← upperBound o setSeg addend)
      addOver o st addend last_

/-- `if(!icl::is_empty(resid)) this->_set.insert(resid)`, interval_base_set.hpp:561-565 -/
def insertResid (resid : I) : CostM I Unit :=
  if o.isEmpty resid then return ()
  else do
    let _ ← insert o setSeg 0 resid
    return ()

/-- `subtract(segment)`, interval_base_set.hpp:540-569; also `erase(segment)`, 318-321 -/
def subtract (minuend : I) : CostM I Unit :=
  if o.isEmpty minuend then return ()
  else do
    let (first_, end_) ← equalRange o setSeg minuend
    if first_ = end_ then return ()
    else
      let last_ ← prior end_
      let leftResid := o.rightSubtract (← deref first_) minuend
      let rightResid := o.leftSubtract (← deref last_) minuend
      eraseRange first_ end_
      insertResid o leftResid
      insertResid o rightResid

end
end Sets

namespace Maps

section
variable {D I V : Type} (o : IntervalOps D I) [DecidableEq V]

/-- `on_absorbtion<...>::is_absorbable((*it_).second)` -/
def absorbed (c : MapCfg V) (it : It) : CostM (I × V) Bool := do
  return IMap.absorbable c (← deref it).2

omit [DecidableEq V] in
/-- `Combiner()((*it_).second, co_val)` -/
def combine (f : Combiner V) (it : It) (v : V) : CostM (I × V) Unit := modify it fun s => IMap.combine f s v

/-- `handle_inserted(it_)`, interval_map.hpp:154-157, split_interval_map.hpp:135 -/
def handleInserted (c : MapCfg V) (it : It) : CostM (I × V) It :=
  if c.joining then joinNeighbours o mapSeg it else return it

/-- `handle_inserted(prior_, it_)`, interval_map.hpp:159-163, split_interval_map.hpp:136 -/
def handleInsertedPrior (c : MapCfg V) (prior_ it : It) : CostM (I × V) Unit :=
  if c.joining then
    if prior_ = none then return ()
    else do
      if ← joinable o mapSeg prior_ it then
        let _ ← joinOn o mapSeg prior_ it
        return ()
      else return ()
  else return ()

/-- `handle_left_combined(it_)`, interval_map.hpp:165-172, split_interval_map.hpp:138-143 -/
def handleLeftCombined (c : MapCfg V) (it : It) : CostM (I × V) Unit := do
  if ← absorbed c it then erase it
  else if c.joining then
    let _ ← joinLeft o mapSeg it
    return ()
  else return ()

/-- `handle_combined(it_)`, interval_map.hpp:174-181, split_interval_map.hpp:145-150 -/
def handleCombined (c : MapCfg V) (it : It) : CostM (I × V) Unit := do
  if ← absorbed c it then erase it
  else if c.joining then
    let _ ← joinNeighbours o mapSeg it
    return ()
  else return ()

/-- `handle_preceeded_combined(prior_, it_)`, interval_map.hpp:183-193, split_interval_map.hpp:152-160 -/
def handlePreceededCombined (c : MapCfg V) (prior_ it : It) : CostM (I × V) It := do
  if ← absorbed c it then
    erase it
    return prior_
  else if c.joining then joinNeighbours o mapSeg it
  else return it

/-- `handle_succeeded_combined(it_, next_)`, interval_map.hpp:195-208, split_interval_map.hpp:162-167 -/
def handleSucceededCombined (c : MapCfg V) (it next_ : It) : CostM (I × V) Unit := do
  if ← absorbed c it then
    erase it
    if c.joining then
      let _ ← joinRight o mapSeg next_
      return ()
    else return ()
  else if c.joining then
    let _ ← joinLeft o mapSeg it
    let _ ← joinNeighbours o mapSeg next_
    return ()
  else return ()

/-- `handle_reinserted(insertion_)`, interval_map.hpp:212-215, split_interval_map.hpp:169: the parameter is taken by value -/
def handleReinserted (c : MapCfg V) (it : It) : CostM (I × V) Unit :=
  if c.joining then do
    let _ ← joinRight o mapSeg it
    return ()
  else return ()

/-- `gap_insert<Combiner>(prior_, inter_val, co_val)`, interval_base_map.hpp:552-560: `_map.find` finds nothing if
`lower_bound` and `upper_bound` agree. This is an assertion. -/
def gapInsert (c : MapCfg V) (f : Combiner V) (prior_ : It) (k : I) (v : V) : CostM (I × V) It := do
  let (lwb, upb) ← free (Tree.equalRange o mapSeg k)
  if lwb ≠ upb || IMap.absorbable c v then ofOption none
  else insertHint o mapSeg 0 prior_ (k, f.version v)

/-- `gap_insert_at<Combiner>(it_, prior_, end_gap, co_val)`, interval_map.hpp:218-234,
split_interval_map.hpp:171-182 -/
def gapInsertAt (c : MapCfg V) (f : Combiner V) (it prior_ : It) (k : I) (v : V) : CostM (I × V) It := do
  if ← absorbed c it then
    erase it
    let it ← gapInsert o c f prior_ k v
    if c.joining then joinRight o mapSeg it else return it
  else if c.joining then
    let it ← joinLeft o mapSeg it
    let inserted ← gapInsert o c f it k v
    joinNeighbours o mapSeg inserted
  else gapInsert o c f it k v

omit [DecidableEq V] in
/-- `add_front`, interval_base_map.hpp:815-838, and `subtract_front`, 1015-1029, which is the same -/
def addFront (k : I) (first_ : It) : CostM (I × V) Unit := do
  let leftResid := o.rightSubtract (← deref first_).1 k
  if o.isEmpty leftResid then return ()
  else
    let prior_ ← cyclicPrior first_
    modify first_ fun s => (o.leftSubtract s.1 leftResid, s.2)
    let _ ← insertHint o mapSeg 0 prior_ (leftResid, (← deref first_).2)
    return ()

/-- The insertion of `lead_gap` behind `prior_`, interval_base_map.hpp:846-853 and 887-892 -/
def insertGap (c : MapCfg V) (f : Combiner V) (prior_ : It) (leadGap : I) (v : V) : CostM (I × V) Unit :=
  if o.isEmpty leadGap then return ()
  else do
    let inserted ← gapInsert o c f prior_ leadGap v
    handleInsertedPrior o c prior_ inserted

/-- `add_segment`, interval_base_map.hpp:840-859.
Simplification: `prior_` is evaluated also if there is no gap. -/
def addSegment (c : MapCfg V) (f : Combiner V) (k : I) (v : V) (it : It) : CostM (I × V) It := do
  let leadGap := o.rightSubtract k (← deref it).1
  let b ← first
  let prior_ ← if it = b then pure it else prior it
  insertGap o c f prior_ leadGap v
  combine f it v
  let next_ ← next it
  handleLeftCombined o c it
  return next_

/-- `add_main`, interval_base_map.hpp:862-876: the new values of `it_` and `inter_val`. The number bounds the rounds;
`none` if it is too small. -/
def addMain (c : MapCfg V) (f : Combiner V) (v : V) (last_ : It) : Nat → I → It → CostM (I × V) (It × I)
  | 0, _, _ => ofOption none
  | n + 1, k, it =>
    if it = last_ then return (it, k)
    else do
      let cur ← deref it
      let it ← addSegment o c f k v it
      addMain c f v last_ n (o.leftSubtract k cur.1) it

/-- `add_rear`, interval_base_map.hpp:878-930 -/
def addRear (c : MapCfg V) (f : Combiner V) (k : I) (v : V) (it : It) : CostM (I × V) It := do
  let prior_ ← cyclicPrior it
  let curItv := (← deref it).1
  insertGap o c f prior_ (o.rightSubtract k curItv) v
  let endGap := o.leftSubtract k curItv
  if !o.isEmpty endGap then
    combine f it v
    gapInsertAt o c f it prior_ endGap v
  else
    let rightResid := o.leftSubtract curItv k
    if o.isEmpty rightResid then
      combine f it v
      handlePreceededCombined o c prior_ it
    else
      modify it fun s => (o.rightSubtract s.1 rightResid, s.2)
      let insertion ← insertHint o mapSeg 0 it (rightResid, (← deref it).2)
      handleReinserted o c insertion
      combine f it v
      handlePreceededCombined o c insertion it

/-- The treatment of a collision sequence from `it_` to `last_` in `_add`, interval_base_map.hpp:963-971 and 1000-1008 -/
def addOver (c : MapCfg V) (f : Combiner V) (k : I) (v : V) (it last_ : It) : CostM (I × V) It := do
  addFront o k it
  let (it, rest) ← addMain o c f v last_ ((← get).nodes.length) k it
  addRear o c f rest v it

/-- `_add<Combiner>(addend)`, interval_base_map.hpp:936-972 -/
def addC (c : MapCfg V) (f : Combiner V) (pick : Nat) (k : I) (v : V) : CostM (I × V) It :=
  if o.isEmpty k then return none
  else if IMap.absorbable c v then return none
  else do
    let (it, inserted) ← insert o mapSeg pick (k, f.version v)
    if inserted then handleInserted o c it
    else
      let first_ ← lowerBound o mapSeg k
      let last_ ← prior (← upperBound o mapSeg k)
      addOver o c f k v first_ last_

/-- `add_at<Combiner>(prior_, inter_val, co_val)`, interval_base_map.hpp:562-579 -/
def addAt (c : MapCfg V) (f : Combiner V) (pick : Nat) (prior_ : It) (k : I) (v : V) :
    CostM (I × V) (It × Bool) := do
  let inserted ← insertHint o mapSeg pick prior_ (k, c.ident)
  let s ← deref inserted
  if o.eq s.1 k && decide (s.2 = c.ident) then
    combine f inserted v
    return (inserted, true)
  else return (inserted, false)

/-- `_add<Combiner>(prior_, addend)`, interval_base_map.hpp:974-1009 -/
def addHintC (c : MapCfg V) (f : Combiner V) (pick : Nat) (prior_ : It) (k : I) (v : V) : CostM (I × V) It :=
  if o.isEmpty k then return prior_
  else if IMap.absorbable c v then return prior_
  else do
    let (it, inserted) ← addAt o c f pick prior_ k v
    if inserted then handleInserted o c it
    else
      let (first_, end_) ← equalRange o mapSeg k
      let last_ ← prior end_
      addOver o c f k v first_ last_

/-- `subtract_main`, interval_base_map.hpp:1032-1042 -/
def subMain (c : MapCfg V) (f : Combiner V) (v : V) (last_ : It) : Nat → It → CostM (I × V) It
  | 0, _ => ofOption none
  | n + 1, it =>
    if it = last_ then return it
    else do
      combine f it v
      let next_ ← next it
      handleLeftCombined o c it
      subMain c f v last_ n next_

/-- `subtract_rear`, interval_base_map.hpp:1044-1063 -/
def subRear (c : MapCfg V) (f : Combiner V) (k : I) (v : V) (it : It) : CostM (I × V) Unit := do
  let rightResid := o.leftSubtract (← deref it).1 k
  if o.isEmpty rightResid then
    combine f it v
    handleCombined o c it
  else
    modify it fun s => (o.rightSubtract s.1 rightResid, s.2)
    let next_ ← insertHint o mapSeg 0 it (rightResid, (← deref it).2)
    combine f it v
    handleSucceededCombined o c it next_

/-- `_subtract<Combiner>(minuend)`, interval_base_map.hpp:1068-1090 -/
def subC (c : MapCfg V) (f : Combiner V) (k : I) (v : V) : CostM (I × V) Unit :=
  if o.isEmpty k then return ()
  else if IMap.absorbable c v then return ()
  else do
    let (first_, end_) ← equalRange o mapSeg k
    if first_ = end_ then return ()
    else
      let last_ ← prior end_
      addFront o k first_
      let it ← subMain o c f v last_ ((← get).nodes.length) first_
      subRear o c f k v it

/-- The loop of `insert_main`, interval_base_map.hpp:1105-1120: the new values of `it_`, `prior_` and
`rest_interval`. The number bounds the rounds; `none` if it is too small. -/
def insertLoop (c : MapCfg V) (v : V) (end_ : It) : Nat → I → It → It → CostM (I × V) (It × It × I)
  | 0, _, _, _ => ofOption none
  | n + 1, rest, it, prior_ =>
    if it = end_ then return (it, prior_, rest)
    else do
      let curItv := (← deref it).1
      let leftGap := o.rightSubtract rest curItv
      if o.isEmpty leftGap then
        let next_ ← next it
        insertLoop c v end_ n (o.leftSubtract rest curItv) next_ it
      else
        let inserted ← insertHint o mapSeg 0 prior_ (leftGap, v)
        let it ← handleInserted o c inserted
        let next_ ← next it
        insertLoop c v end_ n (o.leftSubtract rest curItv) next_ it

/-- `insert_main(inter_val, co_val, it_, last_)`, interval_base_map.hpp:1095-1131 -/
def insertMain (c : MapCfg V) (k : I) (v : V) (it last_ : It) : CostM (I × V) It := do
  let end_ ← next last_
  let prior_ ← cyclicPrior it
  let lastInterval := (← deref last_).1
  let (_, prior_, rest) ← insertLoop o c v end_ (2 * (← get).nodes.length + 1) k it prior_
  let endGap := o.leftSubtract rest lastInterval
  if o.isEmpty endGap then return prior_
  else
    let inserted ← insertHint o mapSeg 0 prior_ (endGap, v)
    handleInserted o c inserted

/-- `_insert(addend)`, interval_base_map.hpp:1134-1161 -/
def insert (c : MapCfg V) (pick : Nat) (k : I) (v : V) : CostM (I × V) It :=
  if o.isEmpty k then return none
  else if IMap.absorbable c v then return none
  else do
    let (it, inserted) ← Cost.insert o mapSeg pick (k, v)
    if inserted then handleInserted o c it
    else
      let first_ ← lowerBound o mapSeg k
      let last_ ← prior (← upperBound o mapSeg k)
      insertMain o c k v first_ last_

omit [DecidableEq V] in
/-- `insert_at(prior_, inter_val, co_val)`, interval_base_map.hpp:581-594 -/
def insertAt (pick : Nat) (prior_ : It) (k : I) (v : V) : CostM (I × V) (It × Bool) := do
  let inserted ← insertHint o mapSeg pick prior_ (k, v)
  if inserted = prior_ then return (inserted, false)
  else
    let s ← deref inserted
    return (inserted, o.eq s.1 k)

/-- `_insert(prior_, addend)`, interval_base_map.hpp:1164-1189 -/
def insertHint (c : MapCfg V) (pick : Nat) (prior_ : It) (k : I) (v : V) : CostM (I × V) It :=
  if o.isEmpty k then return prior_
  else if IMap.absorbable c v then return prior_
  else do
    let (it, inserted) ← insertAt o pick prior_ k v
    if inserted then handleInserted o c it
    else
      let (first_, end_) ← equalRange o mapSeg k
      let last_ ← prior end_
      insertMain o c k v first_ last_

/-- The loop of `erase_rest`, interval_base_map.hpp:1199-1202 -/
def eraseLoop (v : V) (last_ : It) : Nat → It → CostM (I × V) Unit
  | 0, _ => ofOption none
  | n + 1, it =>
    if it = last_ then return ()
    else do
      let s ← deref it
      let next_ ← next it
      if s.2 = v then erase it else pure ()
      eraseLoop v last_ n next_

/-- `erase_rest(inter_val, co_val, it_, last_)`, interval_base_map.hpp:1194-1214.
Simplification: behind the loop `it_` is `last_`. -/
def eraseRest (k : I) (v : V) (it last_ : It) : CostM (I × V) Unit := do
  eraseLoop v last_ ((← get).nodes.length) it
  let s ← deref last_
  if s.2 = v then
    let rightResid := o.leftSubtract s.1 k
    if o.isEmpty rightResid then erase last_
    else modify last_ fun s => (rightResid, s.2)
  else return ()

/-- `erase(segment)`, interval_base_map.hpp:1216-1273 -/
def eraseSeg (c : MapCfg V) (k : I) (v : V) : CostM (I × V) Unit :=
  if o.isEmpty k then return ()
  else if IMap.absorbable c v then return ()
  else do
    let (first_, end_) ← equalRange o mapSeg k
    if first_ = end_ then return ()
    else
      let last_ ← cyclicPrior end_
      let second_ ← next first_
      let s ← deref first_
      if first_ = last_ then
        let rightResid := o.leftSubtract s.1 k
        if s.2 = v then
          let leftResid := o.rightSubtract s.1 k
          if !o.isEmpty leftResid then
            modify first_ fun s => (leftResid, s.2)
            if !o.isEmpty rightResid then
              let _ ← Cost.insertHint o mapSeg 0 first_ (rightResid, v)
              return ()
            else return ()
          else if !o.isEmpty rightResid then modify first_ fun s => (rightResid, s.2)
          else erase first_
        else return ()
      else
        if s.2 = v then
          let leftResid := o.rightSubtract s.1 k
          if o.isEmpty leftResid then erase first_
          else modify first_ fun s => (leftResid, s.2)
        else pure ()
        eraseRest o k v second_ last_

omit [DecidableEq V] in
/-- `erase(interval)`, interval_base_map.hpp:1278-1324 -/
def eraseItv (k : I) : CostM (I × V) Unit :=
  if o.isEmpty k then return ()
  else do
    let (first_, end_) ← equalRange o mapSeg k
    if first_ = end_ then return ()
    else
      let last_ ← prior end_
      let leftResid := o.rightSubtract (← deref first_).1 k
      let rightResid := o.leftSubtract (← deref last_).1 k
      if first_ = last_ then
        if !o.isEmpty leftResid then
          modify first_ fun s => (leftResid, s.2)
          if !o.isEmpty rightResid then
            let _ ← Cost.insertHint o mapSeg 0 first_ (rightResid, (← deref first_).2)
            return ()
          else return ()
        else if !o.isEmpty rightResid then modify first_ fun s => (o.leftSubtract s.1 k, s.2)
        else erase first_
      else
        let second_ ← next first_
        let start_ := if o.isEmpty leftResid then first_ else second_
        let stop_ := if o.isEmpty rightResid then end_ else last_
        eraseRange start_ stop_
        if !o.isEmpty leftResid then modify first_ fun s => (leftResid, s.2) else pure ()
        if !o.isEmpty rightResid then modify last_ fun s => (rightResid, s.2) else pure ()

end
end Maps

end Cost
end ICL
