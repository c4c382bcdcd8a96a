import Verif.Model.Seg

/-!
# Interval maps

Model of the member functions of `interval_base_map.hpp`, `interval_map.hpp` and
`split_interval_map.hpp` that change a map by one segment or interval.
-/

namespace ICL

/-- A functor that combines associated values (`Combine`, `Section` and their inverses), functors.hpp.
`apply u v` is the value of the object `u` after `Combiner()(u, v)`; `version v` is
`version<Combiner>()(v)`, functors.hpp:406-466: `-v` for `inplace_minus` and `v` for all other functors. -/
structure Combiner (V : Type) where
  apply : V → V → V
  version : V → V

/-- The type of an interval map: `joining` distinguishes `interval_map` from `split_interval_map`,
`absorbs` is the trait `Traits::absorbs_identities`, `total` is `Traits::is_total`, and `ident` is
`identity_element<codomain_type>::value()`.
Simplification: `Combiner::identity_element()` is taken to be `ident` for all combiners, which is so for all
functors of functors.hpp that a map can be instantiated with (they are `identity_based_inplace_combine`). -/
structure MapCfg (V : Type) where
  joining : Bool
  absorbs : Bool
  total : Bool
  ident : V

section
variable {D I V : Type} (o : IntervalOps D I) [DecidableEq V]

namespace IMap

/-- `on_absorbtion<...>::is_absorbable`, detail/on_absorbtion.hpp:15-39 -/
def absorbable (c : MapCfg V) (v : V) : Bool := c.absorbs && decide (v = c.ident)

/-- `Combiner()((*it_).second, co_val)` -/
def combine (f : Combiner V) (s : I × V) (v : V) : I × V := (s.1, f.apply s.2 v)

/-- `handle_inserted(it_)`, interval_map.hpp:154-157, split_interval_map.hpp:135 -/
def handleInserted (c : MapCfg V) (z : Zip (I × V)) : Option (Zip (I × V)) :=
  if c.joining then joinNeighbours o mapSeg z else some z

/-- The test in `handle_inserted(prior_, it_)`, interval_map.hpp:161; the splitting maps do not test,
split_interval_map.hpp:136 -/
def joinsTo (c : MapCfg V) (p s : I × V) : Option Bool :=
  if c.joining then joinableC o mapSeg p s else some false

/-- `handle_inserted(prior_, it_)`, interval_map.hpp:159-163, split_interval_map.hpp:136: `s` has been inserted
behind the nodes `left`; `prior_` is the node before it, and if there is none what `first` says.
Returns the nodes up to `s`. -/
def handleInsertedPrior (c : MapCfg V) (first : Option (I × V)) (left : List (I × V)) (s : I × V) :
    Option (List (I × V)) :=
  match left with
  | [] =>
    match first with
    | none => some [s]
    | some p =>
      match joinsTo o c p s with
      | some false => some [s]
      | _ => none
  | p :: left =>
    match joinsTo o c p s with
    | none => none
    | some true => do
      let j ← joinNodes o mapSeg p s
      return j :: left
    | some false => some (s :: p :: left)

/-- `handle_left_combined(it_)`, interval_map.hpp:165-172, split_interval_map.hpp:138-143: the nodes before
the node behind `cur` -/
def handleLeftCombined (c : MapCfg V) (left : List (I × V)) (cur : I × V) (right : List (I × V)) :
    Option (List (I × V)) :=
  if absorbable c cur.2 then some left
  else if c.joining then (joinLeft o mapSeg ⟨left, cur, right⟩).map fun z => z.cur :: z.left
  else some (cur :: left)

/-- `handle_combined(it_)`, interval_map.hpp:174-181, split_interval_map.hpp:145-150; and
`handle_preceeded_combined(prior_, it_)`, interval_map.hpp:183-193, split_interval_map.hpp:152-160, which
differs in the iterator it yields -/
def handleCombined (c : MapCfg V) (z : Zip (I × V)) : Option (List (I × V)) :=
  if absorbable c z.cur.2 then some (z.left.reverse ++ z.right)
  else if c.joining then (joinNeighbours o mapSeg z).map Zip.toList
  else some z.toList

/-- `handle_succeeded_combined(it_, next_)`, interval_map.hpp:195-208, split_interval_map.hpp:162-167 -/
def handleSucceededCombined (c : MapCfg V) (left : List (I × V)) (cur next : I × V)
    (right : List (I × V)) : Option (List (I × V)) :=
  if absorbable c cur.2 then
    if c.joining then (joinRight o mapSeg ⟨left, next, right⟩).map Zip.toList
    else some (Zip.toList ⟨left, next, right⟩)
  else if c.joining then do
    let z ← joinLeft o mapSeg ⟨left, cur, next :: right⟩
    (joinNeighbours o mapSeg ⟨z.cur :: z.left, next, right⟩).map Zip.toList
  else some (Zip.toList ⟨cur :: left, next, right⟩)

/-- `gap_insert<Combiner>(prior_, inter_val, co_val)`, interval_base_map.hpp:552-560, for a gap between
`left` and `right`. The assertion that no node collides with the gap is part of `insertAt`. -/
def gapInsert (c : MapCfg V) (f : Combiner V) (left : List (I × V)) (k : I) (v : V)
    (right : List (I × V)) : Option (Zip (I × V)) :=
  if absorbable c v then none else insertAt o mapSeg left (k, f.version v) right

/-- `gap_insert_at<Combiner>(it_, prior_, end_gap, co_val)`, interval_map.hpp:218-234,
split_interval_map.hpp:171-182 -/
def gapInsertAt (c : MapCfg V) (f : Combiner V) (left : List (I × V)) (cur : I × V)
    (right : List (I × V)) (k : I) (v : V) : Option (List (I × V)) :=
  if absorbable c cur.2 then do
    let z ← gapInsert o c f left k v right
    if c.joining then (joinRight o mapSeg z).map Zip.toList else some z.toList
  else if c.joining then do
    let z ← joinLeft o mapSeg ⟨left, cur, right⟩
    let z ← gapInsert o c f (z.cur :: z.left) k v z.right
    (joinNeighbours o mapSeg z).map Zip.toList
  else (gapInsert o c f (cur :: left) k v right).map Zip.toList

/-- `add_front`, interval_base_map.hpp:815-838, and `subtract_front`, 1015-1029, which is the same.
Returns the predecessors of `first_` and the new `*first_`. -/
def addFront (left : List (I × V)) (cur : I × V) (right : List (I × V)) (k : I) :
    Option (List (I × V) × (I × V)) :=
  let leftResid := o.rightSubtract cur.1 k
  if o.isEmpty leftResid then some (left, cur)
  else do
    let cur' : I × V := (o.leftSubtract cur.1 leftResid, cur.2)
    let z ← insertAt o mapSeg left (leftResid, cur'.2) (cur' :: right)
    return (z.cur :: z.left, cur')

/-- The insertion of the part `lead_gap` of `inter_val` in front of `*it_` (if there is one) that
`add_segment` (interval_base_map.hpp:845-853) and `add_rear` (886-892) have in common.
They differ in `prior_` if `it_` is the first node: `it_` (850) or `end()` (883).
Returns the nodes before `it_`. -/
def addLeadGap (c : MapCfg V) (f : Combiner V) (first : Option (I × V)) (left : List (I × V))
    (cur : I × V) (right : List (I × V)) (k : I) (v : V) : Option (List (I × V)) :=
  let leadGap := o.rightSubtract k cur.1
  if o.isEmpty leadGap then some left
  else do
    let z ← gapInsert o c f left leadGap v (cur :: right)
    handleInsertedPrior o c first z.left z.cur

/-- `add_segment`, interval_base_map.hpp:840-859. Returns the nodes before the advanced iterator. -/
def addSegment (c : MapCfg V) (f : Combiner V) (left : List (I × V)) (cur : I × V)
    (right : List (I × V)) (k : I) (v : V) : Option (List (I × V)) := do
  let left ← addLeadGap o c f (some cur) left cur right k v
  handleLeftCombined o c left (combine f cur v) right

/-- `add_main`, interval_base_map.hpp:862-876. `cur :: mid` are the nodes from `it_` to `last_`, `post` those
behind `last_`. Returns the predecessors of `last_`, `*last_` and the rest of the interval. -/
def addMain (c : MapCfg V) (f : Combiner V) (v : V) (left : List (I × V)) (rest : I) (cur : I × V)
    (mid post : List (I × V)) : Option (List (I × V) × (I × V) × I) :=
  match mid with
  | [] => some (left, cur, rest)
  | nxt :: more => do
    let left' ← addSegment o c f left cur (nxt :: more ++ post) rest v
    addMain c f v left' (o.leftSubtract rest cur.1) nxt more post

/-- `add_rear`, interval_base_map.hpp:878-930 (`handle_reinserted`: interval_map.hpp:212-215, split_interval_map.hpp:169) -/
def addRear (c : MapCfg V) (f : Combiner V) (v : V) (left : List (I × V)) (cur : I × V)
    (post : List (I × V)) (k : I) : Option (List (I × V)) := do
  let left ← addLeadGap o c f none left cur post k v
  let endGap := o.leftSubtract k cur.1
  if !o.isEmpty endGap then
    gapInsertAt o c f left (combine f cur v) post endGap v
  else
    let rightResid := o.leftSubtract cur.1 k
    if o.isEmpty rightResid then
      handleCombined o c ⟨left, combine f cur v, post⟩
    else
      let cur' : I × V := (o.rightSubtract cur.1 rightResid, cur.2)
      match insertAt o mapSeg (cur' :: left) (rightResid, cur'.2) post with
      | none => none
      | some ins =>
        match (if c.joining then joinRight o mapSeg ins else some ins) with
        | none => none
        | some ins => handleCombined o c ⟨left, combine f cur' v, ins.cur :: ins.right⟩

/-- The treatment of a collision sequence `g :: b` in `_add`, interval_base_map.hpp:960-971 and
998-1008 -/
def addOver (c : MapCfg V) (f : Combiner V) (a : List (I × V)) (g : I × V) (b post : List (I × V)) (k : I)
    (v : V) : Option (List (I × V)) := do
  let (left, cur) ← addFront o a.reverse g (b ++ post) k
  let (left, cur, rest) ← addMain o c f v left k cur b post
  addRear o c f v left cur post rest

/-- `_add<Combiner>(addend)`, interval_base_map.hpp:936-972 -/
def addC (c : MapCfg V) (f : Combiner V) (m : List (I × V)) (k : I) (v : V) : Option (List (I × V)) :=
  if o.isEmpty k then some m
  else if absorbable c v then some m
  else do
    let (a, b, post) ← equalRange o mapSeg m k
    match b with
    | [] => (handleInserted o c ⟨a.reverse, (k, f.version v), post⟩).map Zip.toList
    | g :: b => addOver o c f a g b post k v

/-- `_add<Combiner>(prior_, addend)`, interval_base_map.hpp:974-1009, with `add_at`, 562-579.
The node that `insert(prior_, ...)` returns if it inserts nothing is one of the collision sequence; `oracle`
determines which one. -/
def addHintC (c : MapCfg V) (f : Combiner V) (oracle : Nat) (m : List (I × V)) (k : I) (v : V) :
    Option (List (I × V)) :=
  if o.isEmpty k then some m
  else if absorbable c v then some m
  else do
    let (a, b, post) ← equalRange o mapSeg m k
    match b with
    | [] => (handleInserted o c ⟨a.reverse, (k, f.apply c.ident v), post⟩).map Zip.toList
    | g :: b =>
      let n := oracle % (b.length + 1)
      let found := (g :: b).getD n g
      if o.eq found.1 k && decide (found.2 = c.ident) then
        (handleInserted o c ⟨((g :: b).take n).reverse ++ a.reverse, combine f found v,
          (g :: b).drop (n + 1) ++ post⟩).map Zip.toList
      else addOver o c f a g b post k v

/-- `subtract_main`, interval_base_map.hpp:1032-1042. `cur :: mid` are the nodes from `it_` to `last_`.
Returns the predecessors of `last_` and `*last_`. -/
def subMain (c : MapCfg V) (f : Combiner V) (v : V) (left : List (I × V)) (cur : I × V)
    (mid post : List (I × V)) : Option (List (I × V) × (I × V)) :=
  match mid with
  | [] => some (left, cur)
  | nxt :: more => do
    let left' ← handleLeftCombined o c left (combine f cur v) (nxt :: more ++ post)
    subMain c f v left' nxt more post

/-- `subtract_rear`, interval_base_map.hpp:1044-1063 -/
def subRear (c : MapCfg V) (f : Combiner V) (v : V) (left : List (I × V)) (cur : I × V)
    (post : List (I × V)) (k : I) : Option (List (I × V)) :=
  let rightResid := o.leftSubtract cur.1 k
  if o.isEmpty rightResid then handleCombined o c ⟨left, combine f cur v, post⟩
  else do
    let cur' : I × V := (o.rightSubtract cur.1 rightResid, cur.2)
    let next ← insertAt o mapSeg (cur' :: left) (rightResid, cur'.2) post
    handleSucceededCombined o c left (combine f cur' v) next.cur next.right

/-- `_subtract<Combiner>(minuend)`, interval_base_map.hpp:1068-1090 -/
def subC (c : MapCfg V) (f : Combiner V) (m : List (I × V)) (k : I) (v : V) : Option (List (I × V)) :=
  if o.isEmpty k then some m
  else if absorbable c v then some m
  else do
    let (a, b, post) ← equalRange o mapSeg m k
    match b with
    | [] => some m
    | g :: b => do
      let (left, cur) ← addFront o a.reverse g (b ++ post) k
      let (left, cur) ← subMain o c f v left cur b post
      subRear o c f v left cur post k

/-- The loop of `insert_main`, interval_base_map.hpp:1105-1120. `mid` are the nodes from `it_` to before
`end_`, `post` those from `end_` on, `left` those before `it_` (the nearest is `prior_`).  An insertion that
does not join the node behind it makes the loop visit that node again, so the number of rounds is bounded by
the first argument only; `none` if that is too small. -/
def insertLoop (c : MapCfg V) (v : V) : Nat → List (I × V) → I → List (I × V) → List (I × V) →
    Option (List (I × V) × I × List (I × V))
  | _, left, rest, [], post => some (left, rest, post)
  | 0, _, _, _ :: _, _ => none
  | n + 1, left, rest, cur :: mid, post =>
    let leftGap := o.rightSubtract rest cur.1
    if o.isEmpty leftGap then
      insertLoop c v n (cur :: left) (o.leftSubtract rest cur.1) mid post
    else
      match (insertAt o mapSeg left (leftGap, v) (cur :: mid ++ post)).bind (handleInserted o c) with
      | none => none
      | some z =>
        if z.right.length = mid.length + post.length then
          insertLoop c v n (z.cur :: z.left) (o.leftSubtract rest cur.1) mid post
        else insertLoop c v n (z.cur :: z.left) (o.leftSubtract rest cur.1) (cur :: mid) post

/-- `insert_main`, interval_base_map.hpp:1095-1131, for the collision sequence `g :: b` -/
def insertMain (c : MapCfg V) (a : List (I × V)) (g : I × V) (b post : List (I × V)) (k : I) (v : V) :
    Option (List (I × V)) := do
  let (left, rest, post) ← insertLoop o c v (2 * (b.length + 1)) a.reverse k (g :: b) post
  let endGap := o.leftSubtract rest (b.getLastD g).1
  if o.isEmpty endGap then some (left.reverse ++ post)
  else do
    let z ← insertAt o mapSeg left (endGap, v) post
    (handleInserted o c z).map Zip.toList

/-- `_insert(addend)`, interval_base_map.hpp:1134-1161 -/
def insert (c : MapCfg V) (m : List (I × V)) (k : I) (v : V) : Option (List (I × V)) :=
  if o.isEmpty k then some m
  else if absorbable c v then some m
  else do
    let (a, b, post) ← equalRange o mapSeg m k
    match b with
    | [] => (handleInserted o c ⟨a.reverse, (k, v), post⟩).map Zip.toList
    | g :: b => insertMain o c a g b post k v

/-- `_insert(prior_, addend)`, interval_base_map.hpp:1164-1189, with `insert_at`, 581-594.
The node that `insert(prior_, ...)` returns if it inserts nothing is one of the collision sequence, determined
by `oracle`; `isPrior` tells whether it is `*prior_`. -/
def insertHint (c : MapCfg V) (oracle : Nat) (isPrior : Bool) (m : List (I × V)) (k : I) (v : V) :
    Option (List (I × V)) :=
  if o.isEmpty k then some m
  else if absorbable c v then some m
  else do
    let (a, b, post) ← equalRange o mapSeg m k
    match b with
    | [] => (handleInserted o c ⟨a.reverse, (k, v), post⟩).map Zip.toList
    | g :: b =>
      let n := oracle % (b.length + 1)
      let found := (g :: b).getD n g
      if !isPrior && o.eq found.1 k then
        (handleInserted o c ⟨((g :: b).take n).reverse ++ a.reverse, found,
          (g :: b).drop (n + 1) ++ post⟩).map Zip.toList
      else insertMain o c a g b post k v

/-- `erase_rest`, interval_base_map.hpp:1194-1214, on the nodes `cur :: mid` from `it_` to `last_`. Returns
what is left of them. -/
def eraseRest (k : I) (v : V) (cur : I × V) (mid : List (I × V)) : List (I × V) :=
  match mid with
  | [] =>
    if cur.2 = v then
      let rightResid := o.leftSubtract cur.1 k
      if o.isEmpty rightResid then [] else [(rightResid, cur.2)]
    else [cur]
  | nxt :: more => if cur.2 = v then eraseRest k v nxt more else cur :: eraseRest k v nxt more

/-- `erase(segment)`, interval_base_map.hpp:1216-1273 -/
def eraseSeg (c : MapCfg V) (m : List (I × V)) (k : I) (v : V) : Option (List (I × V)) :=
  if o.isEmpty k then some m
  else if absorbable c v then some m
  else do
    let (a, b, post) ← equalRange o mapSeg m k
    match b with
    | [] => some m
    | [g] =>
      let rightResid := o.leftSubtract g.1 k
      if g.2 = v then
        let leftResid := o.rightSubtract g.1 k
        if !o.isEmpty leftResid then
          if !o.isEmpty rightResid then
            (insertAt o mapSeg ((leftResid, g.2) :: a.reverse) (rightResid, v) post).map Zip.toList
          else some (a ++ (leftResid, g.2) :: post)
        else if !o.isEmpty rightResid then some (a ++ (rightResid, g.2) :: post)
        else some (a ++ post)
      else some m
    | g :: second :: b =>
      let rest := eraseRest o k v second b
      if g.2 = v then
        let leftResid := o.rightSubtract g.1 k
        if o.isEmpty leftResid then some (a ++ (rest ++ post))
        else some (a ++ (leftResid, g.2) :: (rest ++ post))
      else some (a ++ g :: (rest ++ post))

omit [DecidableEq V] in
/-- `erase(interval)`, interval_base_map.hpp:1278-1324 -/
def eraseItv (m : List (I × V)) (k : I) : Option (List (I × V)) :=
  if o.isEmpty k then some m
  else do
    let (a, b, post) ← equalRange o mapSeg m k
    match b with
    | [] => some m
    | [g] =>
      let leftResid := o.rightSubtract g.1 k
      let rightResid := o.leftSubtract g.1 k
      if !o.isEmpty leftResid then
        if !o.isEmpty rightResid then
          (insertAt o mapSeg ((leftResid, g.2) :: a.reverse) (rightResid, g.2) post).map Zip.toList
        else some (a ++ (leftResid, g.2) :: post)
      else if !o.isEmpty rightResid then some (a ++ (o.leftSubtract g.1 k, g.2) :: post)
      else some (a ++ post)
    | g :: second :: b =>
      let last := b.getLastD second
      let leftResid := o.rightSubtract g.1 k
      let rightResid := o.leftSubtract last.1 k
      some (a ++ (if o.isEmpty leftResid then [] else [(leftResid, g.2)]) ++
        ((if o.isEmpty rightResid then [] else [(rightResid, last.2)]) ++ post))

/-- `set(segment)` = `set_at`, interval_base_map.hpp:374-379, concept/interval_map.hpp:283-289 -/
def setAt (c : MapCfg V) (m : List (I × V)) (k : I) (v : V) : Option (List (I × V)) := do
  let m ← eraseItv o m k
  insert o c m k v

end IMap
end
end ICL
