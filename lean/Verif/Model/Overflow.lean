import Verif.Model.MapFun

/-!
# Associated values of a bounded type

`add`, `subtract`, `+=` and `-=` of interval maps, once more, for values of a type with bounds such as `int`: a functor
whose result is out of bounds has no result, which is undefined behaviour for signed types.  `R` tells which values
the type has; the values and the functors are otherwise those of the type without bounds (as `int` and ℤ).
An outcome `none` is an overflow or what is `none` in `Model/Map.lean`.
-/

namespace ICL
section
variable {D I V : Type} (o : IntervalOps D I) [DecidableEq V] (R : V → Prop) [DecidablePred R]

namespace IMap

omit [DecidableEq V] in
/-- The result of a computation, if the type has such a value. -/
def chk (v : V) : Option V := if R v then some v else none

omit [DecidableEq V] in
/-- `Combiner()((*it_).second, co_val)` -/
def combineR (f : Combiner V) (s : I × V) (v : V) : Option (I × V) := (chk R (f.apply s.2 v)).map (Prod.mk s.1)

/-- `gap_insert<Combiner>(prior_, inter_val, co_val)`, interval_base_map.hpp:552-560 -/
def gapInsertR (c : MapCfg V) (f : Combiner V) (left : List (I × V)) (k : I) (v : V)
    (right : List (I × V)) : Option (Zip (I × V)) :=
  if absorbable c v then none
  else do
    let w ← chk R (f.version v)
    insertAt o mapSeg left (k, w) right

/-- `gap_insert_at<Combiner>(it_, prior_, end_gap, co_val)`, interval_map.hpp:218-234,
split_interval_map.hpp:171-182 -/
def gapInsertAtR (c : MapCfg V) (f : Combiner V) (left : List (I × V)) (cur : I × V)
    (right : List (I × V)) (k : I) (v : V) : Option (List (I × V)) :=
  if absorbable c cur.2 then do
    let z ← gapInsertR o R c f left k v right
    if c.joining then (joinRight o mapSeg z).map Zip.toList else some z.toList
  else if c.joining then do
    let z ← joinLeft o mapSeg ⟨left, cur, right⟩
    let z ← gapInsertR o R c f (z.cur :: z.left) k v z.right
    (joinNeighbours o mapSeg z).map Zip.toList
  else (gapInsertR o R c f (cur :: left) k v right).map Zip.toList

/-- `add_segment` (interval_base_map.hpp:845-853) and `add_rear` (886-892): the gap in front of a node -/
def addLeadGapR (c : MapCfg V) (f : Combiner V) (first : Option (I × V)) (left : List (I × V))
    (cur : I × V) (right : List (I × V)) (k : I) (v : V) : Option (List (I × V)) :=
  let leadGap := o.rightSubtract k cur.1
  if o.isEmpty leadGap then some left
  else do
    let z ← gapInsertR o R c f left leadGap v (cur :: right)
    handleInsertedPrior o c first z.left z.cur

/-- `add_segment`, interval_base_map.hpp:840-859 -/
def addSegmentR (c : MapCfg V) (f : Combiner V) (left : List (I × V)) (cur : I × V)
    (right : List (I × V)) (k : I) (v : V) : Option (List (I × V)) := do
  let left ← addLeadGapR o R c f (some cur) left cur right k v
  let cur ← combineR R f cur v
  handleLeftCombined o c left cur right

/-- `add_main`, interval_base_map.hpp:862-876 -/
def addMainR (c : MapCfg V) (f : Combiner V) (v : V) (left : List (I × V)) (rest : I) (cur : I × V)
    (mid post : List (I × V)) : Option (List (I × V) × (I × V) × I) :=
  match mid with
  | [] => some (left, cur, rest)
  | nxt :: more => do
    let left' ← addSegmentR o R c f left cur (nxt :: more ++ post) rest v
    addMainR c f v left' (o.leftSubtract rest cur.1) nxt more post

/-- `add_rear`, interval_base_map.hpp:878-930: the value of the last node is combined after the gap in front of it has
been filled (908, 918) or the residuum behind it has been inserted (926) -/
def addRearR (c : MapCfg V) (f : Combiner V) (v : V) (left : List (I × V)) (cur : I × V)
    (post : List (I × V)) (k : I) : Option (List (I × V)) := do
  let left ← addLeadGapR o R c f none left cur post k v
  let endGap := o.leftSubtract k cur.1
  if !o.isEmpty endGap then do
    let cur ← combineR R f cur v
    gapInsertAtR o R c f left cur post endGap v
  else
    let rightResid := o.leftSubtract cur.1 k
    if o.isEmpty rightResid then do
      let cur ← combineR R f cur v
      handleCombined o c ⟨left, cur, post⟩
    else
      let cur' : I × V := (o.rightSubtract cur.1 rightResid, cur.2)
      match insertAt o mapSeg (cur' :: left) (rightResid, cur'.2) post with
      | none => none
      | some ins =>
        match (if c.joining then joinRight o mapSeg ins else some ins) with
        | none => none
        | some ins => do
          let cur ← combineR R f cur' v
          handleCombined o c ⟨left, cur, ins.cur :: ins.right⟩

/-- The treatment of a collision sequence `g :: b` in `_add`, interval_base_map.hpp:960-971 and 998-1008 -/
def addOverR (c : MapCfg V) (f : Combiner V) (a : List (I × V)) (g : I × V) (b post : List (I × V)) (k : I)
    (v : V) : Option (List (I × V)) := do
  let (left, cur) ← addFront o a.reverse g (b ++ post) k
  let (left, cur, rest) ← addMainR o R c f v left k cur b post
  addRearR o R c f v left cur post rest

/-- `_add<Combiner>(addend)`, interval_base_map.hpp:936-972 -/
def addCR (c : MapCfg V) (f : Combiner V) (m : List (I × V)) (k : I) (v : V) : Option (List (I × V)) :=
  if o.isEmpty k then some m
  else if absorbable c v then some m
  else do
    let w ← chk R (f.version v)
    let (a, b, post) ← equalRange o mapSeg m k
    match b with
    | [] => (handleInserted o c ⟨a.reverse, (k, w), post⟩).map Zip.toList
    | g :: b => addOverR o R c f a g b post k v

/-- `_add<Combiner>(prior_, addend)`, interval_base_map.hpp:974-1009, with `add_at`, 562-579 -/
def addHintCR (c : MapCfg V) (f : Combiner V) (oracle : Nat) (m : List (I × V)) (k : I) (v : V) :
    Option (List (I × V)) :=
  if o.isEmpty k then some m
  else if absorbable c v then some m
  else do
    let (a, b, post) ← equalRange o mapSeg m k
    match b with
    | [] => do
      let w ← chk R (f.apply c.ident v)
      (handleInserted o c ⟨a.reverse, (k, w), post⟩).map Zip.toList
    | g :: b =>
      let n := oracle % (b.length + 1)
      let found := (g :: b).getD n g
      if o.eq found.1 k && decide (found.2 = c.ident) then do
        let s ← combineR R f found v
        (handleInserted o c ⟨((g :: b).take n).reverse ++ a.reverse, s,
          (g :: b).drop (n + 1) ++ post⟩).map Zip.toList
      else addOverR o R c f a g b post k v

/-- `subtract_main`, interval_base_map.hpp:1032-1042 -/
def subMainR (c : MapCfg V) (f : Combiner V) (v : V) (left : List (I × V)) (cur : I × V)
    (mid post : List (I × V)) : Option (List (I × V) × (I × V)) :=
  match mid with
  | [] => some (left, cur)
  | nxt :: more => do
    let cur ← combineR R f cur v
    let left' ← handleLeftCombined o c left cur (nxt :: more ++ post)
    subMainR c f v left' nxt more post

/-- `subtract_rear`, interval_base_map.hpp:1044-1063 -/
def subRearR (c : MapCfg V) (f : Combiner V) (v : V) (left : List (I × V)) (cur : I × V)
    (post : List (I × V)) (k : I) : Option (List (I × V)) :=
  let rightResid := o.leftSubtract cur.1 k
  if o.isEmpty rightResid then do
    let cur ← combineR R f cur v
    handleCombined o c ⟨left, cur, post⟩
  else do
    let cur' : I × V := (o.rightSubtract cur.1 rightResid, cur.2)
    let next ← insertAt o mapSeg (cur' :: left) (rightResid, cur'.2) post
    let cur ← combineR R f cur' v
    handleSucceededCombined o c left cur next.cur next.right

/-- `_subtract<Combiner>(minuend)`, interval_base_map.hpp:1068-1090 -/
def subCR (c : MapCfg V) (f : Combiner V) (m : List (I × V)) (k : I) (v : V) : Option (List (I × V)) :=
  if o.isEmpty k then some m
  else if absorbable c v then some m
  else do
    let (a, b, post) ← equalRange o mapSeg m k
    match b with
    | [] => some m
    | g :: b => do
      let (left, cur) ← addFront o a.reverse g (b ++ post) k
      let (left, cur) ← subMainR o R c f v left cur b post
      subRearR o R c f v left cur post k

/-- `add(segment)`, as `IMap.addSeg`; interval_base_map.hpp:314-318 -/
def addSegR (t : MapType V) (m : List (I × V)) (k : I) (v : V) : Option (List (I × V)) := addCR o R t.cfg t.plus m k v

/-- `add(prior_, segment)`, as `IMap.addHint`; interval_base_map.hpp:323-326 -/
def addHintR (t : MapType V) (oracle : Nat) (m : List (I × V)) (k : I) (v : V) : Option (List (I × V)) :=
  addHintCR o R t.cfg t.plus oracle m k v

/-- `subtract(segment)`, as `IMap.subSeg`; interval_base_map.hpp:338-343 and 611-629 -/
def subSegR (t : MapType V) (m : List (I × V)) (k : I) (v : V) : Option (List (I × V)) :=
  if t.cfg.total && t.invertible then addCR o R t.cfg t.minus m k v else subCR o R t.cfg t.minus m k v

/-- `object += operand`, as `IMap.addMap`; concept/interval_associator.hpp:317-326 -/
def addMapR (t : MapType V) (oracle : List (I × V) → I → Nat) (m r : List (I × V)) : Option (List (I × V)) :=
  forEach (fun m s => addHintR o R t (oracle m s.1) m s.1 s.2) m r

/-- `object -= operand`, as `IMap.subMap`; concept/interval_associator.hpp:669-678 -/
def subMapR (t : MapType V) (m r : List (I × V)) : Option (List (I × V)) :=
  forEach (fun m s => subSegR o R t m s.1 s.2) m r

/-- A call that computes values. -/
inductive ArithOp (I V : Type) where
  | add (k : I) (v : V)
  | addHint (oracle : Nat) (k : I) (v : V)
  | sub (k : I) (v : V)
  | addMap (oracle : List (I × V) → I → Nat) (r : List (I × V))
  | subMap (r : List (I × V))

/-- The call, for values without bounds. -/
def ArithOp.run (t : MapType V) (m : List (I × V)) : ArithOp I V → Option (List (I × V))
  | .add k v => IMap.addSeg o t m k v
  | .addHint n k v => IMap.addHint o t n m k v
  | .sub k v => IMap.subSeg o t m k v
  | .addMap oracle r => IMap.addMap o t oracle m r
  | .subMap r => IMap.subMap o t m r

/-- The call, for values with bounds. -/
def ArithOp.runR (t : MapType V) (m : List (I × V)) : ArithOp I V → Option (List (I × V))
  | .add k v => IMap.addSegR o R t m k v
  | .addHint n k v => IMap.addHintR o R t n m k v
  | .sub k v => IMap.subSegR o R t m k v
  | .addMap oracle r => IMap.addMapR o R t oracle m r
  | .subMap r => IMap.subMapR o R t m r

end IMap
end
end ICL
