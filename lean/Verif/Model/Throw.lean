import Verif.Model.MapHistory

/-!
# Exceptions

The functions that change an interval container, once more, with the points at which they can be left by an
exception: the allocation of a node (and the copy of an associated value into it), and the call of a functor that
combines associated values.  A run of a function consists of its result, as in the models without exceptions, and of
the contents that the container has at the points where an exception can leave the function.

A node that is not inserted leaves the container as it was (`std::set::insert`, `std::map::insert`).  A functor that
throws may have changed the value that it is applied to: it is any value, `junk`.

Simplification: copying and comparing elements, intervals and values, erasing nodes, and swapping containers do not
throw.
-/

namespace ICL

/-- A run of a function on a container with segments `S`: the contents that it leaves behind if an exception is
thrown, for every point where that can happen, and its result if none is thrown. -/
structure Run (S α : Type) where
  thrown : List (List S)
  result : Option α

namespace Run
variable {S α β : Type}

/-- No exception, the outcome `x`. -/
def ofOption (x : Option α) : Run S α := ⟨[], x⟩

/-- A point at which an exception can be thrown; the container then has the content `l`. -/
def mayThrow (l : List S) : Run S Unit := ⟨[l], some ()⟩

/-- One function after the other. -/
def andThen (x : Run S α) (f : α → Run S β) : Run S β :=
  match x.result with
  | none => ⟨x.thrown, none⟩
  | some a => ⟨x.thrown ++ (f a).thrown, (f a).result⟩

instance : Monad (Run S) where
  pure a := ⟨[], some a⟩
  bind := andThen

end Run

open Run

section
variable {D I V S : Type} (o : IntervalOps D I) (g : SegOps I V S)

/-- `insertAt`, which allocates a node -/
def insertAtX (left : List S) (s : S) (right : List S) : Run S (Zip S) := do
  mayThrow (left.reverse ++ right)
  ofOption (insertAt o g left s right)

/-- `stdInsert`, which allocates a node -/
def stdInsertX (l : List S) (s : S) : Run S (List S) := do
  mayThrow l
  ofOption (stdInsert o g l s)

/-- `forEach` and `ISet.fold`: a loop over the segments of another container, concept/interval_associator.hpp -/
def forEachX {T : Type} (f : List S → T → Run S (List S)) : List S → List T → Run S (List S)
  | l, [] => pure l
  | l, t :: ts => do
    let l ← f l t
    forEachX f l ts

end

namespace ISet
section
variable {D I : Type} (o : IntervalOps D I)

/-- `add_front`, interval_base_set.hpp:409-430: the key is changed before the node is inserted -/
def addFrontX (left : List I) (cur : I) (right : List I) (interVal : I) : Run I (List I × I) :=
  let leftResid := o.rightSubtract cur interVal
  if o.isEmpty leftResid then pure (left, cur)
  else do
    let cur' := o.leftSubtract cur leftResid
    let z ← insertAtX o setSeg left leftResid (cur' :: right)
    return (z.cur :: z.left, cur')

/-- `addLeadGap`, interval_base_set.hpp:432-440 and 461-472 -/
def addLeadGapX (left : List I) (cur : I) (right : List I) (interVal : I) : Run I (List I) :=
  let leadGap := o.rightSubtract interVal cur
  if o.isEmpty leadGap then pure left
  else do
    let z ← insertAtX o setSeg left leadGap (cur :: right)
    return z.cur :: z.left

/-- `add_main`, with `add_segment`, interval_base_set.hpp:432-459 -/
def addMainX (left : List I) (rest : I) (cur : I) (mid post : List I) : Run I (List I × I × I) :=
  match mid with
  | [] => pure (left, cur, rest)
  | nxt :: more => do
    let left' ← addLeadGapX o left cur (nxt :: more ++ post) rest
    addMainX (cur :: left') (o.leftSubtract rest cur) nxt more post

/-- `add_rear`, interval_base_set.hpp:461-492 -/
def addRearX (left : List I) (cur : I) (post : List I) (interVal : I) : Run I (List I) := do
  let left' ← addLeadGapX o left cur post interVal
  let endGap := o.leftSubtract interVal cur
  if !o.isEmpty endGap then do
    let z ← insertAtX o setSeg (cur :: left') endGap post
    return z.toList
  else
    let rightResid := o.leftSubtract cur interVal
    if !o.isEmpty rightResid then do
      let z ← insertAtX o setSeg (o.rightSubtract cur rightResid :: left') rightResid post
      return z.toList
    else
      return (⟨left', cur, post⟩ : Zip I).toList

/-- `add_over`, interval_set.hpp:178-182, separate_interval_set.hpp:165-168, split_interval_set.hpp:163-175: the
joining and the separating sets allocate nothing -/
def addOverX (st : Style) (a : List I) (f : I) (b c : List I) (addend : I) : Run I (List I) :=
  match st with
  | .joining => ofOption (addOver o .joining a f b c addend)
  | .separating => ofOption (addOver o .separating a f b c addend)
  | .splitting => do
    let (left, cur) ← addFrontX o a.reverse f (b ++ c) addend
    let (left, cur, rest) ← addMainX o left addend cur b c
    addRearX o left cur c rest

/-- `add(segment)` = `_add`, interval_base_set.hpp:498-515 -/
def addX (st : Style) (l : List I) (addend : I) : Run I (List I) :=
  if o.isEmpty addend then pure l
  else do
    mayThrow l
    let (a, b, c) ← ofOption (equalRange o setSeg l addend)
    match b with
    | [] => ofOption (handleInserted o st ⟨a.reverse, addend, c⟩)
    | f :: b => addOverX o st a f b c addend

/-- `add(prior, segment)`, interval_base_set.hpp:517-535 -/
def addHintX (st : Style) (oracle : Nat) (l : List I) (addend : I) : Run I (List I) :=
  if o.isEmpty addend then pure l
  else do
    mayThrow l
    let (a, b, c) ← ofOption (equalRange o setSeg l addend)
    match b with
    | [] => ofOption (handleInserted o st ⟨a.reverse, addend, c⟩)
    | f :: b =>
      let k := oracle % (b.length + 1)
      let insertion := (f :: b).getD k f
      if o.eq insertion addend then
        ofOption (handleInserted o st ⟨((f :: b).take k).reverse ++ a.reverse, insertion,
          (f :: b).drop (k + 1) ++ c⟩)
      else addOverX o st a f b c addend

/-- `if(!icl::is_empty(resid)) this->_set.insert(resid)`, interval_base_set.hpp:561-565 -/
def insertResidX (l : List I) (resid : I) : Run I (List I) :=
  if o.isEmpty resid then pure l else stdInsertX o setSeg l resid

/-- `subtract(segment)`, interval_base_set.hpp:540-569: the nodes are erased before their residuals are inserted -/
def subtractX (l : List I) (minuend : I) : Run I (List I) :=
  if o.isEmpty minuend then pure l
  else do
    let (a, b, c) ← ofOption (equalRange o setSeg l minuend)
    match b with
    | [] => pure l
    | f :: b => do
      let leftResid := o.rightSubtract f minuend
      let rightResid := o.leftSubtract (b.getLastD f) minuend
      let l ← insertResidX o (a ++ c) leftResid
      insertResidX o l rightResid

/-- `object += operand`, concept/interval_associator.hpp:317-326 and 603-612 -/
def addSetX (st : Style) (oracle : List I → I → Nat) (l r : List I) : Run I (List I) :=
  forEachX (fun l k => addHintX o st (oracle l k) l k) l r

/-- `object -= operand`, concept/interval_associator.hpp:620-639 and 703-709 -/
def subSetX (l r : List I) : Run I (List I) := do
  match ← ofOption (commonRange o setSeg r l) with
  | none => return l
  | some (_, com, _) => forEachX (fun l k => subtractX o l k) l com

/-- The result is computed in a container of its own, and swapped or moved into the object when it is complete:
`object &= operand`, concept/interval_associator.hpp:770-778, and assignment from the same class,
interval_base_set.hpp:184-188. -/
def strongX {S : Type} (l : List S) (r : Option (List S)) : Run S (List S) := do
  mayThrow l
  ofOption r

/-- The loop of `flip(segment)`, concept/interval_set.hpp:241-257 -/
def flipLoopX [DecidableEq I] (st : Style) (post : List I) : List I → I → List I → Run I (List I × I)
  | l, span, [] => pure (l, span)
  | l, span, covered :: mid => do
    let leftOver := o.rightSubtract span covered
    let l ← subtractX o l (o.inter span covered)
    let l ← addX o st l leftOver
    if (mid ++ post).isSuffixOf l then
      flipLoopX st post l (o.leftSubtract span covered) mid
    else ofOption none

/-- `flip(segment)`, concept/interval_set.hpp:225-262 -/
def flipSegX [DecidableEq I] (st : Style) (l : List I) (k : I) : Run I (List I) := do
  let (_, b, c) ← ofOption (equalRange o setSeg l k)
  let (l, span) ← flipLoopX o st c l k b
  addX o st l span

/-- `object ^= operand`, concept/interval_set.hpp:265-292 -/
def flipSetX [DecidableEq I] (st : Style) (oracle : List I → I → Nat) (l r : List I) : Run I (List I) := do
  match ← ofOption (commonRange o setSeg r l) with
  | none => addSetX o st oracle l r
  | some (pre, com, post) => do
    let l ← forEachX (fun l k => addX o st l k) l pre
    let l ← forEachX (fun l k => flipSegX o st l k) l com
    forEachX (fun l k => addX o st l k) l post

/-- `flip(element)`, concept/interval_set.hpp:215-223 -/
def flipEX (st : Style) (sing : D → I) (lk : Lookup D I) (l : List I) (x : D) : Run I (List I) := do
  match ← ofOption (containsE o setSeg lk l x) with
  | true => subtractX o l (sing x)
  | false => addX o st l (sing x)

/-- `assign`, interval_set.hpp:118-128, separate_interval_set.hpp:113-119, split_interval_set.hpp:110-116: the
object is cleared first -/
def assignX (st : Style) (oracle : List I → I → Nat) (src : List I) : Run I (List I) :=
  match st with
  | .joining => addSetX o .joining oracle [] src
  | .separating => forEachX (fun l k => stdInsertX o setSeg l k) [] src
  | .splitting => forEachX (fun l k => stdInsertX o setSeg l k) [] src

end
end ISet

section
variable {D I : Type} (o : IntervalOps D I)

/-- Execution of an operation on an interval set, with the points where it can throw. `domain` and `between` clear
the object first, concept/interval_set.hpp:297-331. -/
def SetOp.runX [DecidableEq I] (E : Option (ElemFns D I)) (st : Style) (l : List I) :
    SetOp D I → Run I (List I)
  | .add k => ISet.addX o st l k
  | .addHint n k => ISet.addHintX o st n l k
  | .subtract k => ISet.subtractX o l k
  | .inter oracle k => ISet.strongX l (ISet.interSeg o st oracle l k)
  | .flip k => ISet.flipSegX o st l k
  | .addE x => do let e ← ofOption E; ISet.addX o st l (e.sing x)
  | .subE x => do let e ← ofOption E; ISet.subtractX o l (e.sing x)
  | .interE x => do let e ← ofOption E; ISet.strongX l (ISet.addInterE o st e.sing e.lookup [] l x)
  | .flipE x => do let e ← ofOption E; ISet.flipEX o st e.sing e.lookup l x
  | .clear => pure []
  | .eraseRange i j => pure (l.take i ++ l.drop (max i j))
  | .join => ofOption (joinAll o setSeg l)

@[inherit_doc SetOp.runX]
def SetOp2.runX [DecidableEq I] (st st' : Style) (l r : List I) : SetOp2 I → Run I (List I)
  | .add oracle => ISet.addSetX o st oracle l r
  | .sub => ISet.subSetX o l r
  | .inter oracle => ISet.strongX l (ISet.interSet o st oracle l r)
  | .flip oracle => ISet.flipSetX o st oracle l r
  | .assign oracle => ISet.assignX o st oracle r
  | .copy => ISet.strongX l (if st = st' then some r else none)
  | .domain oracle => ISet.addSetX o st oracle [] r
  | .between oracle => ISet.addSetX o st oracle [] (ISet.gaps o r)

/-- The interval sets that a program can produce when any of its operations may be left by an exception, and
the program goes on with what is left in the set. -/
inductive XReachable [DecidableEq I] (E : Option (ElemFns D I)) : Style → List I → Prop
  | empty (st : Style) : XReachable E st []
  | op {st : Style} {l l' : List I} (c : SetOp D I) : XReachable E st l →
      ((c.runX o E st l).result = some l' ∨ l' ∈ (c.runX o E st l).thrown) → XReachable E st l'
  | op2 {st st' : Style} {l r l' : List I} (c : SetOp2 I) : XReachable E st l → XReachable E st' r →
      ((c.runX o st st' l r).result = some l' ∨ l' ∈ (c.runX o st st' l r).thrown) → XReachable E st l'

end

section
variable {D I V : Type} (o : IntervalOps D I) [DecidableEq V] (junk : V)

namespace IMap

omit [DecidableEq V] in
/-- `Combiner()((*it_).second, co_val)`, which may throw, for the node `cur` between `left` and `right` -/
def combineX (f : Combiner V) (left : List (I × V)) (cur : I × V) (right : List (I × V)) (v : V) :
    Run (I × V) (I × V) := do
  mayThrow (left.reverse ++ (cur.1, junk) :: right)
  return combine f cur v

/-- `gap_insert`, interval_base_map.hpp:552-560 -/
def gapInsertX (c : MapCfg V) (f : Combiner V) (left : List (I × V)) (k : I) (v : V)
    (right : List (I × V)) : Run (I × V) (Zip (I × V)) := do
  mayThrow (left.reverse ++ right)
  ofOption (gapInsert o c f left k v right)

/-- `gap_insert_at`, interval_map.hpp:218-234, split_interval_map.hpp:171-182 -/
def gapInsertAtX (c : MapCfg V) (f : Combiner V) (left : List (I × V)) (cur : I × V)
    (right : List (I × V)) (k : I) (v : V) : Run (I × V) (List (I × V)) :=
  if absorbable c cur.2 then do
    let z ← gapInsertX o c f left k v right
    if c.joining then ofOption ((joinRight o mapSeg z).map Zip.toList) else pure z.toList
  else if c.joining then do
    let z ← ofOption (joinLeft o mapSeg ⟨left, cur, right⟩)
    let z ← gapInsertX o c f (z.cur :: z.left) k v z.right
    ofOption ((joinNeighbours o mapSeg z).map Zip.toList)
  else do
    let z ← gapInsertX o c f (cur :: left) k v right
    return z.toList

omit [DecidableEq V] in
/-- `add_front`, interval_base_map.hpp:815-838, and `subtract_front`, 1015-1029: the key is changed before the
node is inserted -/
def addFrontX (left : List (I × V)) (cur : I × V) (right : List (I × V)) (k : I) :
    Run (I × V) (List (I × V) × (I × V)) :=
  let leftResid := o.rightSubtract cur.1 k
  if o.isEmpty leftResid then pure (left, cur)
  else do
    let cur' : I × V := (o.leftSubtract cur.1 leftResid, cur.2)
    let z ← insertAtX o mapSeg left (leftResid, cur'.2) (cur' :: right)
    return (z.cur :: z.left, cur')

/-- `addLeadGap`, interval_base_map.hpp:845-853 and 886-892 -/
def addLeadGapX (c : MapCfg V) (f : Combiner V) (first : Option (I × V)) (left : List (I × V))
    (cur : I × V) (right : List (I × V)) (k : I) (v : V) : Run (I × V) (List (I × V)) :=
  let leadGap := o.rightSubtract k cur.1
  if o.isEmpty leadGap then pure left
  else do
    let z ← gapInsertX o c f left leadGap v (cur :: right)
    ofOption (handleInsertedPrior o c first z.left z.cur)

/-- `add_segment`, interval_base_map.hpp:840-859 -/
def addSegmentX (c : MapCfg V) (f : Combiner V) (left : List (I × V)) (cur : I × V)
    (right : List (I × V)) (k : I) (v : V) : Run (I × V) (List (I × V)) := do
  let left ← addLeadGapX o c f (some cur) left cur right k v
  let cur ← combineX junk f left cur right v
  ofOption (handleLeftCombined o c left cur right)

/-- `add_main`, interval_base_map.hpp:862-876 -/
def addMainX (c : MapCfg V) (f : Combiner V) (v : V) (left : List (I × V)) (rest : I) (cur : I × V)
    (mid post : List (I × V)) : Run (I × V) (List (I × V) × (I × V) × I) :=
  match mid with
  | [] => pure (left, cur, rest)
  | nxt :: more => do
    let left' ← addSegmentX o junk c f left cur (nxt :: more ++ post) rest v
    addMainX c f v left' (o.leftSubtract rest cur.1) nxt more post

/-- `add_rear`, interval_base_map.hpp:878-930 -/
def addRearX (c : MapCfg V) (f : Combiner V) (v : V) (left : List (I × V)) (cur : I × V)
    (post : List (I × V)) (k : I) : Run (I × V) (List (I × V)) := do
  let left ← addLeadGapX o c f none left cur post k v
  let endGap := o.leftSubtract k cur.1
  if !o.isEmpty endGap then do
    let cur ← combineX junk f left cur post v
    gapInsertAtX o c f left cur post endGap v
  else
    let rightResid := o.leftSubtract cur.1 k
    if o.isEmpty rightResid then do
      let cur ← combineX junk f left cur post v
      ofOption (handleCombined o c ⟨left, cur, post⟩)
    else do
      let cur' : I × V := (o.rightSubtract cur.1 rightResid, cur.2)
      let ins ← insertAtX o mapSeg (cur' :: left) (rightResid, cur'.2) post
      let ins ← ofOption (if c.joining then joinRight o mapSeg ins else some ins)
      let cur'' ← combineX junk f left cur' (ins.cur :: ins.right) v
      ofOption (handleCombined o c ⟨left, cur'', ins.cur :: ins.right⟩)

/-- The treatment of a collision sequence in `_add`, interval_base_map.hpp:960-971 and 998-1008 -/
def addOverX (c : MapCfg V) (f : Combiner V) (a : List (I × V)) (g : I × V) (b post : List (I × V)) (k : I)
    (v : V) : Run (I × V) (List (I × V)) := do
  let (left, cur) ← addFrontX o a.reverse g (b ++ post) k
  let (left, cur, rest) ← addMainX o junk c f v left k cur b post
  addRearX o junk c f v left cur post rest

/-- `_add<Combiner>(addend)`, interval_base_map.hpp:936-972 -/
def addCX (c : MapCfg V) (f : Combiner V) (m : List (I × V)) (k : I) (v : V) : Run (I × V) (List (I × V)) :=
  if o.isEmpty k then pure m
  else if absorbable c v then pure m
  else do
    mayThrow m
    let (a, b, post) ← ofOption (equalRange o mapSeg m k)
    match b with
    | [] => ofOption ((handleInserted o c ⟨a.reverse, (k, f.version v), post⟩).map Zip.toList)
    | g :: b => addOverX o junk c f a g b post k v

/-- `_add<Combiner>(prior_, addend)`, interval_base_map.hpp:974-1009, with `add_at`, 562-579: the node is inserted
with the identity element, and then combined -/
def addHintCX (c : MapCfg V) (f : Combiner V) (oracle : Nat) (m : List (I × V)) (k : I) (v : V) :
    Run (I × V) (List (I × V)) :=
  if o.isEmpty k then pure m
  else if absorbable c v then pure m
  else do
    mayThrow m
    let (a, b, post) ← ofOption (equalRange o mapSeg m k)
    match b with
    | [] => do
      let s ← combineX junk f a.reverse (k, c.ident) post v
      ofOption ((handleInserted o c ⟨a.reverse, s, post⟩).map Zip.toList)
    | g :: b =>
      let n := oracle % (b.length + 1)
      let found := (g :: b).getD n g
      if o.eq found.1 k && decide (found.2 = c.ident) then do
        let s ← combineX junk f (((g :: b).take n).reverse ++ a.reverse) found ((g :: b).drop (n + 1) ++ post) v
        ofOption ((handleInserted o c ⟨((g :: b).take n).reverse ++ a.reverse, s,
          (g :: b).drop (n + 1) ++ post⟩).map Zip.toList)
      else addOverX o junk c f a g b post k v

/-- `subtract_main`, interval_base_map.hpp:1032-1042 -/
def subMainX (c : MapCfg V) (f : Combiner V) (v : V) (left : List (I × V)) (cur : I × V)
    (mid post : List (I × V)) : Run (I × V) (List (I × V) × (I × V)) :=
  match mid with
  | [] => pure (left, cur)
  | nxt :: more => do
    let cur ← combineX junk f left cur (nxt :: more ++ post) v
    let left' ← ofOption (handleLeftCombined o c left cur (nxt :: more ++ post))
    subMainX c f v left' nxt more post

/-- `subtract_rear`, interval_base_map.hpp:1044-1063 -/
def subRearX (c : MapCfg V) (f : Combiner V) (v : V) (left : List (I × V)) (cur : I × V)
    (post : List (I × V)) (k : I) : Run (I × V) (List (I × V)) :=
  let rightResid := o.leftSubtract cur.1 k
  if o.isEmpty rightResid then do
    let cur ← combineX junk f left cur post v
    ofOption (handleCombined o c ⟨left, cur, post⟩)
  else do
    let cur' : I × V := (o.rightSubtract cur.1 rightResid, cur.2)
    let next ← insertAtX o mapSeg (cur' :: left) (rightResid, cur'.2) post
    let cur'' ← combineX junk f left cur' (next.cur :: next.right) v
    ofOption (handleSucceededCombined o c left cur'' next.cur next.right)

/-- `_subtract<Combiner>(minuend)`, interval_base_map.hpp:1068-1090 -/
def subCX (c : MapCfg V) (f : Combiner V) (m : List (I × V)) (k : I) (v : V) : Run (I × V) (List (I × V)) :=
  if o.isEmpty k then pure m
  else if absorbable c v then pure m
  else do
    let (a, b, post) ← ofOption (equalRange o mapSeg m k)
    match b with
    | [] => pure m
    | g :: b => do
      let (left, cur) ← addFrontX o a.reverse g (b ++ post) k
      let (left, cur) ← subMainX o junk c f v left cur b post
      subRearX o junk c f v left cur post k

/-- The loop of `insert_main`, interval_base_map.hpp:1105-1120 -/
def insertLoopX (c : MapCfg V) (v : V) : Nat → List (I × V) → I → List (I × V) → List (I × V) →
    Run (I × V) (List (I × V) × I × List (I × V))
  | _, left, rest, [], post => pure (left, rest, post)
  | 0, _, _, _ :: _, _ => ofOption none
  | n + 1, left, rest, cur :: mid, post =>
    let leftGap := o.rightSubtract rest cur.1
    if o.isEmpty leftGap then
      insertLoopX c v n (cur :: left) (o.leftSubtract rest cur.1) mid post
    else do
      let z ← insertAtX o mapSeg left (leftGap, v) (cur :: mid ++ post)
      let z ← ofOption (handleInserted o c z)
      if z.right.length = mid.length + post.length then
        insertLoopX c v n (z.cur :: z.left) (o.leftSubtract rest cur.1) mid post
      else insertLoopX c v n (z.cur :: z.left) (o.leftSubtract rest cur.1) (cur :: mid) post

/-- `insert_main`, interval_base_map.hpp:1095-1131 -/
def insertMainX (c : MapCfg V) (a : List (I × V)) (g : I × V) (b post : List (I × V)) (k : I) (v : V) :
    Run (I × V) (List (I × V)) := do
  let (left, rest, post) ← insertLoopX o c v (2 * (b.length + 1)) a.reverse k (g :: b) post
  let endGap := o.leftSubtract rest (b.getLastD g).1
  if o.isEmpty endGap then pure (left.reverse ++ post)
  else do
    let z ← insertAtX o mapSeg left (endGap, v) post
    ofOption ((handleInserted o c z).map Zip.toList)

/-- `_insert(addend)`, interval_base_map.hpp:1134-1161 -/
def insertX (c : MapCfg V) (m : List (I × V)) (k : I) (v : V) : Run (I × V) (List (I × V)) :=
  if o.isEmpty k then pure m
  else if absorbable c v then pure m
  else do
    mayThrow m
    let (a, b, post) ← ofOption (equalRange o mapSeg m k)
    match b with
    | [] => ofOption ((handleInserted o c ⟨a.reverse, (k, v), post⟩).map Zip.toList)
    | g :: b => insertMainX o c a g b post k v

/-- `_insert(prior_, addend)`, interval_base_map.hpp:1164-1189, with `insert_at`, 581-594 -/
def insertHintX (c : MapCfg V) (oracle : Nat) (isPrior : Bool) (m : List (I × V)) (k : I) (v : V) :
    Run (I × V) (List (I × V)) :=
  if o.isEmpty k then pure m
  else if absorbable c v then pure m
  else do
    mayThrow m
    let (a, b, post) ← ofOption (equalRange o mapSeg m k)
    match b with
    | [] => ofOption ((handleInserted o c ⟨a.reverse, (k, v), post⟩).map Zip.toList)
    | g :: b =>
      let n := oracle % (b.length + 1)
      let found := (g :: b).getD n g
      if !isPrior && o.eq found.1 k then
        ofOption ((handleInserted o c ⟨((g :: b).take n).reverse ++ a.reverse, found,
          (g :: b).drop (n + 1) ++ post⟩).map Zip.toList)
      else insertMainX o c a g b post k v

/-- `erase(segment)`, interval_base_map.hpp:1216-1273: if the segment splits a node, its key is changed to the left
residual before the right one is inserted; in all other cases nothing is allocated -/
def eraseSegX (c : MapCfg V) (m : List (I × V)) (k : I) (v : V) : Run (I × V) (List (I × V)) :=
  if o.isEmpty k then pure m
  else if absorbable c v then pure m
  else do
    let (a, b, post) ← ofOption (equalRange o mapSeg m k)
    match b with
    | [g] =>
      let rightResid := o.leftSubtract g.1 k
      if g.2 = v then
        let leftResid := o.rightSubtract g.1 k
        if !o.isEmpty leftResid && !o.isEmpty rightResid then do
          let z ← insertAtX o mapSeg ((leftResid, g.2) :: a.reverse) (rightResid, v) post
          return z.toList
        else ofOption (eraseSeg o c m k v)
      else pure m
    | _ => ofOption (eraseSeg o c m k v)

omit [DecidableEq V] in
/-- `erase(interval)`, interval_base_map.hpp:1278-1324 -/
def eraseItvX (m : List (I × V)) (k : I) : Run (I × V) (List (I × V)) :=
  if o.isEmpty k then pure m
  else do
    let (a, b, post) ← ofOption (equalRange o mapSeg m k)
    match b with
    | [g] =>
      let leftResid := o.rightSubtract g.1 k
      let rightResid := o.leftSubtract g.1 k
      if !o.isEmpty leftResid && !o.isEmpty rightResid then do
        let z ← insertAtX o mapSeg ((leftResid, g.2) :: a.reverse) (rightResid, g.2) post
        return z.toList
      else ofOption (eraseItv o m k)
    | _ => ofOption (eraseItv o m k)

/-- `set(segment)` = `set_at`, concept/interval_map.hpp:283-289 -/
def setAtX (c : MapCfg V) (m : List (I × V)) (k : I) (v : V) : Run (I × V) (List (I × V)) := do
  let m ← eraseItvX o m k
  insertX o c m k v

variable (t : MapType V)

/-- `add(segment)`, interval_base_map.hpp:314-318 -/
def addSegX (m : List (I × V)) (k : I) (v : V) : Run (I × V) (List (I × V)) := addCX o junk t.cfg t.plus m k v

/-- `add(prior_, segment)`, interval_base_map.hpp:323-326 -/
def addSegHintX (oracle : Nat) (m : List (I × V)) (k : I) (v : V) : Run (I × V) (List (I × V)) :=
  addHintCX o junk t.cfg t.plus oracle m k v

/-- `subtract(segment)`, interval_base_map.hpp:338-343 and 611-629 -/
def subSegX (m : List (I × V)) (k : I) (v : V) : Run (I × V) (List (I × V)) :=
  if t.cfg.total && t.invertible then addCX o junk t.cfg t.minus m k v else subCX o junk t.cfg t.minus m k v

/-- `object += operand`, concept/interval_associator.hpp:317-326 -/
def addMapX (oracle : List (I × V) → I → Nat) (m r : List (I × V)) : Run (I × V) (List (I × V)) :=
  forEachX (fun m s => addSegHintX o junk t (oracle m s.1) m s.1 s.2) m r

/-- `object -= operand`, concept/interval_associator.hpp:669-678 -/
def subMapX (m r : List (I × V)) : Run (I × V) (List (I × V)) :=
  forEachX (fun m s => subSegX o junk t m s.1 s.2) m r

/-- `insert(object, operand)`, concept/interval_associator.hpp:603-612 -/
def insertMapX (oracle : List (I × V) → I → Nat) (m r : List (I × V)) : Run (I × V) (List (I × V)) :=
  forEachX (fun m s => insertHintX o t.cfg (oracle m s.1) false m s.1 s.2) m r

/-- `erase(object, operand)`, concept/interval_associator.hpp:620-639 -/
def eraseMapX (m r : List (I × V)) : Run (I × V) (List (I × V)) := do
  match ← ofOption (commonRange o mapSeg r (m.map Prod.fst)) with
  | none => return m
  | some (_, com, _) => forEachX (fun m s => eraseSegX o t.cfg m s.1 s.2) m com

omit [DecidableEq V] in
/-- `erase(object, operand)` for an interval set, concept/interval_associator.hpp:620-639 and 703-709 -/
def eraseSetX (m : List (I × V)) (r : List I) : Run (I × V) (List (I × V)) := do
  match ← ofOption (commonRange o setSeg r (m.map Prod.fst)) with
  | none => return m
  | some (_, com, _) => forEachX (fun m k => eraseItvX o m k) m com

/-- The loop of `flip(segment)` on a partial map, interval_base_map.hpp:758-798: `eraser` and `intersection` are
local objects -/
def flipLoopX [DecidableEq I] (v : V) (post : List (I × V)) :
    List (I × V) → I → List I → List (I × V) → List (I × V) →
    Run (I × V) (List (I × V) × I × List I × List (I × V))
  | m, span, eraser, inters, [] => pure (m, span, eraser, inters)
  | m, span, eraser, inters, covered :: mid => do
    let leftOver := o.rightSubtract span covered.1
    mayThrow m
    let (eraser, inters) ← ofOption (flipCommon o t v (o.inter span covered.1) covered.2 eraser inters)
    let m ← addSegX o junk t m leftOver v
    if (mid ++ post).isSuffixOf m then
      flipLoopX v post m (o.leftSubtract span covered.1) eraser inters mid
    else ofOption none

/-- The values that are set to the identity element one after the other, interval_base_map.hpp:729-733: `m` are
the nodes still to be changed, `done` those before them. The assignment of a value may throw. -/
def neutralizeX (done : List (I × V)) : List (I × V) → Run (I × V) (List (I × V))
  | [] => ofOption (if t.cfg.joining then joinAll o mapSeg done.reverse else some done.reverse)
  | s :: m => do
    mayThrow (done.reverse ++ (s.1, junk) :: m)
    neutralizeX ((s.1, t.cfg.ident) :: done) m

/-- `flip(segment)`, interval_base_map.hpp:431-437 and 703-808 -/
def flipSegX [DecidableEq I] (oracle : List (I × V) → I → Nat) (m : List (I × V)) (k : I) (v : V) :
    Run (I × V) (List (I × V)) :=
  if t.cfg.total then
    if t.cfg.absorbs then pure [] else do
      let m ← addSegX o junk t m k v
      neutralizeX o junk t [] m
  else do
    let (_, b, post) ← ofOption (equalRange o mapSeg m k)
    let (m, span, eraser, inters) ← flipLoopX o junk t v post m k [] [] b
    let m ← addSegX o junk t m span v
    let m ← eraseSetX o m eraser
    addMapX o junk t oracle m inters

/-- `object ^= operand`, concept/interval_map.hpp:484-561 -/
def flipMapX [DecidableEq I] (oracle : List (I × V) → I → Nat) (m r : List (I × V)) : Run (I × V) (List (I × V)) :=
  if t.cfg.total then
    if t.cfg.absorbs then pure [] else do
      let m ← addMapX o junk t oracle m r
      neutralizeX o junk t [] m
  else do
    match ← ofOption (commonRange o mapSeg r (m.map Prod.fst)) with
    | none => addMapX o junk t oracle m r
    | some (pre, com, post) => do
      let m ← forEachX (fun m s => addSegX o junk t m s.1 s.2) m pre
      let m ← forEachX (fun m s => flipSegX o junk t oracle m s.1 s.2) m com
      forEachX (fun m s => addSegX o junk t m s.1 s.2) m post

omit [DecidableEq V] in
/-- `erase_if(predicate, object)`, concept/interval_map.hpp:604-614: the predicate may throw; `kept` are the nodes
already visited -/
def eraseIfX (p : I × V → Bool) (kept : List (I × V)) : List (I × V) → Run (I × V) (List (I × V))
  | [] => pure kept.reverse
  | s :: m => do
    mayThrow (kept.reverse ++ s :: m)
    if p s then eraseIfX p kept m else eraseIfX p (s :: kept) m

/-- `assign`, interval_map.hpp:97-107, split_interval_map.hpp:82-88: the object is cleared first -/
def assignX (oracle : List (I × V) → I → Nat) (src : List (I × V)) : Run (I × V) (List (I × V)) :=
  if t.cfg.joining then addMapX o junk t oracle [] src
  else forEachX (fun m s => stdInsertX o mapSeg m s) [] src

end IMap

variable [DecidableEq I]

/-- Execution of an operation on an interval map, with the points where it can throw. -/
def MapOp.runX (E : Option (ElemFns D I)) (t : MapType V) (l : List (I × V)) :
    MapOp D I V → Run (I × V) (List (I × V))
  | .add k v => IMap.addSegX o junk t l k v
  | .addHint n k v => IMap.addSegHintX o junk t n l k v
  | .subtract k v => IMap.subSegX o junk t l k v
  | .insert k v => IMap.insertX o t.cfg l k v
  | .insertHint n b k v => IMap.insertHintX o t.cfg n b l k v
  | .set k v => IMap.setAtX o t.cfg l k v
  | .erase k v => IMap.eraseSegX o t.cfg l k v
  | .eraseKeys k => IMap.eraseItvX o l k
  | .inter oracle k v => ISet.strongX l (IMap.addInterSeg o t oracle [] l k v)
  | .interKeys oracle k => ISet.strongX l (IMap.addInterItv o t oracle [] l k)
  | .flip oracle k v => IMap.flipSegX o junk t oracle l k v
  | .addE x v => do let e ← ofOption E; IMap.addSegX o junk t l (e.sing x) v
  | .subE x v => do let e ← ofOption E; IMap.subSegX o junk t l (e.sing x) v
  | .insertE x v => do let e ← ofOption E; IMap.insertX o t.cfg l (e.sing x) v
  | .setE x v => do let e ← ofOption E; IMap.setAtX o t.cfg l (e.sing x) v
  | .eraseE x v => do let e ← ofOption E; IMap.eraseSegX o t.cfg l (e.sing x) v
  | .eraseKey x => do let e ← ofOption E; IMap.eraseItvX o l (e.sing x)
  | .interE oracle x v => do let e ← ofOption E; ISet.strongX l (IMap.addInterSeg o t oracle [] l (e.sing x) v)
  | .interKey x => do let e ← ofOption E; ISet.strongX l (IMap.addInterKey o t e.sing e.lookup [] l x)
  | .flipE oracle x v => do let e ← ofOption E; IMap.flipSegX o junk t oracle l (e.sing x) v
  | .clear => pure []
  | .eraseRange i j => pure (l.take i ++ l.drop (max i j))
  | .eraseIf p => IMap.eraseIfX p [] l
  | .join => ofOption (joinAll o mapSeg l)
  | .absorbIdentities => pure (IMap.absorbIdentities t l)

@[inherit_doc MapOp.runX]
def MapOp2.runX (t : MapType V) (l r : List (I × V)) : MapOp2 I V → Run (I × V) (List (I × V))
  | .add oracle => IMap.addMapX o junk t oracle l r
  | .sub => IMap.subMapX o junk t l r
  | .insert oracle => IMap.insertMapX o t oracle l r
  | .erase => IMap.eraseMapX o t l r
  | .inter oracle => ISet.strongX l (IMap.addInterMap o t oracle [] l r)
  | .flip oracle => IMap.flipMapX o junk t oracle l r

omit [DecidableEq I] in
@[inherit_doc MapOp.runX]
def MapOp3.runX (t : MapType V) (l : List (I × V)) (r : List I) : MapOp3 I V → Run (I × V) (List (I × V))
  | .erase => IMap.eraseSetX o l r
  | .inter oracle => ISet.strongX l (IMap.addInterSet o t oracle [] l r)

omit junk in
/-- The interval maps that a program can produce when any of its operations may be left by an exception, and
the program goes on with what is left in the map. -/
inductive MXReachable (E : Option (ElemFns D I)) : MapType V → List (I × V) → Prop
  | empty (t : MapType V) : MXReachable E t []
  | op {t : MapType V} {l l' : List (I × V)} (junk : V) (c : MapOp D I V) : MXReachable E t l →
      ((c.runX o junk E t l).result = some l' ∨ l' ∈ (c.runX o junk E t l).thrown) → MXReachable E t l'
  | op2 {t t' : MapType V} {l r l' : List (I × V)} (junk : V) (c : MapOp2 I V) : MXReachable E t l →
      MXReachable E t' r → ((c.runX o junk t l r).result = some l' ∨ l' ∈ (c.runX o junk t l r).thrown) →
      MXReachable E t l'
  | op3 {t : MapType V} {st : Style} {l : List (I × V)} {r : List I} {l' : List (I × V)} (c : MapOp3 I V) :
      MXReachable E t l → XReachable o E st r →
      ((c.runX o t l r).result = some l' ∨ l' ∈ (c.runX o t l r).thrown) → MXReachable E t l'
  | assign {t t' : MapType V} {r l' : List (I × V)} (junk : V) (oracle : List (I × V) → I → Nat) :
      MXReachable E t' r → t.Alike t' →
      ((IMap.assignX o junk t oracle r).result = some l' ∨ l' ∈ (IMap.assignX o junk t oracle r).thrown) →
      MXReachable E t l'

end
end ICL
