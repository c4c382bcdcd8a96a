import Verif.Model.TreeSet
import Verif.Model.TreeMap
import Verif.Model.SetFun
import Verif.Model.MapFun

/-!
# Functions of interval containers that keep an iterator while the container changes

Sequences of hinted additions and insertions, the output iterators of iterator.hpp, `flip`, `join` and `erase_if`,
on nodes and iterators.
-/

namespace ICL
namespace Tree

section
variable {D I V S : Type} (o : IntervalOps D I) (g : SegOps I V S) [DecidableEq V]

/-- `prior_ = f(object, prior_, *it_)` for all segments `*it_` of an operand, beginning with a given `prior_`;
`f` is `add` or `insert` with a hint -/
def chain {X : Type} (f : It → X → TreeM S It) : It → List X → TreeM S It
  | p, [] => return p
  | p, x :: xs => do
    let p ← f p x
    chain f p xs

/-- `operator=` of `add_iterator` and `insert_iterator`, iterator.hpp:33-41 and 77-85, for `f` being `add` or `insert`
with a hint -/
def put {X : Type} (f : It → X → TreeM S It) (p : It) (x : X) : TreeM S It := do
  let p ← f p x
  if p = none then return p else next p

/-- The inner loop of `join`, concept/interval_associator_base.hpp:125-127: `it_` behind it. The number bounds the
rounds; `none` if it is too small. -/
def joinInner : Nat → It → It → TreeM S It
  | 0, _, _ => ofOption none
  | n + 1, it, next_ =>
    if next_ = none then return it
    else do
      if ← joinable o g it next_ then
        let it ← next it
        let next_ ← next next_
        joinInner n it next_
      else return it

/-- The outer loop of `join`, concept/interval_associator_base.hpp:117-142 -/
def joinOuter : Nat → It → It → TreeM S Unit
  | 0, _, _ => ofOption none
  | n + 1, it, next_ =>
    if next_ = none then return ()
    else do
      if ← joinable o g it next_ then
        let fstMem := it
        let it ← next it
        let next_ ← next next_
        let it ← joinInner o g n it next_
        let f ← deref fstMem
        modify it fun s => g.setKey s (o.hull (g.key s) (g.key f))
        eraseRange fstMem it
        let it ← next it
        if it = none then joinOuter n it it
        else
          let next_ ← next it
          joinOuter n it next_
      else
        let it ← next it
        let next_ ← next next_
        joinOuter n it next_

/-- `join(object)`, concept/interval_associator_base.hpp:105-143 -/
def join : TreeM S Unit := do
  let it ← first
  if it = none then return ()
  else
    let next_ ← next it
    joinOuter o g ((← get).nodes.length + 1) it next_

/-- The loop of `erase_if`, concept/interval_map.hpp:608-612 -/
def eraseIfLoop (p : S → Bool) : Nat → It → TreeM S Unit
  | 0, _ => ofOption none
  | n + 1, it =>
    if it = none then return ()
    else do
      let s ← deref it
      let next_ ← next it
      if p s then
        erase it
        eraseIfLoop p n next_
      else eraseIfLoop p n next_

/-- An iterator to the node with the number `pos`, `end()` if there is no such node. -/
def iter (pos : Nat) : TreeM S It := fun t => some (t.nodes[pos]?.map Prod.fst, t)

/-- One call after the other. -/
def runAll {C : Type} (run : C → TreeM S Unit) : List C → TreeM S Unit
  | [] => return ()
  | c :: cs => do
    run c
    runAll run cs

/-- `erase_if(predicate, object)`, concept/interval_map.hpp:604-614 -/
def eraseIf (p : S → Bool) : TreeM S Unit := do
  let it ← first
  eraseIfLoop p ((← get).nodes.length + 1) it

end

namespace Sets
section
variable {D I : Type} (o : IntervalOps D I)

/-- `add(prior_, segment)` with the position that `oracle` gives to a failing insertion -/
def addWith (st : Style) (oracle : List I → I → Nat) (p : It) (k : I) : TreeM I It := do
  let t ← get
  addHint o st (oracle t.segs k) p k

/-- `object += operand`, concept/interval_associator.hpp:317-326; the loops of `interval_set::assign`,
interval_set.hpp:125-127, `domain` and `between`, concept/interval_set.hpp:305-308 and 321-327,
concept/interval_map.hpp:573-575 and 589-595 -/
def addSet (st : Style) (oracle : List I → I → Nat) (r : List I) : TreeM I Unit := do
  let _ ← chain (addWith o st oracle) none r
  return ()

/-- `std::copy(r.begin(), r.end(), adder(object, p))` and the same with `inserter`, iterator.hpp:54-58 and 98-102 -/
def output (st : Style) (oracle : List I → I → Nat) (p : It) (r : List I) : TreeM I It :=
  chain (put (addWith o st oracle)) p r

/-- `erase(object, operand)` = `object -= operand` for an interval set as operand,
concept/interval_associator.hpp:620-639 and 703-709 -/
def subSet (r : List I) : TreeM I Unit := do
  let t ← get
  match ← ofOption (commonRange o setSeg r t.segs) with
  | none => return ()
  | some (_, com, _) =>
    let _ ← chain (fun _ k => do
      subtract o k
      return none) none com
    return ()

/-- The loop of `flip(segment)`, concept/interval_set.hpp:242-256: the rest of `span` -/
def flipLoop (st : Style) (end_ : It) : Nat → I → It → TreeM I I
  | 0, _, _ => ofOption none
  | n + 1, span, it =>
    if it = end_ then return span
    else do
      let covered ← deref it
      let next_ ← next it
      let leftOver := o.rightSubtract span covered
      subtract o (o.inter span covered)
      let _ ← add o st 0 leftOver
      flipLoop st end_ n (o.leftSubtract span covered) next_

/-- `flip(segment)`, concept/interval_set.hpp:225-262 -/
def flipSeg (st : Style) (k : I) : TreeM I Unit := do
  let (first_, end_) ← equalRange o setSeg k
  let span ← flipLoop o st end_ ((← get).nodes.length + 1) k first_
  let _ ← add o st 0 span
  return ()

/-- A call of a function of an interval set; `pos` is the number of the node that an iterator refers to, `end()` if there
is no such node. -/
inductive Cmd (I : Type) where
  /-- `add(k)`, `insert(k)` -/
  | add (pick : Nat) (k : I)
  /-- `add(prior, k)`, `insert(prior, k)` -/
  | addHint (pick pos : Nat) (k : I)
  /-- `subtract(k)`, `erase(k)` -/
  | subtract (k : I)
  /-- `flip(k)` -/
  | flip (k : I)
  /-- `+= r` -/
  | addSet (oracle : List I → I → Nat) (r : List I)
  /-- `std::copy` to an `adder` or `inserter` -/
  | output (oracle : List I → I → Nat) (pos : Nat) (r : List I)
  /-- `join` -/
  | join

/-- What a call does. -/
def Cmd.run (st : Style) : Cmd I → TreeM I Unit
  | .add pick k => do
    let _ ← Sets.add o st pick k
    return ()
  | .addHint pick pos k => do
    let p ← iter pos
    let _ ← Sets.addHint o st pick p k
    return ()
  | .subtract k => Sets.subtract o k
  | .flip k => flipSeg o st k
  | .addSet oracle r => Sets.addSet o st oracle r
  | .output oracle pos r => do
    let p ← iter pos
    let _ ← Sets.output o st oracle p r
    return ()
  | .join => Tree.join o setSeg

end
end Sets

namespace Maps
section
variable {D I V : Type} (o : IntervalOps D I) [DecidableEq V] (m : MapType V)

/-- `add(prior_, segment)` with the position that `oracle` gives to a failing insertion -/
def addWith (oracle : List (I × V) → I → Nat) (p : It) (s : I × V) : TreeM (I × V) It := do
  let t ← get
  addHintC o m.cfg m.plus (oracle t.segs s.1) p s.1 s.2

/-- `insert(prior_, segment)` with the position that `oracle` gives to a failing insertion -/
def insertWith (oracle : List (I × V) → I → Nat) (p : It) (s : I × V) : TreeM (I × V) It := do
  let t ← get
  insertHint o m.cfg (oracle t.segs s.1) p s.1 s.2

/-- `object += operand`, concept/interval_associator.hpp:317-326; the loop of `interval_map::assign`,
interval_map.hpp:104-106 -/
def addMap (oracle : List (I × V) → I → Nat) (r : List (I × V)) : TreeM (I × V) Unit := do
  let _ ← chain (addWith o m oracle) none r
  return ()

/-- `insert(object, operand)`, concept/interval_associator.hpp:603-612: the hint is always `end()` -/
def insertMap (oracle : List (I × V) → I → Nat) (r : List (I × V)) : TreeM (I × V) Unit := do
  let _ ← chain (fun _ s => do
    let _ ← insertWith o m oracle none s
    return none) none r
  return ()

/-- `std::copy(r.begin(), r.end(), adder(object, p))`, iterator.hpp:54-58 -/
def output (oracle : List (I × V) → I → Nat) (p : It) (r : List (I × V)) : TreeM (I × V) It :=
  chain (put (addWith o m oracle)) p r

/-- `std::copy(r.begin(), r.end(), inserter(object, p))`, iterator.hpp:98-102 -/
def insertOutput (oracle : List (I × V) → I → Nat) (p : It) (r : List (I × V)) : TreeM (I × V) It :=
  chain (put (insertWith o m oracle)) p r

omit [DecidableEq V] in
/-- `erase(object, operand)` for an interval set as operand, concept/interval_associator.hpp:620-639 -/
def eraseSet (r : List I) : TreeM (I × V) Unit := do
  let t ← get
  match ← ofOption (commonRange o setSeg r (t.segs.map Prod.fst)) with
  | none => return ()
  | some (_, com, _) =>
    let _ ← chain (fun _ k => do
      eraseItv o k
      return none) none com
    return ()

/-- The loop of `flip(segment)` on a partial map, interval_base_map.hpp:771-798: the rest of `span`, `eraser` and
`intersection`, which are containers of their own -/
def flipLoop (v : V) (end_ : It) : Nat → I → It → List I → List (I × V) →
    TreeM (I × V) (I × List I × List (I × V))
  | 0, _, _, _, _ => ofOption none
  | n + 1, span, it, eraser, inters =>
    if it = end_ then return (span, eraser, inters)
    else do
      let s ← deref it
      let next_ ← next it
      let leftOver := o.rightSubtract span s.1
      let (eraser, inters) ← ofOption (IMap.flipCommon o m v (o.inter span s.1) s.2 eraser inters)
      let _ ← addC o m.cfg m.plus 0 leftOver v
      flipLoop v end_ n (o.leftSubtract span s.1) next_ eraser inters

omit [DecidableEq V] in
/-- `(*it_).second = identity_element` for all nodes, interval_base_map.hpp:730-731 -/
def neutral : TreeM (I × V) Unit := fun t =>
  some ((), ⟨t.nodes.map fun n => (n.1, (n.2.1, m.cfg.ident)), t.fresh⟩)

/-- `flip(segment)`, interval_base_map.hpp:431-437 and 703-808 -/
def flipSeg (oracle : List (I × V) → I → Nat) (k : I) (v : V) : TreeM (I × V) Unit :=
  if m.cfg.total then
    if m.cfg.absorbs then do
      let it ← first
      eraseRange it none
    else do
      let _ ← addC o m.cfg m.plus 0 k v
      neutral m
      if m.cfg.joining then join o mapSeg else pure ()
  else do
    let (first_, end_) ← equalRange o mapSeg k
    let (span, eraser, inters) ← flipLoop o m v end_ ((← get).nodes.length + 1) k first_ [] []
    let _ ← addC o m.cfg m.plus 0 span v
    eraseSet o eraser
    addMap o m oracle inters

/-- `subtract(segment)`, interval_base_map.hpp:338-343 and 611-629 -/
def subtract (k : I) (v : V) : TreeM (I × V) Unit :=
  if m.cfg.total && m.invertible then do
    let _ ← addC o m.cfg m.minus 0 k v
    return ()
  else subC o m.cfg m.minus k v

/-- `object -= operand` for an interval map as operand, concept/interval_associator.hpp:669-678 -/
def subMap (r : List (I × V)) : TreeM (I × V) Unit := do
  let _ ← chain (fun _ s => do
    subtract o m s.1 s.2
    return none) none r
  return ()

/-- `erase(object, operand)` for an interval map as operand, concept/interval_associator.hpp:620-639 -/
def eraseMap (r : List (I × V)) : TreeM (I × V) Unit := do
  let t ← get
  match ← ofOption (commonRange o mapSeg r (t.segs.map Prod.fst)) with
  | none => return ()
  | some (_, com, _) =>
    let _ ← chain (fun _ s => do
      eraseSeg o m.cfg s.1 s.2
      return none) none com
    return ()

/-- A call of a function of an interval map; `pos` is the number of the node that an iterator refers to, `end()` if there
is no such node. -/
inductive Cmd (I V : Type) where
  /-- `add(k, v)` -/
  | add (pick : Nat) (k : I) (v : V)
  /-- `add(prior, (k, v))` -/
  | addHint (pick pos : Nat) (k : I) (v : V)
  /-- `subtract(k, v)` -/
  | subtract (k : I) (v : V)
  /-- `insert(k, v)` -/
  | insert (pick : Nat) (k : I) (v : V)
  /-- `insert(prior, (k, v))` -/
  | insertHint (pick pos : Nat) (k : I) (v : V)
  /-- `erase(k, v)` -/
  | erase (k : I) (v : V)
  /-- `erase(k)` -/
  | eraseItv (k : I)
  /-- `flip(k, v)` -/
  | flip (oracle : List (I × V) → I → Nat) (k : I) (v : V)
  /-- `+= r` -/
  | addMap (oracle : List (I × V) → I → Nat) (r : List (I × V))
  /-- `insert(object, r)` -/
  | insertMap (oracle : List (I × V) → I → Nat) (r : List (I × V))
  /-- `std::copy` to an `adder` -/
  | output (oracle : List (I × V) → I → Nat) (pos : Nat) (r : List (I × V))
  /-- `std::copy` to an `inserter` -/
  | insertOutput (oracle : List (I × V) → I → Nat) (pos : Nat) (r : List (I × V))
  /-- `join` -/
  | join
  /-- `erase_if` -/
  | eraseIf (p : I × V → Bool)

/-- What a call does. -/
def Cmd.run : Cmd I V → TreeM (I × V) Unit
  | .add pick k v => do
    let _ ← addC o m.cfg m.plus pick k v
    return ()
  | .addHint pick pos k v => do
    let p ← iter pos
    let _ ← addHintC o m.cfg m.plus pick p k v
    return ()
  | .subtract k v => Maps.subtract o m k v
  | .insert pick k v => do
    let _ ← Maps.insert o m.cfg pick k v
    return ()
  | .insertHint pick pos k v => do
    let p ← iter pos
    let _ ← Maps.insertHint o m.cfg pick p k v
    return ()
  | .erase k v => eraseSeg o m.cfg k v
  | .eraseItv k => Maps.eraseItv o k
  | .flip oracle k v => flipSeg o m oracle k v
  | .addMap oracle r => Maps.addMap o m oracle r
  | .insertMap oracle r => Maps.insertMap o m oracle r
  | .output oracle pos r => do
    let p ← iter pos
    let _ ← Maps.output o m oracle p r
    return ()
  | .insertOutput oracle pos r => do
    let p ← iter pos
    let _ ← Maps.insertOutput o m oracle p r
    return ()
  | .join => Tree.join o mapSeg
  | .eraseIf p => Tree.eraseIf p

end
end Maps
end Tree
end ICL
