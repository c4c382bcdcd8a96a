import Verif.Model.Cost
import Verif.Model.TreeFun

/-!
# What the functions that keep an iterator while the container changes cost

As in `Verif/Model/TreeFun.lean`.
-/

namespace ICL
namespace Cost

section
variable {D I V S : Type} (o : IntervalOps D I) (g : SegOps I V S) [DecidableEq V]

/-- `prior_ = f(object, prior_, *it_)` for all segments `*it_` of an operand, beginning with a given `prior_`;
`f` is `add` or `insert` with a hint -/
def chain {X : Type} (f : It → X → CostM S It) : It → List X → CostM S It
  | p, [] => return p
  | p, x :: xs => do
    let p ← f p x
    chain f p xs

/-- `Set::common_range`, detail/set_algo.hpp:26-60: the first and last segments of two containers, `lower_bound` and
`upper_bound` -/
def common {α : Type} (a : Option α) : CostM S α :=
  charge (fun _ _ => { searches := 2, steps := 4 }) (Tree.ofOption a)

/-- `operator=` of `add_iterator` and `insert_iterator`, iterator.hpp:33-41 and 77-85, for `f` being `add` or `insert`
with a hint -/
def put {X : Type} (f : It → X → CostM S It) (p : It) (x : X) : CostM S It := do
  let p ← f p x
  if p = none then return p else next p

/-- The inner loop of `join`, concept/interval_associator_base.hpp:125-127: `it_` behind it. The number bounds the
rounds; `none` if it is too small. -/
def joinInner : Nat → It → It → CostM S It
  | 0, _, _ => ofOption none
  | n + 1, it, next_ =>
    if next_ = none then return it
    else do
      if ← joinable o g it next_ then
        let it ← next it
        let next_ ← next next_
        joinInner n it next_
      else return it

/-- The outer loop of `join`, concept/interval_associator_base.hpp:117-142 -/
def joinOuter : Nat → It → It → CostM S Unit
  | 0, _, _ => ofOption none
  | n + 1, it, next_ =>
    if next_ = none then return ()
    else do
      if ← joinable o g it next_ then
        let fstMem := it
        let it ← next it
        let next_ ← next next_
        let it ← joinInner o g n it next_
        let f ← deref fstMem
        modify it fun s => g.setKey s (o.hull (g.key s) (g.key f))
        eraseRange fstMem it
        let it ← next it
        if it = none then joinOuter n it it
        else
          let next_ ← next it
          joinOuter n it next_
      else
        let it ← next it
        let next_ ← next next_
        joinOuter n it next_

/-- `join(object)`, concept/interval_associator_base.hpp:105-143 -/
def join : CostM S Unit := do
  let it ← first
  if it = none then return ()
  else
    let next_ ← next it
    joinOuter o g ((← get).nodes.length + 1) it next_

/-- The loop of `erase_if`, concept/interval_map.hpp:608-612 -/
def eraseIfLoop (p : S → Bool) : Nat → It → CostM S Unit
  | 0, _ => ofOption none
  | n + 1, it =>
    if it = none then return ()
    else do
      let s ← deref it
      let next_ ← next it
      if p s then
        erase it
        eraseIfLoop p n next_
      else eraseIfLoop p n next_

/-- One call after the other. -/
def runAll {C : Type} (run : C → CostM S Unit) : List C → CostM S Unit
  | [] => return ()
  | c :: cs => do
    run c
    runAll run cs

/-- `erase_if(predicate, object)`, concept/interval_map.hpp:604-614 -/
def eraseIf (p : S → Bool) : CostM S Unit := do
  let it ← first
  eraseIfLoop p ((← get).nodes.length + 1) it

end

namespace Sets
section
variable {D I : Type} (o : IntervalOps D I)

/-- `add(prior_, segment)` with the position that `oracle` gives to a failing insertion -/
def addWith (st : Style) (oracle : List I → I → Nat) (p : It) (k : I) : CostM I It := do
  let t ← get
  addHint o st (oracle t.segs k) p k

/-- `object += operand`, concept/interval_associator.hpp:317-326; the loops of `interval_set::assign`,
interval_set.hpp:125-127, `domain` and `between`, concept/interval_set.hpp:305-308 and 321-327,
concept/interval_map.hpp:573-575 and 589-595 -/
def addSet (st : Style) (oracle : List I → I → Nat) (r : List I) : CostM I Unit := do
  let _ ← chain (addWith o st oracle) none r
  return ()

/-- `std::copy(r.begin(), r.end(), adder(object, p))` and the same with `inserter`, iterator.hpp:54-58 and 98-102 -/
def output (st : Style) (oracle : List I → I → Nat) (p : It) (r : List I) : CostM I It :=
  chain (put (addWith o st oracle)) p r

/-- `erase(object, operand)` = `object -= operand` for an interval set as operand,
concept/interval_associator.hpp:620-639 and 703-709 -/
def subSet (r : List I) : CostM I Unit := do
  let t ← get
  match ← common (commonRange o setSeg r t.segs) with
  | none => return ()
  | some (_, com, _) =>
    let _ ← chain (fun _ k => do
      subtract o k
      return none) none com
    return ()

/-- The loop of `flip(segment)`, concept/interval_set.hpp:242-256: the rest of `span` -/
def flipLoop (st : Style) (end_ : It) : Nat → I → It → CostM I I
  | 0, _, _ => ofOption none
  | n + 1, span, it =>
    if it = end_ then return span
    else do
      let covered ← deref it
      let next_ ← next it
      let leftOver := o.rightSubtract span covered
      subtract o (o.inter span covered)
      let _ ← add o st 0 leftOver
      flipLoop st end_ n (o.leftSubtract span covered) next_

/-- `flip(segment)`, concept/interval_set.hpp:225-262 -/
def flipSeg (st : Style) (k : I) : CostM I Unit := do
  let (first_, end_) ← equalRange o setSeg k
  let span ← flipLoop o st end_ ((← get).nodes.length + 1) k first_
  let _ ← add o st 0 span
  return ()

/-- What a call does. -/
def run (st : Style) : Tree.Sets.Cmd I → CostM I Unit
  | .add pick k => do
    let _ ← Sets.add o st pick k
    return ()
  | .addHint pick pos k => do
    let p ← free (Tree.iter pos)
    let _ ← Sets.addHint o st pick p k
    return ()
  | .subtract k => Sets.subtract o k
  | .flip k => flipSeg o st k
  | .addSet oracle r => Sets.addSet o st oracle r
  | .output oracle pos r => do
    let p ← free (Tree.iter pos)
    let _ ← Sets.output o st oracle p r
    return ()
  | .join => Cost.join o setSeg

end
end Sets

namespace Maps
section
variable {D I V : Type} (o : IntervalOps D I) [DecidableEq V] (m : MapType V)

/-- `add(prior_, segment)` with the position that `oracle` gives to a failing insertion -/
def addWith (oracle : List (I × V) → I → Nat) (p : It) (s : I × V) : CostM (I × V) It := do
  let t ← get
  addHintC o m.cfg m.plus (oracle t.segs s.1) p s.1 s.2

/-- `insert(prior_, segment)` with the position that `oracle` gives to a failing insertion -/
def insertWith (oracle : List (I × V) → I → Nat) (p : It) (s : I × V) : CostM (I × V) It := do
  let t ← get
  insertHint o m.cfg (oracle t.segs s.1) p s.1 s.2

/-- `object += operand`, concept/interval_associator.hpp:317-326; the loop of `interval_map::assign`,
interval_map.hpp:104-106 -/
def addMap (oracle : List (I × V) → I → Nat) (r : List (I × V)) : CostM (I × V) Unit := do
  let _ ← chain (addWith o m oracle) none r
  return ()

/-- `insert(object, operand)`, concept/interval_associator.hpp:603-612: the hint is always `end()` -/
def insertMap (oracle : List (I × V) → I → Nat) (r : List (I × V)) : CostM (I × V) Unit := do
  let _ ← chain (fun _ s => do
    let _ ← insertWith o m oracle none s
    return none) none r
  return ()

/-- `subtract(segment)`, interval_base_map.hpp:338-343 and 611-629 -/
def subtract (k : I) (v : V) : CostM (I × V) Unit :=
  if m.cfg.total && m.invertible then do
    let _ ← addC o m.cfg m.minus 0 k v
    return ()
  else subC o m.cfg m.minus k v

/-- `object -= operand` for an interval map as operand, concept/interval_associator.hpp:669-678 -/
def subMap (r : List (I × V)) : CostM (I × V) Unit := do
  let _ ← chain (fun _ s => do
    subtract o m s.1 s.2
    return none) none r
  return ()

omit [DecidableEq V] in
/-- `erase(object, operand)` for an interval set as operand, concept/interval_associator.hpp:620-639 -/
def eraseSet (r : List I) : CostM (I × V) Unit := do
  let t ← get
  match ← common (commonRange o setSeg r (t.segs.map Prod.fst)) with
  | none => return ()
  | some (_, com, _) =>
    let _ ← chain (fun _ k => do
      eraseItv o k
      return none) none com
    return ()

/-- `erase(object, operand)` for an interval map as operand, concept/interval_associator.hpp:620-639 -/
def eraseMap (r : List (I × V)) : CostM (I × V) Unit := do
  let t ← get
  match ← common (commonRange o mapSeg r (t.segs.map Prod.fst)) with
  | none => return ()
  | some (_, com, _) =>
    let _ ← chain (fun _ s => do
      eraseSeg o m.cfg s.1 s.2
      return none) none com
    return ()

end
end Maps
end Cost
end ICL
