import Verif.Model.SetFun
import Verif.Model.MapFun

/-!
# Operations of a container with itself

`a += a`, `a -= a`, `a ^= a`, `insert(m, m)`, `erase(m, m)` and `set(m, *it)`, where `*it` is a segment of `m`.
The operand is a reference to the object, so the loops of these functions run over the nodes that they change, and
the segments that they pass on are references into the nodes.

An iterator is a node.  In the `for` loops it is the node `cur` of a `Zip`, and each function says what has become
of that node: it is still there, with its present content, or it has been erased, which makes the iterator
invalid.  The `while` loops advance the iterator before they change the container; we demand that the
nodes behind it have survived unchanged.
-/

namespace ICL

/-- Why an operation has no result: `dangling` if a node is still needed that has been erased (in `whileSelf`:
erased or changed); `failure` for all else, as `none` in the other models. -/
inductive Fault
  | dangling | failure
  deriving DecidableEq, Repr

/-- The outcome of an operation. -/
abbrev Outcome (α : Type) := Except Fault α

instance {α : Type} [DecidableEq α] : DecidableEq (Outcome α) := fun a b =>
  match a, b with
  | .ok a, .ok b => decidable_of_iff (a = b) (by simp)
  | .error a, .error b => decidable_of_iff (a = b) (by simp)
  | .ok _, .error _ => isFalse (by simp)
  | .error _, .ok _ => isFalse (by simp)

/-- `none` is a failure -/
def orFail {α : Type} : Option α → Outcome α
  | some a => .ok a
  | none => .error .failure

section
variable {D I V S : Type} (o : IntervalOps D I) (g : SegOps I V S)

/-- `ICL_const_FORALL(typename OperandT, elem_, operand) body`, where the operand is the object itself,
concept/interval_associator.hpp:320-323: the rounds from the one on in which `elem_` is `z.cur`. The number bounds
the rounds that are left. -/
def forSelf (body : Zip S → Outcome (Zip S)) : Nat → Zip S → Outcome (List S)
  | 0, _ => .error .failure
  | n + 1, z => do
    let z ← body z
    match z.right with
    | [] => .ok z.toList
    | s :: r => forSelf body n ⟨z.cur :: z.left, s, r⟩

/-- The whole loop. -/
def loopSelf (body : Zip S → Outcome (Zip S)) : List S → Outcome (List S)
  | [] => .ok []
  | s :: r => forSelf body (r.length + 1) ⟨[], s, r⟩

/-- `while(it_ != upb) f(object, *it_++)`, where `it_` is an iterator of the object itself,
concept/interval_associator.hpp:634-636: `com` are the nodes from `it_` to `upb`, `post` those from `upb` on. -/
def whileSelf [DecidableEq S] (f : List S → S → Option (List S)) (post : List S) : List S → List S → Outcome (List S)
  | l, [] => .ok l
  | l, s :: com => do
    let l ← orFail (f l s)
    if (com ++ post).isSuffixOf l then whileSelf f post l com else .error .dangling

/-- The key of a node is searched in the container, and that node is found. -/
def findSelf (z : Zip S) : Outcome Unit :=
  match equalRange o g z.toList (g.key z.cur) with
  | some (_, [_], _) => .ok ()
  | _ => .error .failure

variable [DecidableEq V]

/-- `join_left(object, it_)`, detail/interval_set_algo.hpp:273-287: if the node is joined with the one before, it
is the node that is erased (`join_nodes`, 233-242). -/
def joinLeftSelf (z : Zip S) : Outcome (Zip S) :=
  match z.left with
  | [] => .ok z
  | p :: _ =>
    match joinableC o g p z.cur with
    | none => .error .failure
    | some true => .error .dangling
    | some false => .ok z

/-- `join_neighbours(object, it_)`, detail/interval_set_algo.hpp:306-311: `join_right` keeps the node `it_` and
erases the one behind. -/
def joinSelf (z : Zip S) : Outcome (Zip S) := do
  let z ← joinLeftSelf o g z
  orFail (joinRight o g z)

end

namespace ISet
section
variable {D I : Type} (o : IntervalOps D I)

/-- `prior_ = icl::add(object, prior_, *elem_)`, with `_add(prior_, addend)`, interval_base_set.hpp:517-535: the
insertion finds the node itself, which equals the addend; `handle_inserted` of the three classes.
Simplification: if the node did not equal itself, `failure`. -/
def addNode (st : Style) (z : Zip I) : Outcome (Zip I) :=
  if o.isEmpty z.cur then .ok z
  else do
    findSelf o setSeg z
    if o.eq z.cur z.cur then
      match st with
      | .joining => joinSelf o setSeg z
      | .separating => .ok z
      | .splitting => .ok z
    else .error .failure

/-- `a += a` and `insert(a, a)`, concept/interval_associator.hpp:317-326 and 603-612 -/
def addSelf (st : Style) (l : List I) : Outcome (List I) := loopSelf (addNode o st) l

variable [DecidableEq I]

/-- `a -= a` and `erase(a, a)`, concept/interval_associator.hpp:620-639 and 703-709 -/
def subSelf (l : List I) : Outcome (List I) := do
  match ← orFail (commonRange o setSeg l l) with
  | none => .ok l
  | some (_, com, post) => whileSelf (fun l k => subtract o l k) post l com

/-- `a ^= a`, concept/interval_set.hpp:265-292: if there are nodes before or behind the common range (which
is not so) the code adds them to the object; here `failure`. -/
def flipSelf (st : Style) (l : List I) : Outcome (List I) := do
  match ← orFail (commonRange o setSeg l l) with
  | none => addSelf o st l
  | some ([], com, []) => whileSelf (fun l k => flipSeg o st l k) [] l com
  | some _ => .error .failure

end
end ISet

namespace IMap
section
variable {D I V : Type} (o : IntervalOps D I) [DecidableEq V]

/-- The end of `add_rear` and `subtract_rear` for a node as operand, interval_base_map.hpp:907-913 and 1050-1054: the
value is combined with itself, then `handle_preceeded_combined`, `handle_combined` (interval_map.hpp:174-193,
split_interval_map.hpp:145-160). -/
def combineNode (c : MapCfg V) (f : Combiner V) (z : Zip (I × V)) : Outcome (Zip (I × V)) :=
  let cur := combine f z.cur z.cur.2
  if absorbable c cur.2 then .error .dangling
  else if c.joining then joinSelf o mapSeg ⟨z.left, cur, z.right⟩
  else .ok ⟨z.left, cur, z.right⟩

/-- `prior_ = icl::add(object, prior_, *elem_)`, with `_add(prior_, addend)` and `add_at`,
interval_base_map.hpp:562-579 and 974-1009: the insertion finds the node itself. `add_front` and `add_main`
(815-838, 862-876) and the gaps of `add_rear` have nothing to do. -/
def addNode (c : MapCfg V) (f : Combiner V) (z : Zip (I × V)) : Outcome (Zip (I × V)) :=
  if o.isEmpty z.cur.1 then .ok z
  else if absorbable c z.cur.2 then .ok z
  else do
    findSelf o mapSeg z
    if o.eq z.cur.1 z.cur.1 && decide (z.cur.2 = c.ident) then
      let cur := combine f z.cur z.cur.2
      if c.joining then joinSelf o mapSeg ⟨z.left, cur, z.right⟩ else .ok ⟨z.left, cur, z.right⟩
    else combineNode o c f z

/-- `icl::subtract(object, *elem_)`, with `_subtract(minuend)` and, for total maps of values that have inverses,
`_add<inverse>(minuend)`, interval_base_map.hpp:611-629, 936-972 and 1068-1090 -/
def subNode (c : MapCfg V) (f : Combiner V) (z : Zip (I × V)) : Outcome (Zip (I × V)) :=
  if o.isEmpty z.cur.1 then .ok z
  else if absorbable c z.cur.2 then .ok z
  else do
    findSelf o mapSeg z
    combineNode o c f z

/-- `icl::insert(object, end, *elem_)`, with `_insert(prior_, addend)` and `insert_at`,
interval_base_map.hpp:581-594 and 1164-1189: the insertion finds the node itself, which counts as inserted. -/
def insertNode (c : MapCfg V) (z : Zip (I × V)) : Outcome (Zip (I × V)) :=
  if o.isEmpty z.cur.1 then .ok z
  else if absorbable c z.cur.2 then .ok z
  else do
    findSelf o mapSeg z
    if o.eq z.cur.1 z.cur.1 then
      if c.joining then joinSelf o mapSeg z else .ok z
    else .error .failure

variable (t : MapType V)

/-- `m += m`, concept/interval_associator.hpp:317-326 -/
def addSelf (l : List (I × V)) : Outcome (List (I × V)) := loopSelf (addNode o t.cfg t.plus) l

/-- `m -= m`, concept/interval_associator.hpp:669-678 -/
def subSelf (l : List (I × V)) : Outcome (List (I × V)) := loopSelf (subNode o t.cfg t.minus) l

/-- `insert(m, m)`, concept/interval_associator.hpp:603-612 -/
def insertSelf (l : List (I × V)) : Outcome (List (I × V)) := loopSelf (insertNode o t.cfg) l

variable [DecidableEq I]

/-- `erase(m, m)`, concept/interval_associator.hpp:620-639 -/
def eraseSelf (l : List (I × V)) : Outcome (List (I × V)) := do
  match ← orFail (commonRange o mapSeg l (l.map Prod.fst)) with
  | none => .ok l
  | some (_, com, post) => whileSelf (fun m s => eraseSeg o t.cfg m s.1 s.2) post l com

/-- `m ^= m`, concept/interval_map.hpp:484-561; as for sets, there are no nodes before or behind the common range -/
def flipSelf (oracle : List (I × V) → I → Nat) (l : List (I × V)) : Outcome (List (I × V)) :=
  if t.cfg.total then
    if t.cfg.absorbs then .ok []
    else do
      let l ← addSelf o t l
      orFail (neutralize o t l)
  else do
    match ← orFail (commonRange o mapSeg l (l.map Prod.fst)) with
    | none => addSelf o t l
    | some ([], com, []) => whileSelf (fun m s => flipSeg o t oracle m s.1 s.2) [] l com
    | some _ => .error .failure

/-- `set(m, *it)`, where `it` is the node `z.cur`, concept/interval_map.hpp:283-289: the keys of the segment are
erased, then the segment is inserted, if it still exists. -/
def setNode (z : Zip (I × V)) : Outcome (List (I × V)) := do
  let m ← orFail (eraseItv o z.toList z.cur.1)
  if z.cur ∈ m then orFail (insert o t.cfg m z.cur.1 z.cur.2) else .error .dangling

end
end IMap
end ICL
