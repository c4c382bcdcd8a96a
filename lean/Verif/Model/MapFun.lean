import Verif.Model.Map
import Verif.Model.MapQuery

/-!
# Functions on interval maps

The functions of `interval_base_map.hpp`, `interval_map.hpp`, `split_interval_map.hpp`,
`concept/interval_map.hpp` and `concept/interval_associator.hpp` that change an interval map by a
segment, an element, or a container, as far as they are not already in `Model/Map.lean`.

As for interval sets, functions that pass an iterator as a hint take an `oracle`.
-/

namespace ICL

/-- What an interval map type knows about its associated values: `plus` is `codomain_combine`,
`minus` is `inverse_codomain_combine`, `sect` is `codomain_intersect` (`Section` if the codomain type has set
semantics, else `codomain_combine`), `unsect` is `inverse_codomain_intersect`, `setLike` is
`has_set_semantics<codomain_type>` and `invertible` is `has_inverse<codomain_type>`;
interval_base_map.hpp:118-132 and 189-191. -/
structure MapType (V : Type) where
  cfg : MapCfg V
  plus : Combiner V
  minus : Combiner V
  sect : Combiner V
  unsect : V → V → V
  setLike : Bool
  invertible : Bool

/-- A loop over the segments of a container, each of them combined into the object by `f`:
`ICL_FORALL`, `while(it_ != end) f(object, *it_++)`. -/
def forEach {S T : Type} (f : S → T → Option S) : S → List T → Option S
  | s, [] => some s
  | s, t :: ts => do
    let s ← f s t
    forEach f s ts

section
variable {D I V : Type} (o : IntervalOps D I) [DecidableEq V] (t : MapType V)

namespace IMap

/-- `add(segment)`, interval_base_map.hpp:314-318, concept/interval_map.hpp:145-157; `object += segment`,
concept/interval_associator.hpp:302-307 -/
def addSeg (m : List (I × V)) (k : I) (v : V) : Option (List (I × V)) := addC o t.cfg t.plus m k v

/-- `add(prior_, segment)`, interval_base_map.hpp:323-326 -/
def addHint (oracle : Nat) (m : List (I × V)) (k : I) (v : V) : Option (List (I × V)) :=
  addHintC o t.cfg t.plus oracle m k v

/-- `subtract(segment)`, interval_base_map.hpp:338-343 and 611-629; `object -= segment`,
concept/interval_associator.hpp:683-688 -/
def subSeg (m : List (I × V)) (k : I) (v : V) : Option (List (I × V)) :=
  if t.cfg.total && t.invertible then addC o t.cfg t.minus m k v else subC o t.cfg t.minus m k v

/-- `object += operand` for an interval map as operand, concept/interval_associator.hpp:317-326 -/
def addMap (oracle : List (I × V) → I → Nat) (m r : List (I × V)) : Option (List (I × V)) :=
  forEach (fun m s => addHint o t (oracle m s.1) m s.1 s.2) m r

/-- `object -= operand` for an interval map as operand, concept/interval_associator.hpp:669-678 -/
def subMap (m r : List (I × V)) : Option (List (I × V)) :=
  forEach (fun m s => subSeg o t m s.1 s.2) m r

/-- `insert(object, operand)` for an interval map as operand, concept/interval_associator.hpp:603-612.
The hint is always `end()`, which no insertion returns. -/
def insertMap (oracle : List (I × V) → I → Nat) (m r : List (I × V)) : Option (List (I × V)) :=
  forEach (fun m s => insertHint o t.cfg (oracle m s.1) false m s.1 s.2) m r

/-- `erase(object, operand)` for an interval map as operand, concept/interval_associator.hpp:620-639 -/
def eraseMap (m r : List (I × V)) : Option (List (I × V)) := do
  match ← commonRange o mapSeg r (m.map Prod.fst) with
  | none => return m
  | some (_, com, _) => forEach (fun m s => eraseSeg o t.cfg m s.1 s.2) m com

omit [DecidableEq V] in
/-- `erase(object, operand)` and `object -= operand` for an interval set as operand,
concept/interval_associator.hpp:620-639 and 703-709 -/
def eraseSet (m : List (I × V)) (r : List I) : Option (List (I × V)) := do
  match ← commonRange o setSeg r (m.map Prod.fst) with
  | none => return m
  | some (_, com, _) => forEach (fun m k => eraseItv o m k) m com

/-- A round of the loop of `partial_add_intersection`, interval_base_map.hpp:533-541 -/
def sectionStep (k : I) (v : V) (sec : List (I × V)) (node : I × V) : Option (List (I × V)) :=
  let common := o.inter node.1 k
  if o.isEmpty common then some sec
  else do
    let sec ← addC o t.cfg t.plus sec common node.2
    addC o t.cfg t.sect sec common v

/-- `add_intersection(section, object, segment)`, interval_base_map.hpp:510-542 and 635-654,
concept/interval_map.hpp:313-319 -/
def addInterSeg (oracle : List (I × V) → I → Nat) (sec m : List (I × V)) (k : I) (v : V) :
    Option (List (I × V)) :=
  if t.cfg.total then do
    let sec ← addMap o t oracle sec m
    addSeg o t sec k v
  else if o.isEmpty k then some sec
  else do
    let (_, b, _) ← equalRange o mapSeg m k
    forEach (sectionStep o t k v) sec b

/-- `add_intersection(section, object, operand)` for an interval map as operand,
concept/interval_map.hpp:324-361 -/
def addInterMap (oracle : List (I × V) → I → Nat) (sec m r : List (I × V)) : Option (List (I × V)) :=
  if t.cfg.total then do
    let sec ← addMap o t oracle sec m
    addMap o t oracle sec r
  else do
    match ← commonRange o mapSeg r (m.map Prod.fst) with
    | none => return sec
    | some (_, com, _) => forEach (fun sec s => addInterSeg o t oracle sec m s.1 s.2) sec com

/-- A round of the loop of `add_intersection(section, object, interval)`, concept/interval_map.hpp:399-405 -/
def restrictStep (oracle : List (I × V) → I → Nat) (k : I) (sec : List (I × V)) (node : I × V) :
    Option (List (I × V)) :=
  let common := o.inter node.1 k
  if o.isEmpty common then some sec else addHint o t (oracle sec common) sec common node.2

/-- `add_intersection(section, object, interval)`, concept/interval_map.hpp:380-406 -/
def addInterItv (oracle : List (I × V) → I → Nat) (sec m : List (I × V)) (k : I) : Option (List (I × V)) :=
  if o.isEmpty k then some sec
  else do
    let (_, b, _) ← equalRange o mapSeg m k
    forEach (restrictStep o t oracle k) sec b

/-- `add_intersection(section, object, key_set)`, concept/interval_map.hpp:408-424 -/
def addInterSet (oracle : List (I × V) → I → Nat) (sec m : List (I × V)) (r : List I) :
    Option (List (I × V)) := do
  match ← commonRange o setSeg r (m.map Prod.fst) with
  | none => return sec
  | some (_, com, _) => forEach (fun sec k => addInterItv o t oracle sec m k) sec com

/-- `add_intersection(section, object, key)`, concept/interval_map.hpp:366-378.
Simplification: `interval_type(key)` is the interval `singleton<interval_type>(key)`. -/
def addInterKey (sing : D → I) (lk : Lookup D I) (sec m : List (I × V)) (x : D) : Option (List (I × V)) := do
  match ← findE o mapSeg lk m x with
  | none => return sec
  | some s => addSeg o t sec (sing x) s.2

/-- `intersects(object, segment)` for a partial or total map, concept/interval_map.hpp:429-450 -/
def intersectsSeg (oracle : List (I × V) → I → Nat) (m : List (I × V)) (k : I) (v : V) : Option Bool :=
  if t.cfg.total then some true
  else (addInterSeg o t oracle [] m k v).map fun sec => !sec.isEmpty

/-- The loop of `intersects(left, right)`, concept/interval_associator.hpp:932-939 and 956-964: `f` adds an
intersection to `sec`. -/
def intersectsLoop {S : Type} (f : List (I × V) → S → Option (List (I × V))) (sec : List (I × V)) :
    List S → Option Bool
  | [] => some false
  | s :: ss => do
    let sec ← f sec s
    if sec.isEmpty then intersectsLoop f sec ss else return true

/-- `intersects(left, right)` for two interval maps; `totalR` is `is_total<RightT>`;
concept/interval_associator.hpp:909-940 -/
def intersectsMap (totalR : Bool) (oracle : List (I × V) → I → Nat) (m r : List (I × V)) : Option Bool :=
  if t.cfg.total || totalR then some true
  else do
    match ← commonRange o mapSeg r (m.map Prod.fst) with
    | none => return false
    | some (_, com, _) => intersectsLoop (fun sec s => addInterSeg o t oracle sec m s.1 s.2) [] com

/-- `intersects(left, right)` for an interval map and an interval set, concept/interval_associator.hpp:942-965 -/
def intersectsSet (oracle : List (I × V) → I → Nat) (m : List (I × V)) (r : List I) : Option Bool := do
  match ← commonRange o setSeg r (m.map Prod.fst) with
  | none => return false
  | some (_, com, _) => intersectsLoop (fun sec k => addInterItv o t oracle sec m k) [] com

/-- The values of common segments when a partial map is flipped: `on_codomain_model::add`,
interval_base_map.hpp:663-697 -/
def flipValue (v u : V) : V := if t.setLike then t.unsect v u else t.cfg.ident

/-- The treatment of the common interval in a round of the loop of `flip(segment)`,
interval_base_map.hpp:780-789: the new `eraser` and `intersection`. -/
def flipCommon (v : V) (common : I) (u : V) (eraser : List I) (inters : List (I × V)) :
    Option (List I × List (I × V)) :=
  if o.isEmpty common then some (eraser, inters)
  else do
    let eraser ← ISet.add o .joining eraser common
    let inters ← addC o t.cfg t.plus inters common (flipValue t v u)
    return (eraser, inters)

/-- The loop of `flip(segment)` on a partial map, interval_base_map.hpp:758-798.  `mid` are the nodes
still to be visited, `post` those from `end_` on.  The code goes on with an iterator to the next node after it
has changed the container: we demand that the nodes to be visited have survived.
Returns the map, the rest of `span`, `eraser` and `intersection`. -/
def flipLoop [DecidableEq I] (v : V) (post : List (I × V)) :
    List (I × V) → I → List I → List (I × V) → List (I × V) →
    Option (List (I × V) × I × List I × List (I × V))
  | m, span, eraser, inters, [] => some (m, span, eraser, inters)
  | m, span, eraser, inters, covered :: mid => do
    let leftOver := o.rightSubtract span covered.1
    let (eraser, inters) ← flipCommon o t v (o.inter span covered.1) covered.2 eraser inters
    let m ← addSeg o t m leftOver v
    if (mid ++ post).isSuffixOf m then
      flipLoop v post m (o.leftSubtract span covered.1) eraser inters mid
    else none

/-- All values become the identity element, and a joining map is joined: the end of `flip` on a total enricher,
interval_base_map.hpp:729-733, concept/interval_map.hpp:516-520 -/
def neutralize (m : List (I × V)) : Option (List (I × V)) :=
  let m := m.map fun s => (s.1, t.cfg.ident)
  if t.cfg.joining then joinAll o mapSeg m else some m

/-- `flip(segment)`, interval_base_map.hpp:431-437 and 703-808, concept/interval_map.hpp:467-472 -/
def flipSeg [DecidableEq I] (oracle : List (I × V) → I → Nat) (m : List (I × V)) (k : I) (v : V) :
    Option (List (I × V)) :=
  if t.cfg.total then
    if t.cfg.absorbs then some [] else (addSeg o t m k v).bind (neutralize o t)
  else do
    let (_, b, post) ← equalRange o mapSeg m k
    let (m, span, eraser, inters) ← flipLoop o t v post m k [] [] b
    let m ← addSeg o t m span v
    let m ← eraseSet o m eraser
    addMap o t oracle m inters

/-- `flip(object, operand)` = `object ^= operand` for an interval map as operand,
concept/interval_map.hpp:484-561, concept/interval_associator.hpp:998-1003 -/
def flipMap [DecidableEq I] (oracle : List (I × V) → I → Nat) (m r : List (I × V)) : Option (List (I × V)) :=
  if t.cfg.total then
    if t.cfg.absorbs then some [] else (addMap o t oracle m r).bind (neutralize o t)
  else do
    match ← commonRange o mapSeg r (m.map Prod.fst) with
    | none => addMap o t oracle m r
    | some (pre, com, post) =>
      let m ← forEach (fun m s => addSeg o t m s.1 s.2) m pre
      let m ← forEach (fun m s => flipSeg o t oracle m s.1 s.2) m com
      forEach (fun m s => addSeg o t m s.1 s.2) m post

/-- Conversion from an interval map of the other class: `interval_map::assign`, interval_map.hpp:97-107, adds the
segments; `split_interval_map::assign`, split_interval_map.hpp:82-88, inserts the nodes. -/
def assign (oracle : List (I × V) → I → Nat) (src : List (I × V)) : Option (List (I × V)) :=
  if t.cfg.joining then addMap o t oracle [] src
  else forEach (fun m s => stdInsert o mapSeg m s) [] src

omit [DecidableEq V] in
/-- `erase_if(predicate, object)`, concept/interval_map.hpp:604-614 -/
def eraseIf (p : I × V → Bool) (m : List (I × V)) : List (I × V) := m.filter fun s => !p s

/-- `absorb_identities(object)`, concept/interval_map.hpp:640-655; `content_is_identity_element`,
concept/map_value.hpp:44-52 -/
def absorbIdentities (m : List (I × V)) : List (I × V) :=
  if t.cfg.absorbs then m else eraseIf (fun s => decide (s.2 = t.cfg.ident)) m

omit [DecidableEq V] in
/-- `domain(set, map)`, concept/interval_map.hpp:566-578 -/
def domain (st : Style) (oracle : List I → I → Nat) (m : List (I × V)) : Option (List I) :=
  ISet.addSet o st oracle [] (m.map Prod.fst)

omit [DecidableEq V] in
/-- `between(set, map)`, concept/interval_map.hpp:580-599 -/
def between (st : Style) (oracle : List I → I → Nat) (m : List (I × V)) : Option (List I) :=
  ISet.addSet o st oracle [] (ISet.gaps o (m.map Prod.fst))

end IMap
end
end ICL
