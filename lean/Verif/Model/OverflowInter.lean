import Verif.Model.Overflow

/-!
# Intersections and symmetric differences with values of a bounded type

`&=` and `^=` of interval maps, as in `Model/MapFun.lean`, with the additions of `Model/Overflow.lean`.
-/

namespace ICL
section
variable {D I V : Type} (o : IntervalOps D I) [DecidableEq V] (R : V → Prop) [DecidablePred R]

namespace IMap
variable (t : MapType V)

/-- As `sectionStep`; interval_base_map.hpp:533-541 -/
def sectionStepR (k : I) (v : V) (sec : List (I × V)) (node : I × V) : Option (List (I × V)) :=
  let common := o.inter node.1 k
  if o.isEmpty common then some sec
  else do
    let sec ← addCR o R t.cfg t.plus sec common node.2
    addCR o R t.cfg t.sect sec common v

/-- `add_intersection(section, object, segment)`, as `addInterSeg`; interval_base_map.hpp:510-542 and 635-654 -/
def addInterSegR (oracle : List (I × V) → I → Nat) (sec m : List (I × V)) (k : I) (v : V) :
    Option (List (I × V)) :=
  if t.cfg.total then do
    let sec ← addMapR o R t oracle sec m
    addSegR o R t sec k v
  else if o.isEmpty k then some sec
  else do
    let (_, b, _) ← equalRange o mapSeg m k
    forEach (sectionStepR o R t k v) sec b

/-- `add_intersection(section, object, operand)` for an interval map as operand, as `addInterMap`;
concept/interval_map.hpp:324-361 -/
def addInterMapR (oracle : List (I × V) → I → Nat) (sec m r : List (I × V)) : Option (List (I × V)) :=
  if t.cfg.total then do
    let sec ← addMapR o R t oracle sec m
    addMapR o R t oracle sec r
  else do
    match ← commonRange o mapSeg r (m.map Prod.fst) with
    | none => return sec
    | some (_, com, _) => forEach (fun sec s => addInterSegR o R t oracle sec m s.1 s.2) sec com

/-- As `flipCommon`; interval_base_map.hpp:780-789 and 663-697 -/
def flipCommonR (v : V) (common : I) (u : V) (eraser : List I) (inters : List (I × V)) :
    Option (List I × List (I × V)) :=
  if o.isEmpty common then some (eraser, inters)
  else do
    let eraser ← ISet.add o .joining eraser common
    let w ← chk R (flipValue t v u)
    let inters ← addCR o R t.cfg t.plus inters common w
    return (eraser, inters)

/-- As `flipLoop`; interval_base_map.hpp:758-798 -/
def flipLoopR [DecidableEq I] (v : V) (post : List (I × V)) :
    List (I × V) → I → List I → List (I × V) → List (I × V) →
    Option (List (I × V) × I × List I × List (I × V))
  | m, span, eraser, inters, [] => some (m, span, eraser, inters)
  | m, span, eraser, inters, covered :: mid => do
    let leftOver := o.rightSubtract span covered.1
    let (eraser, inters) ← flipCommonR o R t v (o.inter span covered.1) covered.2 eraser inters
    let m ← addSegR o R t m leftOver v
    if (mid ++ post).isSuffixOf m then
      flipLoopR v post m (o.leftSubtract span covered.1) eraser inters mid
    else none

/-- `flip(segment)` on partial maps, as `flipSeg`; interval_base_map.hpp:431-437 and 742-808 -/
def flipSegR [DecidableEq I] (oracle : List (I × V) → I → Nat) (m : List (I × V)) (k : I) (v : V) :
    Option (List (I × V)) := do
  let (_, b, post) ← equalRange o mapSeg m k
  let (m, span, eraser, inters) ← flipLoopR o R t v post m k [] [] b
  let m ← addSegR o R t m span v
  let m ← eraseSet o m eraser
  addMapR o R t oracle m inters

/-- `object ^= operand` on partial maps, as `flipMap`; concept/interval_map.hpp:524-561 -/
def flipPartialMapR [DecidableEq I] (oracle : List (I × V) → I → Nat) (m r : List (I × V)) :
    Option (List (I × V)) := do
  match ← commonRange o mapSeg r (m.map Prod.fst) with
  | none => addMapR o R t oracle m r
  | some (pre, com, post) =>
    let m ← forEach (fun m s => addSegR o R t m s.1 s.2) m pre
    let m ← forEach (fun m s => flipSegR o R t oracle m s.1 s.2) m com
    forEach (fun m s => addSegR o R t m s.1 s.2) m post

/-- `object ^= operand` on total maps, as `flipMap`; concept/interval_map.hpp:484-522 -/
def flipTotalMapR (oracle : List (I × V) → I → Nat) (m r : List (I × V)) : Option (List (I × V)) :=
  if t.cfg.absorbs then some [] else (addMapR o R t oracle m r).bind (neutralize o t)

/-- `flip(segment)` on total maps, as `flipSeg`; interval_base_map.hpp:703-739 -/
def flipTotalSegR (m : List (I × V)) (k : I) (v : V) : Option (List (I × V)) :=
  if t.cfg.absorbs then some [] else (addSegR o R t m k v).bind (neutralize o t)

/-- A call that computes values. `&=` swaps the object with the intersection that it collects in an
empty map, concept/interval_associator.hpp:770-778. -/
inductive ValueOp (I V : Type) where
  | arith (op : ArithOp I V)
  | inter (oracle : List (I × V) → I → Nat) (k : I) (v : V)
  | interMap (oracle : List (I × V) → I → Nat) (r : List (I × V))
  | flip (oracle : List (I × V) → I → Nat) (k : I) (v : V)
  | flipMap (oracle : List (I × V) → I → Nat) (r : List (I × V))

/-- The call, for values without bounds. -/
def ValueOp.run [DecidableEq I] (m : List (I × V)) : ValueOp I V → Option (List (I × V))
  | .arith op => op.run o t m
  | .inter oracle k v => IMap.addInterSeg o t oracle [] m k v
  | .interMap oracle r => IMap.addInterMap o t oracle [] m r
  | .flip oracle k v => IMap.flipSeg o t oracle m k v
  | .flipMap oracle r => IMap.flipMap o t oracle m r

/-- The call, for values with bounds. -/
def ValueOp.runR [DecidableEq I] (m : List (I × V)) : ValueOp I V → Option (List (I × V))
  | .arith op => op.runR o R t m
  | .inter oracle k v => IMap.addInterSegR o R t oracle [] m k v
  | .interMap oracle r => IMap.addInterMapR o R t oracle [] m r
  | .flip oracle k v => if t.cfg.total then IMap.flipTotalSegR o R t m k v else IMap.flipSegR o R t oracle m k v
  | .flipMap oracle r =>
    if t.cfg.total then IMap.flipTotalMapR o R t oracle m r else IMap.flipPartialMapR o R t oracle m r

end IMap
end
end ICL
