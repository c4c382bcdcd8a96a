import Verif.Model.CostInter

/-!
# What symmetric differences of interval maps cost

`flip(segment)` on a partial map uses two temporary containers: `eraser`, an `interval_set`, and `intersection`, a map. Their
nodes are counted like those of the object; they are erased when the call ends.
-/

namespace ICL
namespace Cost

section
variable {S T α : Type}

/-- A call for another container, which is `c` before: its result and that container afterwards. -/
def aside (m : CostM T α) (c : Tree T) : CostM S (α × Tree T) := fun t => (m c).map fun r => ((r.1, t), r.2)

/-- The end of the life of another container. -/
def destroy (c : Tree T) : CostM S Unit := fun t => some (((), t), { erased := c.nodes.length })

end

namespace Maps
section
variable {D I V : Type} (o : IntervalOps D I) [DecidableEq V] (m : MapType V)

/-- The treatment of the common interval in a round of the loop of `flip(segment)`, interval_base_map.hpp:780-789 -/
def flipCommon (v : V) (common : I) (u : V) (eraser : Tree I) (inters : Tree (I × V)) :
    CostM (I × V) (Tree I × Tree (I × V)) :=
  if o.isEmpty common then return (eraser, inters)
  else do
    let (_, eraser) ← aside (Sets.add o .joining 0 common) eraser
    let (_, inters) ← aside (addC o m.cfg m.plus 0 common (IMap.flipValue m v u)) inters
    return (eraser, inters)

/-- The loop of `flip(segment)` on a partial map, interval_base_map.hpp:771-798 -/
def flipLoop (v : V) (end_ : It) : Nat → I → It → Tree I → Tree (I × V) →
    CostM (I × V) (I × Tree I × Tree (I × V))
  | 0, _, _, _, _ => ofOption none
  | n + 1, span, it, eraser, inters =>
    if it = end_ then return (span, eraser, inters)
    else do
      let s ← deref it
      let next_ ← next it
      let leftOver := o.rightSubtract span s.1
      let (eraser, inters) ← flipCommon o m v (o.inter span s.1) s.2 eraser inters
      let _ ← addC o m.cfg m.plus 0 leftOver v
      flipLoop v end_ n (o.leftSubtract span s.1) next_ eraser inters

omit [DecidableEq V] in
/-- `(*it_).second = identity_element` for all nodes, interval_base_map.hpp:730-731, concept/interval_map.hpp:517-518: two
steps for a node -/
def neutral : CostM (I × V) Unit := charge (fun t _ => { steps := 2 * t.nodes.length }) (Tree.Maps.neutral m)

/-- The end of `flip` on a total enricher, interval_base_map.hpp:730-734, concept/interval_map.hpp:517-521 -/
def neutralize : CostM (I × V) Unit := do
  neutral m
  if m.cfg.joining then join o mapSeg else pure ()

omit [DecidableEq V] in
/-- `clear(object)`, interval_base_map.hpp:712 -/
def clear : CostM (I × V) Unit := do
  let it ← first
  eraseRange it none

/-- `flip(segment)`, interval_base_map.hpp:431-437 and 703-808 -/
def flipSeg (oracle : List (I × V) → I → Nat) (k : I) (v : V) : CostM (I × V) Unit :=
  if m.cfg.total then
    if m.cfg.absorbs then clear
    else do
      let _ ← addC o m.cfg m.plus 0 k v
      neutralize o m
  else do
    let (first_, end_) ← equalRange o mapSeg k
    let (span, eraser, inters) ← flipLoop o m v end_ ((← get).nodes.length + 1) k first_ ⟨[], 0⟩ ⟨[], 0⟩
    let _ ← addC o m.cfg m.plus 0 span v
    eraseSet o eraser.segs
    addMap o m oracle inters.segs
    destroy inters
    destroy eraser

/-- `object ^= operand`, concept/interval_associator.hpp:998-1003, concept/interval_map.hpp:481-561 -/
def flipMap (oracle : List (I × V) → I → Nat) (r : List (I × V)) : CostM (I × V) Unit :=
  if m.cfg.total then
    if m.cfg.absorbs then clear
    else do
      addMap o m oracle r
      neutralize o m
  else do
    let t ← get
    match ← common (commonRange o mapSeg r (t.segs.map Prod.fst)) with
    | none => addMap o m oracle r
    | some (pre, com, post) =>
      let _ ← chain (fun _ s => do
        let _ ← addC o m.cfg m.plus 0 s.1 s.2
        return none) none pre
      let _ ← chain (fun _ s => do
        flipSeg o m oracle s.1 s.2
        return none) none com
      let _ ← chain (fun _ s => do
        let _ ← addC o m.cfg m.plus 0 s.1 s.2
        return none) none post
      return ()

/-- `add_intersection(section, object, segment)` for a total map, interval_base_map.hpp:516-521 and 635-643 -/
def addInterSegTotal (oracle : List (I × V) → I → Nat) (l : List (I × V)) (k : I) (v : V) : CostM (I × V) Unit := do
  addMap o m oracle l
  let _ ← addC o m.cfg m.plus 0 k v
  return ()

/-- `object &= segment` for a total map -/
def interSegTotal (oracle : List (I × V) → I → Nat) (k : I) (v : V) : CostM (I × V) Unit :=
  intersect fun l => addInterSegTotal o m oracle l k v

end
end Maps
end Cost
end ICL
