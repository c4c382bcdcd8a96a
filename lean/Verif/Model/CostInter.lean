import Verif.Model.CostFun

/-!
# What intersections and symmetric differences cost

`object &= operand` builds the intersection in a temporary container, swaps it with `object`, and destroys what
`object` contained. The temporary container is the one that the counted operations work on; `object` and `operand` are
only read, which costs searches and steps.
-/

namespace ICL
namespace Cost

section
variable {S α : Type}

/-- Reading another container: the outcome, for `w`. -/
def look (w : Work) (a : Option α) : CostM S α := charge (fun _ _ => w) (Tree.ofOption a)

/-- `operator &= (object, operand)`, concept/interval_associator.hpp:770-778: `m` is the call of `add_intersection` with
the segments of `object`, on a container without segments. The nodes of `object` are erased with the temporary
container. -/
def intersect (m : List S → CostM S Unit) : CostM S Unit := fun t =>
  (m t.segs ⟨[], t.fresh⟩).map fun r => (r.1, r.2 + { erased := t.nodes.length })

/-- The loop of `intersects(left, right)`, concept/interval_associator.hpp:932-939 and 956-964: `f` adds an intersection
to the temporary container; asking whether that is empty is a step, like `*it_++`. -/
def intersectsLoop {X : Type} (f : X → CostM S Unit) : List X → CostM S Bool
  | [] => return false
  | x :: xs => do
    look { steps := 2 } (some ())
    f x
    let t ← get
    if t.segs.isEmpty then intersectsLoop f xs else return true

/-- A call that uses a temporary container and destroys it at the end. -/
def temporary (m : CostM S α) : Option (α × Work) :=
  (m ⟨[], 0⟩).map fun r => (r.1.1, r.2 + { erased := r.1.2.nodes.length })

end

namespace Sets
section
variable {D I : Type} (o : IntervalOps D I)

/-- A round of the loop of `add_intersection(section, object, segment)`, concept/interval_set.hpp:201-206: `*it_`, `it_++`
and `section.insert(prior_, common_interval)`, which is `add` with a hint, interval_base_set.hpp:342-345 -/
def sectionStep (st : Style) (oracle : List I → I → Nat) (k : I) (p : It) (node : I) : CostM I It := do
  look { steps := 2 } (some ())
  if o.isEmpty (o.inter node k) then return p else addWith o st oracle p (o.inter node k)

/-- `add_intersection(section, object, segment)`, concept/interval_set.hpp:183-207 -/
def addInterSeg (st : Style) (oracle : List I → I → Nat) (l : List I) (k : I) : CostM I Unit :=
  if o.isEmpty k then return ()
  else do
    let abc ← look { searches := 1 } (ICL.equalRange o setSeg l k)
    let _ ← chain (sectionStep o st oracle k) none abc.2.1
    return ()

/-- `add_intersection(section, object, operand)` for an interval set as operand,
concept/interval_associator.hpp:747-765 -/
def addInter (st : Style) (oracle : List I → I → Nat) (r l : List I) : CostM I Unit := do
  match ← common (commonRange o setSeg r l) with
  | none => return ()
  | some (_, com, _) =>
    let _ ← chain (fun _ k => do
      look { steps := 2 } (some ())
      addInterSeg o st oracle l k
      return none) none com
    return ()

/-- `add_intersection(section, object, element)`, concept/interval_set.hpp:171-180 -/
def addInterE (st : Style) (sing : D → I) (lk : Lookup D I) (l : List I) (x : D) : CostM I Unit := do
  if ← look { searches := 1, steps := 2 } (containsE o setSeg lk l x) then
    let _ ← add o st 0 (sing x)
    return ()
  else return ()

/-- `object &= segment` -/
def interSeg (st : Style) (oracle : List I → I → Nat) (k : I) : CostM I Unit :=
  intersect fun l => addInterSeg o st oracle l k

/-- `object &= operand` -/
def interSet (st : Style) (oracle : List I → I → Nat) (r : List I) : CostM I Unit :=
  intersect fun l => addInter o st oracle r l

/-- `object &= element` -/
def interE (st : Style) (sing : D → I) (lk : Lookup D I) (x : D) : CostM I Unit :=
  intersect fun l => addInterE o st sing lk l x

/-- The body of `intersects(left, right)` for two interval sets, concept/interval_associator.hpp:918-940 -/
def intersectsBody (st : Style) (oracle : List I → I → Nat) (l r : List I) : CostM I Bool := do
  match ← common (commonRange o setSeg r l) with
  | none => return false
  | some (_, com, _) => intersectsLoop (addInterSeg o st oracle l) com

/-- `intersects(left, right)` for two interval sets, concept/interval_associator.hpp:918-940 -/
def intersects (st : Style) (oracle : List I → I → Nat) (l r : List I) : Option (Bool × Work) :=
  temporary (intersectsBody o st oracle l r)

/-- `object ^= operand`, concept/interval_associator.hpp:998-1003, concept/interval_set.hpp:265-292 -/
def flipSet (st : Style) (oracle : List I → I → Nat) (r : List I) : CostM I Unit := do
  let t ← get
  match ← common (commonRange o setSeg r t.segs) with
  | none => addSet o st oracle r
  | some (pre, com, post) =>
    let _ ← chain (fun _ k => do
      let _ ← add o st 0 k
      return none) none pre
    let _ ← chain (fun _ k => do
      flipSeg o st k
      return none) none com
    let _ ← chain (fun _ k => do
      let _ ← add o st 0 k
      return none) none post
    return ()

end
end Sets

namespace Maps
section
variable {D I V : Type} (o : IntervalOps D I) [DecidableEq V] (m : MapType V)

/-- A round of the loop of `partial_add_intersection`, interval_base_map.hpp:533-541 -/
def sectionStep (k : I) (v : V) (node : I × V) : CostM (I × V) Unit := do
  look { steps := 2 } (some ())
  if o.isEmpty (o.inter node.1 k) then return ()
  else
    let _ ← addC o m.cfg m.plus 0 (o.inter node.1 k) node.2
    let _ ← addC o m.cfg m.sect 0 (o.inter node.1 k) v
    return ()

/-- `add_intersection(section, object, segment)` for a partial map, interval_base_map.hpp:523-542 -/
def addInterSeg (l : List (I × V)) (k : I) (v : V) : CostM (I × V) Unit :=
  if o.isEmpty k then return ()
  else do
    let abc ← look { searches := 1 } (ICL.equalRange o mapSeg l k)
    let _ ← chain (fun _ node => do
      sectionStep o m k v node
      return none) none abc.2.1
    return ()

/-- `add_intersection(section, object, operand)` for an interval map as operand: total maps,
concept/interval_map.hpp:324-335, and partial maps, 340-361 -/
def addInterMap (oracle : List (I × V) → I → Nat) (r l : List (I × V)) : CostM (I × V) Unit :=
  if m.cfg.total then do
    addMap o m oracle l
    addMap o m oracle r
  else do
    match ← common (commonRange o mapSeg r (l.map Prod.fst)) with
    | none => return ()
    | some (_, com, _) =>
      let _ ← chain (fun _ s => do
        look { steps := 2 } (some ())
        addInterSeg o m l s.1 s.2
        return none) none com
      return ()

/-- A round of the loop of `add_intersection(section, object, interval)`, concept/interval_map.hpp:399-405 -/
def restrictStep (oracle : List (I × V) → I → Nat) (k : I) (p : It) (node : I × V) : CostM (I × V) It := do
  look { steps := 2 } (some ())
  if o.isEmpty (o.inter node.1 k) then return p else addWith o m oracle p (o.inter node.1 k, node.2)

/-- `add_intersection(section, object, interval)`, concept/interval_map.hpp:380-406 -/
def addInterItv (oracle : List (I × V) → I → Nat) (l : List (I × V)) (k : I) : CostM (I × V) Unit :=
  if o.isEmpty k then return ()
  else do
    let abc ← look { searches := 1 } (ICL.equalRange o mapSeg l k)
    let _ ← chain (restrictStep o m oracle k) none abc.2.1
    return ()

/-- `add_intersection(section, object, key_set)`, concept/interval_map.hpp:408-424 -/
def addInterSet (oracle : List (I × V) → I → Nat) (r : List I) (l : List (I × V)) : CostM (I × V) Unit := do
  match ← common (commonRange o setSeg r (l.map Prod.fst)) with
  | none => return ()
  | some (_, com, _) =>
    let _ ← chain (fun _ k => do
      look { steps := 2 } (some ())
      addInterItv o m oracle l k
      return none) none com
    return ()

/-- `add_intersection(section, object, key)`, concept/interval_map.hpp:366-378 -/
def addInterKey (sing : D → I) (lk : Lookup D I) (l : List (I × V)) (x : D) : CostM (I × V) Unit := do
  match ← look { searches := 1, steps := 2 } (findE o mapSeg lk l x) with
  | none => return ()
  | some s =>
    let _ ← addC o m.cfg m.plus 0 (sing x) s.2
    return ()

/-- The body of `intersects(left, right)` for two partial interval maps, concept/interval_associator.hpp:918-940 -/
def intersectsMapBody (l r : List (I × V)) : CostM (I × V) Bool := do
  match ← common (commonRange o mapSeg r (l.map Prod.fst)) with
  | none => return false
  | some (_, com, _) => intersectsLoop (fun s => addInterSeg o m l s.1 s.2) com

/-- `intersects(left, right)` for two interval maps; `totalR` is `is_total<RightT>`;
concept/interval_associator.hpp:909-940 -/
def intersectsMap (totalR : Bool) (l r : List (I × V)) : Option (Bool × Work) :=
  if m.cfg.total || totalR then some (true, {}) else temporary (intersectsMapBody o m l r)

/-- The body of `intersects(left, right)` for an interval map and an interval set,
concept/interval_associator.hpp:942-965. Simplification: the calls of `is_empty` are not counted. -/
def intersectsSetBody (oracle : List (I × V) → I → Nat) (l : List (I × V)) (r : List I) : CostM (I × V) Bool := do
  match ← common (commonRange o setSeg r (l.map Prod.fst)) with
  | none => return false
  | some (_, com, _) => intersectsLoop (addInterItv o m oracle l) com

/-- `intersects(left, right)` for an interval map and an interval set, concept/interval_associator.hpp:942-965 -/
def intersectsSet (oracle : List (I × V) → I → Nat) (l : List (I × V)) (r : List I) : Option (Bool × Work) :=
  temporary (intersectsSetBody o m oracle l r)

/-- `object &= segment` for a partial map -/
def interSeg (k : I) (v : V) : CostM (I × V) Unit := intersect fun l => addInterSeg o m l k v

/-- `object &= operand` for an interval map as operand -/
def interMap (oracle : List (I × V) → I → Nat) (r : List (I × V)) : CostM (I × V) Unit :=
  intersect fun l => addInterMap o m oracle r l

/-- `object &= interval` -/
def interItv (oracle : List (I × V) → I → Nat) (k : I) : CostM (I × V) Unit :=
  intersect fun l => addInterItv o m oracle l k

/-- `object &= operand` for an interval set as operand -/
def interSet (oracle : List (I × V) → I → Nat) (r : List I) : CostM (I × V) Unit :=
  intersect fun l => addInterSet o m oracle r l

/-- `object &= key` -/
def interKey (sing : D → I) (lk : Lookup D I) (x : D) : CostM (I × V) Unit :=
  intersect fun l => addInterKey o m sing lk l x

end
end Maps
end Cost
end ICL
