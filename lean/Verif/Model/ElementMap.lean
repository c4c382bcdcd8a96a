import Verif.Model.MapFun
import Verif.Model.Compare
import Verif.Model.MapQuery

/-!
# Element containers

Model of `icl::map` (map.hpp) and of sets of elements (`icl::set`, a `std::set`, set.hpp), with the functions of
`concept/element_map.hpp`, `concept/element_set.hpp`, `concept/element_associator.hpp`, `detail/set_algo.hpp`,
`detail/map_algo.hpp` and `detail/subset_comparer.hpp`.

A container is the list of its nodes in the order of iteration. The order of the keys is the order of the type `D`.
Simplification: `Compare` is `<`; a container that is ordered by `>` is one over the dual order of `D`.

The traits and functors of a map type are those of interval maps (`MapType`), where the field `joining` has no
meaning for an `icl::map`. As there, `Combiner::identity_element()` is taken to be `ident`, and so is
`CodomainT()`.

Not modelled since no program that uses them compiles: `set` = `set_at` (element_map.hpp:195-209 uses
`insertion->second` on a pair), `erase_if` and `absorb_identities` (element_associator.hpp:470-478 calls
`icl::erase` with an iterator), `assign_if` (492-498, wrong order of arguments), `disjoint` (433-438, a template
parameter that cannot be deduced), `insert(first, last)` (map.hpp:339-345, no return value). `add_if` (480-490)
does not terminate if the predicate is false for some element.
-/

namespace ICL

section
variable {D V S T : Type} [LinearOrder D] [DecidableEq V]

/-! ## `std::set` and `std::map` -/

namespace StdTree
variable (key : S → D)

/-- `lower_bound(k)` of the underlying tree and the node with the key `k`: the nodes with smaller keys, the node
with the key if there is one, and the nodes with greater keys -/
def split (m : List S) (k : D) : List S × Option S × List S :=
  let pre := m.takeWhile fun s => decide (key s < k)
  match m.dropWhile fun s => decide (key s < k) with
  | [] => (pre, none, [])
  | s :: post => if k < key s then (pre, none, s :: post) else (pre, some s, post)

/-- `find(k)` of the underlying tree, `none` for `end()` -/
def find (m : List S) (k : D) : Option S := (split key m k).2.1

/-- `insert(value)` of the underlying tree, and whether the insertion took place. `insert(hint, value)` has the same
effect, whatever the hint. -/
def insert (m : List S) (s : S) : List S × Bool :=
  match split key m (key s) with
  | (pre, none, post) => (pre ++ s :: post, true)
  | (_, some _, _) => (m, false)

/-- `erase(it)` of the underlying tree, where `it` points to the node with the key `k`. Nothing happens if there is no
such node. -/
def erase (m : List S) (k : D) : List S :=
  let (pre, _, post) := split key m k
  pre ++ post

/-- `(*it).second = f((*it).second)`, where `it` points to the node with the key `k` -/
def modify (m : List S) (k : D) (f : S → S) : List S :=
  match split key m k with
  | (_, none, _) => m
  | (pre, some s, post) => pre ++ f s :: post

variable {key}
variable (key' : T → D)

/-- `Set::common_range(lwb, upb, x1, x2)`, detail/set_algo.hpp:26-60: `none` for `false`, else the nodes of `x1`
from `lwb` to `upb` -/
def commonRange (key : S → D) (x1 : List S) (x2 : List T) : Option (List S) :=
  match x1.head?, x1.getLast?, x2.head?, x2.getLast? with
  | some fst1, some lst1, some fst2, some lst2 =>
    if key lst1 < key' fst2 then none
    else if key' lst2 < key fst1 then none
    else some ((x1.dropWhile fun s => decide (key s < key' fst2)).takeWhile fun s => !decide (key' lst2 < key s))
  | _, _, _, _ => none

/-- `Set::intersects(left, right)`, detail/set_algo.hpp:86-102, and `Map::intersects(left, right)`,
detail/map_algo.hpp:27-41 -/
def intersects (key : S → D) (left : List S) (right : List T) : Bool :=
  match commonRange key key' right left with
  | none => false
  | some com => com.any fun s => (find key left (key' s)).isSome

/-- `intersects(object, operand)`, concept/element_set.hpp:69-77, concept/element_map.hpp:321-331 and 344-354 -/
def intersectsC (key : S → D) (object : List S) (operand : List T) : Bool :=
  if object.length < operand.length then intersects key' key object operand
  else intersects key key' operand object

/-- `within(sub, super)` for containers, concept/element_associator.hpp:64-92; `co` is `co_equal` of the nodes,
detail/associated_value.hpp:19-38: equality of the values of two maps, and true if `sub` is a set -/
def within (co : S → T → Bool) (key : S → D) (sub : List S) (super : List T) : Bool :=
  if sub.isEmpty then true
  else if super.isEmpty then false
  else if super.length < sub.length then false
  else match commonRange key' key sub super with
    | none => false
    | some _ => sub.all fun s =>
      match find key' super (key s) with
      | none => false
      | some s' => co s s'

/-- The loop of `Set::subset_compare`, detail/subset_comparer.hpp:136-197 and 228-235. `co` is `co_compare`, 34-83
and 119-132. `l` and `r` are the nodes from `left` and `right` on.
The first argument bounds the number of steps; `none` means that it was too small.
Simplification: `_left.lower_bound(key)` searches the nodes behind the current one only: all others are less than
the key. -/
def compareLoop (co : S → T → Incl) (key : S → D) : Nat → Incl → List S → List T → Option Incl
  | 0, _, _, _ => none
  | n + 1, res, l, r =>
    let same (res : Incl) (s : S) (l : List S) (t : T) (r : List T) : Option Incl :=
      let res := res.restrict (co s t)
      if res = .unrelated then some res else compareLoop co key n res l r
    match l, r with
    | [], [] => some res
    | [], _ :: _ => some (res.restrict .subset)
    | _ :: _, [] => some (res.restrict .superset)
    | s :: l, t :: r =>
      if key s < key' t then
        let res := res.restrict .superset
        if res = .unrelated then some res
        else match l.dropWhile fun s => decide (key s < key' t) with
          | [] => some .unrelated
          | joint :: l => if key' t < key joint then some .unrelated else same res joint l t r
      else if key' t < key s then
        let res := res.restrict .subset
        if res = .unrelated then some res
        else match r.dropWhile fun t => decide (key' t < key s) with
          | [] => some .unrelated
          | joint :: r => if key s < key' joint then some .unrelated else same res s l joint r
      else same res s l t r

/-- `inclusion_compare(left, right)`, concept/element_associator.hpp:156-164, detail/subset_comparer.hpp:214-236 -/
def inclusionCompare (co : S → T → Incl) (key : S → D) (l : List S) (r : List T) : Option Incl :=
  compareLoop key' co key (l.length + r.length + 1) .equal l r

end StdTree

/-! ## Sets of elements -/

namespace ESet

/-- `find(key)` -/
def find (s : List D) (x : D) : Option D := StdTree.find (fun x => x) s x

/-- `within(key, super)`, `contains(super, key)`, `intersects(object, key)`; concept/element_associator.hpp:52-58 and
97-102, concept/element_set.hpp:62-67 -/
def contains (s : List D) (x : D) : Bool := (find s x).isSome

/-- `insert(object, operand)` and `add(object, operand)`, with and without a hint; concept/element_set.hpp:27-43,
concept/element_associator.hpp:254-269 and 169-174 -/
def add (s : List D) (x : D) : List D := (StdTree.insert (fun x => x) s x).1

/-- `subtract(object, operand)`, concept/element_set.hpp:50-56, `erase(object, key)`,
concept/element_associator.hpp:291-303 and 320-325 -/
def subtract (s : List D) (x : D) : List D := StdTree.erase (fun x => x) s x

/-- `object += operand` and `insert(object, operand)` for a set as operand, concept/element_associator.hpp:190-202
and 274-285 -/
def addSet (s r : List D) : List D := r.foldl add s

/-- `object -= operand` and `erase(object, operand)` for a set as operand, concept/element_associator.hpp:305-313 and
334-342 -/
def subSet (s r : List D) : List D := r.foldl subtract s

/-- `add_intersection(section, object, key)`, concept/element_associator.hpp:358-367 -/
def addInterKey (sec s : List D) (x : D) : List D :=
  match find s x with
  | none => sec
  | some y => add sec y

/-- `object &= key`, concept/element_associator.hpp:391-399 -/
def andKey (s : List D) (x : D) : List D := addInterKey [] s x

/-- `object &= operand` for a set as operand, concept/element_associator.hpp:372-386 and 415-423 -/
def andSet (s r : List D) : List D :=
  match StdTree.commonRange (fun x => x) (fun x => x) r s with
  | none => []
  | some com => com.foldl (fun sec x => addInterKey sec s x) []

/-- `flip(object, operand)`, concept/element_set.hpp:82-99 -/
def flip (s : List D) (x : D) : List D :=
  match StdTree.insert (fun x => x) s x with
  | (s, true) => s
  | (s, false) => StdTree.erase (fun x => x) s x

/-- `object ^= operand` for a set as operand, concept/element_set.hpp:103-113 -/
def flipSet (s r : List D) : List D := r.foldl flip s

/-- `intersects(object, operand)` for a set as operand, concept/element_set.hpp:69-77 -/
def intersects (s r : List D) : Bool := StdTree.intersectsC (fun x => x) (fun x => x) s r

/-- `within(sub, super)` for sets, concept/element_associator.hpp:64-92 -/
def within (sub super : List D) : Bool := StdTree.within (fun x => x) (fun _ _ => true) (fun x => x) sub super

/-- `inclusion_compare(left, right)` for sets, concept/element_associator.hpp:156-164 -/
def inclusionCompare (l r : List D) : Option Incl :=
  StdTree.inclusionCompare (fun x => x) (fun _ _ => .equal) (fun x => x) l r

/-- `left == right`, concept/element_associator.hpp:127-133 -/
def eq (l r : List D) : Bool := decide (l.length = r.length) && (l.zip r).all fun p => decide (p.1 = p.2)

/-- `left < right`, concept/element_associator.hpp:146-154 -/
def less (l r : List D) : Bool := lexLess (fun x y => decide (x < y)) l r

end ESet

/-! ## Maps of elements -/

namespace EMap
variable (t : MapType V)

/-- `find(key)`, map.hpp:242 -/
def find (m : List (D × V)) (x : D) : Option (D × V) := StdTree.find Prod.fst m x

/-- `within(key, super)`, `contains(super, key)`, and `intersects(object, key)` for a partial map;
concept/element_associator.hpp:52-58 and 97-102, concept/element_map.hpp:312-319 -/
def containsKey (m : List (D × V)) (x : D) : Bool := (find m x).isSome

/-- `within(value_pair, super)`, `contains(super, value_pair)`, concept/element_map.hpp:40-57 -/
def containsPair (m : List (D × V)) (x : D) (v : V) : Bool :=
  match find m x with
  | none => false
  | some s => decide (s.2 = v)

/-- `operator()(key)`: total selection, map.hpp:276-281 -/
def select (m : List (D × V)) (x : D) : V :=
  match find m x with
  | none => t.cfg.ident
  | some s => s.2

/-- `object[key] = value`, map.hpp:249: `operator[]` inserts the pair of the key and `CodomainT()` if there is no such
key -/
def bracket (m : List (D × V)) (x : D) (v : V) : List (D × V) :=
  StdTree.modify Prod.fst (StdTree.insert Prod.fst m (x, t.cfg.ident)).1 x fun s => (s.1, v)

/-- The constructor from a range, map.hpp:171-178 -/
def ofRange (l : List (D × V)) : List (D × V) := l.foldl (fun m s => (StdTree.insert Prod.fst m s).1) []

/-- `Combiner()((*it).second, v); if(is_absorbable((*it).second)) erase(it)`, map.hpp:597-601, 622-626 and 648-650 -/
def combineAt (f : Combiner V) (m : List (D × V)) (x : D) (v : V) : List (D × V) :=
  match find m x with
  | none => m
  | some s =>
    if IMap.absorbable t.cfg (f.apply s.2 v) then StdTree.erase Prod.fst m x
    else StdTree.modify Prod.fst m x fun s => (s.1, f.apply s.2 v)

/-- `_add<Combiner>(addend)`, map.hpp:578-604 -/
def addC (f : Combiner V) (m : List (D × V)) (x : D) (v : V) : List (D × V) :=
  if IMap.absorbable t.cfg v then m
  else match StdTree.insert Prod.fst m (x, f.version v) with
    | (m, true) => m
    | (m, false) => combineAt t f m x v

/-- `_add<Combiner>(prior_, addend)`, map.hpp:607-632 -/
def addHintC (f : Combiner V) (m : List (D × V)) (x : D) (v : V) : List (D × V) :=
  if IMap.absorbable t.cfg v then m
  else combineAt t f (StdTree.insert Prod.fst m (x, t.cfg.ident)).1 x v

/-- `_subtract<Combiner>(minuend)`, map.hpp:638-653 -/
def subC (f : Combiner V) (m : List (D × V)) (x : D) (v : V) : List (D × V) := combineAt t f m x v

/-- `add(value_pair)`, map.hpp:290-293, concept/element_map.hpp:78-83; `object += value_pair`,
concept/element_associator.hpp:169-174 -/
def add (m : List (D × V)) (x : D) (v : V) : List (D × V) := addC t t.plus m x v

/-- `add(prior, value_pair)`, map.hpp:297-300, concept/element_map.hpp:87-93 -/
def addHint (m : List (D × V)) (x : D) (v : V) : List (D × V) := addHintC t t.plus m x v

/-- `subtract(value_pair)`, map.hpp:307-312 and 410-431, concept/element_map.hpp:139-144; `object -= value_pair`,
concept/element_associator.hpp:320-325 -/
def subtract (m : List (D × V)) (x : D) (v : V) : List (D × V) :=
  if t.cfg.total && t.invertible then addC t t.minus m x v else subC t t.minus m x v

/-- `insert(value_pair)`, with and without a hint, map.hpp:323-337, concept/element_associator.hpp:254-269, and the
second component of the result -/
def insert (m : List (D × V)) (x : D) (v : V) : List (D × V) × Bool :=
  if IMap.absorbable t.cfg v then (m, true) else StdTree.insert Prod.fst m (x, v)

/-- `erase(object, key)`, concept/element_associator.hpp:291-303, and `subtract(object, key)`, map.hpp:314-318 and
concept/element_map.hpp:149-154; also `erase(key)` of the base class -/
def eraseKey (m : List (D × V)) (x : D) : List (D × V) :=
  match find m x with
  | none => m
  | some _ => StdTree.erase Prod.fst m x

/-- `erase(object, value_pair)`, map.hpp:355-358, concept/element_map.hpp:101-120, and the number of erased pairs -/
def erasePair (m : List (D × V)) (x : D) (v : V) : List (D × V) × Nat :=
  if IMap.absorbable t.cfg v then (m, 0)
  else match find m x with
    | none => (m, 0)
    | some s => if v = s.2 then (StdTree.erase Prod.fst m x, 1) else (m, 0)

/-- `flip(operand)`, map.hpp:374-378, 507-564. For a total enricher the pair is added and all values become the
identity element. For a partial map the pair is inserted, and if the key was there already, the value is changed by
`on_codomain_model::subtract` (map.hpp:462-503). -/
def flip (m : List (D × V)) (x : D) (v : V) : List (D × V) :=
  if t.cfg.total then
    if t.cfg.absorbs then [] else (add t m x v).map fun s => (s.1, t.cfg.ident)
  else match insert t m x v with
    | (m, true) => m
    | (m, false) =>
      if t.setLike then
        let m := StdTree.modify Prod.fst m x fun s => (s.1, t.unsect s.2 v)
        if t.cfg.absorbs && decide ((find m x).map Prod.snd = some t.cfg.ident) then StdTree.erase Prod.fst m x else m
      else if t.cfg.absorbs then StdTree.erase Prod.fst m x
      else StdTree.modify Prod.fst m x fun s => (s.1, t.cfg.ident)

/-! Operations with a container as operand. Simplification: the operand is another object. (For the same object
`+=` does nothing, concept/element_associator.hpp:194-195.) -/

/-- `object += operand`, concept/element_associator.hpp:190-202 -/
def addMap (m r : List (D × V)) : List (D × V) := r.foldl (fun m s => addHint t m s.1 s.2) m

/-- `object -= operand`, concept/element_associator.hpp:334-342 -/
def subMap (m r : List (D × V)) : List (D × V) := r.foldl (fun m s => subtract t m s.1 s.2) m

/-- `insert(object, operand)`, concept/element_associator.hpp:274-285 -/
def insertMap (m r : List (D × V)) : List (D × V) := r.foldl (fun m s => (insert t m s.1 s.2).1) m

/-- `erase(object, operand)`, concept/element_associator.hpp:305-313 -/
def eraseMap (m r : List (D × V)) : List (D × V) := r.foldl (fun m s => (erasePair t m s.1 s.2).1) m

/-- `erase(object, key_set)`, concept/element_map.hpp:122-131 -/
def eraseSet (m : List (D × V)) (r : List D) : List (D × V) := r.foldl eraseKey m

/-- `object -= key_set`, concept/element_map.hpp:159-178 -/
def subSet (m : List (D × V)) (r : List D) : List (D × V) :=
  match StdTree.commonRange Prod.fst (fun x => x) r m with
  | none => m
  | some com => com.foldl eraseKey m

/-- `add_intersection(section, object, value_pair)`, map.hpp:364-368, 390-406 and 438-455,
concept/element_map.hpp:215-221 -/
def addInterPair (sec m : List (D × V)) (x : D) (v : V) : List (D × V) :=
  if t.cfg.total then add t (addMap t sec m) x v
  else match find m x with
    | none => sec
    | some s => addC t t.sect (addC t t.plus sec s.1 s.2) x v

/-- `add_intersection(section, object, operand)` for a map as operand, concept/element_map.hpp:223-229 -/
def addInterMap (sec m r : List (D × V)) : List (D × V) :=
  r.foldl (fun sec s => addInterPair t sec m s.1 s.2) sec

/-- `object &= value_pair`, concept/element_map.hpp:235-251 -/
def andPair (m : List (D × V)) (x : D) (v : V) : List (D × V) :=
  if t.cfg.total then add t m x v else addInterPair t [] m x v

/-- `object &= operand` for a map as operand, concept/element_map.hpp:268-284 -/
def andMap (m r : List (D × V)) : List (D × V) :=
  if t.cfg.total then addMap t m r else addInterMap t [] m r

/-- `add_intersection(section, object, key)`, concept/element_associator.hpp:358-367 -/
def addInterKey (sec m : List (D × V)) (x : D) : List (D × V) :=
  match find m x with
  | none => sec
  | some s => add t sec s.1 s.2

/-- `object &= key`, concept/element_associator.hpp:391-399 -/
def andKey (m : List (D × V)) (x : D) : List (D × V) := addInterKey t [] m x

/-- `object &= key_set`, concept/element_associator.hpp:372-386 and 415-423 -/
def andSet (m : List (D × V)) (r : List D) : List (D × V) :=
  match StdTree.commonRange Prod.fst (fun x => x) r m with
  | none => []
  | some com => com.foldl (fun sec x => addInterKey t sec m x) []

/-- `object ^= operand` for a map as operand, concept/element_map.hpp:366-425 -/
def flipMap (m r : List (D × V)) : List (D × V) :=
  if t.cfg.total then
    if t.cfg.absorbs then []
    else (r.foldl (fun m s => flip t m s.1 s.2) m).map fun s => (s.1, t.cfg.ident)
  else r.foldl (fun m s => flip t m s.1 s.2) m

/-- `intersects(object, value_pair)`, concept/element_map.hpp:303-310 and 333-342 -/
def intersectsPair (m : List (D × V)) (x : D) (v : V) : Bool :=
  if t.cfg.total then true else !(addInterPair t [] m x v).isEmpty

/-- `intersects(object, operand)` for a map as operand, concept/element_map.hpp:303-310 and 344-354 -/
def intersectsMap (m r : List (D × V)) : Bool :=
  if t.cfg.total then true else StdTree.intersectsC Prod.fst Prod.fst m r

/-- `intersects(object, key_set)`, concept/element_map.hpp:303-310 and 321-331 -/
def intersectsSet (m : List (D × V)) (r : List D) : Bool :=
  if t.cfg.total then true else StdTree.intersectsC (fun x => x) Prod.fst m r

/-- `within(sub, super)` and `contains(super, sub)` for maps, concept/element_associator.hpp:64-92 and 107-114 -/
def within (sub super : List (D × V)) : Bool :=
  StdTree.within Prod.fst (fun s s' => decide (s.2 = s'.2)) Prod.fst sub super

/-- `within(key_set, super)` and `contains(super, key_set)`, concept/element_associator.hpp:64-92 and 107-114 -/
def withinSet (sub : List D) (super : List (D × V)) : Bool :=
  StdTree.within Prod.fst (fun _ _ => true) (fun x => x) sub super

/-- `inclusion_compare(left, right)` for maps, concept/element_associator.hpp:156-164: `co` compares the values -/
def inclusionCompare (co : CoCompare V V) (l r : List (D × V)) : Option Incl :=
  StdTree.inclusionCompare Prod.fst (fun s s' => co s.2 s'.2) Prod.fst l r

/-- `left == right`, concept/element_associator.hpp:127-133 -/
def eq (l r : List (D × V)) : Bool := decide (l.length = r.length) && (l.zip r).all fun p => decide (p.1 = p.2)

/-- `left < right`, concept/element_associator.hpp:146-154: the order of pairs is that of `std::pair`; `lt` is `<` of the
values -/
def less (lt : V → V → Bool) (l r : List (D × V)) : Bool :=
  lexLess (fun s s' => decide (s.1 < s'.1) || (!decide (s'.1 < s.1) && lt s.2 s'.2)) l r

/-- `Map::next_proton(iter_, object)`, detail/map_algo.hpp:44-52, on the nodes from `iter_` on -/
def nextProton (m : List (D × V)) : List (D × V) := m.dropWhile fun s => decide (s.2 = t.cfg.ident)

/-- The loop of `Map::lexicographical_distinct_equal`, detail/map_algo.hpp:68-79. The first argument bounds the number
of steps. -/
def distinctLoop : Nat → List (D × V) → List (D × V) → Bool
  | n + 1, s :: l, s' :: r =>
    if s.1 = s'.1 ∧ s.2 = s'.2 then distinctLoop n (nextProton t l) (nextProton t r) else false
  | _, l, r => l.isEmpty && r.isEmpty

/-- `is_distinct_equal(left, right)`, concept/element_map.hpp:64-69, detail/map_algo.hpp:56-80 -/
def isDistinctEqual (l r : List (D × V)) : Bool :=
  distinctLoop t (l.length + r.length) (nextProton t l) (nextProton t r)

/-- `domain(domain_set, object)`, concept/element_map.hpp:431-442 -/
def domain (s : List D) (m : List (D × V)) : List D :=
  m.foldl (fun s x => (StdTree.insert (fun x => x) s x.1).1) s

end EMap
end
end ICL
