import Verif.Model.Set

/-!
# Functions on interval sets

The functions of `concept/interval_set.hpp`, `concept/interval_associator.hpp`,
`concept/interval_associator_base.hpp`, `concept/interval_set.hpp` and `detail/set_algo.hpp` as far
as they apply to interval sets.  Lookup functions are stated for every kind of segment because
interval maps share them.

Functions that pass an iterator as a hint to `add(prior, segment)` take `oracle`: the position in
the collision sequence that a failing `std::set::insert(hint, x)` points to, as an arbitrary function
of the container and the inserted interval.
-/

namespace ICL

/-- The three ways to look up an element.  `exact`: discrete domains (`unit_trail`),
continuous domains with dynamic bounds (`singleton`); `lower`: static right-open intervals over
continuous domains; `upper`: static left-open intervals over continuous domains.
concept/interval_associator_base.hpp:24-89 -/
inductive Lookup (D I : Type)
  | exact (key : D → I)
  | lower (trail : D → I)
  | upper (trail : D → I)

/-- The interval that is searched for. -/
def Lookup.key {D I : Type} : Lookup D I → D → I
  | .exact key => key
  | .lower trail => trail
  | .upper trail => trail

section
variable {D I V S : Type} (o : IntervalOps D I) (g : SegOps I V S)

/-- `find(interval)`, `std::set/map::find`: the first node that is equivalent to (overlaps with)
the key, if there is one.  interval_base_set.hpp:240-243, concept/interval_associator_base.hpp:94-100 -/
def findI (l : List S) (k : I) : Option (Option S) :=
  (equalRange o g l k).map fun r => r.2.1.head?

/-- `lower_bound`: the first node that is not less than the key; interval_base_set.hpp:363-373 -/
def lowerBound (l : List S) (k : I) : Option (Option S) :=
  (equalRange o g l k).map fun r => (r.2.1 ++ r.2.2).head?

/-- `upper_bound`, decremented unless it is `begin()`; interval_base_set.hpp:363-373 and
concept/interval_associator_base.hpp:80-82 -/
def lastCollision (l : List S) (k : I) : Option (Option S) :=
  (equalRange o g l k).map fun r =>
    match (r.1 ++ r.2.1).getLast? with
    | some s => some s
    | none => r.2.2.head?

/-- `find(element)`, concept/interval_associator_base.hpp:24-89 -/
def findE (lk : Lookup D I) (l : List S) (x : D) : Option (Option S) :=
  match lk with
  | .exact key => findI o g l (key x)
  | .lower trail => (lowerBound o g l (trail x)).map fun r =>
      r.filter fun s => o.contains (g.key s) x
  | .upper trail => (lastCollision o g l (trail x)).map fun r =>
      r.filter fun s => o.contains (g.key s) x

/-- `contains(element)`, concept/interval_set.hpp:26-31, concept/interval_map.hpp:45-50;
also `intersects(container, element)`, concept/interval_associator.hpp:890-897 -/
def containsE (lk : Lookup D I) (l : List S) (x : D) : Option Bool :=
  (findE o g lk l x).map Option.isSome

/-- `intersects(container, interval)`, concept/interval_associator.hpp:899-906 -/
def intersectsSeg (l : List S) (k : I) : Option Bool :=
  if o.isEmpty k then some false else (findI o g l k).map Option.isSome

/-- `Interval_Set::is_joinable(container, first, past)`, detail/interval_set_algo.hpp:72-89:
all neighbours in the given run of nodes touch. -/
def allTouch : List S → Option Bool
  | [] => some true
  | [_] => some true
  | s :: t :: l =>
    match o.touchesC (g.key s) (g.key t) with
    | none => none
    | some true => allTouch (t :: l)
    | some false => some false

/-- `Set::common_range(lwb, upb, x1, x2)`, detail/set_algo.hpp:26-60: `some none` for the result
`false`; else `x1` cut into the nodes before `lwb`, those of `[lwb, upb)`, and those from `upb` on.
`x2` is given by its keys. -/
def commonRange (x1 : List S) (x2 : List I) : Option (Option (List S × List S × List S)) :=
  match x1, x2 with
  | [], _ => some none
  | _, [] => some none
  | f1 :: r1, f2 :: r2 =>
    let l1 := r1.getLastD f1
    let l2 := r2.getLastD f2
    if o.isEmpty (g.key f1) || o.isEmpty (g.key l1) || o.isEmpty f2 || o.isEmpty l2 then none
    else if o.neLess (g.key l1) f2 then some none
    else if o.neLess l2 (g.key f1) then some none
    else if cmpOk o g (f1 :: r1) f2 && cmpOk o g (f1 :: r1) l2 then
      let rest := (f1 :: r1).dropWhile fun s => o.neLess (g.key s) f2
      some (some ((f1 :: r1).takeWhile (fun s => o.neLess (g.key s) f2),
        rest.takeWhile (fun s => !o.neLess l2 (g.key s)),
        rest.dropWhile (fun s => !o.neLess l2 (g.key s))))
    else none

end

namespace ISet
section
variable {D I : Type} (o : IntervalOps D I)

/-- `contains(segment)`, concept/interval_set.hpp:33-51 -/
def containsSeg (l : List I) (k : I) : Option Bool :=
  if o.isEmpty k then some true
  else (equalRange o setSeg l k).bind fun r =>
    match r.2.1 with
    | [] => some false
    | f :: b => if o.containsI (o.hull f (b.getLastD f)) k then allTouch o setSeg (f :: b) else some false

/-- A loop over segments, each of them combined into the set by `f`. -/
def fold (f : List I → I → Option (List I)) : List I → List I → Option (List I)
  | l, [] => some l
  | l, k :: ks => do
    let l ← f l k
    fold f l ks

/-- `object += operand` and `insert(object, operand)` for an interval set as operand,
concept/interval_associator.hpp:317-326 and 603-612; `operator |=`, 474-479. -/
def addSet (st : Style) (oracle : List I → I → Nat) (l r : List I) : Option (List I) :=
  fold (fun l k => addHint o st (oracle l k) l k) l r

/-- `erase(object, operand)` = `object -= operand` for an interval set as operand,
concept/interval_associator.hpp:620-639 and 703-709 -/
def subSet (l r : List I) : Option (List I) := do
  match ← commonRange o setSeg r l with
  | none => return l
  | some (_, com, _) => fold (fun l k => subtract o l k) l com

/-- The loop of `add_intersection(section, object, segment)` over the collision sequence,
concept/interval_set.hpp:200-206 -/
def sectionLoop (st : Style) (oracle : List I → I → Nat) (sec : List I) (nodes : List I) (k : I) :
    Option (List I) :=
  fold (fun sec node =>
    if o.isEmpty (o.inter node k) then some sec
    else addHint o st (oracle sec (o.inter node k)) sec (o.inter node k)) sec nodes

/-- `add_intersection(section, object, segment)`, concept/interval_set.hpp:183-207 -/
def addInterSeg (st : Style) (oracle : List I → I → Nat) (sec l : List I) (k : I) : Option (List I) :=
  if o.isEmpty k then some sec
  else do
    let (_, b, _) ← equalRange o setSeg l k
    sectionLoop o st oracle sec b k

/-- `add_intersection(section, object, operand)` for an interval set as operand,
concept/interval_associator.hpp:747-765 -/
def addInter (st : Style) (oracle : List I → I → Nat) (sec l r : List I) : Option (List I) := do
  match ← commonRange o setSeg r l with
  | none => return sec
  | some (_, com, _) => fold (fun sec k => addInterSeg o st oracle sec l k) sec com

/-- `object &= segment`, concept/interval_associator.hpp:770-778 -/
def interSeg (st : Style) (oracle : List I → I → Nat) (l : List I) (k : I) : Option (List I) :=
  addInterSeg o st oracle [] l k

/-- `object &= operand`, concept/interval_associator.hpp:770-778 -/
def interSet (st : Style) (oracle : List I → I → Nat) (l r : List I) : Option (List I) :=
  addInter o st oracle [] l r

/-- The loop of `intersects(left, right)`, concept/interval_associator.hpp:932-939 -/
def intersectsLoop (st : Style) (oracle : List I → I → Nat) (sec l : List I) :
    List I → Option Bool
  | [] => some false
  | k :: ks => do
    let sec ← addInterSeg o st oracle sec l k
    if sec.isEmpty then intersectsLoop st oracle sec l ks else return true

/-- `intersects(left, right)` for two interval sets, concept/interval_associator.hpp:918-940;
`disjoint` is its negation, 970-975. -/
def intersects (st : Style) (oracle : List I → I → Nat) (l r : List I) : Option Bool := do
  match ← commonRange o setSeg r l with
  | none => return false
  | some (_, com, _) => intersectsLoop o st oracle [] l com

/-- The loop of `flip(segment)`, concept/interval_set.hpp:241-257.  `mid` are the nodes still to be
visited, `post` those from `end_` on.  The code goes on with an iterator to the next node after it
has changed the container: we demand that the nodes to be visited have survived.
Returns the set and the rest of `span`. -/
def flipLoop [DecidableEq I] (st : Style) (post : List I) :
    List I → I → List I → Option (List I × I)
  | l, span, [] => some (l, span)
  | l, span, covered :: mid => do
    let leftOver := o.rightSubtract span covered
    let l ← subtract o l (o.inter span covered)
    let l ← add o st l leftOver
    if (mid ++ post).isSuffixOf l then
      flipLoop st post l (o.leftSubtract span covered) mid
    else none

/-- `flip(segment)`, concept/interval_set.hpp:225-262 -/
def flipSeg [DecidableEq I] (st : Style) (l : List I) (k : I) : Option (List I) := do
  let (_, b, c) ← equalRange o setSeg l k
  let (l, span) ← flipLoop o st c l k b
  add o st l span

/-- `object ^= operand` = `flip(object, operand)` for an interval set as operand,
concept/interval_set.hpp:265-292, concept/interval_associator.hpp:998-1003 -/
def flipSet [DecidableEq I] (st : Style) (oracle : List I → I → Nat) (l r : List I) :
    Option (List I) := do
  match ← commonRange o setSeg r l with
  | none => addSet o st oracle l r
  | some (pre, com, post) =>
    let l ← fold (fun l k => add o st l k) l pre
    let l ← fold (fun l k => flipSeg o st l k) l com
    fold (fun l k => add o st l k) l post

/-- `add(element)` and `insert(element)`, concept/interval_set.hpp:74-80 and 106-111 -/
def addE (st : Style) (sing : D → I) (l : List I) (x : D) : Option (List I) := add o st l (sing x)

/-- `subtract(element)` and `erase(element)`, concept/interval_set.hpp:137-143 and 158-163 -/
def subE (sing : D → I) (l : List I) (x : D) : Option (List I) := subtract o l (sing x)

/-- `add_intersection(section, object, element)`, concept/interval_set.hpp:171-180, and
`object &= element`, for which `section` is empty. -/
def addInterE (st : Style) (sing : D → I) (lk : Lookup D I) (sec l : List I) (x : D) :
    Option (List I) := do
  if ← containsE o setSeg lk l x then addE o st sing sec x else return sec

/-- `flip(element)`, concept/interval_set.hpp:215-223 -/
def flipE (st : Style) (sing : D → I) (lk : Lookup D I) (l : List I) (x : D) : Option (List I) := do
  if ← containsE o setSeg lk l x then subE o sing l x else addE o st sing l x

/-- Conversion to an interval set of another class.  `interval_set::assign`, interval_set.hpp:118-128,
adds the segments; `separate_interval_set::assign` and `split_interval_set::assign`
(separate_interval_set.hpp:113-119, split_interval_set.hpp:110-116) insert the nodes. -/
def assign (st : Style) (oracle : List I → I → Nat) (src : List I) : Option (List I) :=
  match st with
  | .joining => addSet o .joining oracle [] src
  | .separating => fold (fun l k => stdInsert o setSeg l k) [] src
  | .splitting => fold (fun l k => stdInsert o setSeg l k) [] src

/-- `domain(dom, object)`, concept/interval_set.hpp:297-311 -/
def domain (st : Style) (oracle : List I → I → Nat) (l : List I) : Option (List I) :=
  addSet o st oracle [] l

/-- The intervals between neighbours.  `between(left, right)` is `inner_complement`,
concept/interval.hpp:1399-1404. -/
def gaps : List I → List I
  | [] => []
  | [_] => []
  | s :: t :: l => o.innerComplement s t :: gaps (t :: l)

/-- `between(in_between, object)`, concept/interval_set.hpp:313-331 -/
def between (st : Style) (oracle : List I → I → Nat) (l : List I) : Option (List I) :=
  addSet o st oracle [] (gaps o l)

end
end ISet

section
variable {D I V S : Type} (o : IntervalOps D I) (g : SegOps I V S)

/-- `hull(container)`, concept/interval_associator.hpp:209-219 -/
def hullC (l : List S) : I :=
  match l with
  | [] => o.empty
  | f :: b => o.hull (g.key f) (g.key (b.getLastD f))

/-- The two loops of `join`, concept/interval_associator_base.hpp:117-142.  `cur` is the node `it_` points to,
the list holds the nodes from `next_` on.  In the inner loop (122-134) the first argument is `fst_mem`, the
first member of a run of joinable nodes. -/
def joinGo [DecidableEq V] : Option S → S → List S → Option (List S)
  | none, cur, [] => some [cur]
  | some fst, cur, [] => some [g.setKey cur (o.hull (g.key cur) (g.key fst))]
  | none, cur, nxt :: l =>
    match joinableC o g cur nxt with
    | none => none
    | some true => joinGo (some cur) nxt l
    | some false => (joinGo none nxt l).map fun r => cur :: r
  | some fst, cur, nxt :: l =>
    match joinableC o g cur nxt with
    | none => none
    | some true => joinGo (some fst) nxt l
    | some false => (joinGo none nxt l).map fun r => g.setKey cur (o.hull (g.key cur) (g.key fst)) :: r

/-- `join(object)`, concept/interval_associator_base.hpp:105-143 -/
def joinAll [DecidableEq V] : List S → Option (List S)
  | [] => some []
  | s :: l => joinGo o g none s l

/-- `operator ==` of interval containers of the same type: `Set::lexicographical_equal`,
concept/interval_associator.hpp:40-45, detail/set_algo.hpp:112-119. -/
def eqC [DecidableEq V] : List S → List S → Bool
  | [], [] => true
  | s :: l, t :: r => o.eq (g.key s) (g.key t) && decide (g.val s = g.val t) && eqC l r
  | _, _ => false

end
end ICL
