import Verif.Model.Cost
import Verif.Model.SetFun
import Verif.Model.Compare
import Verif.Model.MapQuery
import Verif.Model.Observers

/-!
# What queries of interval containers cost

The functions of `SetFun.lean`, `Compare.lean`, `MapQuery.lean` and `Observers.lean` that only read containers once more, statement by
statement, with a count of searches and steps as in `Cost.lean`.  As there, a suffix of the list of segments stands for an iterator.
-/

namespace ICL

/-- A query with its costs; `none` if it fails. -/
abbrev Counted (α : Type) := Option (α × Work)

namespace Counted
section
variable {α β : Type}

/-- The result, and nothing to do. -/
def done (a : α) : Counted α := some (a, {})
/-- Failure. -/
def fail : Counted α := none
/-- A query that costs `w` more. -/
def tick (w : Work) (q : Counted α) : Counted α := q.map fun r => (r.1, w + r.2)
/-- A function that costs `w`. -/
def charge (w : Work) (a : Option α) : Counted α := a.map fun r => (r, w)
/-- One query, and then another. -/
def andThen (q : Counted α) (f : α → Counted β) : Counted β :=
  q.bind fun r => (f r.1).map fun s => (s.1, r.2 + s.2)
/-- The result of a query. -/
def value (q : Counted α) : Option α := q.map Prod.fst

end

section
variable {D I V S : Type} (o : IntervalOps D I) (g : SegOps I V S)

/-- `find(interval)` is one search: interval_base_set.hpp:240-243, concept/interval_associator_base.hpp:94-100 -/
def findI (l : List S) (k : I) : Counted (Option S) := charge { searches := 1 } (ICL.findI o g l k)

/-- `find(element)`, concept/interval_associator_base.hpp:24-89.  `lower`: `lower_bound`, and `*it`; `upper`: `upper_bound`, `begin`,
`--` and `*it`. -/
def findE (lk : Lookup D I) (l : List S) (x : D) : Counted (Option S) :=
  match lk with
  | .exact key => findI o g l (key x)
  | .lower trail => andThen (charge { searches := 1 } (lowerBound o g l (trail x))) fun r =>
      tick { steps := 1 } (done (r.filter fun s => o.contains (g.key s) x))
  | .upper trail => andThen (charge { searches := 1, steps := 2 } (lastCollision o g l (trail x))) fun r =>
      tick { steps := 1 } (done (r.filter fun s => o.contains (g.key s) x))

/-- `contains(element)`, concept/interval_set.hpp:26-31; `intersects(container, element)`,
concept/interval_associator.hpp:890-897 -/
def containsE (lk : Lookup D I) (l : List S) (x : D) : Counted Bool :=
  andThen (findE o g lk l x) fun r => done r.isSome

/-- `intersects(container, interval)`, concept/interval_associator.hpp:899-906 -/
def intersectsSeg (l : List S) (k : I) : Counted Bool :=
  if o.isEmpty k then done false else andThen (findI o g l k) fun r => done r.isSome

/-- `Interval_Set::is_joinable(container, first, past)`, detail/interval_set_algo.hpp:72-89: `*it_++` and `*next_++` for each pair of
neighbours -/
def allTouch : List S → Counted Bool
  | [] => done true
  | [_] => done true
  | s :: t :: l =>
    tick { steps := 4 }
      (match o.touchesC (g.key s) (g.key t) with
      | none => fail
      | some true => allTouch (t :: l)
      | some false => done false)

/-- `operator ==` of interval containers of the same type: `Set::lexicographical_equal`, concept/interval_associator.hpp:40-45,
detail/set_algo.hpp:112-119.  The sizes are compared first; `std::equal` reads and advances two iterators in each round. -/
def eqC [DecidableEq V] (l r : List S) : Counted Bool :=
  if l.length = r.length then loop l r else done false
where
  loop : List S → List S → Counted Bool
  | s :: l, t :: r =>
    tick { steps := 4 } (if o.eq (g.key s) (g.key t) && decide (g.val s = g.val t) then loop l r else done false)
  | _, _ => done true

/-- `hull(container)`, concept/interval_associator.hpp:213-222: `begin`, `rbegin` and what they refer to -/
def hullC (l : List S) : Counted I := charge { steps := 4 } (some (ICL.hullC o g l))

/-- `cardinality(container)`, concept/interval_associator.hpp:116-132, and `length`, 165-177: each segment is read -/
def sum {N : Type} [Add N] (f : S → N) : N → List S → Counted N
  | n, [] => done n
  | n, s :: l => tick { steps := 2 } (sum f (n + f s) l)

end

namespace ISet
variable {D I : Type} (o : IntervalOps D I)

/-- `contains(segment)`, concept/interval_set.hpp:33-51: `equal_range`; `cyclic_prior`; `*exterior.first` and `*last_overlap`; `++next_`
in `is_joinable` -/
def containsSeg (l : List I) (k : I) : Counted Bool :=
  if o.isEmpty k then done true
  else andThen (charge { searches := 1 } (equalRange o setSeg l k)) fun r =>
    match r.2.1 with
    | [] => done false
    | f :: b => tick { steps := 5 }
        (if o.containsI (o.hull f (b.getLastD f)) k then allTouch o setSeg (f :: b) else done false)

end ISet

namespace IMap
variable {D I V : Type} (o : IntervalOps D I)

/-- `operator()(key)`, interval_base_map.hpp:295-301 -/
def select (lk : Lookup D I) (ident : V) (m : List (I × V)) (x : D) : Counted V :=
  andThen (findE o mapSeg lk m x) fun r => tick { steps := 1 } (done ((r.map Prod.snd).getD ident))

/-- `contains(super, sub_interval)`, concept/interval_map.hpp:86-94 and 109-128 -/
def containsKeys (total : Bool) (m : List (I × V)) (k : I) : Counted Bool :=
  if total then done true
  else if o.isEmpty k then done true
  else andThen (charge { searches := 1 } (equalRange o mapSeg m k)) fun r =>
    match r.2.1 with
    | [] => done false
    | f :: b => tick { steps := 4 }
        (if o.containsI (o.hull f.1 (b.getLastD f).1) k then allTouch o mapSeg (f :: b) else done false)

variable [DecidableEq V]

/-- `contains(super, key_value_pair)`, concept/interval_map.hpp:41-48 -/
def containsPair (lk : Lookup D I) (m : List (I × V)) (x : D) (v : V) : Counted Bool :=
  andThen (findE o mapSeg lk m x) fun r =>
    match r with
    | none => done false
    | some s => tick { steps := 1 } (done (decide (s.2 = v)))

/-- `Interval_Map::is_joinable(container, first, past)`, detail/interval_map_algo.hpp:31-53: `*next_`, `*it_++` and `*next_++` for each
pair of neighbours -/
def allJoinable (v : V) : List (I × V) → Counted Bool
  | [] => done true
  | [_] => done true
  | s :: t :: l =>
    tick { steps := 5 }
      (if t.2 ≠ v then done false
      else match o.touchesC s.1 t.1 with
        | none => fail
        | some true => allJoinable v (t :: l)
        | some false => done false)

/-- `contains(super, sub_segment)`, concept/interval_map.hpp:50-72: `equal_range`, `prior`, `*exterior.first` twice, `*last_overlap`;
`++next_` and `*first` in `is_joinable` -/
def containsSeg (m : List (I × V)) (k : I) (v : V) : Counted Bool :=
  if o.isEmpty k then done true
  else andThen (charge { searches := 1 } (equalRange o mapSeg m k)) fun r =>
    match r.2.1 with
    | [] => done false
    | f :: b => tick { steps := 6 }
      (if !decide (v = f.2) then done false
      else if o.containsI (o.hull f.1 (b.getLastD f).1) k then allJoinable o f.2 (f :: b)
      else done false)

end IMap

section
variable {D I V W S T : Type} (o : IntervalOps D I) (g : SegOps I V S) (k : SegOps I W T)

/-- The loop of `subset_compare`, interval_subset_comparer.hpp:330-354, as `ICL.compareLoop`.  In a round `left` and `right` are
dereferenced or advanced at most 12 times: `next_both`, 161-243, and `proceed`, 133-159, up to six times each; `next_left`, 245-277, or
`next_right`, 280-312, and `proceed`. `lower_bound` in `next_both` is a search. -/
def compareLoop (co : CoCompare V W) : Nat → CmpState I → Incl → List S → List T → Counted Incl
  | 0, _, _, _, _ => fail
  | n + 1, st, res, l, r =>
    let proceed (res : Incl) (s : S) (l : List S) (t : T) (r : List T) : Counted Incl :=
      if o.upperLess (g.key s) (k.key t) then compareLoop co n (.left (g.key s)) res l (t :: r)
      else if o.upperLess (k.key t) (g.key s) then compareLoop co n (.right (k.key t)) res (s :: l) r
      else compareLoop co n .both res l r
    tick { steps := 12 }
    (match st with
    | .both =>
      match l, r with
      | [], [] => done res
      | [], _ :: _ => done (res.restrict .subset)
      | _ :: _, [] => done (res.restrict .superset)
      | s :: l, t :: r =>
        if o.exclusiveLess (g.key s) (k.key t) then
          let res := res.restrict .superset
          if res = .unrelated then done res
          else if !cmpOk o g l (k.key t) then fail
          else tick { searches := 1 } (match l.dropWhile fun s => o.neLess (g.key s) (k.key t) with
            | [] => done .unrelated
            | joint => compareLoop co n .both res joint (t :: r))
        else if o.exclusiveLess (k.key t) (g.key s) then
          let res := res.restrict .subset
          if res = .unrelated then done res
          else if !cmpOk o k r (g.key s) then fail
          else tick { searches := 1 } (match r.dropWhile fun t => o.neLess (k.key t) (g.key s) with
            | [] => done .unrelated
            | joint => compareLoop co n .both res (s :: l) joint)
        else
          let res := res.restrict (co (g.val s) (k.val t))
          if res = .unrelated then done res
          else if o.lowerLess (g.key s) (k.key t) then
            let res := res.restrict .superset
            if res = .unrelated then done res else proceed res s l t r
          else if o.lowerLess (k.key t) (g.key s) then
            let res := res.restrict .subset
            if res = .unrelated then done res else proceed res s l t r
          else proceed res s l t r
    | .left prior =>
      match l, r with
      | [], _ => done (res.restrict .subset)
      | _ :: _, [] => fail
      | s :: l, t :: r =>
        if o.isEmpty (g.key s) || o.isEmpty (k.key t) then fail
        else match o.touchesC prior (g.key s) with
        | none => fail
        | some touch =>
          let gap := !touch && o.lowerLess (k.key t) (g.key s)
          let res := if gap then res.restrict .subset else res
          if gap && res = .unrelated then done res
          else if o.intersectsI (g.key s) (k.key t) then
            let res := res.restrict (co (g.val s) (k.val t))
            if res = .unrelated then done res else proceed res s l t r
          else proceed res s l t r
    | .right prior =>
      match l, r with
      | _, [] => done (res.restrict .superset)
      | [], _ :: _ => fail
      | s :: l, t :: r =>
        if o.isEmpty (g.key s) || o.isEmpty (k.key t) then fail
        else match o.touchesC prior (k.key t) with
        | none => fail
        | some touch =>
          let gap := !touch && o.lowerLess (g.key s) (k.key t)
          let res := if gap then res.restrict .superset else res
          if gap && res = .unrelated then done res
          else if o.intersectsI (g.key s) (k.key t) then
            let res := res.restrict (co (g.val s) (k.val t))
            if res = .unrelated then done res else proceed res s l t r
          else proceed res s l t r)

/-- `subset_compare` of two containers = `inclusion_compare`, interval_subset_comparer.hpp:325-355,
concept/interval_associator.hpp:88-97 -/
def inclusionCompare (co : CoCompare V W) (l : List S) (r : List T) : Counted Incl :=
  compareLoop o g k co (l.length + r.length + 1) .both .equal l r

/-- `is_element_equal`, concept/interval_associator.hpp:58-66, detail/interval_set_algo.hpp:35-44 and 92-101 -/
def isElementEqual (co : CoCompare V W) (l : List S) (r : List T) : Counted Bool :=
  andThen (inclusionCompare o g k co l r) fun c => done (decide (c = .equal))

/-- `within(sub, super)`, detail/interval_set_algo.hpp:110-158, and `contains(super, sub)` of a map, concept/interval_map.hpp:74-80 and
130-137 -/
def withinC (co : CoCompare V W) (sub : List S) (super : List T) : Counted Bool :=
  andThen (inclusionCompare o g k co sub super) fun c => done (decide (c = .subset) || decide (c = .equal))

/-- `contains(super, sub)` of interval sets, detail/interval_set_algo.hpp:172-203, concept/interval_set.hpp:54-60 -/
def containsC (co : CoCompare V W) (super : List S) (sub : List T) : Counted Bool :=
  andThen (inclusionCompare o g k co super sub) fun c => done (decide (c = .superset) || decide (c = .equal))

end
end Counted
end ICL
