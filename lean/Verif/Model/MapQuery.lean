import Verif.Model.SetFun

/-!
# Queries on interval maps, and the lexicographical comparisons of interval containers
-/

namespace ICL

section
variable {D I V S : Type} (o : IntervalOps D I) (g : SegOps I V S)

/-- `std::lexicographical_compare` with the order `lt` on segments, as called by `operator <` of interval
containers, concept/interval_associator.hpp:47-56 -/
def lexLess (lt : S → S → Bool) : List S → List S → Bool
  | [], [] => false
  | [], _ :: _ => true
  | _ :: _, [] => false
  | s :: l, t :: r => if lt s t then true else if lt t s then false else lexLess lt l r

/-- `segment_compare` of an interval set: `Compare<interval_type>`, interval_base_set.hpp:96. It is
`std::less<interval_type>`, hence `operator <` of intervals, or `std::greater<interval_type>`, hence
`operator >` (`reversed`). -/
def setSegLess (reversed : Bool) (i j : I) : Bool :=
  if reversed then o.greater i j else o.less i j

/-- `segment_compare` of an interval map: `Compare<std::pair<const interval_type, codomain_type>>`,
interval_base_map.hpp:117; `operator <` of `std::pair` compares with `operator <` of the interval type and
of the codomain type (`vlt`), for `std::greater` (`reversed`) with the operands swapped. -/
def mapSegLess (vlt : V → V → Bool) (reversed : Bool) (s t : I × V) : Bool :=
  let pairLess (a b : I × V) : Bool := o.less a.1 b.1 || (!o.less b.1 a.1 && vlt a.2 b.2)
  if reversed then pairLess t s else pairLess s t

/-- `Map::lexicographical_distinct_equal`, detail/map_algo.hpp:35-80, called by `is_distinct_equal`,
concept/interval_associator.hpp:100-107. `next_proton` skips the segments with the value `ident`. -/
def distinctEqual [DecidableEq V] (ident : V) : List S → List S → Bool
  | [], r => (r.dropWhile fun t => decide (g.val t = ident)).isEmpty
  | s :: l, r =>
    if g.val s = ident then distinctEqual ident l r
    else match r.dropWhile fun t => decide (g.val t = ident) with
      | [] => false
      | t :: r => o.eq (g.key s) (g.key t) && decide (g.val s = g.val t) && distinctEqual ident l r

end

namespace IMap
section
variable {D I V : Type} (o : IntervalOps D I)

/-- `operator()(key)`, interval_base_map.hpp:295-301 -/
def select (lk : Lookup D I) (ident : V) (m : List (I × V)) (x : D) : Option V :=
  (findE o mapSeg lk m x).map fun r => (r.map Prod.snd).getD ident

variable [DecidableEq V]

/-- `contains(super, key_value_pair)`, concept/interval_map.hpp:41-48 -/
def containsPair (lk : Lookup D I) (m : List (I × V)) (x : D) (v : V) : Option Bool :=
  (findE o mapSeg lk m x).map fun r =>
    match r with
    | none => false
    | some s => decide (s.2 = v)

/-- `Interval_Map::is_joinable(container, first, past)`, detail/interval_map_algo.hpp:31-53: all nodes of
the run after the first have its value `v`, and all neighbours touch. -/
def allJoinable (v : V) : List (I × V) → Option Bool
  | [] => some true
  | [_] => some true
  | s :: t :: l =>
    if t.2 ≠ v then some false
    else match o.touchesC s.1 t.1 with
      | none => none
      | some true => allJoinable v (t :: l)
      | some false => some false

/-- `contains(super, sub_segment)`, concept/interval_map.hpp:50-72 -/
def containsSeg (m : List (I × V)) (k : I) (v : V) : Option Bool :=
  if o.isEmpty k then some true
  else (equalRange o mapSeg m k).bind fun r =>
    match r.2.1 with
    | [] => some false
    | f :: b =>
      if !decide (v = f.2) then some false
      else if o.containsI (o.hull f.1 (b.getLastD f).1) k then allJoinable o f.2 (f :: b)
      else some false

omit [DecidableEq V] in
/-- `contains(super, key)` for a domain value, concept/interval_map.hpp:86-107 (`total` is the trait
`is_total`). -/
def containsKey (total : Bool) (lk : Lookup D I) (m : List (I × V)) (x : D) : Option Bool :=
  if total then some true else containsE o mapSeg lk m x

omit [DecidableEq V] in
/-- `contains(super, sub_interval)`, concept/interval_map.hpp:86-94 and 109-128 -/
def containsKeys (total : Bool) (m : List (I × V)) (k : I) : Option Bool :=
  if total then some true
  else if o.isEmpty k then some true
  else (equalRange o mapSeg m k).bind fun r =>
    match r.2.1 with
    | [] => some false
    | f :: b =>
      if o.containsI (o.hull f.1 (b.getLastD f).1) k then allTouch o mapSeg (f :: b) else some false

end
end IMap
end ICL
