import Verif.Model.SetFun

/-!
# Inclusion comparison of interval containers

detail/interval_subset_comparer.hpp, and the functions built on it.

`is_element_less` and `is_element_greater` (detail/element_comparer.hpp) are not modelled: they call a
member function `touches` that no interval class has, so they do not compile for any container.
-/

namespace ICL

/-- The result of a comparison, detail/relation_state.hpp:25-31: `unrelated = 0`, `subset = 1`,
`superset = 2`, `equal = 3`, as the two bits of the number. -/
structure Incl where
  sub : Bool
  sup : Bool
deriving DecidableEq, Repr

namespace Incl
def unrelated : Incl := ⟨false, false⟩
def subset : Incl := ⟨true, false⟩
def superset : Incl := ⟨false, true⟩
def equal : Incl := ⟨true, true⟩
/-- `_result &= state`, interval_subset_comparer.hpp:131 -/
def restrict (a b : Incl) : Incl := ⟨a.sub && b.sub, a.sup && b.sup⟩
end Incl

/-- The states of the comparison, with `_prior_left` and `_prior_right`;
interval_subset_comparer.hpp:106 -/
inductive CmpState (I : Type) where
  | both
  | left (prior : I)
  | right (prior : I)

section
variable {D I V W S T : Type} (o : IntervalOps D I) (g : SegOps I V S) (k : SegOps I W T)

/-- The comparison of associated values, interval_subset_comparer.hpp:32-76 and 116-128: for two maps
`settic_codomain_compare` if the values are sets and `atomic_codomain_compare` otherwise.  If one of the
operands is a set, nothing is compared: `fun _ _ => .equal`. -/
abbrev CoCompare (V W : Type) := V → W → Incl

/-- `atomic_codomain_compare`, interval_subset_comparer.hpp:42-52 -/
def atomicCompare [DecidableEq V] : CoCompare V V := fun v w => if v = w then .equal else .unrelated

/-- The loop of `subset_compare`, interval_subset_comparer.hpp:330-354, over the states of the class
`subset_comparer` (82-320).  `l` and `r` are the nodes from `left` and `right` on.
The first argument bounds the number of steps; `none` means that the bound was too small, that an
end iterator was dereferenced, that an assertion failed, that `touches` overflowed, or that `lower_less`
and `upper_less`, which call `first` and `last`, met an empty interval (`exclusive_less` fails only for
non-empty intervals).
`proceed`: 133-159, `next_both`: 161-243, `next_left`: 245-277, `next_right`: 280-312.
Simplification: `_left.lower_bound(key)` in `next_both` searches the nodes behind the current one;
all nodes up to the current one are less than the key (`lowerBound_suffix`). -/
def compareLoop (co : CoCompare V W) : Nat → CmpState I → Incl → List S → List T → Option Incl
  | 0, _, _, _, _ => none
  | n + 1, st, res, l, r =>
    let proceed (res : Incl) (s : S) (l : List S) (t : T) (r : List T) : Option Incl :=
      if o.upperLess (g.key s) (k.key t) then compareLoop co n (.left (g.key s)) res l (t :: r)
      else if o.upperLess (k.key t) (g.key s) then compareLoop co n (.right (k.key t)) res (s :: l) r
      else compareLoop co n .both res l r
    match st with
    | .both =>
      match l, r with
      | [], [] => some res
      | [], _ :: _ => some (res.restrict .subset)
      | _ :: _, [] => some (res.restrict .superset)
      | s :: l, t :: r =>
        if o.exclusiveLess (g.key s) (k.key t) then
          let res := res.restrict .superset
          if res = .unrelated then some res
          else if !cmpOk o g l (k.key t) then none
          else match l.dropWhile fun s => o.neLess (g.key s) (k.key t) with
            | [] => some .unrelated
            | joint => compareLoop co n .both res joint (t :: r)
        else if o.exclusiveLess (k.key t) (g.key s) then
          let res := res.restrict .subset
          if res = .unrelated then some res
          else if !cmpOk o k r (g.key s) then none
          else match r.dropWhile fun t => o.neLess (k.key t) (g.key s) with
            | [] => some .unrelated
            | joint => compareLoop co n .both res (s :: l) joint
        else
          let res := res.restrict (co (g.val s) (k.val t))
          if res = .unrelated then some res
          else if o.lowerLess (g.key s) (k.key t) then
            let res := res.restrict .superset
            if res = .unrelated then some res else proceed res s l t r
          else if o.lowerLess (k.key t) (g.key s) then
            let res := res.restrict .subset
            if res = .unrelated then some res else proceed res s l t r
          else proceed res s l t r
    | .left prior =>
      match l, r with
      | [], _ => some (res.restrict .subset)
      | _ :: _, [] => none
      | s :: l, t :: r =>
        if o.isEmpty (g.key s) || o.isEmpty (k.key t) then none
        else match o.touchesC prior (g.key s) with
        | none => none
        | some touch =>
          let gap := !touch && o.lowerLess (k.key t) (g.key s)
          let res := if gap then res.restrict .subset else res
          if gap && res = .unrelated then some res
          else if o.intersectsI (g.key s) (k.key t) then
            let res := res.restrict (co (g.val s) (k.val t))
            if res = .unrelated then some res else proceed res s l t r
          else proceed res s l t r
    | .right prior =>
      match l, r with
      | _, [] => some (res.restrict .superset)
      | [], _ :: _ => none
      | s :: l, t :: r =>
        if o.isEmpty (g.key s) || o.isEmpty (k.key t) then none
        else match o.touchesC prior (k.key t) with
        | none => none
        | some touch =>
          let gap := !touch && o.lowerLess (g.key s) (k.key t)
          let res := if gap then res.restrict .superset else res
          if gap && res = .unrelated then some res
          else if o.intersectsI (g.key s) (k.key t) then
            let res := res.restrict (co (g.val s) (k.val t))
            if res = .unrelated then some res else proceed res s l t r
          else proceed res s l t r

/-- `subset_compare` of two containers = `inclusion_compare`, interval_subset_comparer.hpp:325-355,
concept/interval_associator.hpp:88-97 -/
def inclusionCompare (co : CoCompare V W) (l : List S) (r : List T) : Option Incl :=
  compareLoop o g k co (l.length + r.length + 1) .both .equal l r

/-- `is_element_equal` = `is_inclusion_equal`, concept/interval_associator.hpp:58-66,
detail/interval_set_algo.hpp:35-44 and 92-101 -/
def isElementEqual (co : CoCompare V W) (l : List S) (r : List T) : Option Bool :=
  (inclusionCompare o g k co l r).map fun c => decide (c = .equal)

/-- `Interval_Set::within(sub, super)`, detail/interval_set_algo.hpp:110-158, and `contains(super, sub)` of
a map for a map or set, concept/interval_map.hpp:74-80, 130-137 -/
def withinC (co : CoCompare V W) (sub : List S) (super : List T) : Option Bool :=
  (inclusionCompare o g k co sub super).map fun c => decide (c = .subset) || decide (c = .equal)

/-- `Interval_Set::contains(super, sub)`, detail/interval_set_algo.hpp:172-203;
`contains(super, sub)` of an interval set for a set, concept/interval_set.hpp:54-60 -/
def containsC (co : CoCompare V W) (super : List S) (sub : List T) : Option Bool :=
  (inclusionCompare o g k co super sub).map fun c => decide (c = .superset) || decide (c = .equal)

end
end ICL
