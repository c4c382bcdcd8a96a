import Verif.Kinds.Classes
import Verif.Model.MapFun

/-!
# The extremes of a container, and selection by a predicate
-/

namespace ICL

/-! ## `lower`, `upper`, `first` and `last` of a container -/

section
variable {D I V S : Type} (g : SegOps I V S)

/-- `lower(container)`, concept/interval_associator.hpp:221-230; `unit` is `unit_element<DomainT>::value()`, `lo` is
`lower(interval)`, concept/interval.hpp:369-375. -/
def lowerOf (unit : D) (lo : I → D) : List S → D
  | [] => unit
  | f :: _ => lo (g.key f)

/-- `upper(container)`, concept/interval_associator.hpp:232-241; `zero` is `identity_element<DomainT>::value()`, `up`
is `upper(interval)`, concept/interval.hpp:378-384.  The segment is `*object.rbegin()`. -/
def upperOf (zero : D) (up : I → D) : List S → D
  | [] => zero
  | f :: b => up (g.key (b.getLastD f))

/-- `first(container)`, concept/interval_associator.hpp:244-255 -/
def firstOf (unit : D) (e : ElementOps D I) : List S → D
  | [] => unit
  | f :: _ => e.first (g.key f)

/-- `last(container)`, concept/interval_associator.hpp:257-268 -/
def lastOf (zero : D) (e : ElementOps D I) : List S → D
  | [] => zero
  | f :: b => e.last (g.key (b.getLastD f))

end

/-- The interval classes, with `lower(interval)` and `upper(interval)`, concept/interval.hpp:369-384. -/
inductive EndsClass : {D I : Type} → [LinearOrder D] → IntervalOps D I → (I → D) → (I → D) → Prop
  /-- `right_open_interval<D>` -/
  | rightOpen {D : Type} [LinearOrder D] (zero : D) : EndsClass (rightOpenOps zero) SItv.lo SItv.up
  /-- `left_open_interval<D>` -/
  | leftOpen {D : Type} [LinearOrder D] (zero : D) : EndsClass (leftOpenOps zero) SItv.lo SItv.up
  /-- `closed_interval<D>` -/
  | closed {D : Type} [LinearOrder D] (s : Steps D) (zero unit : D) (h : zero < unit) :
      EndsClass (closedOps s zero unit) SItv.lo SItv.up
  /-- `open_interval<D>` -/
  | opn {D : Type} [LinearOrder D] (s : Steps D) (zero : D) : EndsClass (openOps s zero) SItv.lo SItv.up
  /-- `discrete_interval<D>` -/
  | discrete {D : Type} [LinearOrder D] (s : Steps D) (zero : D) : EndsClass (discreteOps s zero) DItv.lo DItv.up
  /-- `continuous_interval<D>` -/
  | continuous {D : Type} [LinearOrder D] [DenselyOrdered D] [NoMaxOrder D] [NoMinOrder D] (zero : D) :
      EndsClass (continuousOps zero) DItv.lo DItv.up
  /-- A class of a user: `interval_traits<C>::lower` and `upper` -/
  | custom {D C : Type} [LinearOrder D] {T : Traits D C} {o : IntervalOps D (SItv D)}
      {oc : IntervalOps D C} (hT : T.Lawful o.isEmpty) (h : CustomClass T o oc) : EndsClass oc T.lower T.upper
  /-- A class of the library over a domain type with a strict weak ordering: `lower` and `upper` up to equivalence -/
  | weak {E D I J : Type} [LinearOrder D] {key : E → D} {ow : IntervalOps D I} {o : IntervalOps D J} {v : I → J}
      (h : WeakClass key ow o v) {lo up : J → D} (he : EndsClass o lo up) :
      EndsClass ow (fun i => lo (v i)) fun i => up (v i)

theorem EndsClass.cls {D I : Type} [LinearOrder D] {o : IntervalOps D I} {lo up : I → D} (h : EndsClass o lo up) :
    IntervalClass o := by
  cases h with
  | rightOpen zero => exact .rightOpen zero
  | leftOpen zero => exact .leftOpen zero
  | closed s zero unit h => exact .closed s zero unit h
  | opn s zero => exact .opn s zero
  | discrete s zero => exact .discrete s zero
  | continuous zero => exact .continuous zero
  | custom hT h => exact .custom hT h
  | weak h he => exact .weak h

/-! ## `add_if` -/

section
variable {D I V : Type} [DecidableEq V] (o : IntervalOps D I) (t : MapType V)

namespace IMap

/-- The loop of `add_if(pred, object, src)`, concept/interval_map.hpp:620-623: at most `n` tests of the condition of
the loop, `none` if it has not ended by then (or an assertion fails).  `src` holds the nodes from `it_` on; `it_` is
advanced only if `pred(*it_)`. -/
def addIf (p : I × V → Bool) : Nat → List (I × V) → List (I × V) → Option (List (I × V))
  | 0, _, _ => none
  | _ + 1, m, [] => some m
  | n + 1, m, s :: src =>
    if p s then (addSeg o t m s.1 s.2).bind fun m => addIf p n m src
    else addIf p n m (s :: src)

end IMap
end
end ICL
