import Verif.Kinds.Classes
import Verif.Model.Seg
import Mathlib.Algebra.Group.Basic
import Mathlib.Data.ENat.Basic

/-!
# Sizes, distances and element iteration

Simplification: the types of sizes and differences are unbounded, so that no difference overflows, and the conversion
of a difference to a size keeps its value.
-/

namespace ICL

/-! ## Discrete domains -/

section
variable {D I V S : Type} [AddGroup D] [One D] (o : IntervalOps D I) (e : ElementOps D I) (g : SegOps I V S)

/-- `cardinality(interval)`, concept/interval.hpp:1010-1018 (discrete_interval), 1032-1040 (half open), 1042-1050
(closed, open) -/
def cardinalityI (i : I) : D := if o.isEmpty i then 0 else e.lastNext i - e.first i

/-- `length(interval)`, concept/interval.hpp:1075-1083 (discrete_interval), 1095-1103 (static bounds) -/
def lengthI (i : I) : D := if o.isEmpty i then 0 else e.lastNext i - e.first i

/-- `size(interval)`, concept/interval.hpp:1055-1062 -/
def sizeI (i : I) : D := cardinalityI o e i

/-- `cardinality(container)`, concept/interval_associator.hpp:116-132 -/
def cardinality (l : List S) : D := l.foldl (fun size s => size + cardinalityI o e (g.key s)) 0

/-- `size(container)`, concept/interval_associator.hpp:158-163; the member `size()`, interval_base_set.hpp:216-220,
interval_base_map.hpp:266-270 -/
def size (l : List S) : D := cardinality o e g l

/-- `length(container)`, concept/interval_associator.hpp:165-177 -/
def length (l : List S) : D := l.foldl (fun len s => len + lengthI o e (g.key s)) 0

variable [LinearOrder D]

/-- `distance(x1, x2)` of intervals, concept/interval.hpp:1406-1426; `icl::pred` is `--`, type_traits/succ_pred.hpp -/
def distanceI (x1 x2 : I) : D :=
  if o.isEmpty x1 || o.isEmpty x2 then 0
  else if e.last x1 < e.first x2 then e.first x2 - e.last x1 - 1
  else if e.last x2 < e.first x1 then e.first x1 - e.last x2 - 1
  else 0

end

/-- The loop of `distance(container)`, concept/interval_associator.hpp:200-203: `pred_` and `it_` point to
successive nodes. -/
def distanceLoop {N S : Type} [Add N] (d : S → S → N) : N → List S → N
  | dist, p :: s :: l => distanceLoop d (dist + d p s) (s :: l)
  | dist, _ => dist

/-- `distance(container)`, concept/interval_associator.hpp:187-204 -/
def distance {D I V S : Type} [AddGroup D] [One D] [LinearOrder D] (o : IntervalOps D I) (e : ElementOps D I)
    (g : SegOps I V S) (l : List S) : D := distanceLoop (fun s t => distanceI o e (g.key s) (g.key t)) 0 l

/-- `iterative_size(container)`, concept/interval_associator.hpp:107-114, interval_base_set.hpp:222-226,
interval_base_map.hpp:272-276; `interval_count`, concept/interval_associator.hpp:179-184 -/
def iterativeSize {S : Type} (l : List S) : Nat := l.length

/-! ## Continuous domains -/

section
variable {D I V S : Type} [AddGroup D] (o : IntervalOps D I) (lo up : I → D) (g : SegOps I V S)

/-- `length(interval)`, concept/interval.hpp:1065-1073 (continuous_interval), 1085-1093 (half open) -/
def lengthCI (i : I) : D := if o.isEmpty i then 0 else up i - lo i

/-- `length(container)`, concept/interval_associator.hpp:165-177 -/
def lengthC (l : List S) : D := l.foldl (fun len s => len + lengthCI o lo up (g.key s)) 0

variable [LinearOrder D]

/-- `distance(x1, x2)` of intervals, concept/interval.hpp:1428-1447 -/
def distanceCI (x1 x2 : I) : D :=
  if o.isEmpty x1 || o.isEmpty x2 then 0
  else if up x1 < lo x2 then lo x2 - up x1
  else if up x2 < lo x1 then lo x1 - up x2
  else 0

/-- `distance(container)`, concept/interval_associator.hpp:187-204 -/
def distanceC (l : List S) : D := distanceLoop (fun s t => distanceCI o lo up (g.key s) (g.key t)) 0 l

end

section
variable {D : Type} [DecidableEq D]

/-- `cardinality(continuous_interval)`, concept/interval.hpp:996-1008.
Simplification: `infinity<SizeT>::value()`, which is the greatest value of the type of sizes, is `⊤`. -/
def cardinalityDyn (o : IntervalOps D (DItv D)) (i : DItv D) : ℕ∞ :=
  if o.isEmpty i then 0
  else if i.bnd = Bounds.closed && i.lo = i.up then 1
  else ⊤

/-- `cardinality` of half open intervals over continuous domains, concept/interval.hpp:1020-1030 -/
def cardinalityHalfOpen {I : Type} (o : IntervalOps D I) (i : I) : ℕ∞ := if o.isEmpty i then 0 else ⊤

/-- The loop of `cardinality(container)` for continuous domains, concept/interval_associator.hpp:145-155; `card` is
`cardinality(interval)`. -/
def cardinalityLoop {I V S : Type} (card : I → ℕ∞) (g : SegOps I V S) : ℕ∞ → List S → ℕ∞
  | size, [] => size
  | size, s :: l => if card (g.key s) = ⊤ then card (g.key s) else cardinalityLoop card g (size + card (g.key s)) l

/-- `cardinality(container)` for continuous domains, concept/interval_associator.hpp:134-156 -/
def cardinalityC {I V S : Type} (card : I → ℕ∞) (g : SegOps I V S) (l : List S) : ℕ∞ := cardinalityLoop card g 0 l

end

/-- The interval classes over continuous domains, with `cardinality(interval)`, `lower` and `upper`. -/
inductive ContinuousClass :
    {D I : Type} → [LinearOrder D] → IntervalOps D I → (I → ℕ∞) → (I → D) → (I → D) → Prop
  /-- `right_open_interval<D>`, `D` continuous -/
  | rightOpen {D : Type} [LinearOrder D] [DenselyOrdered D] (zero : D) :
      ContinuousClass (rightOpenOps zero) (cardinalityHalfOpen (rightOpenOps zero)) SItv.lo SItv.up
  /-- `left_open_interval<D>`, `D` continuous -/
  | leftOpen {D : Type} [LinearOrder D] [DenselyOrdered D] (zero : D) :
      ContinuousClass (leftOpenOps zero) (cardinalityHalfOpen (leftOpenOps zero)) SItv.lo SItv.up
  /-- `continuous_interval<D>` -/
  | continuous {D : Type} [LinearOrder D] [DenselyOrdered D] [NoMaxOrder D] [NoMinOrder D] (zero : D) :
      ContinuousClass (continuousOps zero) (cardinalityDyn (continuousOps zero)) DItv.lo DItv.up
  /-- A class of a user with `static_right_open` bounds, `D` continuous -/
  | customRightOpen {D C : Type} [LinearOrder D] [DenselyOrdered D] (T : Traits D C)
      (hT : T.Lawful Asym.isEmpty) :
      ContinuousClass T.rightOpenOps (cardinalityHalfOpen T.rightOpenOps) T.lower T.upper
  /-- A class of a user with `static_left_open` bounds, `D` continuous -/
  | customLeftOpen {D C : Type} [LinearOrder D] [DenselyOrdered D] (T : Traits D C)
      (hT : T.Lawful Asym.isEmpty) :
      ContinuousClass T.leftOpenOps (cardinalityHalfOpen T.leftOpenOps) T.lower T.upper

theorem ContinuousClass.cls {D I : Type} [LinearOrder D] {o : IntervalOps D I} {card : I → ℕ∞} {lo up : I → D}
    (h : ContinuousClass o card lo up) : IntervalClass o := by
  cases h with
  | rightOpen zero => exact .rightOpen zero
  | leftOpen zero => exact .leftOpen zero
  | continuous zero => exact .continuous zero
  | customRightOpen T hT =>
    exact .custom (o := rightOpenOps (T.lower T.default)) hT (.rightOpen (T.lower T.default))
  | customLeftOpen T hT =>
    exact .custom (o := leftOpenOps (T.lower T.default)) hT (.leftOpen (T.lower T.default))

/-! ## Element iteration -/

/-- `element_iterator`: the position of the segment iterator (`_saltator`) in the sequence of the segments, and the
offset within the segment (`_reptator`).  detail/element_iterator.hpp:242-327 -/
structure ElemIt where
  seg : Nat
  off : ℤ
  deriving DecidableEq

section
variable {I V S : Type} (o : IntervalOps ℤ I) (e : ElementOps ℤ I) (g : SegOps I V S)

namespace ElemIt

/-- `segment_adapter::transient_element` for a forward iterator, detail/element_iterator.hpp:206-212, 231-237.
For sets the value is the unit. -/
def fwd (s : S) (off : ℤ) : ℤ × V := (e.first (g.key s) + off, g.val s)
/-- `segment_adapter::transient_element` for a reverse iterator, detail/element_iterator.hpp:206-212, 231-237 -/
def bwd (s : S) (off : ℤ) : ℤ × V := (e.last (g.key s) - off, g.val s)

/-- `dereference`, detail/element_iterator.hpp:317-320; `none` if the segment iterator is past the end. -/
def deref (elem : S → ℤ → ℤ × V) (l : List S) (it : ElemIt) : Option (ℤ × V) :=
  l[it.seg]?.map fun s => elem s it.off

/-- `increment`, detail/element_iterator.hpp:294-303 -/
def incr (l : List S) (it : ElemIt) : Option ElemIt :=
  l[it.seg]?.map fun s =>
    if it.off < lengthI o e (g.key s) - 1 then ⟨it.seg, it.off + 1⟩ else ⟨it.seg + 1, 0⟩

/-- `decrement`, detail/element_iterator.hpp:305-316 -/
def decr (l : List S) (it : ElemIt) : Option ElemIt :=
  if 0 < it.off then some ⟨it.seg, it.off - 1⟩
  else match it.seg with
    | 0 => none
    | k + 1 => l[k]?.map fun s => ⟨k, lengthI o e (g.key s) - 1⟩

/-- `elements_begin`, `elements_rbegin`, concept/interval_associator.hpp:1126-1134, 1192-1200: made from
`begin()`, for the reverse iterators from `rbegin()`, which is the begin of the reversed sequence. -/
def begin : ElemIt := ⟨0, 0⟩
/-- `elements_end`, `elements_rend`, concept/interval_associator.hpp:1136-1144, 1202-1210 -/
def end_ (l : List S) : ElemIt := ⟨l.length, 0⟩

end ElemIt
end
end ICL
