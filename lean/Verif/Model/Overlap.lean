import Verif.Model.MapHistory
import Verif.Model.Functors
import Mathlib.Algebra.Group.Prod
import Mathlib.Algebra.Group.Int.Defs

/-!
# Aggregating segments on overlap

The loops by which the example programs fill an interval map: `overlap_counter`, `party`, `boost_party`, `user_groups`,
`partys_height_average`, `partys_tallest_guests`, `std_copy` and `std_transform`.
-/

namespace ICL
variable {D I V : Type} (o : IntervalOps D I) [DecidableEq V] (t : MapType V)

/-- One addition: `m += {k, v}` without a hint, or the assignment of `{k, v}` to an `add_iterator`, which calls
`icl::add(m, prior, {k, v})` with the position it has got, iterator.hpp:33-41; see `IMap.addHintC` for the hint. -/
def IMap.feedOne (m : List (I × V)) : Option Nat × I × V → Option (List (I × V))
  | (none, k, v) => IMap.addSeg o t m k v
  | (some n, k, v) => IMap.addHint o t n m k v

/-- A series of additions: `m += {k, v}` again and again, as in example/overlap_counter_/overlap_counter.cpp:62-77,
example/party_/party.cpp:77-79, example/partys_height_average_/partys_height_average.cpp:65-98 and
example/partys_tallest_guests_/partys_tallest_guests.cpp:57-77, or
`std::copy(segments.begin(), segments.end(), icl::adder(m, m.end()))`, as in
example/std_copy_/std_copy.cpp:75-76.
Simplification: the hints are arbitrary here, so that every position that an `add_iterator` may hold is included. -/
def IMap.feed (m : List (I × V)) (l : List (Option Nat × I × V)) : Option (List (I × V)) :=
  forEach (IMap.feedOne o t) m l

/-- A series of subtractions `m -= {k, v}`. -/
def IMap.drain (m : List (I × V)) (l : List (I × V)) : Option (List (I × V)) :=
  forEach (fun m s => IMap.subSeg o t m s.1 s.2) m l

/-- `interval_map<T, counted_sum>`, example/partys_height_average_/partys_height_average.cpp:39-58: `+=` of counted
sums adds the sums and the counts; the identity element is `counted_sum()`, of sum 0 and count 0; `counted_sum(s)` has
the count 1. There is no `-=` for counted sums, so that no function of the map that needs it can be instantiated; here it
does nothing.
Simplification: integers instead of `int`. -/
def MapType.countedSums (joining absorbs total : Bool) : MapType (Int × Int) where
  cfg := ⟨joining, absorbs, total, (0, 0)⟩
  plus := .plus
  minus := .identity
  sect := .plus
  unsect := fun u _ => u
  setLike := false
  invertible := false

end ICL
