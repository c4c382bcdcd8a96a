{"id": "C01", "title": "Interval predicates agree with element membership", "statement": "For every interval class (right_open, left_open, closed, open, discrete, continuous), is_empty(i) is true exactly when no domain value is contained in i; contains(i,x) is true exactly when x lies between the bounds as the bracket notation says; contains(i,j)/within(j,i) is true exactly when every element of j is an element of i; and i==j is true exactly when i and j have the same elements.", "quantifier": "all intervals of the six interval classes, including empty and inverted ones, over every totally ordered domain of the matching kind (discrete or dense), and all domain values", "why_tests_cant": "The set of bound pairs and bound types is infinite and the special cases (empty, inverted, adjacent open bounds) interact.", "anchors": ["include/boost/icl/concept/interval.hpp: is_empty, contains, within, operator=="]}
{"id": "C02", "title": "Intersection and differences of intervals are exact", "statement": "x is in (i & j) exactly when x is in i and in j. For non-empty operands right_subtract(i,j) holds exactly the elements of i that lie below every element of j, and left_subtract(i,j) holds exactly the elements of i above every element of j. With an empty operand the code's stated result (return the left operand) is delivered.", "quantifier": "all pairs of intervals of each interval class over all domains of the matching kind", "why_tests_cant": "Infinite number of relative positions and bound-type combinations.", "anchors": ["include/boost/icl/concept/interval.hpp: operator&, left_subtract, right_subtract"]}
{"id": "C03", "title": "hull is the smallest interval covering both operands", "statement": "hull(i,j) contains x exactly when x lies between two elements of the union of i and j (i.e. the convex hull); an empty operand is neutral.", "quantifier": "all pairs of intervals of each class", "why_tests_cant": "Infinite domain.", "anchors": ["include/boost/icl/concept/interval.hpp: hull"]}
{"id": "C04", "title": "exclusive_less, touches and disjoint characterise relative position", "statement": "For non-empty intervals exclusive_less(i,j) holds exactly when every element of i is less than every element of j; touches(i,j) holds exactly when additionally no domain value lies strictly between them; intersects/disjoint hold exactly when a common element exists / does not exist.", "quantifier": "all pairs of intervals of each class", "why_tests_cant": "Infinite domain; adjacency depends on bound types and on discreteness.", "anchors": ["include/boost/icl/concept/interval.hpp: exclusive_less, touches, intersects, disjoint"]}
{"id": "C05", "title": "Intervals are strictly weakly ordered consistently with ==", "statement": "operator< on intervals is irreflexive and transitive, with incomparability being exactly ==: neither i<j nor j<i holds iff i==j.", "quantifier": "all triples of intervals of each class, including empty ones", "why_tests_cant": "Ternary relation over an infinite domain.", "anchors": ["include/boost/icl/concept/interval.hpp: operator<, operator==, lower_less, upper_less"]}
{"id": "C06", "title": "Interval sets stay well-formed under every history", "statement": "After any sequence of add, insert, subtract, erase, flip, +=, -=, &=, ^= and assignments on an interval_set, separate_interval_set or split_interval_set, iterating yields non-empty, pairwise disjoint intervals in strictly increasing order.", "quantifier": "all finite operation histories, all operand intervals and operand containers, three set classes, all interval classes", "why_tests_cant": "Histories are unbounded; corrupting the order once silently breaks every later lookup.", "anchors": ["include/boost/icl/interval_base_set.hpp: _add, subtract, add_front, add_main, add_rear", "include/boost/icl/detail/interval_set_algo.hpp: join_under, join_neighbours"]}
{"id": "C07", "title": "interval_set is always fully joined", "statement": "After any history of operations two successive intervals of an interval_set never touch: between them there is always a value which is not in the set.", "quantifier": "all finite operation histories on interval_set", "why_tests_cant": "Unbounded histories.", "anchors": ["include/boost/icl/interval_set.hpp: handle_inserted, add_over", "include/boost/icl/detail/interval_set_algo.hpp: join_neighbours"]}
{"id": "C08", "title": "Adding to a set is element-wise union", "statement": "After s.add(i) (or insert, or s += i, with or without a hint) x is in s exactly when x was in s before or x is in i, for all three set classes.", "quantifier": "all well-formed sets, all intervals/elements/operand sets, all x, all hints", "why_tests_cant": "Unbounded container size and positions.", "anchors": ["include/boost/icl/interval_base_set.hpp: add, insert, _add", "include/boost/icl/concept/interval_associator.hpp: operator+="]}
{"id": "C09", "title": "Subtracting from a set is element-wise difference", "statement": "After s.subtract(i) (or erase, or s -= i, or s -= t) x is in s exactly when it was before and x is not in the operand.", "quantifier": "all well-formed sets, all operands, all x", "why_tests_cant": "Unbounded container size.", "anchors": ["include/boost/icl/interval_base_set.hpp: subtract", "include/boost/icl/concept/interval_associator.hpp: operator-="]}
{"id": "C10", "title": "Intersecting sets is element-wise intersection", "statement": "After s &= t x is in s exactly when it was in s and is in t, for interval, element and set operands; intersects/disjoint answer whether a common element exists.", "quantifier": "all well-formed sets and operands", "why_tests_cant": "Unbounded container sizes.", "anchors": ["include/boost/icl/concept/interval_set.hpp: add_intersection", "include/boost/icl/concept/interval_associator.hpp: add_intersection, operator&=, intersects, disjoint"]}
{"id": "C11", "title": "Flipping a set is element-wise symmetric difference", "statement": "After s.flip(i) or s ^= t x is in s exactly when it was in exactly one of s and the operand. (flip of an interval has the precondition that the interval is non-empty unless the set is empty.)", "quantifier": "all well-formed sets and operands", "why_tests_cant": "Algorithm mutates the container while iterating over it; unbounded sizes.", "anchors": ["include/boost/icl/concept/interval_set.hpp: flip", "include/boost/icl/concept/interval_associator.hpp: operator^="]}
{"id": "C12", "title": "Canonical form: equal elements means equal interval_sets", "statement": "Two interval_sets that contain the same elements compare equal with operator==, whatever histories produced them; consequently the order of additions does not matter.", "quantifier": "all pairs of reachable interval_sets", "why_tests_cant": "Quantifies over pairs of histories.", "anchors": ["include/boost/icl/interval_set.hpp", "include/boost/icl/concept/interval_associator.hpp: operator=="]}
{"id": "C13", "title": "Set segmentation semantics of split and separate sets", "statement": "split_interval_set keeps every boundary ever created by add and separate_interval_set merges exactly the overlapped segments: two values lie in the same segment after add(i) exactly as determined by the previous segmentation and i.", "quantifier": "all well-formed sets, all intervals, all pairs of values", "why_tests_cant": "Segmentation is a relation on infinitely many pairs of values.", "anchors": ["include/boost/icl/split_interval_set.hpp: add_over", "include/boost/icl/separate_interval_set.hpp: add_over", "include/boost/icl/interval_base_set.hpp: add_front, add_main, add_rear"]}
{"id": "C14", "title": "Lookup is exact", "statement": "contains(s,x), contains(s,i), contains(s,t), find(x), within: each query returns exactly what element membership says; find(x) returns the unique segment containing x or end().", "quantifier": "all well-formed sets/maps and all query arguments", "why_tests_cant": "Unbounded container size; the query uses binary search with an overlap comparator.", "anchors": ["include/boost/icl/concept/interval_set.hpp: contains", "include/boost/icl/concept/interval_associator_base.hpp: find", "include/boost/icl/interval_base_set.hpp: find"]}
{"id": "C15", "title": "Interval maps stay well-formed under every history", "statement": "After any sequence of add, subtract, insert, set, erase, flip and container operations on interval_map or split_interval_map, iterating yields segments with non-empty, pairwise disjoint, increasing intervals.", "quantifier": "all finite histories, both map classes, all traits, all combiners, all codomain types", "why_tests_cant": "Unbounded histories.", "anchors": ["include/boost/icl/interval_base_map.hpp: _add, _subtract, _insert, erase"]}
{"id": "C16", "title": "interval_map is always fully joined", "statement": "After any history no two successive segments of an interval_map both touch and carry equal values.", "quantifier": "all finite histories on interval_map, all traits and combiners", "why_tests_cant": "Unbounded histories; joining needs each combination step to re-check both neighbours.", "anchors": ["include/boost/icl/interval_map.hpp: handle_inserted, handle_combined, handle_left_combined, handle_preceeded_combined, handle_succeeded_combined, gap_insert_at"]}
{"id": "C17", "title": "Absorbing maps never store the identity element", "statement": "With an absorbing trait no segment of a reachable map carries the identity element of the codomain.", "quantifier": "all finite histories on absorbing interval maps", "why_tests_cant": "Unbounded histories.", "anchors": ["include/boost/icl/interval_base_map.hpp", "include/boost/icl/detail/on_absorbtion.hpp"]}
{"id": "C18", "title": "Adding a segment aggregates pointwise on overlap", "statement": "After m.add(i,v) the value at x is: for x in i with an old value w, combine(w,v) (absorbed if identity and the map absorbs); for x in i without an old value, v (or -v for inplace_minus; absorbed likewise); for x outside i unchanged. Adding the identity element to an absorber changes nothing.", "quantifier": "all well-formed maps, segments, x; all combiners; both map classes; all four traits", "why_tests_cant": "Unbounded number of overlapped segments and gaps.", "anchors": ["include/boost/icl/interval_base_map.hpp: _add, add_front, add_main, add_segment, add_rear"]}
{"id": "C19", "title": "Subtracting a segment subtracts pointwise", "statement": "After m.subtract(i,v): for invertible total maps the inverse combiner is applied on all of i; otherwise the inverse combiner is applied exactly where i meets the domain, and nothing else changes.", "quantifier": "all well-formed maps, segments, x", "why_tests_cant": "Unbounded.", "anchors": ["include/boost/icl/interval_base_map.hpp: _subtract, subtract_front, subtract_main, subtract_rear, on_invertible"]}
{"id": "C20", "title": "insert never overwrites, set always overwrites", "statement": "After m.insert(i,v) every x with an old value keeps it and every other x of i gets v. After m.set(i,v) every x in i has value v (or none, if v is absorbed) and every other x is unchanged.", "quantifier": "all well-formed maps, segments, x", "why_tests_cant": "Unbounded.", "anchors": ["include/boost/icl/interval_base_map.hpp: _insert, insert_main", "include/boost/icl/concept/interval_map.hpp: set_at"]}
{"id": "C21", "title": "erase removes exactly the designated part", "statement": "m.erase(i) removes exactly the associations with key in i; m.erase(i,v) removes exactly the associations with key in i and value v; nothing else changes.", "quantifier": "all well-formed maps, intervals, values, x", "why_tests_cant": "Unbounded.", "anchors": ["include/boost/icl/interval_base_map.hpp: erase, erase_rest"]}
{"id": "C22", "title": "Canonical form of interval_map", "statement": "Two interval_maps representing the same function on elements compare equal with ==, whatever histories produced them.", "quantifier": "all pairs of reachable interval_maps", "why_tests_cant": "Pairs of histories.", "anchors": ["include/boost/icl/interval_map.hpp", "include/boost/icl/concept/interval_associator.hpp: operator=="]}
{"id": "C23", "title": "Map containers combine pointwise", "statement": "m += n, m -= n, m &= n, m ^= n, m -= s, m &= s act on every key as the corresponding single-key operation of the codomain demands.", "quantifier": "all pairs of well-formed containers", "why_tests_cant": "Unbounded sizes of both operands.", "anchors": ["include/boost/icl/concept/interval_associator.hpp: operator+=, operator-=, operator&=, operator^=", "include/boost/icl/concept/interval_map.hpp: add_intersection, flip"]}
{"id": "C24", "title": "Hinted insertion is equivalent to plain insertion", "statement": "add(prior,x) and insert(prior,x) produce the same container contents as add(x)/insert(x) for every hint position.", "quantifier": "all well-formed containers, hints, operands", "why_tests_cant": "Any iterator may be a hint.", "anchors": ["include/boost/icl/interval_base_set.hpp: _add(prior,addend)", "include/boost/icl/interval_base_map.hpp: _add(prior,addend), _insert(prior,addend), add_at, insert_at"]}
{"id": "C25", "title": "Containment comparison of containers is exact", "statement": "is_element_equal, contains(container,container), within and inclusion_compare decide equality/inclusion of the sets of elements (for maps: of key/value associations), irrespective of segmentation.", "quantifier": "all pairs of well-formed containers", "why_tests_cant": "The comparer is a two-cursor state machine over two unbounded sequences.", "anchors": ["include/boost/icl/detail/interval_subset_comparer.hpp: subset_compare", "include/boost/icl/concept/interval_associator.hpp: is_element_equal, inclusion_compare"]}
{"id": "C26", "title": "Documented algebraic laws of interval sets", "statement": "On interval_set: + and & are associative, commutative; + has the empty set as neutral element; a-a is empty; + distributes over & and vice versa; (a+b)-c == (a-c)+(b-c); (a&b)-c == (a-c)&(b-c); De Morgan's laws; (a+b)-(a&b) == (a-b)+(b-a) == a^b. On split/separate sets the documented subset of the laws holds, with == or element equality as documented.", "quantifier": "all containers a,b,c", "why_tests_cant": "Documentation says the laws were only validated by random tests.", "anchors": ["doc/semantics.qbk", "include/boost/icl/concept/interval_associator.hpp"]}
{"id": "C27", "title": "Documented algebraic laws of interval maps", "statement": "On interval_map with a commutative-monoid codomain + is associative and commutative with the empty map neutral; total maps over abelian groups have inverses.", "quantifier": "all maps a,b,c, all codomains satisfying the codomain law", "why_tests_cant": "Documentation says the laws were only validated by random tests.", "anchors": ["doc/semantics.qbk"]}
{"id": "C28", "title": "cardinality, length, size and element iteration agree with the elements", "statement": "Discrete domains: cardinality(s), size(s) and length(s) equal the number of elements of s; elements_begin..elements_end enumerates exactly the elements in increasing order, once each, with their values for maps; the same backwards and with elements_rbegin..elements_rend in decreasing order. Continuous domains: cardinality(s) is the number of elements or infinity; length of an interval is its supremum minus its infimum, and length(s) depends on the elements of s only, not on how they are cut into segments. In both cases inclusion-exclusion holds for +, & and -. iterative_size of interval_set and interval_map is the least possible for their content.", "quantifier": "all well-formed containers over integers, resp. dense ordered groups, for every interval class", "why_tests_cant": "Unbounded size.", "anchors": ["include/boost/icl/concept/interval_associator.hpp: cardinality, length, size, elements_begin", "include/boost/icl/detail/element_iterator.hpp"]}
{"id": "C29", "title": "Domain extraction, between, hull, distance", "statement": "domain(dom,m) yields exactly the keys of m; between(gaps,s) yields exactly the values between two elements of s that are not in s; hull(s) yields exactly the values from the first to the last element; distance(s) is the number (discrete) or the length (continuous) of these gaps, distance(i,j) the number of values strictly between two intervals.", "quantifier": "all well-formed containers", "why_tests_cant": "Unbounded size.", "anchors": ["include/boost/icl/concept/interval_map.hpp: domain, between", "include/boost/icl/concept/interval_set.hpp: domain, between", "include/boost/icl/concept/interval_associator.hpp: hull, distance"]}
{"id": "C30", "title": "Conversions and joins preserve the represented elements", "statement": "Assigning or copying between interval_set, separate_interval_set and split_interval_set (and the two map classes), join(c) and absorb_identities(m) preserve the elements; join gives the canonical segmentation.", "quantifier": "all well-formed containers", "why_tests_cant": "Unbounded size.", "anchors": ["include/boost/icl/interval_set.hpp: assign", "include/boost/icl/interval_map.hpp: assign", "include/boost/icl/concept/interval_associator_base.hpp: join", "include/boost/icl/concept/interval_map.hpp: absorb_identities"]}
{"id": "C31", "title": "operator== and operator< on containers are an equality and a strict weak order", "statement": "== is an equivalence relation; < is irreflexive, transitive and its incomparability is exactly ==.", "quantifier": "all triples of containers", "why_tests_cant": "Ternary relation on unbounded structures.", "anchors": ["include/boost/icl/concept/interval_associator.hpp: operator==, operator<"]}
{"id": "C32", "title": "Discrete intervals over machine integers do not overflow", "statement": "Over an integer type with least value MIN and greatest value MAX: is_empty, exclusive_less, <, <=, hull, left_subtract, right_subtract, &, inner_complement, intersects and disjoint never overflow for any operands; ==, contains, first and last do not overflow for non-empty operands; touches(i,j) does not overflow if i does not contain MAX; the results are the mathematical ones. singleton and hull of elements fail only for MAX (right open), MIN (left open) or both (open). cardinality is the number of elements and distance the number of values between, and they fail only where that number (or, for distance, that number plus one) is no value of the type, or MAX is in the interval; for unsigned types cardinality is wrong only for the interval of all values. Container operations never overflow. cardinality and size of a container are the number of its elements wherever they are for each of its segments, whatever their sum; length of a container fails only where the number of elements is no value of the type, or MAX is an element; for unsigned types both are wrong only for containers of all values.", "quantifier": "all integer ranges, all ++ and -- that are right where they do not overflow, all intervals of all discrete interval classes, all histories of container operations", "why_tests_cant": "Overflow happens only at the extreme values of the domain.", "anchors": ["include/boost/icl/concept/interval.hpp: singleton, unit_trail, hull, first, last, last_next, is_empty, exclusive_less, touches, left_subtract, right_subtract, inner_complement, cardinality, distance", "include/boost/icl/type_traits/succ_pred.hpp"]}
{"id": "C33", "title": "icl::map behaves as a partial function with aggregation", "statement": "For the element map icl::map: add (with and without hint), subtract, insert, erase, operator[], flip, construction from a range, +=, -=, &=, ^= with pairs, keys, maps and sets of keys act on the represented partial function pointwise as documented, keep the keys unique and in order, and return the documented flags and counts; absorbers never store the identity element (except by operator[] and the range constructor); contains, intersects, find and operator() report the represented function.", "quantifier": "all key types with a linear order, all value types and functors, all four traits, all histories of operations, all operands", "why_tests_cant": "Unbounded histories.", "anchors": ["include/boost/icl/map.hpp: map::add, subtract, insert, erase, flip, operator()", "include/boost/icl/concept/element_map.hpp", "include/boost/icl/concept/element_associator.hpp", "include/boost/icl/detail/set_algo.hpp: common_range, intersects"]}
{"id": "C34", "title": "Interval containers behave as containers of elements", "statement": "Write the same program twice: once for interval sets and interval maps, and once for icl::set and icl::map of elements, where an operation with the interval k or the segment (k,v) becomes the operation with x or (x,v) for every x in k in a loop (or with the set of these). The operations are add, subtract, insert, set, erase, flip, &= with intervals and segments, and += -= &= ^= insert erase with containers. Then at every point of the program the interval container and the container of elements consist of the same elements or associations, no operation of the interval container fails, and m(x), contains, within, ==, is_element_equal, inclusion_compare, intersects with a set, domain, size and element iteration give the same results. For maps this holds for all four traits and all functors with: the identity element is neutral for Combine and for its inverse, and a value added to no value is stored as it is; sums of numbers, unions of sets and of bit sets are such. Excluded are flip and set with an absorbed identity value, flip with an empty interval, and intersects of two maps.", "quantifier": "all programs (any operations in any order, with any operands, themselves results of programs), all interval types with finitely many elements per interval, all element and value types, all traits", "why_tests_cant": "Operands interact with arbitrarily many segments at arbitrary relative positions, and programs are unbounded.", "anchors": ["include/boost/icl/interval_base_map.hpp: add, subtract, insert, erase, set, flip", "include/boost/icl/interval_base_set.hpp", "include/boost/icl/map.hpp: add, subtract, insert, erase, flip, add_intersection", "include/boost/icl/concept/element_map.hpp", "include/boost/icl/concept/element_set.hpp", "include/boost/icl/concept/interval_map.hpp"]}
{"id": "C35", "title": "Bounds algebra is consistent", "statement": "The bit level operations on interval_bounds (left, right, all, reverse_left, reverse_right, is_complementary, inner/outer bounds, left_bounds/right_bounds) satisfy their set level meaning on bounded values.", "quantifier": "all combinations of bounds", "why_tests_cant": "The codes are finite but combined with arbitrary domain values.", "anchors": ["include/boost/icl/interval_bounds.hpp", "include/boost/icl/concept/interval_bounds.hpp", "include/boost/icl/detail/interval_bounds... (bounded_value)"]}
{"id": "C36", "title": "Singleton, unit_trail and construction are faithful", "statement": "singleton(x) and unit_trail(x) contain exactly the one element x for every discrete interval class; construct/hull(a,b) of two elements covers both; first/last return the least/greatest element of a non-empty interval.", "quantifier": "all elements and interval classes", "why_tests_cant": "Infinite domain.", "anchors": ["include/boost/icl/concept/interval.hpp: singleton, unit_trail, construct, hull, span, first, last"]}
{"id": "C37", "title": "Maps of sets behave like sets of pairs", "statement": "A partial interval map whose associated values are sets (a collector) behaves like the set of pairs (key, element of the associated set): +, -, & and ^ are union, difference, intersection and symmetric difference of the pairs, and the documented tables of set laws (associativity, commutativity, neutrality, inversion, distributivity, De Morgan, symmetric difference) hold with the documented equality (==, =e= or =d=) for joining and splitting maps, absorbers and enrichers.", "quantifier": "all expressions over well-formed partial maps of sets a,b,c, all interval types, joining/splitting, absorber/enricher", "why_tests_cant": "The documentation validates the laws by random tests only; they range over all triples of maps of unbounded size.", "anchors": ["doc/semantics.qbk: Collectors: Maps of Sets", "include/boost/icl/concept/interval_associator.hpp: operator+, operator-, operator&, operator^", "include/boost/icl/interval_base_map.hpp: add, subtract, add_intersection, flip"]}
{"id": "C38", "title": "Sets of elements, and comparison of containers of elements", "statement": "Sets of elements (icl::set) stay strictly ordered under every history of +=, -=, &=, ^= with elements and sets, and these operations are union, difference, intersection and symmetric difference; contains, within, intersects and inclusion_compare decide the corresponding relations exactly, for sets and for icl::map; == is equality of the represented set or function, < is a strict order whose incomparability is ==, and is_distinct_equal is equality up to identity elements.", "quantifier": "all ordered key types, all value types, all histories and operands of any size", "why_tests_cant": "The comparison is a state machine with early exits and searches over two containers of unbounded size; order axioms quantify over all triples.", "anchors": ["include/boost/icl/concept/element_set.hpp", "include/boost/icl/concept/element_associator.hpp: within, contains, ==, <, inclusion_compare", "include/boost/icl/detail/interval_subset_comparer.hpp: subset_comparer::next_both", "include/boost/icl/detail/set_algo.hpp: common_range, intersects", "include/boost/icl/detail/map_algo.hpp: lexicographical_distinct_equal"]}
{"id": "C39", "title": "Exception safety", "statement": "If an operation on an interval container is left by an exception, of an allocation, of the copy of a value, of a functor that combines values or of a predicate, the container is still well-formed (ordered, disjoint, non-empty segments), and so after every history of completed and failed operations. Nothing appears outside of the operand: the elements (the associations) that are there were there before or belong to the result, apart from a value that the throwing functor left itself at an element of the operand. Segments that do not overlap the operand of a single add, subtract, insert, erase or set are kept; insert loses nothing. Adding an interval to an interval_set or separate_interval_set, and all intersections, have the strong guarantee.", "quantifier": "all interval classes, all containers, all operations and operands, all points at which an exception can be thrown, all histories with any number of failed operations, all values a throwing functor leaves behind", "why_tests_cant": "The points of failure inside the loops are unbounded in number, depend on the overlap pattern, and every state left behind must again be a valid start for all further operations.", "anchors": ["include/boost/icl/interval_base_map.hpp: _add, _subtract, _insert, erase, set, gap_insert, add_front, add_main, add_rear", "include/boost/icl/interval_base_set.hpp: add, subtract, add_front, add_main, add_rear", "include/boost/icl/interval_set.hpp: add_over", "include/boost/icl/concept/interval_associator.hpp: +=, -=, &=, ^=, erase, insert", "include/boost/icl/interval_map.hpp, split_interval_map.hpp: assign"]}
{"id": "C40", "title": "Operations of a container with itself", "statement": "An operation whose operand is the object itself has the effect that it has with an equal operand: a += a and insert(a, a) leave an interval set unchanged, a -= a, erase(a, a) and a ^= a leave it empty; insert(m, m) leaves an interval map unchanged, erase(m, m) and m ^= m leave it empty (if identities are absorbed), m += m and m -= m combine the value of each segment with itself. No iterator to an erased segment is used.", "quantifier": "all interval classes, all interval sets and maps of any number of segments, all codomain types and functors", "why_tests_cant": "Whether an iterator of the loop survives the change of the container depends on which segments touch and which values become equal or neutral; use of an erased node often goes unnoticed in a test.", "anchors": ["include/boost/icl/concept/interval_associator.hpp: +=, -=, insert, erase", "include/boost/icl/concept/interval_set.hpp: flip", "include/boost/icl/concept/interval_map.hpp: flip, set_at", "include/boost/icl/interval_base_map.hpp: _add, _subtract, erase", "include/boost/icl/interval_map.hpp: handle_combined, handle_preceeded_combined", "include/boost/icl/detail/interval_set_algo.hpp: join_left, join_right"]}
{"id": "C41", "title": "Iterators", "statement": "No function of an interval container uses an iterator to a segment that it has erased, whatever sequence of calls comes before and whatever valid iterator is passed as a hint. The iterators that add and insert return are valid: end() (or the hint) for an empty interval, and for interval_set and separate_interval_set otherwise an iterator to the segment that contains the added interval. Iterators of the user stay valid and refer to the same segments as long as only other segments are changed: adding to a set invalidates only iterators to segments that overlap or touch the operand (if the set joins) or overlap it (if not); subtract and erase only those to overlapping segments; add and insert on maps only those to overlapping segments and, if the map joins, to the nearest segments on both sides. The adder and inserter iterators yield the same containers as the corresponding functions.", "quantifier": "all interval classes, all sets and maps of any number of segments with any node addresses, all hints, all operands, all histories of calls", "why_tests_cant": "The use of an erased node often goes unnoticed, and whether one happens depends on which segments overlap, touch and get equal values.", "anchors": ["include/boost/icl/interval_base_set.hpp: add, subtract", "include/boost/icl/interval_set.hpp, separate_interval_set.hpp, split_interval_set.hpp: handle_inserted, add_over", "include/boost/icl/interval_base_map.hpp: _add, _subtract, _insert, erase", "include/boost/icl/interval_map.hpp, split_interval_map.hpp", "include/boost/icl/detail/interval_set_algo.hpp: join_left, join_right, join_nodes, join_under, join_neighbours", "include/boost/icl/iterator.hpp: add_iterator, insert_iterator", "include/boost/icl/concept/interval_set.hpp, interval_map.hpp: flip, erase_if", "include/boost/icl/concept/interval_associator.hpp: join, +=, insert, erase"]}
{"id": "C42", "title": "Borders and sizes", "statement": "Interval containers invent no borders: wherever a segment of a container begins or ends after an operation, a segment of the container before, or an interval or container that was passed, begins or ends. A program which passes only intervals of some list K to its containers gets therefore, after any number of operations, containers whose borders are borders of K and which have less than 2*|K| segments. In particular adding or subtracting an interval makes at most one segment more for interval_set and separate_interval_set (subtract: for all sets), adding a set at most as many as it has, and no operation with an interval or element makes more than 2n+1 segments out of n, in any set or map.", "quantifier": "all interval classes, all well-formed sets and maps of any size and kind, all operations and operands, all programs of any length", "why_tests_cant": "The bounds must hold for all interleavings of overlapping, touching and separated operands and for histories of any length.", "anchors": ["include/boost/icl/interval_base_set.hpp, interval_set.hpp, separate_interval_set.hpp, split_interval_set.hpp: add, subtract", "include/boost/icl/interval_base_map.hpp, interval_map.hpp, split_interval_map.hpp: add, subtract, insert, erase, set, flip, add_intersection", "include/boost/icl/concept/interval_set.hpp, interval_map.hpp, interval_associator.hpp: flip, erase, intersection, join, domain, between"]}
{"id": "C43", "title": "Complexity", "statement": "The functions keep the complexity that the text of their documentation promises (logarithmic, linear or loglinear). add(k) and subtract(k) take a constant number of searches and steps in an interval_set or separate_interval_set (subtract: in all sets), however many segments k overlaps; only the nodes that are erased come on top. So n segments that are added and subtracted, in any order, singly or as containers, take no longer than 5n searches and 29n steps together, which is logarithmic for each on an average. In a split_interval_set and in maps add, subtract, insert and erase are linear in the number of segments that the operand overlaps, which is at most one for an element. flip is linear in the number of overlapped segments, join and erase_if in the size. With a container of m segments as operand, += and insert for a split_interval_set or a map of n segments and -= and erase for a map take a number of searches, insertions and steps linear in n + m, hence loglinear time; -= for sets and erase of the keys of a set from a map a number linear in m alone. (One table in the documentation says O(m log(n+m)) for all of them. That is false for split_interval_sets: one segment can take n new nodes.)", "quantifier": "all interval classes, all sets and maps of any number of segments, all hints and operands, all histories of additions and subtractions", "why_tests_cant": "Measurements cover some sizes and patterns of overlapping only; a quadratic case shows up in none of them if it needs a special one.", "anchors": ["include/boost/icl/concept/interval_associator.hpp: +=, add, subtract, -= (documented complexity), join", "include/boost/icl/interval_base_set.hpp, interval_set.hpp, separate_interval_set.hpp, split_interval_set.hpp: add, add_over, subtract", "include/boost/icl/interval_base_map.hpp: _add, _subtract, _insert, erase", "include/boost/icl/detail/interval_set_algo.hpp: join_under, join_neighbours", "include/boost/icl/concept/interval_set.hpp, interval_map.hpp: flip, erase_if", "include/boost/icl/concept/interval_associator.hpp: insert(object, operand), erase(object, operand); detail/set_algo.hpp: common_range"]}
{"id": "C44", "title": "First, last, lower and upper of a container", "statement": "first(c) and last(c) of an interval set or map over a discrete domain are its least and its greatest element (key). lower(c) and upper(c) enclose all elements, and every value strictly between them lies between elements of the container. For an empty container they return values in the wrong order, so first(c) <= last(c), and lower(c) <= upper(c), tell that the container is not empty.", "quantifier": "all interval classes with these functions, all well-formed sets and maps of any size, all elements", "why_tests_cant": "Must hold for every arrangement of segments, all bound types and also at the ends of the domain.", "anchors": ["include/boost/icl/concept/interval_associator.hpp: lower, upper, first, last", "include/boost/icl/concept/interval.hpp: first, last, lower, upper"]}
{"id": "C45", "title": "Predicated modification of maps", "statement": "erase_if(p, m) removes exactly the segments for which p holds and leaves the others as they are, fully joined if m was. add_if(p, m, n) adds to m exactly the segments of n for which p holds, and returns.", "quantifier": "all interval classes, all predicates, all well-formed maps of any size and kind", "why_tests_cant": "All predicates and all maps; termination for all inputs.", "anchors": ["include/boost/icl/concept/interval_map.hpp: erase_if, add_if"]}
{"id": "C46", "title": "Atomize, cluster and joiner", "statement": "segmental::atomize adds the elements of an interval set to a set of elements, or inserts the associations of an interval map into a map of elements, and returns if no interval contains the greatest value of its type; segmental::cluster adds the elements of a set of elements (associations of a map) to an interval container. Both directions together give back the same content: atomizing what was clustered gives the same set, clustering what was atomized an interval set with the same elements, equal if fully joined. segmental::joiner joins its second operand without changing its content and adds it to the first; segmental::identity_absorber removes identity elements from the second operand and inserts the rest into the first.", "quantifier": "all discrete interval classes, all well-formed containers of any size, all styles of sets, all map types", "why_tests_cant": "Content must agree for every set of elements and every arrangement of segments.", "anchors": ["include/boost/icl/detail/interval_morphism.hpp: atomize, cluster, joiner, identity_absorber"]}
{"id": "C47", "title": "Programs cannot tell interval containers from sets and functions", "statement": "A client program that uses any number of interval sets and interval maps - changing them by elements, intervals, segments and containers, by operators with lvalues and rvalues, by operations of a container with itself, copying, moving and swapping them, and choosing each step by the answers it got before - gets from the library the same answers (membership, inclusion, intersection, emptiness, equality, selection) as from mathematical sets and functions, no operation fails, and the variables hold the same contents in the end. This is so for every choice of container classes, of hints, and of what is left in a container after a move.", "quantifier": "all client programs of any length with any number of variables, all interval classes, all container classes, all hints and choices of the library", "why_tests_cant": "Ranges over all programs and histories, adaptive ones included, and over all interactions between containers.", "anchors": ["include/boost/icl/interval_base_set.hpp", "include/boost/icl/interval_base_map.hpp", "include/boost/icl/concept/interval_associator.hpp: operators", "include/boost/icl/concept/interval_set.hpp", "include/boost/icl/concept/interval_map.hpp"]}
{"id": "C48", "title": "Aggregation on overlap", "statement": "If segments are added to an interval map one after the other, by += or through icl::adder, the value of a key is afterwards the combination of the values of all segments whose interval contains the key, and the key is not in the map if there is none or the combination is the identity element of an absorbing map. Values that form a commutative monoid may be added in any order: equal interval_maps result, and equal split_interval_maps as long as nothing is absorbed. The segments of a split_interval_map are then the maximal stretches covered by the same intervals. In particular: adding intervals with 1 counts overlaps; adding sets collects their elements; adding with inplace_max gives the maximum; counted sums give sum and number; subtracting what was added leaves the sum of the rest.", "quantifier": "all lists of segments, all orders, all hints, all interval classes, all map types whose functor has the stated laws", "why_tests_cant": "The number and arrangement of overlapping intervals, their order and the hints are unbounded.", "anchors": ["include/boost/icl/interval_base_map.hpp: add, subtract", "include/boost/icl/iterator.hpp: add_iterator, adder", "example/overlap_counter_/overlap_counter.cpp", "example/party_/party.cpp", "example/partys_tallest_guests_/partys_tallest_guests.cpp", "example/partys_height_average_/partys_height_average.cpp", "example/std_copy_/std_copy.cpp"]}
{"id": "C49", "title": "A large bit set is a set of numbers", "statement": "The example class large_bitset, an interval map from intervals of chunk numbers to machine words, behaves as a set of numbers of its unsigned domain type, up to the greatest number: after any history of operations, += and |= with a number, an interval or another large bit set add, -= removes, ^= flips and &= keeps exactly the numbers of the operand; no operation fails; == holds exactly for large bit sets with the same numbers; and the number of segments is bounded by the number of intervals used, not by the number of bits.", "quantifier": "all domain types and word types (numbers of bits), all histories of operations, all numbers, all intervals with any bounds, all insertion positions chosen by hints", "why_tests_cant": "The number of histories is unbounded, and there are 2^64 numbers and 2^128 intervals for each; the interesting cases lie where an interval begins or ends in the middle, at the first or at the last bit of a word, or at the end of the domain.", "anchors": ["example/large_bitset_/large_bitset.hpp: large_bitset, segment_apply, from_lower_to, to_upper_from", "example/large_bitset_/bits.hpp: bits, is_set, has_set_semantics", "example/large_bitset_/meta_log.hpp: log2_", "include/boost/icl/interval_base_map.hpp: add, subtract, add_intersection, flip"]}
{"id": "C50", "title": "Element references of maps denote elements and compare like pairs", "statement": "What an element iterator of an interval map gives when it is dereferenced denotes an element of the map, whatever the program did with its iterators before; it goes on denoting that element while the map stays unchanged; and ==, !=, <, >, <=, >= with other such references and with std::pairs, on either side, compare what is denoted, keys first and then values, so that they form one strict (weak) order in which a loop over the elements ascends.", "quantifier": "all maps over discrete domains, forward and reverse iterators, all programs that make, copy, convert, assign, move, dereference and destroy iterators, all pairs, all orders of keys and values", "why_tests_cant": "The number of programs is unbounded; that a reference changes when the iterator that gave it is used again is seen only if it is read afterwards.", "anchors": ["include/boost/icl/detail/mapped_reference.hpp: mapped_reference", "include/boost/icl/detail/element_iterator.hpp: element_iterator, segment_adapter"]}
{"id": "C51", "title": "Operators and functions compile exactly for the documented combinations of types", "statement": "For operands over common template arguments, a call of +=, |=, -=, &=, ^=, +, |, -, &, ^, insert, erase, contains, within, intersects, disjoint or an element comparison compiles exactly when the documented overload table has an entry for the two types, and its result type is the documented one: of two containers the finer, and a map for an intersection with a map. No call is ambiguous, whatever the types and however the operands are qualified, and a call that compiles always is of a documented combination.", "quantifier": "all types of operands, nested in each other to any depth, all combinations of named objects, constants and temporaries, compilers with and without rvalue references", "why_tests_cant": "There are unboundedly many types, and a test program contains the calls that compile; that the others are rejected for the right reason, and none is ambiguous, a test does not see.", "anchors": ["include/boost/icl/type_traits/is_combinable.hpp: is_binary_intra_combinable, is_binary_inter_combinable, is_right_inter_combinable, is_intra_derivative, is_intra_combinable", "include/boost/icl/concept/interval_associator.hpp: operator +, operator +=, operator &, operator -, intersects, disjoint, within", "include/boost/icl/concept/interval_map.hpp: contains, intersects", "doc/functions.qbk: overload tables"]}
{"id": "C52", "title": "What is written to a stream determines what was written", "statement": "Two intervals that write the same text with operator << have the same elements; two interval containers, or element containers, that write the same text have the same segments, so they are equal. The text also tells where the container ends, so containers can be values of maps to any depth. With static bounds equal intervals and containers write the same text. This holds if the texts of elements and values can themselves be read up to the mark that follows them, as texts of integers can.", "quantifier": "all interval classes, all intervals, all well-formed interval containers, all element containers, all ways to write elements and values that can be read up to the following mark, all nestings", "why_tests_cant": "A collision of two texts is a pair among infinitely many pairs of containers; a test compares the text of a few containers with an expected text.", "anchors": ["include/boost/icl/concept/interval.hpp: operator <<, left_bracket, right_bracket", "include/boost/icl/concept/interval_set.hpp: operator <<", "include/boost/icl/concept/interval_map.hpp: operator <<", "include/boost/icl/concept/element_set.hpp: operator <<", "include/boost/icl/concept/element_map.hpp: operator <<", "include/boost/icl/type_traits/to_string.hpp: to_string"]}
{"id": "C53", "title": "What queries cost", "statement": "find, contains, intersects and operator() with an element, find and intersects with an interval take one search of the underlying tree and a constant number of steps. contains with an interval takes a constant number of steps in an interval_set, and so does contains with a segment in an interval_map; in other containers the number of steps is at most proportional to the number of segments that the operand overlaps. contains, within, inclusion_compare and is_element_equal of two containers take at most as many rounds as both have segments, with at most one search in each; == takes no more rounds than the smaller one has segments, size and cardinality are linear, hull is constant. None of these allocates or erases anything.", "quantifier": "all interval classes, all well-formed sets and maps of any size, all elements, intervals, segments and containers as operands", "why_tests_cant": "A test measures the time of a few calls; a complexity is a bound for containers of every size and for the worst operand.", "anchors": ["doc/functions_containedness.qbk", "doc/functions_selection.qbk", "doc/functions_size.qbk", "doc/functions_range.qbk", "include/boost/icl/concept/interval_associator_base.hpp: find", "include/boost/icl/concept/interval_set.hpp: contains", "include/boost/icl/concept/interval_map.hpp: contains", "include/boost/icl/detail/interval_subset_comparer.hpp: subset_compare", "include/boost/icl/detail/interval_set_algo.hpp: is_joinable, contains, within", "include/boost/icl/concept/interval_associator.hpp: cardinality, hull, operator =="]}
{"id": "C54", "title": "Infix operators agree with compound assignment", "statement": "a + b, a | b, a - b, a & b and a ^ b yield what `Type temp(a); temp op= b` leaves in temp, whether a and b are named objects, temporaries or moved from, and so do expressions of any depth. Putting std::move around operands or taking it away does not change the result, not even the segments it consists of.", "quantifier": "all expressions of any depth over +, -, &, ^, all interval sets of every style and all interval maps as operands, every choice of lvalues and rvalues", "why_tests_cant": "There are four overloads of each operator; which one is taken depends on the value categories of the operands at every node of an expression, and the results must agree for all containers.", "anchors": ["include/boost/icl/concept/interval_associator.hpp: operator +, operator |, operator -, operator &, operator ^"]}
{"id": "C55", "title": "What intersections and symmetric differences cost", "statement": "`s &= k` for an interval makes one search and one hinted insertion, which succeeds, for each segment that k overlaps; `s &= r` for a set or the keys of a map makes one search for each segment of r and no more than n + m hinted insertions; `&=` with a map as operand, `intersects`, `disjoint` and `^=` of sets and maps of every class take a number of searches, insertions and steps linear in n + m; `flip` with an interval or segment takes a number linear in the number of segments it overlaps, except that total maps, whose values all become the identity element, are visited or cleared as a whole; `&=` with an element or key takes a constant number. In every `&=`, however, all n nodes of the object are erased and the result consists of new nodes, and `intersects` erases as many nodes as it allocates.", "quantifier": "all interval sets of every style and all interval maps as objects, all intervals, segments, elements, sets and maps as operands, of any size", "why_tests_cant": "The bounds are to hold for all sizes and all arrangements of segments in both containers; measuring finds slow cases only by chance, and the documented complexities turn out to be exceeded by a family of inputs.", "anchors": ["include/boost/icl/concept/interval_associator.hpp: operator &=, add_intersection, intersects, disjoint, operator ^=", "include/boost/icl/concept/interval_set.hpp: add_intersection, flip", "include/boost/icl/concept/interval_map.hpp: add_intersection, flip", "include/boost/icl/interval_base_map.hpp: add_intersection, flip", "doc/functions_intersection.qbk", "doc/functions_symmetric_difference.qbk"]}
{"id": "C56", "title": "The documented laws hold on sets and maps of elements", "statement": "For icl::set, +, & and - satisfy the laws of a Boolean algebra without complement (associativity, commutativity, neutrality of the empty set, distributivity, De Morgan, symmetric difference) for operator ==. For icl::map, + is associative with neutral element, commutative whenever the combination of values is, and for collectors (maps of sets) all laws of sets hold once more; for maps of numbers subtraction inverts addition on total maps. The laws that fail (associativity of & on partial maps of numbers, a - a, commutativity after a stored identity value, neutrality with a non-neutral combiner) fail at stated inputs.", "quantifier": "all icl::sets and all icl::maps of the named traits, of any size, over every ordered domain and every codomain with the stated laws", "why_tests_cant": "Algebraic laws quantify over all triples of containers and over all codomain types with lawful combiners; the documentation claims them from random law-testing only.", "anchors": ["include/boost/icl/set.hpp", "include/boost/icl/map.hpp: map::_add, _subtract, add_intersection, flip", "include/boost/icl/concept/element_set.hpp", "include/boost/icl/concept/element_map.hpp: add, subtract, add_intersection, flip", "include/boost/icl/concept/element_associator.hpp: operator +, -, &, ^, ==", "doc/semantics.qbk: Sets, Collectors, Quantifiers, Concept Induction"]}
{"id": "C57", "title": "within and contains order the containers, and the operators belong to that order", "statement": "`within` is reflexive and transitive, `within(a,b)` and `within(b,a)` both hold iff `is_element_equal(a,b)`, which is an equivalence relation, and `contains(b,a)` is `within(a,b)`; for interval sets of any mix of styles, for interval maps with values compared by equality or by inclusion, and for icl::set and icl::map. For sets and for absorbing collectors the order is that of the operators: within(a+b,c) iff within(a,c) and within(b,c); within(c,a&b) iff within(c,a) and within(c,b); within(a-b,c) iff within(a,b+c); within(a,b) iff is_empty(a-b) iff a+b =e= b iff a&b =e= a; intersects(a,b) iff a&b is not empty; is_empty(a^b) iff a =e= b; the operators are monotone.", "quantifier": "all pairs and triples of containers of any size and segmentation, over every interval kind, every hint behaviour and every inclusion of values that is reflexive and transitive", "why_tests_cant": "An order is a statement about all pairs and triples of containers with arbitrarily shifted segment borders; a comparison algorithm with a wrong step order agrees with the right one on most samples.", "anchors": ["include/boost/icl/concept/interval_set.hpp: contains", "include/boost/icl/concept/interval_map.hpp: contains, within", "include/boost/icl/concept/interval_associator.hpp: is_element_equal, within, intersects", "include/boost/icl/detail/interval_subset_comparer.hpp", "include/boost/icl/detail/interval_set_algo.hpp: contains", "include/boost/icl/concept/element_associator.hpp: within, contains, inclusion_compare", "doc/semantics.qbk: Subset Ordering and Element Equality"]}
{"id": "C58", "title": "What the aggregation functors, their inverses and their identity elements really do", "statement": "Of all functors that can be passed as Combine to a map of unsigned integers, only inplace_plus and inplace_minus have an inverse<> that undoes their effect; the identity element is neutral (so that adding to an absent key is the same as combining with the identity element, and with and without a hint) exactly for plus, bit_add, bit_xor, caret and max, which are also the commutative monoids. inverse<inverse<F>> is F except for inplace_identity and the functors without a specialization. For a map with Combine = inplace_identity, `add` of a segment or pair is `insert`, and for absorbing maps that are not both total and invertible `subtract` is `erase`: the same value for every key, and `==` for joining interval maps and for icl::map.", "quantifier": "all functors, all integer widths of at least two bits, all operands, and all maps of any size, segmentation and interval kind that store no identity element", "why_tests_cant": "Classifying all functors by a law over all operands needs proofs for the positive cases; the equivalence of insert and add has to hold for all overlaps of a segment with a map.", "anchors": ["include/boost/icl/functors.hpp: inplace_identity, inplace_erasure, inverse, version, identity_based_inplace_combine", "include/boost/icl/interval_base_map.hpp: add, subtract, insert, erase", "include/boost/icl/map.hpp: add, subtract, insert, erase", "doc/concepts.qbk: Aggregation on Overlap, Map Traits"]}
{"id": "C59", "title": "Searches and insertions do not depend on the shape of the tree", "statement": "The comparator of the interval containers is not a strict weak order: an interval that is searched for can be equivalent (by overlapping) to several nodes that are ordered among each other, which is outside of what the C++ standard requires for std::set and std::map. Nevertheless, in a binary search tree of any shape whose nodes are non-empty, disjoint and sorted, lower_bound(k) is the first node not wholly before k, upper_bound(k) the first node wholly behind k, equal_range(k) are exactly the nodes that overlap k, and find(k) is the first of them; insert(s) inserts s in its place iff s overlaps no node and otherwise leaves the container as it is and returns a node that overlaps; insert(hint, s) has the same effect for every hint. Two containers with the same segments therefore behave the same whatever history of insertions and erasures (and rebalancings) shaped their trees.", "quantifier": "all trees of any size and shape, all interval kinds, all keys, all hints", "why_tests_cant": "Tests see the few shapes that their own insertion orders produce; the standard does not guarantee the result for such a comparator, so that it has to be derived from the descent in every possible tree.", "anchors": ["include/boost/icl/detail/exclusive_less_than.hpp: exclusive_less_than", "include/boost/icl/interval_base_set.hpp: lower_bound, upper_bound, equal_range, find, prior", "include/boost/icl/interval_base_map.hpp: lower_bound, upper_bound, equal_range, find, insert, prior", "include/boost/icl/concept/interval.hpp: non_empty::exclusive_less"]}
{"id": "C60", "title": "Concept induction: maps of sets are sets and maps of monoids are monoids, at any depth", "statement": "The laws of a map follow from the laws of its associated values (doc/semantics.qbk, Concept Induction). If the values are sets (whatever type implements them: values are determined by their elements, and +=, -=, &=, ^= act as union, difference, intersection and symmetric difference), a partial map that absorbs identities is the set of its pairs (key, element), its operators are the set operations on the pairs, and the documented laws of sets hold. An interval_set is such a value, and an interval_map of such values is such a value again, so interval_map<D, interval_set<E> >, interval_map<D, interval_map<E, interval_set<F> > > and so on all obey the laws of sets. If the values are a (commutative) monoid, the maps are a (commutative) monoid and can be values again; += and -= of a map of maps act on the value of every pair of keys as += and -= of the inner maps act on the value of a key. A total absorbing interval_map of the elements of an abelian group is an abelian group; this does not continue to maps of such maps, where (M() - a) + a == a.", "quantifier": "all map values, all value types with the algebra in question, all depths of nesting, all interval kinds, all hints", "why_tests_cant": "The documentation derives the semantics of a map from the semantics of an arbitrary codomain type; tests instantiate a few codomain types and values (and no nested interval containers), so the induction over types is out of their reach.", "anchors": ["doc/semantics.qbk: Concept Induction, Collectors, Quantifiers", "include/boost/icl/functors.hpp: inplace_plus, inplace_minus, inplace_et, inplace_caret, inter_section, inverse, version", "include/boost/icl/type_traits/has_set_semantics.hpp: has_set_semantics", "include/boost/icl/type_traits/has_inverse.hpp: has_inverse", "include/boost/icl/type_traits/identity_element.hpp: identity_element", "include/boost/icl/interval_base_map.hpp: codomain_intersect, inverse_codomain_intersect, subtract", "include/boost/icl/concept/interval_associator.hpp: operator +=, -=, &=, ^=, ==, +, -, &, ^"]}
{"id": "C61", "title": "Interval classes of users behave as those of the library", "statement": "A class of a user for which interval_traits and interval_bound_type are specialised (doc/customization.qbk) can be used as interval type of all interval containers, and everything that holds for the interval classes of the library holds for it, whichever of the four static bound types it chooses, provided that construct(lo, up) has the bounds lo and up whenever an element lies between them and is empty otherwise, and that a default constructed object is empty. The objects may carry further data. Without these (undocumented) requirements containers hold wrong elements: the class of the documentation with static_closed instead of static_right_open, whose default constructor makes [0,0], gives {[3,5]} - [3,5] == {[0,0]} and {[3,5]} + [4,6] == {[0,6]}.", "quantifier": "all classes with the required functions, all domains (discrete ones for closed and open bounds), all objects, all histories of operations", "why_tests_cant": "The class is a parameter that users supply: the tests contain one class for one domain, and cannot try the classes that users will write.", "anchors": ["doc/customization.qbk: Intervals", "example/custom_interval_/custom_interval.cpp: MyInterval", "include/boost/icl/interval_traits.hpp: interval_traits, lower, upper", "include/boost/icl/interval_bounds.hpp: interval_bound_type", "include/boost/icl/concept/interval.hpp: construct, contains, is_empty, exclusive_less, touches, hull, left_subtract, right_subtract, operator &, inner_complement, singleton, unit_trail", "include/boost/icl/type_traits/identity_element.hpp: identity_element"]}
{"id": "C62", "title": "Programs compute the same with every interval class", "statement": "If one program is run with two interval types whose operands have pairwise the same elements (right_open_interval<int> and discrete_interval<int>, closed_interval and open_interval, a class of the library and one of a user, ...), then after any sequence of operations the two interval sets have pairwise the same segments, hence the same elements, iterative_size and results of == and <; interval maps, joining or split, have the same value at every element and pairwise the same segments, hence the same results of ==. Neither run fails where the other goes on. If each interval of one class has a counterpart in the other, every set that a program computes with the one is computed with the other.", "quantifier": "all pairs of interval classes over a domain, all three classes of interval sets, all map types whose identity element is neutral for the combiner, all histories of operations, all hints", "why_tests_cant": "The unit tests run the same cases for several interval types and compare each with expected results, so that two types are compared for these cases only; that no sequence of operations ever depends on the representation of the intervals cannot be tested.", "anchors": ["include/boost/icl/interval_base_set.hpp: interval_base_set", "include/boost/icl/interval_base_map.hpp: interval_base_map", "include/boost/icl/right_open_interval.hpp: right_open_interval", "include/boost/icl/discrete_interval.hpp: discrete_interval", "include/boost/icl/concept/interval.hpp: contains, exclusive_less, touches, hull, left_subtract, right_subtract", "include/boost/icl/concept/interval_associator.hpp: operator ==, operator <", "doc/interface.qbk: Interval Types"]}
{"id": "C63", "title": "Values that the order does not tell apart are treated alike", "statement": "Compare need only be a strict weak ordering of the domain type (strings compared without regard to case, records compared by one field): ++ and -- of discrete domains must then lead from equivalent values to equivalent values. The interval classes of the library over such a type behave as over the classes of equivalent values: the interval functions give the same results for intervals with equivalent bounds, find with equivalent values finds the same segment, and two runs of a program whose operands are equivalent compute equal (==) interval sets, and interval maps, with pairwise the same segments and values; with static bounds, the segments have pairwise equivalent bounds. Everything that holds for all interval classes holds for them. Which of several equivalent values a container keeps as a bound is not determined by its elements: {} += i += j and {} += j += i may be equal and hold different bounds.", "quantifier": "all strict weak orderings, all six interval classes of the library, all intervals, all histories of operations, all hints", "why_tests_cant": "The unit tests use numbers and std::string with std::less, whose equivalent values are equal; the orders that users supply cannot be enumerated, and neither can the programs.", "anchors": ["include/boost/icl/concept/interval.hpp: domain_less, domain_less_equal, domain_equal, domain_next, domain_prior, hull, left_subtract, right_subtract, operator &, inner_complement", "include/boost/icl/right_open_interval.hpp: right_open_interval", "include/boost/icl/discrete_interval.hpp: discrete_interval", "include/boost/icl/interval_base_set.hpp: interval_base_set, domain_compare", "include/boost/icl/interval_base_map.hpp: interval_base_map, domain_compare", "doc/interface.qbk: Required concepts (Compare is a strict weak ordering on DomainT)"]}
{"id": "C64", "title": "continuous_interval over types with gaps: sets and maps of values stay right, comparisons err on one side", "statement": "Real domain types of continuous_interval have neighbours and ends: float, double (without NaN), std::string. For every strict weak ordering of the domain type: contains(interval, value) is what the bounds say; intersections and differences of intervals, and union, difference, intersection and symmetric difference of interval sets with intervals, sets and values have exactly the values that they should have; contains and find with a value answer for that value; interval maps associate to each value what add, subtract, set, insert and erase say; no value lies in two segments. is_empty, ==, contains(set, interval) and intersects decide for a dense order in which the gaps are filled: is_empty(i), s == t, contains(s, k) and disjoint(s, t) imply what they say about the values, but their negations do not: the open interval between two neighbours is not empty, and {[a,a],[b,b]} and {[a,b]} with neighbours a, b have the same values and are not equal.", "quantifier": "all strict weak orderings of the domain type (dense or not, with or without ends), all intervals, all well-formed containers and all histories of operations", "why_tests_cant": "The unit tests of continuous intervals use a handful of doubles and rationals; the gaps between floating point numbers are never the bounds of a test, and the programs and types are unboundedly many.", "anchors": ["include/boost/icl/continuous_interval.hpp: continuous_interval", "include/boost/icl/concept/interval.hpp: contains, is_empty, operator &, left_subtract, right_subtract, hull, singleton", "include/boost/icl/interval_base_set.hpp: add, subtract, find", "include/boost/icl/interval_base_map.hpp: add, subtract, set, insert, erase", "include/boost/icl/type_traits/is_continuous.hpp: is_continuous"]}
{"id": "C65", "title": "Associated values of a bounded type: where a map overflows", "statement": "For a codomain type with bounds such as int, add, add with a hint, subtract, += and -= of interval maps with segments and with maps compute exactly the map that they would compute for numbers without bounds, and evaluate no sum that is out of bounds, if and only if all values of that map are values of the type; for add and += in terms of values: if and only if the combination of the operand with each value that the map has at a key of the segment is a value of the type. No intermediate result of += and -= with maps overflows unless a value of the result does. The same holds for &= with segments and maps; of partial maps it overflows if and only if the combination of the two values of some common key is out of bounds. flip and ^= of partial maps of numbers, and of total maps that absorb identity elements, never overflow. A program of such calls overflows if and only if the map without bounds has a value out of bounds after some call; for maps of numbers, except total ones that keep identity elements, the program may contain &= and ^=, too. There are two exceptions: flip and ^= of total maps that keep identity elements compute the sums before they store identity elements, so they overflow if and only if += would, though all results fit; and -= on total maps whose values have inverses also computes -v where all keys exist, so subtracting the least value of a signed type overflows though all results fit.", "quantifier": "all codomain types, bounds and functors with an identity element (within the bounds), all eight trait combinations, all joining and splitting maps over all interval classes, all operands and all programs of these calls", "why_tests_cant": "The unit tests use small values. An overflow in an intermediate computation (the gap fillers, the copies of split segments, the neutral element combined by hinted additions) shows only for particular values at particular overlaps, and as undefined behaviour it may not show at all.", "anchors": ["include/boost/icl/interval_base_map.hpp: add, subtract, _add, _subtract, add_segment, add_main, add_rear, subtract_main, subtract_rear, gap_insert, add_at", "include/boost/icl/functors.hpp: version, conversion, inplace_plus, inplace_minus", "include/boost/icl/interval_map.hpp: gap_insert_at", "include/boost/icl/concept/interval_associator.hpp: operator +=, operator -=, operator &=, operator ^=", "include/boost/icl/interval_base_map.hpp: flip, total_add_intersection, partial_add_intersection", "include/boost/icl/concept/interval_map.hpp: add_intersection, flip"]}
{"id": "C66", "title": "Interval maps are functions: looking up a key commutes with the operators", "statement": "m(x) is the value of the key x, or the identity element. For total maps of signed numbers and every expression built with +, -, & and ^, the value at x of the map computed is the expression computed on the values at x: (a + b)(x) = a(x) + b(x), (a - b)(x) = a(x) - b(x), (a & b)(x) = a(x) + b(x), (a ^ b)(x) = 0. For partial maps of sets the operators act as union, difference, intersection and symmetric difference of the sets at x; for total maps of sets & is the union and ^ yields the empty set. Sums are pointwise in all maps whose values commute. Two interval_maps that absorb identity elements are equal (==) if and only if they have the same value at every x, and two interval_maps of any traits are distinct equal if and only if they have. Therefore every equation that holds for functions into an abelian group, or into sets, holds between such maps.", "quantifier": "all expressions of any size over maps of one type, lvalues and rvalues, all keys, all interval classes with keys that can be looked up, all hints, all abelian groups and all set-like values including interval sets and interval maps", "why_tests_cant": "The law tests of the library check single equations on random small maps. That looking up commutes with all operators for every expression is a statement about infinitely many equations at once, and extensionality quantifies over all keys.", "anchors": ["include/boost/icl/interval_base_map.hpp: operator()", "include/boost/icl/concept/interval_associator.hpp: operator +, operator -, operator &, operator ^, operator ==, is_distinct_equal", "include/boost/icl/concept/interval_map.hpp: operator +=, operator ^=", "doc/semantics.qbk: Quantifiers"]}
{"id": "C67", "title": "Exactly which equations hold for interval sets and interval maps", "statement": "For terms p and q built from variables with +, -, & and ^: p == q for all interval_sets if and only if p and q agree for all truth values of the variables, i.e. if and only if a truth table says so; for separate and split interval sets the same with element equality, and within(p, q) for all sets if and only if p implies q. For total interval_maps of signed numbers (or any abelian group) p == q for all maps if and only if the equation holds for the numbers themselves, reading & as + and ^ as 0; for interval_maps of sets if and only if it holds for the sets. Maps that do not absorb identity elements obey the same equations with is_distinct_equal. interval_sets and interval_maps of sets obey the same equations.", "quantifier": "all terms in any number of variables, with lvalue or temporary operands, all interval sets and maps as values of the variables, all interval classes with a non-empty interval, all hints", "why_tests_cant": "The law tests of the library check a list of selected equations on random values. The property covers every equation and also says which equations fail for some values.", "anchors": ["include/boost/icl/concept/interval_associator.hpp: operator +, operator -, operator &, operator ^, operator ==, is_distinct_equal", "include/boost/icl/detail/interval_subset_comparer.hpp: subset_compare", "doc/semantics.qbk: Sets, Quantifiers"]}
{"id": "C68", "title": "Discrete intervals are right exactly for types whose ++ and -- lead to the neighbouring values", "statement": "The functions of discrete_interval and closed_interval (is_empty, contains, touches, exclusive_less, intersection, hull, differences) give the right sets of values if and only if ++x is the next value after x and --x the prior one. The elements of interval_set, separate_interval_set and split_interval_set over discrete_interval are those that the sequence of additions and subtractions prescribes, for all sequences, if and only if the same holds. right_open_interval and left_open_interval are right for every domain type. The library takes a type for discrete if it, and what it holds as rep, has ++ and what it finally holds is no built-in floating point type: a class of fractions with ++ counts as discrete, and then an interval_set with the elements 0 and 1 contains one half.", "quantifier": "all totally ordered domain types, all operations ++ and -- that can be called where a larger or smaller value exists, all sequences of additions and subtractions, all three classes of interval sets, all nestings of rep types", "why_tests_cant": "The tests of the library use a handful of domain types which all meet the requirement or are specialised by hand. The property covers every user-defined type and says that the requirement cannot be weakened.", "anchors": ["include/boost/icl/type_traits/is_discrete.hpp: is_discrete", "include/boost/icl/type_traits/interval_type_default.hpp: interval_type_default", "include/boost/icl/type_traits/succ_pred.hpp: succ, pred", "include/boost/icl/concept/interval.hpp: is_empty, touches, exclusive_less, first, last", "include/boost/icl/rational.hpp: is_discrete"]}
{"id": "C69", "title": "cardinality over continuous domains tells finite from infinite containers as far as the type of sizes can", "statement": "Over a continuous domain cardinality(s) is infinity<size_type>::value() for every interval set or map with infinitely many elements or keys; with finitely many it is the sum of as many ones, computed in the type of sizes. cardinality(s) == infinity holds exactly for infinite sets of continuous_intervals if and only if no sum of ones equals infinity, and for right open intervals if and only if infinity differs from zero. With std::size_t a finite set of 2^w - 1 points has the cardinality infinity, and one of 2^w points the cardinality 0. size_type is the size_type of the domain type, else its difference_type, else the type itself if it has a rep, else std::size_t; its infinity is a default constructed value, so that infinite sets have cardinality zero, exactly for classes that take no value from a number.", "quantifier": "all dense domain types, all interval sets and maps over half open and continuous intervals, all types of sizes with any addition, all word sizes of at least two bits, all nestings of member types", "why_tests_cant": "The tests ask for the cardinality of a few small sets over double. They cannot reach the sets for which the number of elements is also the value that stands for infinity, nor the domain types of users.", "anchors": ["include/boost/icl/concept/interval_associator.hpp: cardinality", "include/boost/icl/concept/interval.hpp: cardinality", "include/boost/icl/type_traits/infinity.hpp: infinity, numeric_infinity", "include/boost/icl/type_traits/size_type_of.hpp: size_type_of"]}
{"id": "C70", "title": "Exactly which equations hold for icl::set and icl::map", "statement": "For terms p and q built from variables with +, -, & and ^: p == q for all icl::sets if and only if p and q agree for all truth values of the variables, and within(p, q) for all icl::sets if and only if p implies q; icl::sets and interval_sets obey the same equations. For icl::maps p(x) is the term of the values m(x) of the variables: with the operations of numbers for total maps (& adds, ^ yields zero), with the operations of sets for partial maps of sets. p == q for all such maps if and only if the equation holds for the values (is_distinct_equal for maps that keep identity elements); icl::maps and interval_maps obey the same equations. For partial maps of numbers that absorb zeros, of elements or intervals, an equation holds for all maps if and only if it holds for numbers where zero stands for a missing key: 0 - v = 0, u & v is u + v unless one is 0, u ^ v is 0 unless one is 0. For total maps of sets & is the union and ^ yields the empty set.", "quantifier": "all terms in any number of variables, all icl::sets and icl::maps as values of the variables, all non-empty domain types, all abelian groups or finite sets as values", "why_tests_cant": "The law tests of the library check a list of selected equations on random values. The property covers every equation and also says which equations fail for some values.", "anchors": ["include/boost/icl/concept/element_associator.hpp: operator +, operator -, operator &, operator ^", "include/boost/icl/concept/element_set.hpp: operator ^=, flip", "include/boost/icl/concept/element_map.hpp: operator &=, operator ^=", "include/boost/icl/map.hpp: operator ()", "doc/semantics.qbk: Sets, Quantifiers"]}
{"id": "C71", "title": "Exactly which functions of intervals can be called for which interval types", "statement": "For every function of intervals (singleton, construct, hull, first, last, is_empty, exclusive_less, contains, ==, <, touches, cardinality, length, left_subtract, right_subtract, &, intersects, inner_complement, distance, << and the others of concept/interval.hpp) and every interval type, of the library or of a user, the call compiles if and only if the type is in the line of the function in a table of kinds of bounds, traits and operations of the domain type. No call is ambiguous if and only if at most one of is_discrete_interval and is_continuous_interval is specialised, and only for types without static bounds; a type with dynamic bounds needs exactly one. For the library's classes over the numeric domain types they are meant for, the functions of the documented tables can be called exactly where the tables list them, except first and last where a continuous interval has no such value; over continuous domains that are not numeric, length, distance and hull of two values may be missing, too. Intervals can be segments of interval containers if and only if they are half open with static bounds, or closed or open with static bounds over a discrete domain with ++ and --, or have dynamic bounds with one trait (and ++ and -- for the discrete one); over a domain with ++ and --, the library's classes can be segments exactly for the domain types they are documented for. Finding a value in a container of static half open intervals over a continuous domain needs ++ (and -- for left open ones); adding a value is not there for them.", "quantifier": "for all interval types (kind of bounds, traits, members, operations of the domain type) and all functions of intervals", "why_tests_cant": "A test that does not compile is not a test; each test compiles one function for a few types, while the table is about all combinations of bounds, traits and operations of the domain, including the classes of users, and about the absence of ambiguities.", "anchors": ["include/boost/icl/concept/interval.hpp: all functions", "include/boost/icl/type_traits/is_interval.hpp: is_interval, has_static_bounds, has_dynamic_bounds, has_symmetric_bounds", "include/boost/icl/type_traits/is_asymmetric_interval.hpp: is_asymmetric_interval, is_continuous_asymmetric, is_discrete_asymmetric", "include/boost/icl/type_traits/is_discrete_interval.hpp: is_discrete_interval", "include/boost/icl/type_traits/is_continuous_interval.hpp: is_continuous_interval", "include/boost/icl/concept/interval_associator_base.hpp: find", "include/boost/icl/closed_interval.hpp: closed_interval"]}
{"id": "C72", "title": "Exactly which equations hold with == for maps that keep identity elements", "statement": "For terms p and q built from variables with +, -, & and ^, and for maps that do not absorb identity elements: the value, or absence, of a key in the result of p is a term over the values, or absences, of the key in the variables. p == q for all total maps of signed numbers (or any abelian group) if and only if the equation holds for the numbers, reading & as + and ^ as 0, and the same variables occur in p and q. p == q for all partial maps of sets if and only if the equation holds for sets and p and q have the same keys, where + and ^ have the keys of both operands, - those of the left one and & the common ones. For total maps of sets likewise with the union for &, the empty set for ^ and the keys of both for &. For partial maps of numbers, and for total maps of unsigned numbers, if and only if the equation holds for optional numbers. interval_maps and icl::maps obey the same equations with ==, and split_interval_maps with is_element_equal.", "quantifier": "all terms in any number of variables, with lvalue or temporary operands, all interval maps and icl::maps that keep identity elements as values of the variables, all interval classes with a non-empty interval, all non-empty domain types, all abelian groups or finite sets as values, all hints", "why_tests_cant": "The law tests of the library compare maps that keep identity elements on selected equations and random values, mostly modulo identity elements. The property covers every equation with ==, where the keys matter, and also says which equations fail for some values.", "anchors": ["include/boost/icl/concept/interval_associator.hpp: operator +, operator -, operator &, operator ^, operator ==", "include/boost/icl/interval_base_map.hpp: total_add_intersection, partial_add_intersection, flip, _subtract", "include/boost/icl/map.hpp: _subtract, flip", "include/boost/icl/concept/element_associator.hpp: operator ==", "include/boost/icl/concept/element_map.hpp: operator &=, operator ^=", "doc/semantics.qbk: Quantifiers"]}
