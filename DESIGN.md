# Formal model of Boost.ICL — design

Code under study: `/repo` (boostorg/icl, header-only).  The model is Lean 4, in `lean/Verif/`.
The code was read as text; it was neither compiled nor run.

## 1. Layers of the model

1. **Bounds** (`Bounds.lean`): `interval_bounds`, bit codes and functions on them.
2. **Interval kinds** (`Kinds/*.lean`): the six interval class templates and the classes of users (`Kinds/Custom.lean`)
   `right_open_interval`, `left_open_interval`, `closed_interval`, `open_interval`,
   `discrete_interval`, `continuous_interval`, each with the functions of
   `concept/interval.hpp` that dispatch to it.  Domains: any linear order for the static half-open kinds,
   any linear order with successor and predecessor and no end points for the discrete kinds
   (this covers `int`-like domains with `std::less` and with `std::greater`), any dense linear order
   for `continuous_interval`; and domain types with a strict weak ordering, as values with keys in such an order
   (`Kinds/Weak.lean`).  Types with gaps or ends (`double`, `std::string`) have keys in a dense order too (C64).
3. **Interval laws** (`Ops.lean`): a record `IntervalOps` of the interval functions the containers call, and
   `Lawful`, the description of these functions by element membership only.  Each kind is proved lawful.
4. **Containers**: `std::set`/`std::map` of intervals are modelled as lists in iteration order; `lower_bound`,
   `upper_bound`, `insert`, `erase` are modelled with the overlap comparator `exclusive_less_than`.
   Iterators are modelled as positions (prefix / suffix of the list).
   * sets: `interval_set`, `separate_interval_set`, `split_interval_set`;
   * maps: `interval_map`, `split_interval_map`, all four traits, arbitrary combiner;
   * container/container operations of `concept/interval_associator.hpp`, `concept/interval_set.hpp`,
     `concept/interval_map.hpp`.
5. **Comparers and observers**: `subset_compare`, lexicographic `==`/`<`, cardinality, element iteration, hull, ...
6. **Element map** `icl::map`, and simulation between it and the interval maps.
7. **Machine integers**: the discrete functions with checked `++`/`--`.

Property theorems live in `Verif/Props/*.lean`; helper lemmas in the other files.

## 2. Plan for each property

| id | modelled | proof method |
|----|----------|--------------|
| C01-C04 | each interval function, each kind | case analysis on bounds + order reasoning, for all intervals |
| C05 | `<`, `==` of intervals | order reasoning; the law with empty intervals is refuted and the non-empty part proved |
| C06, C07 | set operations as functions on lists; histories as lists of operations | invariant by induction over the history |
| C08-C11 | set operations | refinement: element membership after = Boolean combination of memberships before |
| C12 | joined sorted lists | uniqueness of the canonical form by induction |
| C13 | segmentation relation `Same s x y` | invariants of the add algorithms |
| C14 | lookup functions | partition-point reasoning on sorted lists |
| C15-C17 | map operations | invariants by induction over histories |
| C18-C21 | map operations | refinement to partial functions key -> value |
| C22 | joined sorted segment lists | uniqueness of the canonical form |
| C23 | container/container operations of maps | fold invariants over the operand |
| C24 | hinted operations | equality/refinement; for maps the equality is refuted for combiners with a non-neutral identity element and the remaining part proved; what hinted `add` computes for all combiners, and exactly when it differs, by the lookup of values |
| C25 | `subset_compare` state machine | invariant on the pair of cursors |
| C26, C27 | derived from refinement + canonical form (+ segmentation) | algebra |
| C28 | `cardinality`, `length`, element iterator | induction |
| C29, C30 | `domain`, `between`, `hull`, `distance`, `assign`, `join`, `absorb_identities` | refinement |
| C31 | `==`, `<` of containers | lexicographic order lemmas |
| C32 | interval functions with checked `++`/`--` (outcome `none`), machine integers `lo..hi` | evaluation succeeds and equals the ideal result; exact failure conditions; for containers the sum over disjoint segments, modulo the values of `std::size_t` or checked |
| C33 | `icl::map` | refinement to partial functions key -> value, invariants over histories |
| C34 | interval containers against `icl::set` and `icl::map` (SimSpec: pairs of programs) | one simulation step per operation, induction over programs; the observers agree; counterexamples for the excluded functors and operands |
| C38 | sets of elements, comparison of element containers | refinement, invariant on the pair of cursors |
| C37 | maps of sets, as sets of pairs | refinement + canonical form |
| C39 | the mutating functions with the points where they can be left by an exception (`Run`), histories with such exits | invariants over the runs; upper and lower bounds for what is left behind; counterexamples to the strong guarantee |
| C40 | loops over the nodes of the object that they change; an iterator is a node, which may have been erased (outcome `dangling`) | induction over the loops: each round finds its own node, and the nodes still to be visited survive; counterexamples for maps |
| C41 | the functions of the containers in terms of nodes with addresses and iterators, as a state monad in which every use of an iterator to an erased node fails | simulation: each function succeeds whenever the function on sequences does, with the same sequence; frame lemmas about the nodes that are kept; induction over histories |
| C42 | borders as places in the domain (`BorderSpec.lean`); programs that pass intervals of a list only | a container fits a list of intervals if it nowhere separates or ends except where the list does; every operation keeps that; counting of borders and lower borders |
| C43 | the functions of C41 once more in a monad that counts searches, hinted insertions, steps, and erased and allocated nodes | the counting functions do what those of C41 do; bounds by composition of the bounds of the statements; loops by induction over the overlapped segments; amortization by the balance of nodes; for containers as operands: a segment of the operand overlaps one segment more than it has borders of the object inside (C42 keeps other borders out), and no border is inside of two segments of the operand |
| C44 | `first`, `last`, `lower`, `upper` of the first and last segment, with the values returned for empty containers | the segments of a well-formed container are ordered, so bounds of the outer ones bound all |
| C45 | `erase_if` as filter; `add_if` as a loop with fuel, because it need not end | filter keeps order; induction over the source, and an invariant (a failing segment is still ahead) for the loop that never ends |
| C46 | `detail/interval_morphism.hpp`: loops over segments and, with fuel, over the elements of a segment | the element loop equals a fold over the elements of the interval (`ElementsOf`); content of folds by induction; round trips by uniqueness of ordered enumerations |
| C47 | `Model/Program.lean`: a store of container variables, one step per call (aliased operands, rvalues, moves and swaps included), adaptive clients; `ProgSpec.lean`: the same steps on predicates and partial functions | simulation: every step keeps the relation "well-formed container with this content"; induction over the number of steps |
| C48 | `Model/Overlap.lean`: series of additions, with or without hints, and of subtractions, as the example programs do them; `OverlapSpec.lean`: the values over a key, in order | induction over the series with C18, C19; for the segmentation of split maps induction with C13; the examples by computing the folds |
| C49 | `Model/LargeBitset.lean`: the class over machine words of `n` bits (`BitVec n`) and an unsigned domain of `N` bits with wrap-around; `BitsetSpec.lean`: the set of numbers it stands for | bit masks by arithmetic on powers of two; `segment_apply` for an arbitrary combiner, by comparing chunk numbers and remainders; the map operations by C18, C19, C23; `==` by C22; the size by C42 |
| C50 | `Model/ElementRef.lean`: the operators of `mapped_reference`, and the objects of type `element_iterator` with their member `_inter_pos`, to which references refer; `RefSpec.lean`: the order of pairs | cases; induction over programs, with the invariant that iterators have valid positions |
| C51 | `Model/Overload.lean`: types as terms, the traits of is_combinable.hpp, the candidates of every operator and function with their conditions, template argument deduction and the choice of the best candidate; `OverloadSpec.lean`: the overload tables of the documentation, copied | each condition is proved equivalent to a description of the types; conditions exclude each other because a type is no part of itself; then cases over placeholders |
| C52 | `Model/Stream.lean`: the text that each `operator <<` writes; `StreamSpec.lean`: what it means that a text can be read | texts are shown to be uniquely readable whatever follows, by induction over the segments; integers by uniqueness of decimal digits |
| C53 | `Model/CostQuery.lean`: the queries once more, with a count of searches and steps; `QuerySpec.lean`: `Answers` | the counted query yields what the query yields; bounds by induction over the run of overlapped segments, or over the rounds of the comparison |
| C54 | `Model/SetExpr.lean`, `Model/MapExpr.lean`: expressions, with the choice of the overload; `InfixSpec.lean`: `copying`, `mapCopying` | induction over the expression: both evaluations have the same elements and the same borders |
| C55 | `Model/CostInter.lean`, `Model/CostFlip.lean`: `add_intersection`, `&=`, `intersects`, `flip`, `^=` with counters, on temporary containers; `InterSpec.lean`: `Rebuilds`, `Yields`, `Tests` | the parts come in ascending order, so that hinted insertions succeed; the number of parts is bounded by the borders inside of the segments of the operand |
| C56 | models of C33 (`icl::set`, `icl::map`) | the value of a result at a key is computed from the values of the operands (`EV`); laws on `Option V` lift to `==`, because lists in ascending order are determined by their content |
| C57 | models of C25, C38 (comparisons), C08-C11, C37 (operators) | each call is equivalent to a statement about elements or pairs (C25, C38, C37); the laws then hold elementwise |
| C58 | `Model/Aggregate` (functors by name, `inverse`, `MapType.inserting`), models of C18-C21, C33 | case analysis over the functors with witnesses for the failing laws; keywise effect of add/insert, subtract/erase (C18-C21) and uniqueness of joined maps (C31) |
| C59 | `Model/Search` (descent in a binary tree with the asserting comparator; insertion with and without hint) | induction over the tree with the invariant that the nodes split into those before, overlapping and behind the key; uniqueness of the split |
| C60 | `Model/Nest` (interval sets and joining interval maps modulo `==` as values of maps), `NestSpec` (values that are sets) | the algebra of C37 for abstract sets; closure of its hypotheses, and of those of C27, under the map construction |
| C61 | `Kinds/Custom` (the functions of concept/interval.hpp in terms of `construct`, `lower`, `upper` and the default constructor), `CustomSpec` (requirements in terms of elements) | comparisons equal those of the class of the library with the same bounds, and results hold the same elements (`Sim`); lawfulness is inherited |
| C62 | histories of `Model/SetHistory`, `Model/MapHistory`; `TwinSpec` (pairs of runs) | each operation is determined by the elements of its operands: the specifications of all operations (`AddSpec`, `Pt`, ...) mention elements only, and segments are determined by which elements are together (`forall2_of_same`); for split maps `Theory/TwinSeg` relates the segments operation by operation (`UpdSpec`, `InsSpec`, `EraSpec` state which elements are together afterwards) |
| C63 | `Kinds/Weak.lean` (the interval classes over values with keys), element functions in `Kinds/Classes.lean`; `WeakSpec` (strict weak orderings) | `WeakClass.iso`: taking keys of the bounds commutes with all interval functions; hence `Sim`, hence `Lawful`; programs by C62; keys exist: antisymmetrization of the preorder |
| C64 | `Weak.continuousOps` with keys in a dense order, `Weak.dynSingleton` for the keys that have a value; `DenseSpec` (values between bounds) | embedding of the keys into `D ×ₗ ℚ`; the theorems on all interval classes, at keys; counterexamples over whole numbers |
| C65 | `addSegR`, `addHintR`, `subSegR`, `addMapR`, `subMapR`, `addInterSegR`, `addInterMapR`, `flipSegR`, `flipPartialMapR`, `flipTotalMapR`, `flipTotalSegR`, `ValueOp`: the algorithms with a check after each application of a functor; `OverflowSpec` (`Fits`) | each step equals the step without checks guarded by what it computes; what an operation computes is what it stores or absorbs (`allR_upd`); loops over disjoint segments store values of the first or the last map only; induction over programs; `&=` and `^=` of partial maps add to gaps only |
| C66 | `selectExpr`: evaluate the expression, then `operator()`; `PointSpec` (`pointwise`): look up the key in the leaves, then evaluate | the effect of each operator at one key (C27, C28) read through `getD ident`; induction over the expression; uniqueness of joined maps for the equalities |
| C67 | `LawSpec` (`Term`: terms with variables, their truth value, their value at one key, their instances) | elements of the value of a term by induction with the operators of C26 and C66; for the converse a one-interval container for each true variable |
| C68 | `StepSpec` (`Neighbours`, `Should`: what a sequence of additions and subtractions prescribes; `Lacks`, `Holds`) | the same code without the laws of `++` (`Kinds/Raw.lean`, equal by `rfl` to the code of C01); from the requirement by C08, C09; for the converse an open interval with a value inside that counts as empty, and a value that cannot be removed |
| C69 | `SizeSpec` (`tally`: adding ones; `HasSize`, `Numberless`) | the loop with values of the type of sizes follows the loop with values in `ℕ∞` of C28; for the converse a set of `n` points |
| C70 | `ElementLawSpec` (`Term.ofElements`, `PointOps.partialNumbers`) | elements and values of a term by induction with the operators of C56; for the converse `{x}` or `{(x, v)}` for each variable |
| C71 | `IntervalFnSpec` (`usable`: one line per function; `documented`, `noEnd`, `Fits`, `WellTraited`) | the candidates of every function with conditions and bodies; the table is a fixed point of one step, and calls are well-founded, so it is the least one; then cases over the finitely many kinds of types |
| C72 | `KeepSpec` (`either`, `leftwise`, `jointly`, `PointOps.kept…`, `Term.occurs`, `Term.covers`) | what the operators do with one key, by cases over missing and present values; induction over the term; `==` of joined maps is equality of the optional values; keys and values of a term separate where a missing key acts as the identity element |
| C35, C36 | bounds, singleton, construct | exhaustive on the finite bound codes, order reasoning on values |

## 3. Trusted base

Lean's kernel; the axioms `propext`, `Classical.choice`, `Quot.sound`; the reading of the C++ code; and the
algorithms of `std::set`/`std::map`: that they keep a binary search tree and descend in it as `Model/Search.lean` says
(C59 derives from this what the other models assume of them).

Every theorem of `Verif/Props` depends on no other axioms (`#print axioms`); there is no `sorry`, no `native_decide`
and no axiom of our own.

## 4. What is modelled, and where

| code | model |
|------|-------|
| `interval_bounds.hpp`, `concept/interval_bounds.hpp` | `Bounds.lean` |
| `concept/interval.hpp`, `interval.hpp`, the six class headers | `Kinds/Static.lean`, `Kinds/Dynamic.lean`, `Kinds/Classes.lean`, `Ops.lean` |
| the same with checks for overflow; `cardinality`, `distance` of machine integers | `Model/Checked.lean`, `Model/Machine.lean` |
| `interval_base_set.hpp`, `interval_set.hpp`, `separate_interval_set.hpp`, `split_interval_set.hpp`, `detail/interval_set_algo.hpp` | `Model/Seg.lean`, `Model/Set.lean` |
| `concept/interval_set.hpp`, `concept/interval_associator.hpp`, `concept/interval_associator_base.hpp`, set part | `Model/SetFun.lean`, `Model/SetExpr.lean` |
| `interval_base_map.hpp`, `interval_map.hpp`, `split_interval_map.hpp` | `Model/Map.lean`, `Model/Functors.lean` |
| `concept/interval_map.hpp`, `concept/interval_associator.hpp`, map part | `Model/MapFun.lean`, `Model/MapExpr.lean`, `Model/MapQuery.lean` |
| `functors.hpp`, `type_traits/*` as far as they select functors and algorithms | `Model/Functors.lean`, `Model/Aggregate.lean` |
| `detail/interval_subset_comparer.hpp`, `concept/comparable.hpp` | `Model/Compare.lean` |
| cardinality, length, distance, `detail/element_iterator.hpp` | `Model/Observers.lean` |
| conditions and bodies of `concept/interval.hpp`, `type_traits/is_interval.hpp`, `type_traits/is_*_interval.hpp` as to what compiles | `Model/IntervalFn.lean` |
| `map.hpp`, `set.hpp`, `concept/element_set.hpp`, `concept/element_map.hpp`, `concept/element_associator.hpp`, `detail/set_algo.hpp`, `detail/map_algo.hpp`, `detail/subset_comparer.hpp` | `Model/ElementMap.lean`, `Model/ElementExpr.lean` |
| the same functions with exceptions of allocations, functors and predicates | `Model/Throw.lean` |
| `+=`, `-=`, `^=`, `insert`, `erase` with the object itself as operand, `set` with an own segment | `Model/Alias.lean` |
| the mutating functions with their iterators, and the add and insert iterators of `iterator.hpp` | `Model/Tree.lean`, `Model/TreeSet.lean`, `Model/TreeMap.lean`, `Model/TreeFun.lean` |
| what these functions cost, as documented in concept/interval_associator.hpp:282-300, 316, 453-472, 648-667 | `Model/Cost.lean`, `Model/CostFun.lean` |
| concept/interval_associator.hpp:221-268 (`lower`, `upper`, `first`, `last`), concept/interval_map.hpp:620-640 (`add_if`) | `Model/Extremes.lean` |
| detail/interval_morphism.hpp | `Model/Morphism.lean` |
| programs over several containers: moves, swaps, operators with lvalues and rvalues | `Model/Program.lean` |
| example/ (loops that fill interval maps), iterator.hpp: `adder` | `Model/Overlap.lean` |
| example/large_bitset_/ large_bitset.hpp, bits.hpp, meta_log.hpp | `Model/LargeBitset.lean` |
| detail/mapped_reference.hpp, detail/element_iterator.hpp (`_inter_pos`) | `Model/ElementRef.lean` |
| type_traits/is_combinable.hpp, the conditions of the templates in concept/interval_associator.hpp, concept/interval_set.hpp, concept/interval_map.hpp | `Model/Overload.lean` |
| `operator <<` in concept/interval_bounds.hpp, interval.hpp, interval_set.hpp, interval_map.hpp, element_set.hpp, element_map.hpp; type_traits/to_string.hpp | `Model/Stream.lean` |
| costs of the queries in concept/interval_associator_base.hpp, interval_set.hpp, interval_map.hpp, interval_associator.hpp, detail/interval_subset_comparer.hpp | `Model/CostQuery.lean` |
| costs of `add_intersection`, `&=`, `intersects`, `disjoint`, `^=` of sets (concept/interval_associator.hpp:747-965, concept/interval_set.hpp:171-292, concept/interval_map.hpp:324-424) | `Model/CostInter.lean` |
| searches and insertions of `std::set`/`std::map` in trees of any shape | `Model/Search.lean` |
| interval sets and interval maps as values of maps | `Model/Nest.lean` |
| `add`, `subtract`, `+=`, `-=` for values of a bounded type | `Model/Overflow.lean` |
| `concept/interval.hpp` for types with any `++` and `--`; type_traits/is_discrete.hpp, interval_type_default.hpp | `Kinds/Raw.lean`, `Model/Traits.lean` |
| concept/interval.hpp, concept/interval_associator.hpp: `cardinality` over continuous domains; type_traits/infinity.hpp, size_type_of.hpp | `Model/SizeType.lean` |
| histories of calls | `Model/SetHistory.lean`, `Model/MapHistory.lean`, `Model/ElementHistory.lean` |

## 5. Simplifications

* The red-black tree of `std::set`/`std::map` is a list in iteration order, except in `Model/Search.lean`.  `lower_bound`,
  `upper_bound`, `equal_range`, `insert` and hinted `insert` are defined by their standard specification, although the
  comparator is no strict weak order; C59 proves them for the descent in trees of every shape.  The comparator asserts that
  its operands are non-empty; the list models check this for every node of the container, although the tree compares with
  some of them only.  As the nodes are non-empty this makes no difference (C59).
* Iterators are positions, except in `Model/Tree*.lean` (C41), where nodes have addresses that are never used again; the theorems of C41 show
  that both models agree, so that no function depends on the simplification.  A hint is any position; the containers behave the same for each of them up to the place
  where equal keys are searched.  In container/container operations the hints that the loops pass on are given by an
  arbitrary `oracle`; all theorems hold for every oracle.
* A failed `BOOST_ASSERT` and an invalid iterator access are the outcome `none`; theorems with `some` state that no
  assertion fails.
* Loops without structural recursion run on fuel; exhausted fuel is `none`, so the theorems include termination.
* Domains are linear orders with or without end points, or are strictly weakly ordered (C63; for `icl::set`, `icl::map` and lengths: linear orders only); `++` and `--` of the greatest and the least value are left open, and
  `touches` in the containers, and all interval functions in `Model/Checked.lean`, fail when they evaluate these.  Sizes and differences are
  unbounded except in `Model/Machine.lean`, codomain values are unbounded except in `Model/Overflow.lean`; no rounding, no NaN.  Copying values, comparing keys and combining values have no side effects and, except in
  `Model/Throw.lean`, do not throw.
* Operands are distinct objects, except in `Model/Alias.lean` (C40) and `Model/Program.lean` (C47).  There, functors may be called with a reference to the value that they
  change, and yield what they yield with a copy.  `&=` builds its result in a third object, so that `a &= a` needs no model of its own.
* In `Model/Throw.lean` the exceptions come from the allocation of a node (with the copy of a value into it), from a functor that
  combines values, which may leave any value behind, and from the predicate of `erase_if`; comparing, copying of keys, erasing of nodes and swapping do not throw.
* In `Model/Cost*.lean` (C43) every call of the `std::set` or `std::map` counts according to its standard complexity: a search is O(log n), a hinted insertion
  at most that, a step amortized constant.  Interval functions and functors are not counted; there is a bounded number of them between
  two counted operations.  `equal_range` in the assertions is not counted.
* Copying, moving and swapping are modelled in `Model/Program.lean` only.  Of streams only the text they receive is modelled,
  not width, locale or failure; the conversion functions for diagnostics are not modelled.
* Containers that are values of maps (C60) are taken modulo `==`; a map only copies, combines and compares its values, so that it
  cannot tell apart values that are `==`.

## 6. Not modelled

`interval_set` etc. over `boost::date_time` and `boost::chrono` types (`gregorian.hpp`, `ptime.hpp`), `rational.hpp`, `impl_config.hpp`,
`dynamic_interval_traits` beyond its construction function, `discrete_interval`/`continuous_interval` with infinite end points,
the deprecated functions, `is_element_less`/`is_element_greater` (they do not compile for any container), `detail/design_config.hpp`,
`predicates/*` and `detail/element_comparer.hpp`, compile-time
concept checks.

## 7. Where code and property disagree

Each entry is proved as a theorem about the model (a counterexample); the theorem for the property carries the precondition
that excludes it, or is marked partial in the manifest.

* `set ^= interval()` (flip with an empty interval) on a non-empty set trips the assertion of the comparator: `C11_flip_empty`; the same
  for partial maps: `C15_flip_empty`.
* `operator <` of intervals is no strict weak order when empty intervals take part: `C05_empty_counterexample`.
* `closed_interval<T, std::greater>`: the default constructed interval is not empty: `C01_closed_greater_counterexample`; the static
  construction functions shift bounds in the wrong direction for `std::greater` (C36).
* `left_subtract_bounds`, `right_subtract_bounds`: C35.
* A user's interval class whose default constructor yields a non-empty interval, such as the documented `MyInterval` with the bound type
  `static_closed`, gives containers with wrong elements: `C61_counterexample_default`; so does one whose `construct` orders its
  arguments: `C61_counterexample_construct`. Neither requirement is documented.
* Hinted `add` of maps stores `Combine(identity, v)` where plain `add` stores `v`: `C24_counterexample`; consequences:
  `C17_counterexample` (identity elements enter an absorbing map), `C30_counterexample` (assignment between map classes changes values).
  Exactly when this shows: `C24_add_hint_exact`, `C17_no_identity_exact`, `C30_assign_map_exact`.
* `operator + (const Map&, Map&&)` adds the left operand to the right one, so for values whose combination does not commute the
  documented monoid law fails: `C27_counterexample_monoid`.
* Values of a bounded type (C65): `subtract` and `-=` on a total map whose values have inverses compute `-v` even if all keys are in the
  map, so subtracting the least value of a signed type overflows although all differences fit. `^=` on a total map that keeps identity
  elements computes all sums and then overwrites them, so it overflows although all results are the identity element:
  `C65_flip_overflow`.
* Machine integers (C32): `touches(i, j)` is wrong or overflows if the greatest value is in `i` (closed, discrete intervals); the
  greatest value cannot be added to containers of right open intervals, and with wrap-around the addition is silently dropped; `contains` and
  `==` of empty intervals go wrong at the ends of the range; `cardinality` of all values of an unsigned type is 0: `C32_counterexample_*`.
* A class with `++` counts as discrete whatever `++` does; over fractions an `interval_set` with the elements 0 and 1 contains one half:
  `C68_counterexample_fractions`.
* `cardinality` over continuous domains: with `std::size_t` a finite set of `2^w - 1` points has the cardinality `infinity`
  (`C69_counterexample_unsigned`); with a `difference_type` that is a plain class infinite sets have cardinality zero
  (`C69_counterexample_difference`).
* The documentation lists `first` and `last` for all intervals; continuous intervals have neither, and half open ones over continuous
  domains only the closed end. `hull` of two values needs `++` or `--`, so it does not compile for half open intervals of strings:
  `C71_documented`, `C71_continuous`.
* Limits of documented laws: `C26_distributivity_add_inter_splitting_counterexample`, `C27_counterexample_*`, `C37_counterexample_*`.
* `cardinality` with `std::greater` is negative before its conversion to an unsigned type: `C28_greater_counterexample`.

* `icl::map`: `m[x] = v` and the constructor from a range store identity elements in absorbing maps: `C33_counterexample_identity`; `add` with a hint
  combines with the identity element: `C33_counterexample_hint`; `intersects(map, map)` ignores the values: `C33_counterexample_intersects`.
* Laws on `icl::map`: after `m[x] = 0` in an absorbing map `+` is not commutative (`C56_counterexample_identity`); with a combination for which the
  identity element is not neutral, as in maps of maxima, `M()` is not neutral (`C56_counterexample_neutral`).
* `within(a, b)` of `icl::map` compares sets as values by equality, `inclusion_compare` of the same maps and `within` of interval maps by
  inclusion: `C57_counterexample_element_map`.
* `inverse<inplace_identity>` is `inplace_erasure`, but `inverse<inplace_erasure>` is `inplace_erasure` again
  (`C58_inverse_involution`); `inplace_star` has the identity element 0 instead of the documented 1 (`C58_neutral`). With
  `Combine = inplace_identity`, `m += n` loses the values of `n` (`C58_counterexample_map`), and `-=` of a total map inserts
  (`C58_counterexample_total`).
* Interval containers and containers of elements differ: `subtract` of `icl::map` applies the functor to identity elements, interval maps
  ignore them (`C34_counterexample_maxima`); flip with an identity element (`C34_counterexample_flip_identity`), flip of a total map with an
  empty interval, which clears it (`C34_counterexample_flip_empty`), `intersects` of two maps (`C34_counterexample_intersects`).
* After an exception (C39): `split_interval_set::add` and `subtract` of all sets may have lost elements that are not in the operand
  (`C39_counterexample_split_add`, `C39_counterexample_subtract`), `set` of a map has lost the old values (`C39_counterexample_set`), an
  `interval_map` need not be joined (`C39_counterexample_joined`) and may hold identity elements (`C39_counterexample_identity`).
* The operand is the object itself (C40): `m += m` of an `interval_map` can skip segments and yield a wrong map (`C40_counterexample_add`); `m -= m`
  of a map with default traits goes on with an invalid iterator (`C40_counterexample_subtract`, `C40_counterexample_subtract_join`), and so can
  `m ^= m` of maps that do not absorb identities (`C40_counterexample_flip`); `m.set(*it)` inserts a segment that it has erased
  (`C40_counterexample_set`); `a.assign(a)`, `domain(a, a)` and `between(a, a)` lose the content (`C40_counterexample_assign`).

* The documented complexity `O(m log(n+m))` of operators with containers as operands (concept/interval_associator.hpp:460 and 655) fails for
  `split_interval_set`: one segment over `n` segments makes `+=` allocate `n` nodes (`C43_counterexample_split_set_union`).
* `add_if` on interval maps does not return if its predicate is false for a segment: `C45_counterexample_add_if`.
* `segmental::atomize` does not return if an interval contains the greatest value of its type: `C46_counterexample_atomize`.
* `large_bitset &= interval` removes everything if the interval spreads over more than one chunk, and nothing if the interval is empty:
  `C49_counterexample_intersect`, `C49_intersect_wide`, `C49_intersect_empty`; `C49_intersect_exact` says exactly when the result is right.
* The references that element iterators of maps give refer to a member of the iterator: they change when the iterator is dereferenced
  elsewhere, so that they may denote a pair that is not in the map, and after `*it++` they dangle: `C50_counterexample_moved`,
  `C50_counterexample_postincrement`.
* `contains(m, s)` and `within(s, m)` for a total interval map `m` and an interval set `s` are documented but do not compile:
  `C51_counterexample_contains`. `intersects(m, *it)` and `disjoint(m, *it)` do not compile for an iterator `it` of a map:
  `C51_counterexample_intersects`. `+`, `|`, `&`, `^` do not compile for two containers of equal fineness that differ in traits or
  allocators, although `+=`, `|=`, `&=`, `^=` and `-` do: `C51_counterexample_options`.
* Texts of interval maps to strings are ambiguous, because strings are written as they are: `C52_counterexample_strings`.
* doc/functions_containedness.qbk:98-118 promises `O(m log n)` for `contains(super, sub)`. The comparison advances through `super` node by node once it is in a gap of `sub`: `C53_counterexample_contains`.
* The same table promises `O(log n)` for `contains(m, k)` with an `interval_map` and an interval. The loop looks at all neighbours that touch, and in an `interval_map` they may if their values differ: `C53_counterexample_map_contains_interval`.
* `a + std::move(b)` computes `b += a` (concept/interval_associator.hpp:429-434, likewise for `|`, `&`, `^`). If combining values depends on their order, as for strings, the result differs from `a + b`: `C54_counterexample_strings`; `C54_maps_exact` says exactly for which functors it can.
* The tables of `&=` promise `O(m log(n + m))` for containers and `O(log n)` for elements (doc/functions_intersection.qbk:163-170). But `&=` builds a new container and destroys the old one: with a single segment as the operand, it may allocate `n` nodes and erase `n` (`C55_counterexample_intersection`), and with an element it erases `n` (`C55_counterexample_intersection_element`). `intersects` adds the whole intersection with one segment of the operand to a temporary container before it looks whether that is empty: `C55_counterexample_intersects`. `^=` is promised in `O(m log(n + m))` too (doc/functions_symmetric_difference.qbk), but one segment may erase `n`: `C55_counterexample_symmetric_difference`; and `flip` of an element in `O(log n)`, while a total map that absorbs identities is cleared: `C55_counterexample_map_flip`.

Observed in the source, without a theorem: of the functions on element containers `set`/`set_at`, `erase_if`, `absorb_identities`,
`assign_if`, `disjoint` and `insert(first, last)` do not compile (or return nothing); `m += m` on one object does nothing; `add_if` has the loop of C45
(`concept/interval_associator.hpp`, `concept/element_associator.hpp`); `Set::within` of `detail/set_algo.hpp` is wrong but unused;
`unit_trail` of `left_open_interval<double>` uses `numeric_limits<double>::min()` as the least value, and so asserts for arguments below it.
* doc/semantics.qbk:730-734 concludes that a `TotalQuantifier` of `TotalQuantifiers` is a `TotalQuantifier`, with inverses. But `has_inverse` (type_traits/has_inverse.hpp:17-23) holds for built-in numbers only, so that `M() - a` is empty for such maps: `C60_counterexample_group`, `C60_no_inverse`.

## 8. Reading `seeded/LOG.jsonl`

Each line is one change of a definition (in some cases of a specification) in a scratch copy, followed by a build up to the theorems of the
claim. The build stops at the first file with an error. `failed` are the property theorems with an error in that file,
`first_failing_declarations` all declarations with an error in it. An empty `failed` beside a lemma means that the build did not reach the
property theorem: it has lost its proof, which alone does not show that it is false of the changed program. Where this was settled by a
concrete run, `remark` says so. Lines with nothing in either list were changes that no theorem noticed at first; `tightened` or `remark`
says what was done.

A known weakness of the log: an edit that leaves a parameter such as the bound `R` unused changes the type of the definition, so that
theorems fail only because they no longer typecheck. One such line, for `IMap.flipTotalMapR`, was found and replaced by a run with an edit
that keeps the type. The other lines have not all been checked for this.
