{
 "claims": [
  {
   "property": "C01",
   "status": "proved",
   "theorems": [
    "ICL.Props.C01_contains_right_open",
    "ICL.Props.C01_contains_left_open",
    "ICL.Props.C01_contains_right_open_discrete",
    "ICL.Props.C01_contains_left_open_discrete",
    "ICL.Props.C01_contains_closed",
    "ICL.Props.C01_contains_open",
    "ICL.Props.C01_contains_discrete",
    "ICL.Props.C01_in_discrete",
    "ICL.Props.C01_contains_element",
    "ICL.Props.C01_contains_element_unbounded",
    "ICL.Props.C01_contains_continuous",
    "ICL.Props.C01_isEmpty",
    "ICL.Props.C01_contains_interval",
    "ICL.Props.C01_within",
    "ICL.Props.C01_eq",
    "ICL.Props.C01_empty",
    "ICL.Props.C01_contains_interval_unbounded",
    "ICL.Props.C01_within_unbounded",
    "ICL.Props.C01_eq_unbounded",
    "ICL.Props.C01_convex",
    "ICL.Props.C01_closed_greater_counterexample"
   ],
   "note": "closed_interval with std::greater has a non-empty default interval: C01_closed_greater_counterexample; excluded from IntervalClass."
  },
  {
   "property": "C02",
   "status": "proved",
   "theorems": [
    "ICL.Props.C02_intersection",
    "ICL.Props.C02_right_subtract",
    "ICL.Props.C02_left_subtract",
    "ICL.Props.C02_partition",
    "ICL.Props.C02_subtract_empty",
    "ICL.Props.C02_closed_greater_counterexample"
   ],
   "note": ""
  },
  {
   "property": "C03",
   "status": "proved",
   "theorems": [
    "ICL.Props.C03_hull",
    "ICL.Props.C03_hull_least",
    "ICL.Props.C03_hull_least_unbounded",
    "ICL.Props.C03_hull_empty"
   ],
   "note": ""
  },
  {
   "property": "C04",
   "status": "proved",
   "theorems": [
    "ICL.Props.C04_exclusive_less",
    "ICL.Props.C04_comparator",
    "ICL.Props.C04_touches",
    "ICL.Props.C04_touches_unbounded",
    "ICL.Props.C04_disjoint",
    "ICL.Props.C04_intersects",
    "ICL.Props.C04_inner_complement",
    "ICL.Props.C04_inner_complement_empty"
   ],
   "note": ""
  },
  {
   "property": "C05",
   "status": "partial",
   "theorems": [
    "ICL.Props.C05_less",
    "ICL.Props.C05_irrefl",
    "ICL.Props.C05_trans",
    "ICL.Props.C05_incomparable_partial",
    "ICL.Props.C05_empty_counterexample",
    "ICL.Props.C05_empty_incomparable",
    "ICL.Props.C05_lessEq",
    "ICL.Props.C05_greaterEq",
    "ICL.Props.C05_lessEq_empty",
    "ICL.Props.C05_incomparable_all",
    "ICL.Props.C05_incomparable_exact"
   ],
   "note": "Irreflexivity and transitivity hold for all intervals. Incomparability equals == for non-empty intervals; with empty intervals it is false of the code (C05_empty_counterexample). C05_incomparable_all says what incomparability is for all intervals, C05_incomparable_exact for which pairs the claim holds."
  },
  {
   "property": "C06",
   "status": "proved",
   "theorems": [
    "ICL.Props.C06_well_formed",
    "ICL.Props.C06_no_failure",
    "ICL.Props.C06_no_failure2"
   ],
   "note": ""
  },
  {
   "property": "C07",
   "status": "proved",
   "theorems": [
    "ICL.Props.C07_fully_joined"
   ],
   "note": ""
  },
  {
   "property": "C08",
   "status": "proved",
   "theorems": [
    "ICL.Props.C08_add",
    "ICL.Props.C08_add_hint",
    "ICL.Props.C08_add_element",
    "ICL.Props.C08_union"
   ],
   "note": ""
  },
  {
   "property": "C09",
   "status": "proved",
   "theorems": [
    "ICL.Props.C09_subtract",
    "ICL.Props.C09_subtract_element",
    "ICL.Props.C09_difference"
   ],
   "note": ""
  },
  {
   "property": "C10",
   "status": "proved",
   "theorems": [
    "ICL.Props.C10_intersection_interval",
    "ICL.Props.C10_intersection_element",
    "ICL.Props.C10_intersection",
    "ICL.Props.C10_intersects",
    "ICL.Props.C10_intersects_interval"
   ],
   "note": ""
  },
  {
   "property": "C11",
   "status": "proved",
   "theorems": [
    "ICL.Props.C11_flip",
    "ICL.Props.C11_flip_empty",
    "ICL.Props.C11_flip_element",
    "ICL.Props.C11_symmetric_difference"
   ],
   "note": "flip with an empty interval operand on a non-empty set trips an assertion: C11_flip_empty."
  },
  {
   "property": "C12",
   "status": "proved",
   "theorems": [
    "ICL.Props.C12_canonical",
    "ICL.Props.C12_order_irrelevant"
   ],
   "note": ""
  },
  {
   "property": "C13",
   "status": "proved",
   "theorems": [
    "ICL.Props.C13_split_map_add",
    "ICL.Props.C13_separate_add",
    "ICL.Props.C13_split_add",
    "ICL.Props.C13_joining",
    "ICL.Props.C13_subtract",
    "ICL.Props.C13_intersection",
    "ICL.Props.C13_flip"
   ],
   "note": ""
  },
  {
   "property": "C14",
   "status": "proved",
   "theorems": [
    "ICL.Props.C14_map_find",
    "ICL.Props.C14_select",
    "ICL.Props.C14_map_contains_key",
    "ICL.Props.C14_map_contains_pair",
    "ICL.Props.C14_map_contains_segment",
    "ICL.Props.C14_map_contains_interval",
    "ICL.Props.C14_value_at",
    "ICL.Props.C14_contains_element",
    "ICL.Props.C14_find",
    "ICL.Props.C14_find_interval",
    "ICL.Props.C14_contains_interval"
   ],
   "note": ""
  },
  {
   "property": "C15",
   "status": "proved",
   "theorems": [
    "ICL.Props.C15_well_formed",
    "ICL.Props.C15_no_failure",
    "ICL.Props.C15_no_failure2",
    "ICL.Props.C15_no_failure3",
    "ICL.Props.C15_flip_empty"
   ],
   "note": "flip with an empty interval on a non-empty partial map trips an assertion (C15_flip_empty); excluded by its precondition."
  },
  {
   "property": "C16",
   "status": "proved",
   "theorems": [
    "ICL.Props.C16_fully_joined"
   ],
   "note": ""
  },
  {
   "property": "C17",
   "status": "partial",
   "theorems": [
    "ICL.Props.C17_no_identity_partial",
    "ICL.Props.C17_no_identity_plain",
    "ICL.Props.C17_counterexample",
    "ICL.Props.C17_no_identity_exact"
   ],
   "note": "Proved for all histories when the identity element is neutral for Combine (C17_no_identity_partial), and for all functors on histories without hinted add (C17_no_identity_plain); with inplace_max it is false of the code (C17_counterexample). C17_no_identity_exact names the functors for which it holds, exactly."
  },
  {
   "property": "C18",
   "status": "proved",
   "theorems": [
    "ICL.Props.C18_add",
    "ICL.Props.C18_add_element",
    "ICL.Props.C18_add_numbers"
   ],
   "note": ""
  },
  {
   "property": "C19",
   "status": "proved",
   "theorems": [
    "ICL.Props.C19_subtract",
    "ICL.Props.C19_subtract_element",
    "ICL.Props.C19_subtract_undoes_add"
   ],
   "note": ""
  },
  {
   "property": "C20",
   "status": "proved",
   "theorems": [
    "ICL.Props.C20_insert",
    "ICL.Props.C20_insert_hint",
    "ICL.Props.C20_set",
    "ICL.Props.C20_set_insert_element"
   ],
   "note": ""
  },
  {
   "property": "C21",
   "status": "proved",
   "theorems": [
    "ICL.Props.C21_erase_interval",
    "ICL.Props.C21_erase_segment"
   ],
   "note": ""
  },
  {
   "property": "C22",
   "status": "proved",
   "theorems": [
    "ICL.Props.C22_canonical",
    "ICL.Props.C22_histories"
   ],
   "note": ""
  },
  {
   "property": "C23",
   "status": "proved",
   "theorems": [
    "ICL.Props.C23_add",
    "ICL.Props.C23_subtract",
    "ICL.Props.C23_insert",
    "ICL.Props.C23_erase",
    "ICL.Props.C23_erase_set",
    "ICL.Props.C23_intersect",
    "ICL.Props.C23_intersect_total",
    "ICL.Props.C23_intersect_set",
    "ICL.Props.C23_intersect_interval",
    "ICL.Props.C23_intersect_segment",
    "ICL.Props.C23_intersect_segment_total",
    "ICL.Props.C23_flip",
    "ICL.Props.C23_flip_segment",
    "ICL.Props.C23_flip_segment_total",
    "ICL.Props.C23_flip_total",
    "ICL.Props.C23_intersects_set",
    "ICL.Props.C23_intersects",
    "ICL.Props.C23_in_words",
    "ICL.Props.C23_intersects_segment",
    "ICL.Props.C23_intersects_total"
   ],
   "note": ""
  },
  {
   "property": "C24",
   "status": "partial",
   "theorems": [
    "ICL.Props.C24_insert_hint",
    "ICL.Props.C24_add_hint_partial",
    "ICL.Props.C24_counterexample",
    "ICL.Props.C24_set_hint",
    "ICL.Props.C24_add_hint_values",
    "ICL.Props.C24_add_hint_exact",
    "ICL.Props.C24_add_map_values"
   ],
   "note": "Proved for interval sets and for insert on maps; for hinted add on maps proved when the identity element is neutral for the Combine functor. Otherwise (e.g. inplace_max of signed values) it is false of the code: C24_counterexample. C24_add_hint_values says what hinted add computes for all functors, C24_add_hint_exact for which calls it equals plain add, C24_add_map_values what += of maps computes."
  },
  {
   "property": "C25",
   "status": "proved",
   "theorems": [
    "ICL.Props.C25_inclusion_compare_sets",
    "ICL.Props.C25_is_element_equal_sets",
    "ICL.Props.C25_contains_sets",
    "ICL.Props.C25_within_sets",
    "ICL.Props.C25_inclusion_compare_maps",
    "ICL.Props.C25_is_element_equal_maps",
    "ICL.Props.C25_contains_maps",
    "ICL.Props.C25_inclusion_compare_set_valued",
    "ICL.Props.C25_map_contains_set"
   ],
   "note": "is_element_less and is_element_greater do not compile for any container and are not modelled."
  },
  {
   "property": "C26",
   "status": "proved",
   "theorems": [
    "ICL.Props.C26_reachable",
    "ICL.Props.C26_value",
    "ICL.Props.C26_lex_elem",
    "ICL.Props.C26_distributivity_add_inter_elem",
    "ICL.Props.C26_distributivity_inter_add_elem",
    "ICL.Props.C26_right_distributivity_add_sub_elem",
    "ICL.Props.C26_deMorgan_inter_add_elem",
    "ICL.Props.C26_add_assoc",
    "ICL.Props.C26_add_comm",
    "ICL.Props.C26_add_neutral",
    "ICL.Props.C26_inter_assoc",
    "ICL.Props.C26_inter_comm",
    "ICL.Props.C26_sub_neutral",
    "ICL.Props.C26_sub_inversion",
    "ICL.Props.C26_right_distributivity_inter_sub",
    "ICL.Props.C26_deMorgan_add_inter",
    "ICL.Props.C26_symmetric_difference",
    "ICL.Props.C26_flip_eq",
    "ICL.Props.C26_distributivity_add_inter",
    "ICL.Props.C26_distributivity_inter_add",
    "ICL.Props.C26_right_distributivity_add_sub",
    "ICL.Props.C26_deMorgan_inter_add",
    "ICL.Props.C26_distributivity_add_inter_splitting_counterexample",
    "ICL.Props.C26_deMorgan_inter_add_counterexample"
   ],
   "note": ""
  },
  {
   "property": "C27",
   "status": "proved",
   "theorems": [
    "ICL.Props.C27_reachable",
    "ICL.Props.C27_value",
    "ICL.Props.C27_lex_elem",
    "ICL.Props.C27_elem_lex",
    "ICL.Props.C27_add_neutral",
    "ICL.Props.C27_add_comm",
    "ICL.Props.C27_add_assoc_elem",
    "ICL.Props.C27_add_assoc",
    "ICL.Props.C27_inter_comm",
    "ICL.Props.C27_inter_assoc_elem",
    "ICL.Props.C27_inter_assoc",
    "ICL.Props.C27_sub_neutral",
    "ICL.Props.C27_sub_self",
    "ICL.Props.C27_sub_self_distinct",
    "ICL.Props.C27_symmetric_difference",
    "ICL.Props.C27_inverse",
    "ICL.Props.C27_sub_inverse",
    "ICL.Props.C27_monoid",
    "ICL.Props.C27_flip_comm",
    "ICL.Props.C27_flip_neutral",
    "ICL.Props.C27_counterexample_monoid",
    "ICL.Props.C27_counterexample_add_assoc",
    "ICL.Props.C27_counterexample_inter_assoc",
    "ICL.Props.C27_counterexample_symmetric_difference"
   ],
   "note": "Beyond the statement: intersection, subtraction, symmetric difference, splitting maps and enrichers. C27_counterexample_monoid shows that the documented associativity of operator + fails for values that do not commute (the overload for an lvalue and an rvalue exchanges the operands); += is a monoid (C27_monoid). The other counterexamples delimit the laws."
  },
  {
   "property": "C28",
   "status": "proved",
   "theorems": [
    "ICL.Props.C28_set",
    "ICL.Props.C28_map",
    "ICL.Props.C28_interval",
    "ICL.Props.C28_inclusion_exclusion",
    "ICL.Props.C28_cardinality_elements",
    "ICL.Props.C28_greater_counterexample",
    "ICL.Props.C28_continuous_cardinality_interval",
    "ICL.Props.C28_continuous_cardinality",
    "ICL.Props.C28_continuous_cardinality_map",
    "ICL.Props.C28_continuous_length_interval",
    "ICL.Props.C28_continuous_length_elements",
    "ICL.Props.C28_continuous_length_keys",
    "ICL.Props.C28_continuous_inclusion_exclusion",
    "ICL.Props.C28_iterative_size",
    "ICL.Props.C28_iterative_size_map"
   ],
   "note": "C28_greater_counterexample: with std::greater as order the cardinality of intervals is negative; the theorems are for std::less."
  },
  {
   "property": "C29",
   "status": "proved",
   "theorems": [
    "ICL.Props.C29_map_domain",
    "ICL.Props.C29_map_between",
    "ICL.Props.C29_map_hull",
    "ICL.Props.C29_distance_interval",
    "ICL.Props.C29_distance",
    "ICL.Props.C29_distance_map",
    "ICL.Props.C29_distance_continuous",
    "ICL.Props.C29_distance_interval_continuous",
    "ICL.Props.C29_hull",
    "ICL.Props.C29_between",
    "ICL.Props.C29_domain"
   ],
   "note": "Sets and maps; discrete and continuous domains."
  },
  {
   "property": "C30",
   "status": "partial",
   "theorems": [
    "ICL.Props.C30_assign_split_map",
    "ICL.Props.C30_assign_map_partial",
    "ICL.Props.C30_assign_map_same",
    "ICL.Props.C30_counterexample",
    "ICL.Props.C30_join_map",
    "ICL.Props.C30_absorb_identities",
    "ICL.Props.C30_assign",
    "ICL.Props.C30_join",
    "ICL.Props.C30_assign_map_values",
    "ICL.Props.C30_assign_map_exact"
   ],
   "note": "Interval sets: all. Maps: join, absorb_identities, assignment to split_interval_map for all functors; assignment to interval_map when the identity element is neutral for Combine, otherwise false of the code (C30_counterexample). C30_assign_map_values says what assignment to interval_map computes for all functors, C30_assign_map_exact which maps it keeps."
  },
  {
   "property": "C31",
   "status": "proved",
   "theorems": [
    "ICL.Props.C31_set_eq",
    "ICL.Props.C31_map_eq",
    "ICL.Props.C31_set_eq_equivalence",
    "ICL.Props.C31_map_eq_equivalence",
    "ICL.Props.C31_map_eq_joined",
    "ICL.Props.C31_set_less",
    "ICL.Props.C31_map_less",
    "ICL.Props.C31_distinct_equal",
    "ICL.Props.C31_distinct_equal_segments"
   ],
   "note": ""
  },
  {
   "property": "C32",
   "status": "proved",
   "theorems": [
    "ICL.Props.C32_interval",
    "ICL.Props.C32_order",
    "ICL.Props.C32_nonempty",
    "ICL.Props.C32_touches",
    "ICL.Props.C32_touches_overflow_closed",
    "ICL.Props.C32_touches_overflow_discrete",
    "ICL.Props.C32_touches_half_open",
    "ICL.Props.C32_last_next",
    "ICL.Props.C32_singleton",
    "ICL.Props.C32_singleton_overflow",
    "ICL.Props.C32_hull_elements",
    "ICL.Props.C32_hull_elements_overflow",
    "ICL.Props.C32_steps",
    "ICL.Props.C32_cardinality_signed",
    "ICL.Props.C32_distance_signed",
    "ICL.Props.C32_cardinality_unsigned",
    "ICL.Props.C32_distance_unsigned",
    "ICL.Props.C32_counterexample_touches",
    "ICL.Props.C32_counterexample_add",
    "ICL.Props.C32_counterexample_contains",
    "ICL.Props.C32_counterexample_equal",
    "ICL.Props.C32_counterexample_cardinality",
    "ICL.Props.C32_size_signed",
    "ICL.Props.C32_size_signed_map",
    "ICL.Props.C32_length_signed",
    "ICL.Props.C32_length_signed_map",
    "ICL.Props.C32_size_unsigned",
    "ICL.Props.C32_size_unsigned_map",
    "ICL.Props.C32_length_unsigned",
    "ICL.Props.C32_length_unsigned_map",
    "ICL.Props.C32_counterexample_size"
   ],
   "note": "Container operations: the models of the containers call touches with checks for overflow, and C06_no_failure, C15_no_failure etc. range over all domains with a least and a greatest value. Limits: C32_counterexample_* (touches at MAX, adding MAX to right open sets, contains and == of empty intervals, cardinality of all values). Sizes of containers, which are sums modulo the values of std::size_t: C32_size_*; lengths, sums in the type of the elements: C32_length_*."
  },
  {
   "property": "C33",
   "status": "proved",
   "theorems": [
    "ICL.Props.C33_ascending",
    "ICL.Props.C33_no_identity",
    "ICL.Props.C33_counterexample_identity",
    "ICL.Props.C33_ext",
    "ICL.Props.C33_value_of",
    "ICL.Props.C33_select",
    "ICL.Props.C33_find",
    "ICL.Props.C33_contains_key",
    "ICL.Props.C33_contains_pair",
    "ICL.Props.C33_add",
    "ICL.Props.C33_add_hint",
    "ICL.Props.C33_hint",
    "ICL.Props.C33_counterexample_hint",
    "ICL.Props.C33_subtract",
    "ICL.Props.C33_subtract_undoes_add",
    "ICL.Props.C33_insert",
    "ICL.Props.C33_erase_key",
    "ICL.Props.C33_erase",
    "ICL.Props.C33_bracket",
    "ICL.Props.C33_range",
    "ICL.Props.C33_flip",
    "ICL.Props.C33_flip_total",
    "ICL.Props.C33_intersect_pair",
    "ICL.Props.C33_intersect_pair_total",
    "ICL.Props.C33_intersect_key",
    "ICL.Props.C33_intersects_pair",
    "ICL.Props.C33_add_map",
    "ICL.Props.C33_subtract_map",
    "ICL.Props.C33_insert_map",
    "ICL.Props.C33_erase_map",
    "ICL.Props.C33_intersect_map",
    "ICL.Props.C33_intersect_map_total",
    "ICL.Props.C33_flip_map",
    "ICL.Props.C33_flip_map_total",
    "ICL.Props.C33_intersects_map",
    "ICL.Props.C33_counterexample_intersects",
    "ICL.Props.C33_erase_set",
    "ICL.Props.C33_subtract_set",
    "ICL.Props.C33_intersect_set",
    "ICL.Props.C33_intersects_set",
    "ICL.Props.C33_intersects_total",
    "ICL.Props.C33_domain"
   ],
   "note": "operator[] and the range constructor let absorbing maps store identity elements (C33_counterexample_identity), as the statement excepts. set/set_at, erase_if, absorb_identities and insert(first,last) of element maps do not compile and are not modelled."
  },
  {
   "property": "C34",
   "status": "proved",
   "theorems": [
    "ICL.Props.C34_set_add",
    "ICL.Props.C34_set_subtract",
    "ICL.Props.C34_set_flip",
    "ICL.Props.C34_set_intersect_interval",
    "ICL.Props.C34_set_union",
    "ICL.Props.C34_set_difference",
    "ICL.Props.C34_set_intersection",
    "ICL.Props.C34_set_symmetric_difference",
    "ICL.Props.C34_sets",
    "ICL.Props.C34_add",
    "ICL.Props.C34_subtract",
    "ICL.Props.C34_insert",
    "ICL.Props.C34_set",
    "ICL.Props.C34_erase",
    "ICL.Props.C34_erase_keys",
    "ICL.Props.C34_flip",
    "ICL.Props.C34_intersect_segment",
    "ICL.Props.C34_intersect_interval",
    "ICL.Props.C34_add_map",
    "ICL.Props.C34_subtract_map",
    "ICL.Props.C34_insert_map",
    "ICL.Props.C34_erase_map",
    "ICL.Props.C34_intersect_map",
    "ICL.Props.C34_flip_map",
    "ICL.Props.C34_erase_set",
    "ICL.Props.C34_intersect_set",
    "ICL.Props.C34_no_identity",
    "ICL.Props.C34_maps",
    "ICL.Props.C34_unique",
    "ICL.Props.C34_select",
    "ICL.Props.C34_contains_key",
    "ICL.Props.C34_contains_pair",
    "ICL.Props.C34_is_element_equal",
    "ICL.Props.C34_equal",
    "ICL.Props.C34_within",
    "ICL.Props.C34_contains_set",
    "ICL.Props.C34_intersects_set",
    "ICL.Props.C34_domain",
    "ICL.Props.C34_set_contains",
    "ICL.Props.C34_set_is_element_equal",
    "ICL.Props.C34_set_equal",
    "ICL.Props.C34_set_inclusion_compare",
    "ICL.Props.C34_set_intersects",
    "ICL.Props.C34_iteration",
    "ICL.Props.C34_set_iteration",
    "ICL.Props.C34_faithful",
    "ICL.Props.C34_counterexample_maxima",
    "ICL.Props.C34_counterexample_flip_identity",
    "ICL.Props.C34_counterexample_flip_empty",
    "ICL.Props.C34_counterexample_intersects"
   ],
   "note": "C34_maps and C34_sets are the statements about whole programs. The exclusions are necessary: C34_counterexample_maxima, _flip_identity, _flip_empty, _intersects."
  },
  {
   "property": "C35",
   "status": "proved",
   "theorems": [
    "ICL.Props.C35_codes",
    "ICL.Props.C35_unary",
    "ICL.Props.C35_binary",
    "ICL.Props.C35_outer",
    "ICL.Props.C35_inner",
    "ICL.Props.C35_left_right_bounds",
    "ICL.Props.C35_subtract_bounds_counterexample"
   ],
   "note": ""
  },
  {
   "property": "C36",
   "status": "proved",
   "theorems": [
    "ICL.Props.C36_singleton",
    "ICL.Props.C36_singleton_exists",
    "ICL.Props.C36_singleton_continuous",
    "ICL.Props.C36_unit_trail",
    "ICL.Props.C36_hull_elements",
    "ICL.Props.C36_first_last",
    "ICL.Props.C36_last_next",
    "ICL.Props.C36_static_construct",
    "ICL.Props.C36_static_construct_greater_counterexample",
    "ICL.Props.C36_construct",
    "ICL.Props.C36_construct_dynamic",
    "ICL.Props.C36_span"
   ],
   "note": ""
  },
  {
   "property": "C37",
   "status": "proved",
   "theorems": [
    "ICL.Props.C37_pairs",
    "ICL.Props.C37_pairs_elem",
    "ICL.Props.C37_add_assoc",
    "ICL.Props.C37_add_neutral",
    "ICL.Props.C37_add_comm",
    "ICL.Props.C37_inter_comm",
    "ICL.Props.C37_inter_assoc",
    "ICL.Props.C37_sub_neutral",
    "ICL.Props.C37_sub_self",
    "ICL.Props.C37_add_inter",
    "ICL.Props.C37_inter_add",
    "ICL.Props.C37_add_sub",
    "ICL.Props.C37_inter_sub",
    "ICL.Props.C37_sub_add",
    "ICL.Props.C37_sub_inter",
    "ICL.Props.C37_symmetric_difference",
    "ICL.Props.C37_flip",
    "ICL.Props.C37_counterexample_inter_add",
    "ICL.Props.C37_counterexample_sub_self"
   ],
   "note": ""
  },
  {
   "property": "C38",
   "status": "proved",
   "theorems": [
    "ICL.Props.C38_ascending",
    "ICL.Props.C38_reachable",
    "ICL.Props.C38_ext",
    "ICL.Props.C38_contains",
    "ICL.Props.C38_element",
    "ICL.Props.C38_set",
    "ICL.Props.C38_intersects",
    "ICL.Props.C38_within",
    "ICL.Props.C38_inclusion_compare",
    "ICL.Props.C38_eq",
    "ICL.Props.C38_less",
    "ICL.Props.C38_within_map",
    "ICL.Props.C38_within_keys",
    "ICL.Props.C38_inclusion_compare_map",
    "ICL.Props.C38_inclusion_compare_set_valued",
    "ICL.Props.C38_eq_map",
    "ICL.Props.C38_less_map",
    "ICL.Props.C38_distinct_equal"
   ],
   "note": ""
  },
  {
   "property": "C39",
   "status": "proved",
   "theorems": [
    "ICL.Props.C39_set_result",
    "ICL.Props.C39_set_invariant",
    "ICL.Props.C39_set_add_strong",
    "ICL.Props.C39_set_add",
    "ICL.Props.C39_counterexample_split_add",
    "ICL.Props.C39_set_subtract",
    "ICL.Props.C39_counterexample_subtract",
    "ICL.Props.C39_set_inter_strong",
    "ICL.Props.C39_set_flip",
    "ICL.Props.C39_set_binary",
    "ICL.Props.C39_map_result",
    "ICL.Props.C39_map_invariant",
    "ICL.Props.C39_map_add",
    "ICL.Props.C39_map_add_hint",
    "ICL.Props.C39_map_subtract",
    "ICL.Props.C39_map_insert",
    "ICL.Props.C39_map_erase",
    "ICL.Props.C39_map_set",
    "ICL.Props.C39_counterexample_set",
    "ICL.Props.C39_map_inter_strong",
    "ICL.Props.C39_map_binary",
    "ICL.Props.C39_map_flip_total",
    "ICL.Props.C39_map_flip",
    "ICL.Props.C39_map_erase_set",
    "ICL.Props.C39_map_erase_if",
    "ICL.Props.C39_counterexample_joined",
    "ICL.Props.C39_counterexample_identity"
   ],
   "note": "Exceptions of comparisons, of copying keys and of erasing are not modelled. The statement contains the guarantees that the code gives; counterexamples show the stronger ones it does not give."
  },
  {
   "property": "C40",
   "status": "partial",
   "theorems": [
    "ICL.Props.C40_set_add_self",
    "ICL.Props.C40_set_subtract_self",
    "ICL.Props.C40_map_insert_self",
    "ICL.Props.C40_map_erase_self",
    "ICL.Props.C40_map_flip_self_partial",
    "ICL.Props.C40_map_add_self_partial",
    "ICL.Props.C40_map_add_self_idempotent",
    "ICL.Props.C40_map_subtract_self_partial",
    "ICL.Props.C40_counterexample_add",
    "ICL.Props.C40_counterexample_subtract",
    "ICL.Props.C40_counterexample_subtract_join",
    "ICL.Props.C40_counterexample_flip",
    "ICL.Props.C40_counterexample_set",
    "ICL.Props.C40_counterexample_assign",
    "ICL.Props.C40_map_add_self_exact",
    "ICL.Props.C40_map_subtract_self_exact"
   ],
   "note": "Proved for interval sets, for insert and erase of maps, and for += of maps with an idempotent functor. For other maps the property fails: m += m is proved if no combination is absorbed and, on interval_map, no segment gets the value of a neighbour; m -= m likewise; C40_map_add_self_exact and C40_map_subtract_self_exact show that these are all maps for which it holds. m ^= m is proved for absorbing partial maps. Counterexamples are proved for the rest."
  },
  {
   "property": "C41",
   "status": "proved",
   "theorems": [
    "ICL.Props.C41_set_add",
    "ICL.Props.C41_set_add_hint",
    "ICL.Props.C41_set_add_stable",
    "ICL.Props.C41_set_subtract",
    "ICL.Props.C41_set_flip",
    "ICL.Props.C41_set_union",
    "ICL.Props.C41_set_difference",
    "ICL.Props.C41_set_join",
    "ICL.Props.C41_set_history",
    "ICL.Props.C41_set_touching_joined",
    "ICL.Props.C41_map_add",
    "ICL.Props.C41_map_add_hint",
    "ICL.Props.C41_map_subtract",
    "ICL.Props.C41_map_insert",
    "ICL.Props.C41_map_insert_hint",
    "ICL.Props.C41_map_erase",
    "ICL.Props.C41_map_flip",
    "ICL.Props.C41_map_union",
    "ICL.Props.C41_map_insert_all",
    "ICL.Props.C41_map_inserter",
    "ICL.Props.C41_map_erase_set",
    "ICL.Props.C41_map_subtract_map",
    "ICL.Props.C41_map_erase_map",
    "ICL.Props.C41_map_join",
    "ICL.Props.C41_map_erase_if",
    "ICL.Props.C41_map_history"
   ],
   "note": "Proved by simulation between a model with addressed nodes and the model on sequences. Iterators stay valid: sharp for sets (C41_set_touching_joined shows that touching segments are lost) and for erasing; for add and insert on joining maps all but the nearest segments on both sides. flip of an empty interval is excluded (see C11, C15)."
  },
  {
   "property": "C42",
   "status": "proved",
   "theorems": [
    "ICL.Props.C42_set_op",
    "ICL.Props.C42_set_op2",
    "ICL.Props.C42_map_op",
    "ICL.Props.C42_map_op2",
    "ICL.Props.C42_map_op3",
    "ICL.Props.C42_map_domain",
    "ICL.Props.C42_map_between",
    "ICL.Props.C42_set_history",
    "ICL.Props.C42_set_history_size",
    "ICL.Props.C42_map_history",
    "ICL.Props.C42_map_history_size",
    "ICL.Props.C42_set_add_size",
    "ICL.Props.C42_set_union_size",
    "ICL.Props.C42_set_subtract_size",
    "ICL.Props.C42_set_op_size",
    "ICL.Props.C42_map_op_size"
   ],
   "note": "All operations of the histories of sets and maps. The size bounds for single operations are reached (examples beside the theorems)."
  },
  {
   "property": "C43",
   "status": "proved",
   "theorems": [
    "ICL.Props.C43_overlapped_size",
    "ICL.Props.C43_overlapped_element",
    "ICL.Props.C43_set_add",
    "ICL.Props.C43_set_add_hint",
    "ICL.Props.C43_set_subtract",
    "ICL.Props.C43_split_set_add",
    "ICL.Props.C43_split_set_add_hint",
    "ICL.Props.C43_set_flip",
    "ICL.Props.C43_set_amortized",
    "ICL.Props.C43_split_set_union",
    "ICL.Props.C43_set_difference",
    "ICL.Props.C43_set_join",
    "ICL.Props.C43_counterexample_split_set_union",
    "ICL.Props.C43_map_add",
    "ICL.Props.C43_map_add_hint",
    "ICL.Props.C43_map_subtract",
    "ICL.Props.C43_map_insert",
    "ICL.Props.C43_map_insert_hint",
    "ICL.Props.C43_map_erase",
    "ICL.Props.C43_map_erase_interval",
    "ICL.Props.C43_map_join",
    "ICL.Props.C43_map_union",
    "ICL.Props.C43_map_insert_all",
    "ICL.Props.C43_map_subtract_map",
    "ICL.Props.C43_map_erase_map",
    "ICL.Props.C43_map_erase_set",
    "ICL.Props.C43_map_erase_if"
   ],
   "note": "Counts of operations of the underlying std container. Comparison functions (linear scans) are not counted. The text of the documentation (logarithmic, linear, loglinear) is proved; the entry O(m log(n+m)) of its table for containers as operands is refuted for split_interval_set by C43_counterexample_split_set_union."
  },
  {
   "property": "C44",
   "status": "proved",
   "theorems": [
    "ICL.Props.C44_set_first",
    "ICL.Props.C44_set_last",
    "ICL.Props.C44_set_first_last",
    "ICL.Props.C44_set_ends",
    "ICL.Props.C44_set_ends_empty",
    "ICL.Props.C44_map_first",
    "ICL.Props.C44_map_last",
    "ICL.Props.C44_map_first_last",
    "ICL.Props.C44_map_ends",
    "ICL.Props.C44_map_ends_empty"
   ],
   "note": "lower and upper for the interval classes that have these functions; first and last for discrete domains."
  },
  {
   "property": "C45",
   "status": "partial",
   "theorems": [
    "ICL.Props.C45_erase_if",
    "ICL.Props.C45_add_if_partial",
    "ICL.Props.C45_counterexample_add_if"
   ],
   "note": "erase_if is proved. add_if is proved where the predicate holds for all segments, for all functors; otherwise the code does not return (C45_counterexample_add_if), so these are all cases."
  },
  {
   "property": "C46",
   "status": "proved",
   "theorems": [
    "ICL.Props.C46_atomize_set",
    "ICL.Props.C46_cluster_set",
    "ICL.Props.C46_atomize_map",
    "ICL.Props.C46_cluster_map",
    "ICL.Props.C46_joiner_set",
    "ICL.Props.C46_joiner_map",
    "ICL.Props.C46_identity_absorber",
    "ICL.Props.C46_counterexample_atomize",
    "ICL.Props.C46_set_round_trip",
    "ICL.Props.C46_element_set_round_trip",
    "ICL.Props.C46_map_round_trip"
   ],
   "note": "atomize has the precondition that no interval contains the greatest value of its type; C46_counterexample_atomize proves that it does not return otherwise."
  },
  {
   "property": "C47",
   "status": "proved",
   "theorems": [
    "ICL.Props.C47_programs",
    "ICL.Props.C47_classes",
    "ICL.Props.C47_hints"
   ],
   "note": "The specification (ProgSpec.lean) lists what a client must not do: use moved-from contents, flip an empty interval, operations of a map with itself that C40 refutes, rvalue right operands of maps with functors that do not commute, == for classes that do not join. Map types must have a neutral identity element whose version is the value itself."
  },
  {
   "property": "C48",
   "status": "proved",
   "theorems": [
    "ICL.Props.C48_series",
    "ICL.Props.C48_aggregate",
    "ICL.Props.C48_order",
    "ICL.Props.C48_together",
    "ICL.Props.C48_split",
    "ICL.Props.C48_split_order",
    "ICL.Props.C48_overlap_counter",
    "ICL.Props.C48_party",
    "ICL.Props.C48_tallest_guests",
    "ICL.Props.C48_height_average",
    "ICL.Props.C48_leave",
    "ICL.Props.C48_counterexample_leave",
    "ICL.Props.C48_counterexample_split_order"
   ],
   "note": "Hints are allowed where the identity element is neutral for the functor (C24). The two counterexamples show why cancelling values are excluded: subtracting what was never added from a partial map, and the segmentation of split_interval_maps."
  },
  {
   "property": "C49",
   "status": "partial",
   "theorems": [
    "ICL.Props.C49_word_contains",
    "ICL.Props.C49_no_failure",
    "ICL.Props.C49_operation_partial",
    "ICL.Props.C49_history_partial",
    "ICL.Props.C49_operation2",
    "ICL.Props.C49_equal",
    "ICL.Props.C49_empty",
    "ICL.Props.C49_compact",
    "ICL.Props.C49_intersect_wide",
    "ICL.Props.C49_intersect_empty",
    "ICL.Props.C49_counterexample_intersect",
    "ICL.Props.C49_intersect_exact"
   ],
   "note": "The code violates the claim for &= with intervals: if the interval spreads over more than one chunk everything is removed (C49_intersect_wide), if it is empty nothing is (C49_intersect_empty); C49_counterexample_intersect. Everything else is proved without restriction. C49_intersect_exact says for which sets and intervals &= is right: interval non-empty within one chunk or disjoint from the set, or both empty."
  },
  {
   "property": "C50",
   "status": "partial",
   "theorems": [
    "ICL.Props.C50_operators",
    "ICL.Props.C50_weak_order",
    "ICL.Props.C50_iteration_ascending",
    "ICL.Props.C50_element",
    "ICL.Props.C50_reference_partial",
    "ICL.Props.C50_reference_last",
    "ICL.Props.C50_counterexample_moved",
    "ICL.Props.C50_counterexample_postincrement",
    "ICL.Props.C50_reference_exact"
   ],
   "note": "The code violates one clause: the key of a reference lies in the iterator that gave it. If the iterator is dereferenced again elsewhere the reference changes (C50_counterexample_moved, C50_reference_last), after *it++ it dangles (C50_counterexample_postincrement). Proved: it keeps its meaning as long as the iterator lives and is neither dereferenced nor assigned to (C50_reference_partial). The other clauses are proved without restriction. C50_reference_exact says for every single command exactly when it leaves a reference alone."
  },
  {
   "property": "C51",
   "status": "partial",
   "theorems": [
    "ICL.Props.C51_unambiguous",
    "ICL.Props.C51_assignments",
    "ICL.Props.C51_assignments_const",
    "ICL.Props.C51_infix",
    "ICL.Props.C51_only_documented",
    "ICL.Props.C51_object",
    "ICL.Props.C51_counterexample_options",
    "ICL.Props.C51_counterexample_nested",
    "ICL.Props.C51_functions",
    "ICL.Props.C51_queries_partial",
    "ICL.Props.C51_counterexample_contains",
    "ICL.Props.C51_counterexample_intersects",
    "ICL.Props.C51_queries_exact"
   ],
   "note": "Full for the operators, insert, erase and the element comparisons (C51_unambiguous, C51_assignments, C51_infix, C51_only_documented, C51_functions). The code violates the property for contains and within of a set in a total map, which do not compile, and for intersects and disjoint with the pair that an iterator of a map gives (C51_counterexample_contains, C51_counterexample_intersects); C51_queries_partial is the rest. C51_counterexample_options and C51_counterexample_nested show where the hypothesis of common template arguments and a plain domain type is needed. C51_queries_exact says exactly which of these calls compile."
  },
  {
   "property": "C52",
   "status": "proved",
   "theorems": [
    "ICL.Props.C52_bounds",
    "ICL.Props.C52_interval",
    "ICL.Props.C52_interval_static",
    "ICL.Props.C52_set",
    "ICL.Props.C52_set_equal",
    "ICL.Props.C52_set_static",
    "ICL.Props.C52_map",
    "ICL.Props.C52_map_equal",
    "ICL.Props.C52_map_static",
    "ICL.Props.C52_nested",
    "ICL.Props.C52_element_set",
    "ICL.Props.C52_element_map",
    "ICL.Props.C52_integers",
    "ICL.Props.C52_plain_texts",
    "ICL.Props.C52_counterexample_strings",
    "ICL.Props.C52_counterexample_dynamic"
   ],
   "note": "C52_counterexample_strings shows that the condition on texts of values is needed (a map to strings), C52_counterexample_dynamic that with dynamic bounds equal intervals need not write the same text. State of the stream (width, locale, failure) is not modelled."
  },
  {
   "property": "C53",
   "status": "proved",
   "theorems": [
    "ICL.Props.C53_set_find",
    "ICL.Props.C53_set_find_interval",
    "ICL.Props.C53_set_contains_element",
    "ICL.Props.C53_set_intersects_interval",
    "ICL.Props.C53_set_contains_interval_joined",
    "ICL.Props.C53_set_contains_interval",
    "ICL.Props.C53_set_equal",
    "ICL.Props.C53_set_hull",
    "ICL.Props.C53_set_size",
    "ICL.Props.C53_set_compare",
    "ICL.Props.C53_counterexample_contains",
    "ICL.Props.C53_map_find",
    "ICL.Props.C53_map_find_interval",
    "ICL.Props.C53_map_select",
    "ICL.Props.C53_map_contains_key",
    "ICL.Props.C53_map_intersects_interval",
    "ICL.Props.C53_map_contains_interval",
    "ICL.Props.C53_map_contains_element",
    "ICL.Props.C53_map_contains_segment_joined",
    "ICL.Props.C53_map_contains_segment",
    "ICL.Props.C53_map_equal",
    "ICL.Props.C53_map_hull",
    "ICL.Props.C53_map_size",
    "ICL.Props.C53_map_compare",
    "ICL.Props.C53_map_contains_set",
    "ICL.Props.C53_counterexample_map_contains_interval"
   ],
   "note": "The documentation promises more in two places: O(m log n) for contains(super, sub) (C53_counterexample_contains: two segments in sub, all n segments of super are visited) and O(log n) for contains(interval_map, interval) (C53_counterexample_map_contains_interval). Comparisons of elements and values are not counted."
  },
  {
   "property": "C54",
   "status": "partial",
   "theorems": [
    "ICL.Props.C54_sets",
    "ICL.Props.C54_sets_move",
    "ICL.Props.C54_maps_elem_partial",
    "ICL.Props.C54_maps_partial",
    "ICL.Props.C54_maps_move_partial",
    "ICL.Props.C54_maps_named",
    "ICL.Props.C54_maps_left_first",
    "ICL.Props.C54_maps_right",
    "ICL.Props.C54_counterexample_strings",
    "ICL.Props.C54_counterexample_intersection",
    "ICL.Props.C54_maps_exact"
   ],
   "note": "For maps the values must combine independently of their order (OrderFree: numbers, sets, bits). Otherwise the property is false: with strings, a + std::move(b) concatenates in the other order (C54_counterexample_strings); C54_maps_named and C54_maps_left_first cover all functors unless a named object stands on the left of a temporary; there the operators work on the right operand (C54_maps_right). C54_maps_exact: that condition is exact, OrderFree holds if and only if std::move never changes the associations of an expression."
  },
  {
   "property": "C55",
   "status": "proved",
   "theorems": [
    "ICL.Props.C55_set_intersection_interval",
    "ICL.Props.C55_set_intersection",
    "ICL.Props.C55_set_intersection_element",
    "ICL.Props.C55_set_intersects",
    "ICL.Props.C55_set_symmetric_difference",
    "ICL.Props.C55_counterexample_intersection",
    "ICL.Props.C55_counterexample_intersection_element",
    "ICL.Props.C55_counterexample_intersects",
    "ICL.Props.C55_map_intersection_interval",
    "ICL.Props.C55_map_intersection_segment",
    "ICL.Props.C55_map_intersection_set",
    "ICL.Props.C55_map_intersection",
    "ICL.Props.C55_map_intersection_total",
    "ICL.Props.C55_map_intersection_key",
    "ICL.Props.C55_map_intersects_set",
    "ICL.Props.C55_map_intersects",
    "ICL.Props.C55_map_intersects_total",
    "ICL.Props.C55_split_set_flip",
    "ICL.Props.C55_split_set_symmetric_difference",
    "ICL.Props.C55_counterexample_symmetric_difference",
    "ICL.Props.C55_map_flip",
    "ICL.Props.C55_map_symmetric_difference",
    "ICL.Props.C55_map_flip_total",
    "ICL.Props.C55_map_symmetric_difference_total",
    "ICL.Props.C55_map_flip_absorber",
    "ICL.Props.C55_map_intersection_segment_total",
    "ICL.Props.C55_counterexample_map_flip"
   ],
   "note": "The documentation claims O(m log(n + m)) for `&=` and `^=` with containers and O(log n) for `&=` and `flip` with elements: C55_counterexample_intersection, C55_counterexample_intersection_element, C55_counterexample_intersects, C55_counterexample_symmetric_difference (sets that do not join) and C55_counterexample_map_flip (total maps that absorb identities) show that this is exceeded for every n."
  },
  {
   "property": "C56",
   "status": "proved",
   "theorems": [
    "ICL.Props.C56_set_union",
    "ICL.Props.C56_set_intersection",
    "ICL.Props.C56_set_difference",
    "ICL.Props.C56_set_distributivity",
    "ICL.Props.C56_set_de_morgan",
    "ICL.Props.C56_set_symmetric_difference",
    "ICL.Props.C56_reachable",
    "ICL.Props.C56_map_monoid",
    "ICL.Props.C56_map_add_comm",
    "ICL.Props.C56_map_inter_comm",
    "ICL.Props.C56_map_inter_assoc",
    "ICL.Props.C56_map_difference",
    "ICL.Props.C56_map_symmetric_difference",
    "ICL.Props.C56_map_inverse",
    "ICL.Props.C56_collector_intersection",
    "ICL.Props.C56_collector_distributivity",
    "ICL.Props.C56_collector_de_morgan",
    "ICL.Props.C56_collector_symmetric_difference",
    "ICL.Props.C56_collector_union",
    "ICL.Props.C56_collector_pairs",
    "ICL.Props.C56_counterexample_inter_assoc",
    "ICL.Props.C56_counterexample_sub_self",
    "ICL.Props.C56_counterexample_identity",
    "ICL.Props.C56_counterexample_neutral"
   ],
   "note": "Laws the documentation tabulates as failing, and three further ones, are refuted by C56_counterexample_*."
  },
  {
   "property": "C57",
   "status": "proved",
   "theorems": [
    "ICL.Props.C57_set_order",
    "ICL.Props.C57_set_element_equal",
    "ICL.Props.C57_set_equal",
    "ICL.Props.C57_set_join",
    "ICL.Props.C57_set_meet",
    "ICL.Props.C57_set_difference",
    "ICL.Props.C57_set_within",
    "ICL.Props.C57_set_disjoint",
    "ICL.Props.C57_set_monotone",
    "ICL.Props.C57_map_order",
    "ICL.Props.C57_map_element_equal",
    "ICL.Props.C57_map_antisymmetric",
    "ICL.Props.C57_collector_within",
    "ICL.Props.C57_collector_lattice",
    "ICL.Props.C57_collector_ways",
    "ICL.Props.C57_counterexample_numbers",
    "ICL.Props.C57_counterexample_enricher",
    "ICL.Props.C57_element_set",
    "ICL.Props.C57_element_map",
    "ICL.Props.C57_counterexample_element_map"
   ],
   "note": "C57_counterexample_*: in maps of numbers `+` is no upper bound; in enrichers `within` also asks for keys of empty values; `within` of icl::map compares sets as values by equality although its `inclusion_compare` and `within` of interval maps compare by inclusion."
  },
  {
   "property": "C58",
   "status": "proved",
   "theorems": [
    "ICL.Props.C58_inverse_table",
    "ICL.Props.C58_inverse_involution",
    "ICL.Props.C58_inverts",
    "ICL.Props.C58_max_min",
    "ICL.Props.C58_star_slash",
    "ICL.Props.C58_neutral",
    "ICL.Props.C58_versions",
    "ICL.Props.C58_neutral_maps",
    "ICL.Props.C58_monoids",
    "ICL.Props.C58_insert",
    "ICL.Props.C58_erase",
    "ICL.Props.C58_element_insert",
    "ICL.Props.C58_element_erase",
    "ICL.Props.C58_counterexample_split",
    "ICL.Props.C58_counterexample_enricher",
    "ICL.Props.C58_counterexample_total",
    "ICL.Props.C58_counterexample_map"
   ],
   "note": "C58_counterexample_*: split maps, enrichers and invertible total maps do not satisfy `subtract` = `erase`; `m += n` of whole maps with inplace_identity stores identity elements instead of the operand's values. The documentation gives identity 1 for inplace_star and calls inplace_identity and inplace_erasure mutually inverse; neither is so in the code."
  },
  {
   "property": "C59",
   "status": "proved",
   "theorems": [
    "ICL.Props.C59_no_weak_order",
    "ICL.Props.C59_sorted",
    "ICL.Props.C59_lower_bound",
    "ICL.Props.C59_upper_bound",
    "ICL.Props.C59_equal_range",
    "ICL.Props.C59_find",
    "ICL.Props.C59_insert",
    "ICL.Props.C59_insert_hint",
    "ICL.Props.C59_models",
    "ICL.Props.C59_models_search",
    "ICL.Props.C59_models_address"
   ],
   "note": "C59_no_weak_order is the failing law of the comparator. C59_models, C59_models_search and C59_models_address connect trees of every shape with the list and address models on which the other properties rest, so that these assume of std::set and std::map only that the descent is the usual one (GCC 13's bits/stl_tree.h). For an empty key and a non-empty container every search fails with the assertion of the comparator."
  },
  {
   "property": "C60",
   "status": "proved",
   "theorems": [
    "ICL.Props.C60_pairs",
    "ICL.Props.C60_pairs_elem",
    "ICL.Props.C60_add_assoc",
    "ICL.Props.C60_add_neutral",
    "ICL.Props.C60_add_comm",
    "ICL.Props.C60_inter_comm",
    "ICL.Props.C60_inter_assoc",
    "ICL.Props.C60_sub_neutral",
    "ICL.Props.C60_sub_self",
    "ICL.Props.C60_add_inter",
    "ICL.Props.C60_inter_add",
    "ICL.Props.C60_add_sub",
    "ICL.Props.C60_inter_sub",
    "ICL.Props.C60_sub_add",
    "ICL.Props.C60_sub_inter",
    "ICL.Props.C60_symmetric_difference",
    "ICL.Props.C60_flip",
    "ICL.Props.C60_set_value",
    "ICL.Props.C60_set_functors",
    "ICL.Props.C60_sets",
    "ICL.Props.C60_map_value",
    "ICL.Props.C60_map_functors",
    "ICL.Props.C60_pair_mk",
    "ICL.Props.C60_maps",
    "ICL.Props.C60_monoid",
    "ICL.Props.C60_comm_monoid",
    "ICL.Props.C60_neutral",
    "ICL.Props.C60_noCancel",
    "ICL.Props.C60_valueAt₂",
    "ICL.Props.C60_add₂",
    "ICL.Props.C60_sub₂",
    "ICL.Props.C60_group",
    "ICL.Props.C60_no_inverse",
    "ICL.Props.C60_counterexample_group"
   ],
   "note": "The laws for arbitrary sets as values are those of C37, which are instances now (Finset). C60_sets and C60_maps are the induction for sets, C60_monoid, C60_comm_monoid, C60_neutral and C60_noCancel give the hypotheses of the laws of C27 for the next level. C60_counterexample_group: has_inverse is false for container types, so that a total map of total maps has no inverses, contrary to doc/semantics.qbk:730-734. Inner containers are those that join (interval_set, interval_map); for splitting ones == is no congruence, and the values would not be determined by their elements."
  },
  {
   "property": "C61",
   "status": "proved",
   "theorems": [
    "ICL.Props.C61_class",
    "ICL.Props.C61_contains",
    "ICL.Props.C61_construct",
    "ICL.Props.C61_user",
    "ICL.Props.C61_discrete",
    "ICL.Props.C61_set_class",
    "ICL.Props.C61_sets",
    "ICL.Props.C61_maps",
    "ICL.Props.C61_documentation",
    "ICL.Props.C61_counterexample_default",
    "ICL.Props.C61_counterexample_construct"
   ],
   "note": "C61_class and C61_discrete make the classes instances of IntervalClass and DiscreteClass, over which all other theorems quantify; C61_sets and C61_maps spell two of them out. The counterexamples show that the requirements are needed."
  },
  {
   "property": "C62",
   "status": "proved",
   "theorems": [
    "ICL.Props.C62_sets",
    "ICL.Props.C62_elements",
    "ICL.Props.C62_progress",
    "ICL.Props.C62_progress2",
    "ICL.Props.C62_translate",
    "ICL.Props.C62_equal",
    "ICL.Props.C62_less",
    "ICL.Props.C62_maps",
    "ICL.Props.C62_map_segments",
    "ICL.Props.C62_map_progress",
    "ICL.Props.C62_map_progress2",
    "ICL.Props.C62_map_progress3",
    "ICL.Props.C62_map_translate",
    "ICL.Props.C62_map_equal"
   ],
   "note": "C62_sets, C62_maps and C62_map_segments state that the two runs keep step; C62_progress* that both runs go on; C62_translate that a program with one class has a counterpart with another (C62_map_translate, for maps, operation by operation)."
  },
  {
   "property": "C63",
   "status": "proved",
   "theorems": [
    "ICL.Props.C63_keys",
    "ICL.Props.C63_steps",
    "ICL.Props.C63_class",
    "ICL.Props.C63_elements",
    "ICL.Props.C63_comparisons",
    "ICL.Props.C63_functions",
    "ICL.Props.C63_element_functions",
    "ICL.Props.C63_element_class",
    "ICL.Props.C63_find",
    "ICL.Props.C63_same",
    "ICL.Props.C63_same_keys",
    "ICL.Props.C63_sets",
    "ICL.Props.C63_sets_equal",
    "ICL.Props.C63_set_bounds",
    "ICL.Props.C63_translate",
    "ICL.Props.C63_maps",
    "ICL.Props.C63_map_bounds",
    "ICL.Props.C63_map_keys",
    "ICL.Props.C63_counterexample_kept"
   ],
   "note": "C63_keys and C63_steps show that every strict weak ordering (with ++ and --) is the order of keys in a linear order; the classes over such types are a case of IntervalClass, DiscreteClass, SingletonClass and LookupClass, so that all theorems about these cover them. Segments with dynamic bounds are compared by their elements, not by their bounds. Lengths over continuous domains (ContinuousClass) are not extended to such types."
  },
  {
   "property": "C64",
   "status": "proved",
   "theorems": [
    "ICL.Props.C64_keys",
    "ICL.Props.C64_class",
    "ICL.Props.C64_set_class",
    "ICL.Props.C64_has_element",
    "ICL.Props.C64_contains",
    "ICL.Props.C64_elements",
    "ICL.Props.C64_value",
    "ICL.Props.C64_is_empty",
    "ICL.Props.C64_is_empty_bounds",
    "ICL.Props.C64_intersection",
    "ICL.Props.C64_subtract",
    "ICL.Props.C64_hull",
    "ICL.Props.C64_disjoint",
    "ICL.Props.C64_sets_interval",
    "ICL.Props.C64_sets",
    "ICL.Props.C64_sets_element",
    "ICL.Props.C64_comparisons",
    "ICL.Props.C64_maps_segment",
    "ICL.Props.C64_maps",
    "ICL.Props.C64_counterexample_is_empty",
    "ICL.Props.C64_counterexample_equal"
   ],
   "note": "C64_keys: every strict weak ordering embeds into a dense linear order without ends; over that order continuous_interval is an interval class (C64_class), and the theorems evaluate its containers at the keys of values. Values in containers are specified by bounds and Compare alone (DenseSpec). What the comparisons assert is proved; that they may deny what holds of the values is shown by counterexamples, as the code does so."
  },
  {
   "property": "C65",
   "status": "proved",
   "theorems": [
    "ICL.Props.C65_add",
    "ICL.Props.C65_add_succeeds",
    "ICL.Props.C65_add_hint",
    "ICL.Props.C65_sub",
    "ICL.Props.C65_add_map",
    "ICL.Props.C65_sub_map",
    "ICL.Props.C65_call",
    "ICL.Props.C65_program",
    "ICL.Props.C65_sub_overflow",
    "ICL.Props.C65_inter",
    "ICL.Props.C65_inter_map",
    "ICL.Props.C65_inter_map_succeeds",
    "ICL.Props.C65_inter_total",
    "ICL.Props.C65_flip_total",
    "ICL.Props.C65_flip_map",
    "ICL.Props.C65_flip",
    "ICL.Props.C65_flip_overflow",
    "ICL.Props.C65_call_all",
    "ICL.Props.C65_program_all",
    "ICL.Props.C65_inter_total_segment",
    "ICL.Props.C65_flip_total_segment"
   ],
   "note": "Exact: each call with bounds succeeds with y iff the call without bounds gives y and the values of y are in bounds (and, for functors that change new values, the new value, which _add computes even if it is not needed). C65_sub_overflow and C65_flip_overflow are the exceptions that the statement names, as concrete runs."
  },
  {
   "property": "C66",
   "status": "proved",
   "theorems": [
    "ICL.Props.C66_numbers",
    "ICL.Props.C66_sets",
    "ICL.Props.C66_total_sets",
    "ICL.Props.C66_set_values",
    "ICL.Props.C66_sums",
    "ICL.Props.C66_equal",
    "ICL.Props.C66_distinct",
    "ICL.Props.C66_law",
    "ICL.Props.C66_law_sets",
    "ICL.Props.C66_sub_sub",
    "ICL.Props.C66_counterexample_partial",
    "ICL.Props.C66_counterexample_unsigned"
   ],
   "note": "The type of maps must be one the statement names: partial maps of numbers do not subtract at keys they do not have (C66_counterexample_partial), nor do total maps of unsigned numbers (C66_counterexample_unsigned). C66_sub_sub is an instance of C66_law. C66_law and C66_equal assume that every key can be looked up, which excludes the extreme values of bounded types."
  },
  {
   "property": "C67",
   "status": "proved",
   "theorems": [
    "ICL.Props.C67_sets",
    "ICL.Props.C67_sets_elem",
    "ICL.Props.C67_within",
    "ICL.Props.C67_numbers",
    "ICL.Props.C67_map_sets",
    "ICL.Props.C67_same_laws"
   ],
   "note": "Both directions. For joining containers == itself; splitting containers obey fewer equations with == (C26, C27 counterexamples)."
  },
  {
   "property": "C68",
   "status": "proved",
   "theorems": [
    "ICL.Props.C68_discrete_exact",
    "ICL.Props.C68_closed_exact",
    "ICL.Props.C68_class",
    "ICL.Props.C68_half_open",
    "ICL.Props.C68_sets_exact",
    "ICL.Props.C68_conjured",
    "ICL.Props.C68_classified",
    "ICL.Props.C68_counterexample_fractions"
   ],
   "note": "Both directions for the interval functions and for interval sets. Maps follow from C68_class in the direction from the requirement. The specialisations of is_discrete for dates, times and rationals are not part of C68_classified."
  },
  {
   "property": "C69",
   "status": "proved",
   "theorems": [
    "ICL.Props.C69_interval",
    "ICL.Props.C69_set",
    "ICL.Props.C69_map",
    "ICL.Props.C69_default",
    "ICL.Props.C69_continuous_exact",
    "ICL.Props.C69_half_open_exact",
    "ICL.Props.C69_unsigned",
    "ICL.Props.C69_counterexample_unsigned",
    "ICL.Props.C69_size_type",
    "ICL.Props.C69_infinity",
    "ICL.Props.C69_plain",
    "ICL.Props.C69_counterexample_difference"
   ],
   "note": "C28 has the same functions with a size type without bounds. The specialisations of size_type_of for dates and times are not modelled."
  },
  {
   "property": "C70",
   "status": "proved",
   "theorems": [
    "ICL.Props.C70_sets",
    "ICL.Props.C70_within",
    "ICL.Props.C70_same_as_interval_sets",
    "ICL.Props.C70_numbers",
    "ICL.Props.C70_map_sets",
    "ICL.Props.C70_partial_numbers",
    "ICL.Props.C70_partial_select",
    "ICL.Props.C70_total_sets",
    "ICL.Props.C70_same_as_interval_maps"
   ],
   "note": "Maps in which m[x] = v or the constructor from a range have stored identity elements are outside (C33). Partial maps that keep zeros are not among the cases."
  },
  {
   "property": "C71",
   "status": "proved",
   "theorems": [
    "ICL.Props.C71_table",
    "ICL.Props.C71_unambiguous",
    "ICL.Props.C71_clash",
    "ICL.Props.C71_dynamic",
    "ICL.Props.C71_documented",
    "ICL.Props.C71_continuous",
    "ICL.Props.C71_segments",
    "ICL.Props.C71_symmetric_continuous",
    "ICL.Props.C71_library",
    "ICL.Props.C71_any_domain",
    "ICL.Props.C71_values",
    "ICL.Props.C71_library_exact"
   ],
   "note": "Interval types have objects, a comparable domain, and bounds() where bounds are dynamic; the types of sizes and differences are taken to exist."
  },
  {
   "property": "C72",
   "status": "proved",
   "theorems": [
    "ICL.Props.C72_numbers",
    "ICL.Props.C72_total_numbers",
    "ICL.Props.C72_total_unsigned",
    "ICL.Props.C72_sets",
    "ICL.Props.C72_total_sets",
    "ICL.Props.C72_value"
   ],
   "note": "Numbers are an abelian group (no overflow; unsigned numbers wrap around)."
  }
 ]
}
