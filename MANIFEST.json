{
 "claims": [
  {
   "property": "C01",
   "status": "proved",
   "theorems": [
    "Tri.C01_valid_input_succeeds"
   ],
   "note": ""
  },
  {
   "property": "C02",
   "status": "proved",
   "theorems": [
    "Tri.C02_covers_once",
    "Tri.C02_every_point"
   ],
   "note": ""
  },
  {
   "property": "C03",
   "status": "proved",
   "theorems": [
    "Tri.C03_counterclockwise"
   ],
   "note": ""
  },
  {
   "property": "C04",
   "status": "proved",
   "theorems": [
    "Tri.C04_areas_add_up"
   ],
   "note": ""
  },
  {
   "property": "C05",
   "status": "proved",
   "theorems": [
    "Tri.C05_triangle_count"
   ],
   "note": "also for several polygons, with holes, and for either winding"
  },
  {
   "property": "C06",
   "status": "proved",
   "theorems": [
    "Tri.C06_only_input_indices"
   ],
   "note": ""
  },
  {
   "property": "C07",
   "status": "proved",
   "theorems": [
    "Tri.C07_no_undefined_behaviour"
   ],
   "note": ""
  },
  {
   "property": "C08",
   "status": "proved",
   "theorems": [
    "Tri.C08_not_enough_vertices"
   ],
   "note": ""
  },
  {
   "property": "C09",
   "status": "proved",
   "theorems": [
    "Tri.C09_separators"
   ],
   "note": ""
  },
  {
   "property": "C10",
   "status": "proved",
   "theorems": [
    "Tri.C10_no_vertices"
   ],
   "note": ""
  },
  {
   "property": "C11",
   "status": "proved",
   "theorems": [
    "Tri.C11_format_cannot_influence"
   ],
   "note": ""
  },
  {
   "property": "C12",
   "status": "proved",
   "theorems": [
    "Tri.C12_life_cycle"
   ],
   "note": ""
  },
  {
   "property": "C13",
   "status": "proved",
   "theorems": [
    "Tri.C13_initialize_first"
   ],
   "note": ""
  },
  {
   "property": "C14",
   "status": "proved",
   "theorems": [
    "Tri.C14_indexed_fan_appends"
   ],
   "note": ""
  },
  {
   "property": "C15",
   "status": "proved",
   "theorems": [
    "Tri.C15_list_format_sees_fan_triangles",
    "Tri.C15_indexed_list_appends"
   ],
   "note": ""
  },
  {
   "property": "C16",
   "status": "proved",
   "theorems": [
    "Tri.C16_deindexed_looks_up"
   ],
   "note": ""
  },
  {
   "property": "C17",
   "status": "proved",
   "theorems": [
    "Tri.C17_delimited_round_trip"
   ],
   "note": ""
  },
  {
   "property": "C18",
   "status": "partial",
   "theorems": [
    "Tri.C18_failure_restores_partial",
    "Tri.C18_flat_vec_not_restored",
    "Tri.C18_delimited_not_restored",
    "Tri.C18_list_start_not_restored"
   ],
   "note": "False of the code in three situations (proved by concrete runs); the partial theorem covers all other formats and failures."
  },
  {
   "property": "C19",
   "status": "partial",
   "theorems": [
    "Tri.C19_reversed_winding_is_wrong",
    "Tri.C19_reversed_winding_partial"
   ],
   "note": "False of the code: with the reversed winding some fans have root and second outer vertex swapped (concrete valid pentagon). The partial theorem pairs the fans of the two windings for every input and says exactly how they can differ."
  },
  {
   "property": "C20",
   "status": "proved",
   "theorems": [
    "Tri.C20_index_with_renames",
    "Tri.C20_nested_indices"
   ],
   "note": ""
  },
  {
   "property": "C21",
   "status": "proved",
   "theorems": [
    "Tri.C21_failed_conversion_panics"
   ],
   "note": ""
  },
  {
   "property": "C22",
   "status": "proved",
   "theorems": [
    "Tri.C22_nested_vectors"
   ],
   "note": ""
  },
  {
   "property": "C23",
   "status": "proved",
   "theorems": [
    "Tri.C23_sizes"
   ],
   "note": ""
  },
  {
   "property": "C24",
   "status": "proved",
   "theorems": [
    "Tri.C24_point_location"
   ],
   "note": ""
  },
  {
   "property": "C25",
   "status": "proved",
   "theorems": [
    "Tri.C25_debug_checks"
   ],
   "note": ""
  },
  {
   "property": "C26",
   "status": "proved",
   "theorems": [
    "Tri.C26_rearrangement"
   ],
   "note": ""
  },
  {
   "property": "C27",
   "status": "proved",
   "theorems": [
    "Tri.C27_watertight"
   ],
   "note": ""
  },
  {
   "property": "C28",
   "status": "proved",
   "theorems": [
    "Tri.C28_chain_complete"
   ],
   "note": ""
  },
  {
   "property": "C29",
   "status": "proved",
   "theorems": [
    "Tri.C29_mountain_terminates",
    "Tri.C29_other_chains_can_run_forever"
   ],
   "note": ""
  },
  {
   "property": "C30",
   "status": "proved",
   "theorems": [
    "Tri.C30_trapezoidize_then_triangulate"
   ],
   "note": ""
  },
  {
   "property": "C31",
   "status": "proved",
   "theorems": [
    "Tri.C31_side_test_exact"
   ],
   "note": ""
  },
  {
   "property": "C32",
   "status": "proved",
   "theorems": [
    "Tri.C32_vertex_order_exact",
    "Tri.C32_vertex_order_partial_comparison"
   ],
   "note": ""
  },
  {
   "property": "C33",
   "status": "proved",
   "theorems": [
    "Tri.C33_schedule"
   ],
   "note": ""
  },
  {
   "property": "C34",
   "status": "proved",
   "theorems": [
    "Tri.C34_every_vertex_used"
   ],
   "note": ""
  },
  {
   "property": "C35",
   "status": "proved",
   "theorems": [
    "Tri.C35_reverse_twice"
   ],
   "note": ""
  },
  {
   "property": "C36",
   "status": "proved",
   "theorems": [
    "Tri.C36_only_answers_matter",
    "Tri.C36_translation_and_scaling"
   ],
   "note": ""
  },
  {
   "property": "C37",
   "status": "proved",
   "theorems": [
    "Tri.C37_trapezoidation_ends"
   ],
   "note": ""
  },
  {
   "property": "C38",
   "status": "proved",
   "theorems": [
    "Tri.C38_release_builds_do_not_panic"
   ],
   "note": ""
  },
  {
   "property": "C39",
   "status": "proved",
   "theorems": [
    "Tri.C39_only_chains_can_run_forever"
   ],
   "note": ""
  },
  {
   "property": "C40",
   "status": "proved",
   "theorems": [
    "Tri.C40_closed_ring_runs_forever"
   ],
   "note": "a negative finding: non-termination on a concrete invalid input"
  },
  {
   "property": "C41",
   "status": "proved",
   "theorems": [
    "Tri.C41_rounding",
    "Tri.C41_infinities",
    "Tri.C41_comparisons",
    "Tri.C41_clear_input_is_exact",
    "Tri.C41_grid_is_exact"
   ],
   "note": ""
  },
  {
   "property": "C42",
   "status": "proved",
   "theorems": [
    "Tri.C42_grid_polygons"
   ],
   "note": ""
  },
  {
   "property": "C43",
   "status": "proved",
   "theorems": [
    "Tri.C43_rounding_breaks_valid_input",
    "Tri.C43_rounding_breaks_valid_input_f32"
   ],
   "note": "a negative finding: valid f64 or f32 input that hangs, fails or gives wrong triangles"
  },
  {
   "property": "C44",
   "status": "proved",
   "theorems": [
    "Tri.C44_shuffle_does_not_matter",
    "Tri.C44_same_edges_same_fans",
    "Tri.C44_rearranged_same_fans",
    "Tri.C44_floats"
   ],
   "note": ""
  },
  {
   "property": "C45",
   "status": "partial",
   "theorems": [
    "Tri.C45_positive_areas_partial",
    "Tri.C45_zero_area_triangles"
   ],
   "note": "Positive areas are guaranteed only if no three vertices are on a line; that no three consecutive vertices are on a line is not enough (proved with a valid pentagon, for every insertion order)."
  },
  {
   "property": "C46",
   "status": "proved",
   "theorems": [
    "Tri.C46_surface",
    "Tri.C46_sides_do_not_cross",
    "Tri.C46_side_by_side"
   ],
   "note": ""
  },
  {
   "property": "C47",
   "status": "proved",
   "theorems": [
    "Tri.C47_only_the_format_can_fail"
   ],
   "note": ""
  },
  {
   "property": "C48",
   "status": "proved",
   "theorems": [
    "Tri.C48_user_code_cannot_break_trapezoidation",
    "Tri.C48_covers_consistent_code"
   ],
   "note": ""
  },
  {
   "property": "C49",
   "status": "proved",
   "theorems": [
    "Tri.C49_user_code_cannot_break_triangulation",
    "Tri.C49_covers_consistent_code"
   ],
   "note": ""
  },
  {
   "property": "C50",
   "status": "proved",
   "theorems": [
    "Tri.C50_counts_the_code",
    "Tri.C50_covers_every_loop",
    "Tri.C50_expected_cost_any_schedule",
    "Tri.C50_expected_cost_log_star"
   ],
   "note": "one polygon, exact coordinates; the log* bound is for math_n computed with errors up to two percent in each operation; where the counters are incremented is trusted (see DESIGN.md): the theorems on coverage bound the longest loop by the count, not the sum of all loops"
  },
  {
   "property": "C51",
   "status": "proved",
   "theorems": [
    "Tri.C51_many_triangles",
    "Tri.C51_no_bound_per_polygon"
   ],
   "note": "a negative finding: the documented cost per polygon is wrong for several polygons"
  },
  {
   "property": "C52",
   "status": "proved",
   "theorems": [
    "Tri.C52_quadratic",
    "Tri.C52_not_n_log_n"
   ],
   "note": "a negative finding: the documented cost is wrong for a single polygon; exact coordinates"
  },
  {
   "property": "C53",
   "status": "proved",
   "theorems": [
    "Tri.C53_query_nodes",
    "Tri.C53_query_nodes_mean",
    "Tri.C53_query_nodes_mean_polygons",
    "Tri.C53_quadratically_many_nodes",
    "Tri.C53_nodes_depend_on_answers",
    "Tri.C53_quadratically_many_nodes_float"
   ],
   "note": "the averages are for exact coordinates"
  },
  {
   "property": "C54",
   "status": "proved",
   "theorems": [
    "Tri.C54_fans",
    "Tri.C54_deindexed_fans",
    "Tri.C54_lists",
    "Tri.C54_delimited"
   ],
   "note": ""
  },
  {
   "property": "C55",
   "status": "proved",
   "theorems": [
    "Tri.C55_expected_cost_polygons"
   ],
   "note": "exact coordinates; math_n computed with errors up to two percent in each operation; C50_counts_the_code says what is counted; where the counters are incremented is trusted (see DESIGN.md): the theorems on coverage bound the longest loop by the count, not the sum of all loops"
  },
  {
   "property": "C56",
   "status": "proved",
   "theorems": [
    "Tri.C56_crossing_edges_accepted",
    "Tri.C56_debug_assertions_do_not_help",
    "Tri.C56_degenerate_output"
   ],
   "note": "a negative finding: invalid input accepted; exact coordinates"
  },
  {
   "property": "C57",
   "status": "proved",
   "theorems": [
    "Tri.C57_counts_the_code",
    "Tri.C57_count_covers_loops",
    "Tri.C57_quadratic_bound",
    "Tri.C57_quadratic_attained"
   ],
   "note": "exact coordinates in the bounds; where the counters are incremented is trusted (see DESIGN.md): the theorems on coverage bound the longest loop by the count, not the sum of all loops"
  },
  {
   "property": "C58",
   "status": "proved",
   "theorems": [
    "Tri.C58_worst_case_log_star",
    "Tri.C58_worst_case_any_schedule",
    "Tri.C58_worst_case_no_schedule",
    "Tri.C58_counts_the_code",
    "Tri.C58_covers_every_loop",
    "Tri.C58_quadratic_cost",
    "Tri.C58_quadratic_cost_float"
   ],
   "note": "also for runs that end in an error or a panic; where the counters are incremented is trusted (see DESIGN.md): the theorems on coverage bound the longest loop by the count, not the sum of all loops"
  },
  {
   "property": "C59",
   "status": "proved",
   "theorems": [
    "Tri.C59_cost_depends_on_answers",
    "Tri.C59_clear_input_same_cost",
    "Tri.C59_grid_expected_cost",
    "Tri.C59_grid_triangulation_step"
   ],
   "note": "C50_counts_the_code and C57_counts_the_code say what is counted; where the counters are incremented is trusted (see DESIGN.md): the theorems on coverage bound the longest loop by the count, not the sum of all loops"
  },
  {
   "property": "C60",
   "status": "proved",
   "theorems": [
    "Tri.C60_shuffle_is_valid",
    "Tri.C60_every_order_once",
    "Tri.C60_expected_cost_of_draws"
   ],
   "note": "the shuffle is that of rand 0.8 as documented (the source of rand is not in the repository); exact coordinates in the bound; where the counters are incremented is trusted (see DESIGN.md): the theorems on coverage bound the longest loop by the count, not the sum of all loops"
  },
  {
   "property": "C61",
   "status": "proved",
   "theorems": [
    "Tri.C61_touching_is_refused",
    "Tri.C61_mirror_image_is_accepted"
   ],
   "note": "witnesses; exact coordinates"
  },
  {
   "property": "C62",
   "status": "proved",
   "theorems": [
    "Tri.C62_reliable_edges_suffice",
    "Tri.C62_same_edges_same_fans",
    "Tri.C62_floats",
    "Tri.C62_horizontal_and_vertical_edges",
    "Tri.C62_readme_example"
   ],
   "note": "nothing is claimed about the triangulation step where other side tests are wrong (C43)"
  },
  {
   "property": "C63",
   "status": "proved",
   "theorems": [
    "Tri.C63_overflow_only_panics",
    "Tri.C63_triangulation_only_panics",
    "Tri.C63_chains_never_overflow",
    "Tri.C63_enough_room",
    "Tri.C63_succeeds_exactly_if",
    "Tri.C63_valid_input_enough_room",
    "Tri.C63_any_input_enough_room",
    "Tri.C63_too_large_vertex_count_panics",
    "Tri.C63_idx_new",
    "Tri.C63_idx_order",
    "Tri.C63_idx_arithmetic",
    "Tri.C63_idx_wrapped",
    "Tri.C63_words_are_numbers"
   ],
   "note": "the allocator never fails and the stack has no limit; the vectors of the formats are not limited; room is computed for the trapezoidation of every input, and for the triangulation step only for valid input"
  },
  {
   "property": "C64",
   "status": "proved",
   "theorems": [
    "Tri.C64_counting_is_erased",
    "Tri.C64_visits_at_most",
    "Tri.C64_exponentially_many_visits",
    "Tri.C64_valid_polygon_panics",
    "Tri.C64_deep_recursion",
    "Tri.C64_valid_polygon_panics_float"
   ],
   "note": "a defect of debug builds; also with f64 and f32 coordinates, except the depth; the size of the stack is not modelled, only the depth of the recursion"
  },
  {
   "property": "C65",
   "status": "proved",
   "theorems": [
    "Tri.C65_soon_or_never",
    "Tri.C65_few_calls",
    "Tri.C65_quadratic_time",
    "Tri.C65_quadratic_time_of_success",
    "Tri.C65_crossing_runs_forever"
   ],
   "note": "C57_counts_the_code says what is counted; C58 bounds the cost of the trapezoidation; where the counters are incremented is trusted (see DESIGN.md): the theorems on coverage bound the longest loop by the count, not the sum of all loops"
  },
  {
   "property": "C66",
   "status": "proved",
   "theorems": [
    "Tri.C66_iterator_that_ends",
    "Tri.C66_endless_iterator",
    "Tri.C66_separators_without_end",
    "Tri.C66_nested_iterator"
   ],
   "note": "memory is unlimited in the model: a call that does not return and keeps getting vertices would run out of it"
  },
  {
   "property": "C67",
   "status": "proved",
   "theorems": [
    "Tri.C67_touching_right_succeeds",
    "Tri.C67_only_the_format_can_fail",
    "Tri.C67_touching_right_covers_once",
    "Tri.C67_touching_right_every_point",
    "Tri.C67_areas_add_up",
    "Tri.C67_corners_are_used",
    "Tri.C67_straight_vertex_may_be_unused",
    "Tri.C67_shuffle_does_not_matter",
    "Tri.C67_touching_right_returns",
    "Tri.C67_same_edges_same_fans",
    "Tri.C67_rearranged_same_fans",
    "Tri.C67_touching_right_grid",
    "Tri.C67_expected_cost",
    "Tri.C67_triangulation_step_is_quadratic",
    "Tri.C67_grid_cost",
    "Tri.C67_schedule_and_debug_checks",
    "Tri.C67_point_location",
    "Tri.C67_query_nodes_mean",
    "Tri.C67_query_nodes_mean_polygons",
    "Tri.C67_touching_below_is_refused",
    "Tri.C67_offset_walls_are_refused"
   ],
   "note": "exact coordinates except for the grid; C67_straight_vertex_may_be_unused and the last two are witnesses; where the counters are incremented is trusted (see DESIGN.md): the theorems on coverage bound the longest loop by the count, not the sum of all loops"
  }
 ]
}
