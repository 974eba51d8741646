{
 "claims": [
  {
   "property": "C01",
   "status": "proved",
   "theorems": [
    "PathPlanning.C01_frontier_refines_reference",
    "PathPlanning.C01_frontier_one_element_per_key"
   ],
   "note": "Refinement of every observable result to a reference list of live elements, for every history."
  },
  {
   "property": "C02",
   "status": "proved",
   "theorems": [
    "PathPlanning.C02_best_is_last_inserted_best",
    "PathPlanning.C02_frontier_pop_best_lifo"
   ],
   "note": "Includes the undefined-behaviour case (Pop/Top on empty)."
  },
  {
   "property": "C03",
   "status": "proved",
   "theorems": [
    "PathPlanning.C03_frontier_remove_exact"
   ],
   "note": ""
  },
  {
   "property": "C04",
   "status": "proved",
   "theorems": [
    "PathPlanning.C04_astar_success_path_is_route"
   ],
   "note": "Graph and tree search, randomised propagators included, no law on the cost arithmetic."
  },
  {
   "property": "C05",
   "status": "proved",
   "theorems": [
    "PathPlanning.C05_astar_cost_and_actions_match_path"
   ],
   "note": ""
  },
  {
   "property": "C06",
   "status": "proved",
   "theorems": [
    "PathPlanning.C06_astar_consistent_optimal",
    "PathPlanning.C06_planner_optimal"
   ],
   "note": "Exact arithmetic (ordered cancellative monoid)."
  },
  {
   "property": "C07",
   "status": "proved",
   "theorems": [
    "PathPlanning.C07_astar_failure_unreachable",
    "PathPlanning.C07_astar_success_iff_reachable"
   ],
   "note": "For propagators that are a function of the state."
  },
  {
   "property": "C08",
   "status": "proved",
   "theorems": [
    "PathPlanning.C08_astar_graph_search_terminates",
    "PathPlanning.C08_astar_no_state_expanded_twice",
    "PathPlanning.C08_astar_fuel_irrelevant"
   ],
   "note": ""
  },
  {
   "property": "C09",
   "status": "partial",
   "theorems": [
    "PathPlanning.C09_astar_failure_reports_nothing_partial",
    "PathPlanning.C09_stale_path_after_rejected_initialize"
   ],
   "note": "Violated after a rejected Initialize (C09_stale_path_after_rejected_initialize); holds for every history whose last Initialize was accepted."
  },
  {
   "property": "C10",
   "status": "proved",
   "theorems": [
    "PathPlanning.C10_astar_reusable"
   ],
   "note": "For propagators that are a function of the state."
  },
  {
   "property": "C11",
   "status": "partial",
   "theorems": [
    "PathPlanning.C11_tree_search_uniform_cost_optimal_partial",
    "PathPlanning.C11_tree_search_not_optimal"
   ],
   "note": "Violated: C11_tree_search_not_optimal is a counterexample with a zero heuristic. Holds for uniform step costs and a constant heuristic."
  },
  {
   "property": "C12",
   "status": "proved",
   "theorems": [
    "PathPlanning.C12_combined_is_max",
    "PathPlanning.C12_combined_admissible",
    "PathPlanning.C12_combined_consistent",
    "PathPlanning.C12_combined_forwards_goal",
    "PathPlanning.C12_adapter_uses_adapted_goal"
   ],
   "note": ""
  },
  {
   "property": "C13",
   "status": "partial",
   "theorems": [
    "PathPlanning.C13_bidirectional_path_real_partial",
    "PathPlanning.C13_meeting_state_listed_twice"
   ],
   "note": "Violated as stated: the meeting state is listed twice (C13_meeting_state_listed_twice); the path is real once that duplicate is removed."
  },
  {
   "property": "C14",
   "status": "proved",
   "theorems": [
    "PathPlanning.C14_bidirectional_failure_unreachable",
    "PathPlanning.C14_bidirectional_terminates"
   ],
   "note": ""
  },
  {
   "property": "C15",
   "status": "proved",
   "theorems": [
    "PathPlanning.C15_bidirectional_cost_matches_path"
   ],
   "note": ""
  },
  {
   "property": "C16",
   "status": "partial",
   "theorems": [
    "PathPlanning.C16_planner_bound_partial",
    "PathPlanning.C16_bidirectional_bound_partial",
    "PathPlanning.C16_bidirectional_within_factor_two_partial",
    "PathPlanning.C16_average_metric_partial",
    "PathPlanning.C16_bidirectional_not_optimal",
    "PathPlanning.C16_factor_two_is_tight"
   ],
   "note": "Violated: C16_bidirectional_not_optimal. Proved: with consistent heuristics the reported cost is bounded by twice the optimum (C16_bidirectional_bound_partial, C16_average_metric_partial, C16_planner_bound_partial), and no factor below two is enough (C16_factor_two_is_tight)."
  },
  {
   "property": "C17",
   "status": "partial",
   "theorems": [
    "PathPlanning.C17_average_pair_consistent_partial",
    "PathPlanning.C17_parts_keep_stale_goals"
   ],
   "note": "The pair is consistent when the parts' goals are set; AverageHeuristic never forwards SetGoal to them (C17_parts_keep_stale_goals)."
  },
  {
   "property": "C18",
   "status": "proved",
   "theorems": [
    "PathPlanning.C18_neighbors_exact",
    "PathPlanning.C18_neighbors_symmetric",
    "PathPlanning.C18_adjacent_iff",
    "PathPlanning.C18_invalid_no_neighbors"
   ],
   "note": "Exact neighbour set, symmetry and the adjacency predicates, for every cell (integers unbounded; int overflow not modelled)."
  },
  {
   "property": "C19",
   "status": "proved",
   "theorems": [
    "PathPlanning.C19_propagator_exact",
    "PathPlanning.C19_propagator_reversible"
   ],
   "note": "The successor list is exactly the free in-map 8-neighbours, without duplicates, and the relation is reversible."
  },
  {
   "property": "C20",
   "status": "proved",
   "theorems": [
    "PathPlanning.C20_grid_search_terminates",
    "PathPlanning.C20_grid_failure_no_path",
    "PathPlanning.C20_grid_success_is_free_path",
    "PathPlanning.C20_grid_optimal"
   ],
   "note": "End-to-end theorem for A* over the occupancy grid: termination, soundness, completeness and optimality for every map, costs in an ordered cancellative monoid."
  },
  {
   "property": "C21",
   "status": "proved",
   "theorems": [
    "PathPlanning.C21_wall_not_crossed"
   ],
   "note": "A rasterised wall cannot be crossed by an 8-connected free walk that stays beside it; see theorem for the exact statement."
  },
  {
   "property": "C22",
   "status": "proved",
   "theorems": [
    "PathPlanning.C22_forest_preserved",
    "PathPlanning.C22_depth",
    "PathPlanning.C22_isDescendantOf",
    "PathPlanning.C22_isAncestorOf"
   ],
   "note": "For every history of calls on live nodes."
  },
  {
   "property": "C23",
   "status": "proved",
   "theorems": [
    "PathPlanning.C23_reparent"
   ],
   "note": ""
  },
  {
   "property": "C24",
   "status": "partial",
   "theorems": [
    "PathPlanning.C24_one_node_per_state_partial",
    "PathPlanning.C24_nearest_is_minimal",
    "PathPlanning.C24_belongs_iff",
    "PathPlanning.C24_nodes_belong",
    "PathPlanning.C24_extend_existing",
    "PathPlanning.C24_extend_adds_leaf",
    "PathPlanning.C24_clear_empty",
    "PathPlanning.C24_create_root_twice_dangles"
   ],
   "note": "Violated by CreateRootNode on a non-empty tree, which leaves dangling entries (C24_create_root_twice_dangles); holds for every other history. Nearest-neighbour answers are an oracle with the stated laws."
  },
  {
   "property": "C25",
   "status": "proved",
   "theorems": [
    "PathPlanning.C25_rrt_path",
    "PathPlanning.C25_failure_empty",
    "PathPlanning.C25_motion_length",
    "PathPlanning.C25_rrt_r2"
   ],
   "note": "For every sample sequence, steering and validator, and every tree left by earlier calls."
  },
  {
   "property": "C26",
   "status": "proved",
   "theorems": [
    "PathPlanning.C26_rrt_bounded",
    "PathPlanning.C26_rrtStar_bounded"
   ],
   "note": "RRT and RRT*; parameters are natural numbers."
  },
  {
   "property": "C27",
   "status": "partial",
   "theorems": [
    "PathPlanning.C27_rrtStar_path_partial",
    "PathPlanning.C27_edges_partial",
    "PathPlanning.C27_unvalidated_edge",
    "PathPlanning.C27_rrtStar_r2"
   ],
   "note": "Violated: when no neighbour has an accepted connection the node is attached to its nearest node without validation (C27_unvalidated_edge). Holds when the nearest node of the sample is among the neighbours and prefixes of accepted paths are accepted. Holds for straight connections in the plane (C27_rrtStar_r2)."
  },
  {
   "property": "C28",
   "status": "proved",
   "theorems": [
    "PathPlanning.C28_cell_world_cell",
    "PathPlanning.C28_position_in_cell"
   ],
   "note": "Proved over the reals; rounding of doubles is not modelled."
  },
  {
   "property": "C29",
   "status": "partial",
   "theorems": [
    "PathPlanning.C29_inside_exact",
    "PathPlanning.C29_inside_iff_rectangle_partial",
    "PathPlanning.C29_low_border_accepted",
    "PathPlanning.C29_frames_agree_partial",
    "PathPlanning.C29_set_position_after_size"
   ],
   "note": "Violated: points up to one resolution below the low border are accepted because the cast truncates toward zero (C29_low_border_accepted), and SetPosition after InitializeSize leaves the frames inconsistent (C29_set_position_after_size). The exact accepted set and the statement for points not below the border are proved."
  },
  {
   "property": "C30",
   "status": "partial",
   "theorems": [
    "PathPlanning.C30_occupied_is_covered_partial",
    "PathPlanning.C30_occupied_iff_covered_partial",
    "PathPlanning.C30_overlap_lost",
    "PathPlanning.C30_moved_obstacle_leaves_cells"
   ],
   "note": "Violated for overlapping obstacles (C30_overlap_lost) and for obstacles moved while registered (C30_moved_obstacle_leaves_cells). The equivalence is proved for every other history; one direction also with overlaps."
  },
  {
   "property": "C31",
   "status": "proved",
   "theorems": [
    "PathPlanning.C31_no_exception",
    "PathPlanning.C31_identifiers_unique",
    "PathPlanning.C31_add_gives_smallest_identifier",
    "PathPlanning.C31_remove_result",
    "PathPlanning.C31_uninitialised_throws"
   ],
   "note": "For all histories of AddObstacle, RemoveObstacle and shape/pose changes."
  },
  {
   "property": "C32",
   "status": "proved",
   "theorems": [
    "PathPlanning.C32_rasterised_line",
    "PathPlanning.C32_line_inside_map",
    "PathPlanning.C32_line_cells_inside"
   ],
   "note": "Proved for every pair of cells: connectedness, end points, distance to the ideal segment, clipping."
  },
  {
   "property": "C33",
   "status": "proved",
   "theorems": [
    "PathPlanning.C33_polygon_boundary_closed",
    "PathPlanning.C33_composite_is_union"
   ],
   "note": "Boundary cells of polygons are a closed chain of rasterised edges; composite shapes are unions."
  },
  {
   "property": "C34",
   "status": "proved",
   "theorems": [
    "PathPlanning.C34_distance_of_reported_obstacle",
    "PathPlanning.C34_obstacles_report_themselves",
    "PathPlanning.C34_linked_maps"
   ],
   "note": "For every history and every order of the queue, for the obstacle map and the map of Voronoi edges."
  },
  {
   "property": "C35",
   "status": "partial",
   "theorems": [
    "PathPlanning.C35_removed_obstacle_still_reported",
    "PathPlanning.C35_no_removal_partial",
    "PathPlanning.C35_adjacent_partial"
   ],
   "note": "Violated: C35_removed_obstacle_still_reported is a history after which, with every order of the queue, a removed obstacle is still reported. Holds without removals, and for obstacles on adjacent cells with any history."
  },
  {
   "property": "C36",
   "status": "proved",
   "theorems": [
    "PathPlanning.C36_every_cell_sees_an_obstacle",
    "PathPlanning.C36_locally_exact"
   ],
   "note": ""
  },
  {
   "property": "C37",
   "status": "proved",
   "theorems": [
    "PathPlanning.C37_update_terminates",
    "PathPlanning.C37_linked_update_terminates"
   ],
   "note": "Lexicographic measure; no bound on the size of the grid."
  },
  {
   "property": "C38",
   "status": "partial",
   "theorems": [
    "PathPlanning.C38_handed_partial",
    "PathPlanning.C38_rectangle_partial",
    "PathPlanning.C38_two_obstacles_partial",
    "PathPlanning.C38_not_the_nearest",
    "PathPlanning.C38_at_most_eight_percent_partial",
    "PathPlanning.C38_compass_directions_partial",
    "PathPlanning.C38_never_below_partial"
   ],
   "note": "Violated even without removals: C38_not_the_nearest, with every order of the queue. The reported distance is at most 8.3 % above the exact one for every history, exact in the eight compass directions, and never below without removals. It is exact on the whole map, without removals, for one or two obstacle cells and for the sides of a rectangle (C38_two_obstacles_partial, C38_rectangle_partial); the counterexample has three cells."
  },
  {
   "property": "C39",
   "status": "proved",
   "theorems": [
    "PathPlanning.C39_update_reads_inside",
    "PathPlanning.C39_linked_update_reads_inside",
    "PathPlanning.C39_histories_execute",
    "PathPlanning.C39_linked_histories_execute"
   ],
   "note": "Including the Voronoi edge test and the edits of the linked map."
  },
  {
   "property": "C40",
   "status": "proved",
   "theorems": [
    "PathPlanning.C40_between_zero_and_one",
    "PathPlanning.C40_one_iff_obstacle",
    "PathPlanning.C40_zero_iff_edge_or_far",
    "PathPlanning.C40_decreases_with_obstacle_distance",
    "PathPlanning.C40_increases_with_edge_distance",
    "PathPlanning.C40_potential_map"
   ],
   "note": "As a function of real distances, and for the whole map after every Update."
  },
  {
   "property": "C41",
   "status": "proved",
   "theorems": [
    "PathPlanning.C41_range",
    "PathPlanning.C41_same_angle",
    "PathPlanning.C41_unchanged",
    "PathPlanning.C41_idempotent",
    "PathPlanning.C41_hash",
    "PathPlanning.C41_equal_iff",
    "PathPlanning.C41_pi_and_minus_pi_differ"
   ],
   "note": "Over the reals. equal_to keeps the headings pi and -pi apart (C41_pi_and_minus_pi_differ)."
  },
  {
   "property": "C42",
   "status": "proved",
   "theorems": [
    "PathPlanning.C42_add_sub",
    "PathPlanning.C42_sub_add",
    "PathPlanning.C42_assoc",
    "PathPlanning.C42_neutral",
    "PathPlanning.C42_congr",
    "PathPlanning.C42_range"
   ],
   "note": ""
  },
  {
   "property": "C43",
   "status": "proved",
   "theorems": [
    "PathPlanning.C43_r2_validate",
    "PathPlanning.C43_se2_validate",
    "PathPlanning.C43_r2",
    "PathPlanning.C43_se2"
   ],
   "note": ""
  },
  {
   "property": "C44",
   "status": "proved",
   "theorems": [
    "PathPlanning.C44_r2",
    "PathPlanning.C44_se2",
    "PathPlanning.C44_r2_covers",
    "PathPlanning.C44_se2_covers",
    "PathPlanning.C44_gaussian_r2",
    "PathPlanning.C44_gaussian_se2"
   ],
   "note": "For ordered bounds and uniform draws in [0,1]."
  },
  {
   "property": "C45",
   "status": "proved",
   "theorems": [
    "PathPlanning.C45_r2",
    "PathPlanning.C45_r2_connect",
    "PathPlanning.C45_se2",
    "PathPlanning.C45_se2_long_way_round",
    "PathPlanning.C45_constant_steer",
    "PathPlanning.C45_se2_connect",
    "PathPlanning.C45_reeds_shepp"
   ],
   "note": "PathR2, PathSE2, PathConstantSteer. Headings of PathSE2 are interpolated linearly, not the short way round (C45_se2_long_way_round)."
  },
  {
   "property": "C46",
   "status": "partial",
   "theorems": [
    "PathPlanning.C46_composite",
    "PathPlanning.C46_r2",
    "PathPlanning.C46_se2",
    "PathPlanning.C46_constant_steer",
    "PathPlanning.C46_reeds_shepp_partial",
    "PathPlanning.C46_reeds_shepp_motion_erased",
    "PathPlanning.C46_reeds_shepp_last_partial"
   ],
   "note": "Proved for elementary and composite paths. Violated by Reeds-Shepp paths: C46_reeds_shepp_motion_erased shows that Truncate erases the motion in which the cut falls; length, end point and the cut inside the last array entry are right (_partial theorems)."
  },
  {
   "property": "C47",
   "status": "partial",
   "theorems": [
    "PathPlanning.C47_length_and_final",
    "PathPlanning.C47_interpolate",
    "PathPlanning.C47_interpolate_end",
    "PathPlanning.C47_ratio_cases",
    "PathPlanning.C47_direction_partial",
    "PathPlanning.C47_direction_at_end_undefined",
    "PathPlanning.C47_initial_state_not_set",
    "PathPlanning.C47_cusps_partial",
    "PathPlanning.C47_initial_state_wrong",
    "PathPlanning.C47_cusps_not_rescaled",
    "PathPlanning.C47_push_after_truncate_wrong"
   ],
   "note": "Length, final state and interpolation are proved. Violated: the initial state is never set (C47_initial_state_wrong), GetDirection(1) dereferences end (C47_direction_at_end_undefined), inner cusps are not rescaled (C47_cusps_not_rescaled), PushBack after Truncate (C47_push_after_truncate_wrong). Partial theorems: direction before the end, cusps when parts have none inside."
  },
  {
   "property": "C48",
   "status": "proved",
   "theorems": [
    "PathPlanning.C48_arc",
    "PathPlanning.C48_word",
    "PathPlanning.C48_at_least_euclidean"
   ],
   "note": ""
  },
  {
   "property": "C49",
   "status": "proved",
   "theorems": [
    "PathPlanning.C49_exists",
    "PathPlanning.C49_connect",
    "PathPlanning.C49_shortest"
   ],
   "note": ""
  },
  {
   "property": "C50",
   "status": "partial",
   "theorems": [
    "PathPlanning.C50_shortest_partial",
    "PathPlanning.C50_distance_not_scaled",
    "PathPlanning.C50_shortest_at_least_euclidean",
    "PathPlanning.C50_optimal"
   ],
   "note": "Violated for GetShortestDistance, which is not scaled by the turning radius (C50_distance_not_scaled). The minimum over the 48 words, the optimal path and the Euclidean bound are proved."
  },
  {
   "property": "C51",
   "status": "partial",
   "theorems": [
    "PathPlanning.C51_cost_partial",
    "PathPlanning.C51_no_motion",
    "PathPlanning.C51_forward_multiplier_ignored"
   ],
   "note": "Violated: the forward cost multiplier is ignored (C51_forward_multiplier_ignored). Proved in every other case."
  },
  {
   "property": "C52",
   "status": "proved",
   "theorems": [
    "PathPlanning.C52_flow",
    "PathPlanning.C52_reverse",
    "PathPlanning.C52_rear_axle",
    "PathPlanning.C52_circle",
    "PathPlanning.C52_radius",
    "PathPlanning.C52_radius_too_small"
   ],
   "note": "Over the reals, including the differential equations of the rear axle."
  },
  {
   "property": "C53",
   "status": "partial",
   "theorems": [
    "PathPlanning.Validator.C53_state_valid_iff",
    "PathPlanning.Validator.C53_terminates",
    "PathPlanning.Validator.C53_accepted_partial",
    "PathPlanning.Validator.C53_rejected",
    "PathPlanning.Validator.C53_length_zero",
    "PathPlanning.Validator.C53_zero_step_does_not_end",
    "PathPlanning.Validator.C53_final_state_not_checked",
    "PathPlanning.Validator.C53_moved_map_leaves_bounds"
   ],
   "note": "Violated: the final state is not checked (C53_final_state_not_checked); for a moved map the bounds are not respected between the checked states (C53_moved_map_leaves_bounds). Proved: state validity, termination for a positive step, initial state and spacing of the checked states, the ratio returned on rejection."
  },
  {
   "property": "C54",
   "status": "proved",
   "theorems": [
    "PathPlanning.ObstHeuristic.C54_update",
    "PathPlanning.ObstHeuristic.C54_update_to_goal",
    "PathPlanning.ObstHeuristic.C54_no_goal_cell"
   ],
   "note": "Any goal cell in the map, even occupied; exact arithmetic."
  },
  {
   "property": "C55",
   "status": "partial",
   "theorems": [
    "PathPlanning.ObstHeuristic.C55_not_the_shortest",
    "PathPlanning.ObstHeuristic.C55_at_most_diag_times_the_shortest_partial"
   ],
   "note": "Violated: C55_not_the_shortest (the test for a better walk compares the stored value with itself, so a cell keeps its first value). Holds up to a factor of sqrt 2."
  },
  {
   "property": "C56",
   "status": "partial",
   "theorems": [
    "PathPlanning.C56_defined_iff",
    "PathPlanning.C56_lookup_partial",
    "PathPlanning.C56_negative_index"
   ],
   "note": "Violated: C56_negative_index (a goal heading behind the state heading gives a negative index). C56_defined_iff says exactly when the look-up is defined."
  },
  {
   "property": "C57",
   "status": "partial",
   "theorems": [
    "PathPlanning.C57_samples_partial",
    "PathPlanning.C57_cusps_partial",
    "PathPlanning.C57_end_sampled_iff",
    "PathPlanning.C57_end_missing",
    "PathPlanning.C57_spacing_exceeded",
    "PathPlanning.C57_cusps_missed"
   ],
   "note": "Violated: the end of the path is sampled only in the cases of C57_end_sampled_iff (C57_end_missing), the spacing can exceed the interpolation distance (C57_spacing_exceeded), cusps can be missed (C57_cusps_missed). Proved: the first sample, the order and range of the samples, the spacing bound, the cusp indices."
  },
  {
   "property": "C58",
   "status": "partial",
   "theorems": [
    "PathPlanning.C58_symmetric",
    "PathPlanning.C58_radius_partial",
    "PathPlanning.C58_sharpest_turn",
    "PathPlanning.C58_too_sharp"
   ],
   "note": "Violated for numGeneratedMotion >= 6 (C58_too_sharp). Proved for at most 5, for every wheelbase and radius, and that the sharpest turn is attained."
  },
  {
   "property": "C59",
   "status": "partial",
   "theorems": [
    "PathPlanning.C59_optimised_points",
    "PathPlanning.C59_defined",
    "PathPlanning.C59_kept_partial",
    "PathPlanning.C59_moved_partial",
    "PathPlanning.C59_point_near_cusp_moves"
   ],
   "note": "Size, headings, end points, cusps and the neighbours of cusps are kept for every run, and no access is out of range. 'Only points with no cusp within two samples move' is false of the code: the curvature term of a neighbour moves a point two samples from a cusp (C59_point_near_cusp_moves); it is proved when the curvature term is inactive (C59_moved_partial)."
  },
  {
   "property": "C60",
   "status": "proved",
   "theorems": [
    "PathPlanning.C60_status",
    "PathPlanning.C60_iterations",
    "PathPlanning.C60_short",
    "PathPlanning.C60_step_tolerance"
   ],
   "note": "For every arithmetic of the gradients, validator, path and cusp set."
  },
  {
   "property": "C61",
   "status": "proved",
   "theorems": [
    "PathPlanning.SingletonTS.C61_single_instance",
    "PathPlanning.SingletonTS.C61_returned_instance_exists",
    "PathPlanning.SingletonTS.C61_no_deadlock",
    "PathPlanning.SingletonTS.C61_release_can_break_get"
   ],
   "note": "Sequentially consistent memory (in the C++ memory model the unsynchronised read is a data race). A concurrent Release breaks Get (C61_release_can_break_get)."
  },
  {
   "property": "C62",
   "status": "proved",
   "theorems": [
    "PathPlanning.Prof.C62_session_file",
    "PathPlanning.Prof.C62_other_files_untouched",
    "PathPlanning.Prof.C62_lifetime",
    "PathPlanning.Prof.C62_cannot_open",
    "PathPlanning.Prof.C62_json"
   ],
   "note": "Each public function holds the mutex, so concurrent calls are sequences of calls. Well-formed JSON needs names without backslash, quote or control character."
  },
  {
   "property": "C63",
   "status": "proved",
   "theorems": [
    "PathPlanning.GridStore.C63_new",
    "PathPlanning.GridStore.C63_set",
    "PathPlanning.GridStore.C63_writes"
   ],
   "note": ""
  },
  {
   "property": "C64",
   "status": "proved",
   "theorems": [
    "PathPlanning.C64_preOrder",
    "PathPlanning.C64_postOrder",
    "PathPlanning.C64_siblings",
    "PathPlanning.C64_children_walk"
   ],
   "note": ""
  },
  {
   "property": "C65",
   "status": "partial",
   "theorems": [
    "PathPlanning.C65_batch_writes_out_of_range",
    "PathPlanning.C65_empty_batch_partial"
   ],
   "note": "Violated: every non-empty batch writes outside the vector (C65_batch_writes_out_of_range)."
  },
  {
   "property": "C66",
   "status": "proved",
   "theorems": [
    "PathPlanning.C66_direction",
    "PathPlanning.C66_direction_zero",
    "PathPlanning.C66_cusps",
    "PathPlanning.C66_constant_steer"
   ],
   "note": "For every well-formed segment, which all words returned by the solver are."
  },
  {
   "property": "C67",
   "status": "proved",
   "theorems": [
    "PathPlanning.C67_no_obstacle_is_an_edge"
   ],
   "note": ""
  },
  {
   "property": "C68",
   "status": "partial",
   "theorems": [
    "PathPlanning.C68_query_result",
    "PathPlanning.C68_nearest_obstacle_at_reported_distance_partial",
    "PathPlanning.C68_bogus_position_without_obstacles",
    "PathPlanning.C68_path_cost",
    "PathPlanning.C68_nearest_edge_at_reported_distance_partial"
   ],
   "note": "Violated without obstacles: the query returns true with a position outside the map (C68_bogus_position_without_obstacles)."
  },
  {
   "property": "C69",
   "status": "proved",
   "theorems": [
    "PathPlanning.Prof.C69_characters_removed_and_quotes_replaced",
    "PathPlanning.Prof.C69_no_double_quote",
    "PathPlanning.Prof.C69_unchanged_without_occurrence",
    "PathPlanning.Prof.C69_occurrence_removed",
    "PathPlanning.Prof.C69_second_of_two_occurrences_stays"
   ],
   "note": "Of two occurrences in a row only the first one is removed (C69_second_of_two_occurrences_stays)."
  },
  {
   "property": "C70",
   "status": "partial",
   "theorems": [
    "PathPlanning.Validator.C70_constant_clearance_handed_partial",
    "PathPlanning.C70_unit_speed_constant_steer",
    "PathPlanning.C70_unit_speed_reeds_shepp",
    "PathPlanning.C70_unit_speed_connect",
    "PathPlanning.C70_unit_speed_straight",
    "PathPlanning.Validator.C70_clearance_partial",
    "PathPlanning.Validator.C70_constant_clearance_partial"
   ],
   "note": "With the error of the incremental distance map the guarantee depends on the reported distance (C70_clearance_partial); with exact distances (one or two obstacle cells, the sides of a rectangle) it is the constant of the statement, also for the final state of the path. The motions of the library meet the hypothesis on the speed (C70_unit_speed_*)."
  },
  {
   "property": "C71",
   "status": "partial",
   "theorems": [
    "PathPlanning.ObstHeuristic.C71_bounds_partial",
    "PathPlanning.ObstHeuristic.C71_overestimates"
   ],
   "note": "Violated: C71_overestimates (the octile metric exceeds the straight-line distance; the discount constant is unused). Proved: always defined, bounds."
  },
  {
   "property": "C72",
   "status": "proved",
   "theorems": [
    "PathPlanning.C72_place_isometry",
    "PathPlanning.C72_place_frame",
    "PathPlanning.C72_regular_polygon",
    "PathPlanning.C72_circle_contains_disc",
    "PathPlanning.C72_circle_edges_touch",
    "PathPlanning.C72_rectangle"
   ],
   "note": ""
  },
  {
   "property": "C73",
   "status": "partial",
   "theorems": [
    "PathPlanning.C73_no_penalties_partial",
    "PathPlanning.C73_entry_partial",
    "PathPlanning.C73_outside_partial",
    "PathPlanning.C73_table_value",
    "PathPlanning.C73_within_half_the_bounds",
    "PathPlanning.C73_beyond_half_the_bounds",
    "PathPlanning.C73_overestimates"
   ],
   "note": "Violated: C73_overestimates (the table holds the cost of the trip from the goal back to the state, C73_table_value). Holds outside the table. Without penalties for reversing (multipliers 1, no cost for switching), the value inside the table is the length of the shortest path to a pose within half a cell and half an angular step of the goal (C73_no_penalties_partial, C73_entry_partial)."
  },
  {
   "property": "C74",
   "status": "partial",
   "theorems": [
    "PathPlanning.Validator.C74_constructed",
    "PathPlanning.Validator.C74_covers_partial",
    "PathPlanning.Validator.C74_not_beyond",
    "PathPlanning.Validator.C74_asymmetric_bounds_not_covered",
    "PathPlanning.Validator.C74_upper_bound_not_covered"
   ],
   "note": "Violated: C74_asymmetric_bounds_not_covered, C74_upper_bound_not_covered. Holds for symmetric bounds below the upper bounds."
  },
  {
   "property": "C75",
   "status": "proved",
   "theorems": [
    "PathPlanning.C75_smooth_term",
    "PathPlanning.C75_collision_term",
    "PathPlanning.C75_collision_moves_away",
    "PathPlanning.C75_voronoi_coefficients",
    "PathPlanning.C75_voronoi_term",
    "PathPlanning.C75_curvature_term"
   ],
   "note": "Over the reals, with the nearest obstacle and Voronoi edge cells held fixed, and for three points not on a line in the curvature term. The path term is C77."
  },
  {
   "property": "C76",
   "status": "partial",
   "theorems": [
    "PathPlanning.C76_straight_unchanged_partial",
    "PathPlanning.C76_empty_map_moves_points"
   ],
   "note": "Proved when the reported nearest obstacle is far enough. False on a map without obstacles: the nearest obstacle is reported in the cell (-1,-1) and the path is bent (C76_empty_map_moves_points)."
  },
  {
   "property": "C77",
   "status": "partial",
   "theorems": [
    "PathPlanning.C77_path_term_negated",
    "PathPlanning.C77_path_term_moves_away",
    "PathPlanning.C77_path_term_default_partial"
   ],
   "note": "False for a positive weight: the term has the wrong sign and pushes the point away (C77_path_term_negated, C77_path_term_moves_away). Proved only for the default weight 0."
  },
  {
   "property": "C78",
   "status": "proved",
   "theorems": [
    "PathPlanning.C78_new_edge_is_a_border"
   ],
   "note": "For every iteration of every update; the border condition is stated with the obstacles and distances recorded after the iteration that marks the cell."
  },
  {
   "property": "C79",
   "status": "partial",
   "theorems": [
    "PathPlanning.C79_at_most_seven_headings",
    "PathPlanning.C79_headings_merged",
    "PathPlanning.C79_opposite_headings_merged",
    "PathPlanning.C79_position_partial",
    "PathPlanning.C79_heading_partial",
    "PathPlanning.C79_same_cell_same_node",
    "PathPlanning.C79_cells_across_axes"
   ],
   "note": "Violated: at most seven headings are distinguished (C79_at_most_seven_headings, C79_headings_merged, C79_opposite_headings_merged) and cells on the axes are twice as wide (C79_cells_across_axes). Proved: the position bound, the heading bound for angular resolutions above pi/4, same cell implies same node."
  },
  {
   "property": "C80",
   "status": "proved",
   "theorems": [
    "PathPlanning.C80_clearance",
    "PathPlanning.C80_success"
   ],
   "note": "A call of the propagator with undefined behaviour (Voronoi field read outside the map) is taken to answer nothing: executions that make one are not covered. C80_clearance gives the distance of the states of the motions found to the obstacles."
  },
  {
   "property": "C82",
   "status": "partial",
   "theorems": [
    "PathPlanning.C82_planner_fails",
    "PathPlanning.C82_missed_only_if_cell_expanded_partial",
    "PathPlanning.C82_goal_ahead_not_found",
    "PathPlanning.C82_goal_in_the_cell_of_the_start",
    "PathPlanning.C82_goal_cell_never_expanded"
   ],
   "note": "Violated: C82_goal_in_the_cell_of_the_start, C82_goal_cell_never_expanded, and the concrete search C82_goal_ahead_not_found. Proved that this is the only reason: C82_missed_only_if_cell_expanded_partial."
  },
  {
   "property": "C81",
   "status": "proved",
   "theorems": [
    "PathPlanning.C81_terminates",
    "PathPlanning.C81_always_ends"
   ],
   "note": "Calls with undefined behaviour are taken to answer nothing. Over the reals; the bound on the iterations is explicit (C81_terminates)."
  },
  {
   "property": "C83",
   "status": "partial",
   "theorems": [
    "PathPlanning.C83_switch_not_charged",
    "PathPlanning.C83_steer_cost_partial",
    "PathPlanning.C83_reeds_shepp_cost",
    "PathPlanning.C83_voronoi_of_last_sample"
   ],
   "note": "Violated in the code: a change of direction between steering motions is never charged (C83_switch_not_charged) and the Voronoi cost is that of the last sample only (C83_voronoi_of_last_sample). The rest of the formula is proved."
  },
  {
   "property": "C84",
   "status": "partial",
   "theorems": [
    "PathPlanning.C84_start_is_goal"
   ],
   "note": "Violated in the code: proved that SearchPath throws for every start within 1 mm and 0.001 degrees of the goal."
  },
  {
   "property": "C85",
   "status": "partial",
   "theorems": [
    "PathPlanning.C85_connection_recognised_partial",
    "PathPlanning.C85_full_turn",
    "PathPlanning.C85_motion_not_recognised"
   ],
   "note": "Proved for Reeds-Shepp connections of positive length to goals with a heading in (-pi, pi). Violated for steering motions that end past pi."
  },
  {
   "property": "C87",
   "status": "proved",
   "theorems": [
    "PathPlanning.C87_every_steering_angle",
    "PathPlanning.C87_reeds_shepp"
   ],
   "note": "For every call without undefined behaviour."
  },
  {
   "property": "C88",
   "status": "partial",
   "theorems": [
    "PathPlanning.C88_first_generated_partial",
    "PathPlanning.C88_cheaper_ignored"
   ],
   "note": "Violated in the code (there is a TODO): proved that a cheaper state of the same cell at 1 mm or more is dropped, and that the expanded state is the first generated one up to replacements within 1 mm and 0.001 degrees."
  },
  {
   "property": "C86",
   "status": "proved",
   "theorems": [
    "PathPlanning.C86_result",
    "PathPlanning.C86_smoothed_or_samples",
    "PathPlanning.C86_failure"
   ],
   "note": "C86_result, C86_smoothed_or_samples, C86_failure; the start = goal case is C84. The distance bounds (1.5 and 2 interpolation distances) are those that hold; that the goal itself may be missing from the samples is C57."
  },
  {
   "property": "C89",
   "status": "partial",
   "theorems": [
    "PathPlanning.C89_late_diagram_is_empty",
    "PathPlanning.C89_late_field_has_no_valley",
    "PathPlanning.C89_created_before_first_update_partial",
    "PathPlanning.C89_corridor"
   ],
   "note": "Violated by the code when the diagram (HybridAStar::Initialize) is created after an OccupancyMap update: C89_late_diagram_is_empty, C89_late_field_has_no_valley, C89_corridor. Proved: creation commutes with placing and removing obstacles before the first update."
  },
  {
   "property": "C90",
   "status": "proved",
   "theorems": [
    "PathPlanning.C90_occupied_iff_distance_zero",
    "PathPlanning.C90_distance_zero_iff_covered",
    "PathPlanning.C90_distance_to_registered",
    "PathPlanning.C90_accepted_state_is_clear",
    "PathPlanning.C90_exact_without_removal",
    "PathPlanning.C90_rejected_state_is_near",
    "PathPlanning.C90_state_on_obstacle_is_rejected",
    "PathPlanning.C90_unseen_before_update",
    "PathPlanning.C90_histories_execute"
   ],
   "note": "All histories for the agreement of the maps; the others for obstacles that are neither moved while registered nor overlap (otherwise C30 fails); exactness of distances while no obstacle was removed (see C38)."
  },
  {
   "property": "C91",
   "status": "proved",
   "theorems": [
    "PathPlanning.C91_outline_near_cells",
    "PathPlanning.C91_cells_near_outline"
   ],
   "note": "Both directions; the first needs the corner cells on the map."
  },
  {
   "property": "C92",
   "status": "proved",
   "theorems": [
    "PathPlanning.C92_checked_motion_keeps_clear",
    "PathPlanning.C92_planned_path_keeps_clear",
    "PathPlanning.C92_reported_distance_bounded",
    "PathPlanning.C92_accepted_state_keeps_clear",
    "PathPlanning.C92_rejected_state_is_near"
   ],
   "note": "Outline of obstacles whose corners are on the map, neither moved while registered nor overlapping. For the motions the loss of the path check is explicit: it grows with the largest distance D that the map reports (8.3 % of it), see C70."
  },
  {
   "property": "C93",
   "status": "proved",
   "theorems": [
    "PathPlanning.C93_checked_motion_stays_outside",
    "PathPlanning.C93_planned_path_stays_outside",
    "PathPlanning.C93_library_shapes"
   ],
   "note": ""
  },
  {
   "property": "C94",
   "status": "partial",
   "theorems": [
    "PathPlanning.C94_deep_inside_accepted",
    "PathPlanning.C94_thin_rectangle_partial",
    "PathPlanning.C94_inside_accepted"
   ],
   "note": "Violated: the centre of a registered 9 m box is accepted with a safe radius of 1 m (C94_inside_accepted); in general every state far enough from all outlines is accepted, inside or outside (C94_deep_inside_accepted). Proved: states inside thin rectangles are rejected (C94_thin_rectangle_partial)."
  },
  {
   "property": "C95",
   "status": "proved",
   "theorems": [
    "PathPlanning.C95_not_initialised",
    "PathPlanning.C95_always_returns",
    "PathPlanning.C95_plans_for_current_obstacles"
   ],
   "note": "The start must not be the goal (C84: then the program throws)."
  },
  {
   "property": "C96",
   "status": "proved",
   "theorems": [
    "PathPlanning.C96_reusable"
   ],
   "note": ""
  },
  {
   "property": "C97",
   "status": "partial",
   "theorems": [
    "PathPlanning.C97_parameters_used_partial",
    "PathPlanning.C97_initialize_resets_parameters"
   ],
   "note": "Initialize overwrites parameters that were set before it (C97_initialize_resets_parameters); proved for parameters set after the last Initialize."
  },
  {
   "property": "C98",
   "status": "proved",
   "theorems": [
    "PathPlanning.C98_reports_the_search",
    "PathPlanning.C98_failure_reports_nothing",
    "PathPlanning.C98_kept"
   ],
   "note": ""
  },
  {
   "property": "C99",
   "status": "partial",
   "theorems": [
    "PathPlanning.C99_each_heuristic_has_its_goal_partial",
    "PathPlanning.C99_shared_heuristic",
    "PathPlanning.C99_averaged_partial",
    "PathPlanning.C99_average_of_one_heuristic"
   ],
   "note": "Proved for two different plain heuristic objects. Violated otherwise: with one object for both directions the forward search estimates the cost to its own start (C99_shared_heuristic); an averaged pair uses the goals stored in its parts (C99_averaged_partial, C17), and the pair averaged from one heuristic, as in the Python example, is constant (C99_average_of_one_heuristic)."
  },
  {
   "property": "C100",
   "status": "proved",
   "theorems": [
    "PathPlanning.C100_success_for_inputs_in_force",
    "PathPlanning.C100_failure_reports_nothing",
    "PathPlanning.C100_not_initialized",
    "PathPlanning.C100_initialize_accepts"
   ],
   "note": ""
  },
  {
   "property": "C101",
   "status": "partial",
   "theorems": [
    "PathPlanning.C101_terminates",
    "PathPlanning.C101_failure_no_path_partial",
    "PathPlanning.C101_success_is_free_path_partial",
    "PathPlanning.C101_cost_bound_partial",
    "PathPlanning.C101_occupied_goal",
    "PathPlanning.C101_occupied_start",
    "PathPlanning.C101_not_shortest"
   ],
   "note": "Proved: termination; for free start and goal, Failure means no walk exists, Success returns a walk in which the meeting cell is listed twice, and the cost is at most twice the optimum. Violated: occupied goal (C101_occupied_goal), occupied start (C101_occupied_start), optimality (C101_not_shortest)."
  },
  {
   "property": "C102",
   "status": "proved",
   "theorems": [
    "PathPlanning.C102_gvd_file",
    "PathPlanning.C102_heuristic_file",
    "PathPlanning.C102_heuristic_image",
    "PathPlanning.C102_heuristic_shades",
    "PathPlanning.C102_hue",
    "PathPlanning.C102_gvd_image",
    "PathPlanning.C102_no_hue_for_removed_obstacles"
   ],
   "note": "Colours over the reals (rounding to float not modelled); cells that report an obstacle removed from the map (C35) have no hue: C102_no_hue_for_removed_obstacles."
  },
  {
   "property": "C103",
   "status": "partial",
   "theorems": [
    "PathPlanning.RRTPlanner.C103_rrt",
    "PathPlanning.RRTPlanner.C103_rrtStar_partial",
    "PathPlanning.RRTPlanner.C103_rrtStar_r2",
    "PathPlanning.RRTPlanner.C103_no_search_empty",
    "PathPlanning.RRTPlanner.C103_default_limits"
   ],
   "note": "Proved for RRT (C103_rrt) and for RRT* in the plane (C103_rrtStar_r2). For RRT* with other connections an edge may not have been accepted (C27_unvalidated_edge), so the general theorem is C103_rrtStar_partial."
  },
  {
   "property": "C104",
   "status": "partial",
   "theorems": [
    "PathPlanning.C104_shortest_through_neighbours_partial",
    "PathPlanning.C104_r2_partial",
    "PathPlanning.C104_paths_are_kept",
    "PathPlanning.C104_search_runs",
    "PathPlanning.C104_longer_than_needed"
   ],
   "note": "Proved as long as no iteration ends in a state already in the tree: C104_shortest_through_neighbours_partial (general), C104_r2_partial (plane, all hypotheses on the connections discharged), C104_paths_are_kept. Violated by the code otherwise: the cost of the existing node is overwritten although its parent stays, and later states are attached to it at the wrong cost (C104_longer_than_needed)."
  },
  {
   "property": "C105",
   "status": "proved",
   "theorems": [
    "PathPlanning.C105_rrt",
    "PathPlanning.C105_rrtStar",
    "PathPlanning.C105_planner"
   ],
   "note": "C105_rrt, C105_rrtStar for any free region that sees the goal; C105_planner for planner objects on an open map. Connections are those of the plane."
  },
  {
   "property": "C106",
   "status": "partial",
   "theorems": [
    "PathPlanning.C106_state_valid_iff",
    "PathPlanning.C106_rrt_partial",
    "PathPlanning.C106_rrtStar_partial",
    "PathPlanning.C106_leaves_bounds"
   ],
   "note": "C106_state_valid_iff; C106_rrt_partial and C106_rrtStar_partial assume a start and a goal within the bounds. Violated otherwise: IsPathValid does not look at the bounds (C106_leaves_bounds)."
  },
  {
   "property": "C107",
   "status": "proved",
   "theorems": [
    "PathPlanning.C107_same_search",
    "PathPlanning.C107_empty_before_search",
    "PathPlanning.C107_explored_paths"
   ],
   "note": "C107_same_search: the search with the recorded tree is the search of the other theorems."
  },
  {
   "property": "C108",
   "status": "proved",
   "theorems": [
    "PathPlanning.C108_corners",
    "PathPlanning.C108_polygon",
    "PathPlanning.C108_rigid",
    "PathPlanning.C108_no_shape"
   ],
   "note": "C108_no_shape: before a shape is set, both calls dereference a null pointer."
  },
  {
   "property": "C109",
   "status": "proved",
   "theorems": [
    "PathPlanning.C109_gradient_descent"
   ],
   "note": "Over the reals. The path term enters the cost with the sign the code gives it (C77)."
  },
  {
   "property": "C110",
   "status": "partial",
   "theorems": [
    "PathPlanning.C110_success_partial",
    "PathPlanning.C110_failure_keeps",
    "PathPlanning.C110_kept",
    "PathPlanning.C110_before_search",
    "PathPlanning.C110_stale_after_reset",
    "PathPlanning.C110_stale"
   ],
   "note": "Violated after a failed search: the smoothing status, the smoothed path and the path stay those of an earlier search (C110_failure_keeps, C110_stale), and a search of a planner that was re-initialised without a validator returns Failure while GetStats still says Success (C110_stale_after_reset). After a success the property holds for every history (C110_success_partial)."
  },
  {
   "property": "C111",
   "status": "proved",
   "theorems": [
    "PathPlanning.C111_parameters",
    "PathPlanning.C111_initialize",
    "PathPlanning.C111_not_initialised",
    "PathPlanning.C111_answers",
    "PathPlanning.C111_kept",
    "PathPlanning.C111_defined"
   ],
   "note": "Pointers are identifiers of objects that live for ever (no dangling pointers). Note that the map is the one the validator had at Initialize: a validator given another map later is combined with the grid of the old one."
  },
  {
   "property": "C112",
   "status": "partial",
   "theorems": [
    "PathPlanning.C112_cost_decreases_partial",
    "PathPlanning.C112_cost_can_increase"
   ],
   "note": "Proved where the path is regular (C109), no optimised point lies on the border of cells, and the curvature at the optimised points next to points that are not optimised is at most the maximum. Violated without the last condition: the neighbours of the optimised points follow the curvature term but not the bends, C112_cost_can_increase gives a path whose cost grows for every small learning rate with the default weights."
  },
  {
   "property": "C113",
   "status": "proved",
   "theorems": [
    "PathPlanning.C113_corridor_rrt",
    "PathPlanning.C113_corridor_rrtStar",
    "PathPlanning.C113_rrt",
    "PathPlanning.C113_rrtStar",
    "PathPlanning.C113_almost_surely",
    "PathPlanning.C113_success_tends_to_one"
   ],
   "note": "The generator (a seeded Mersenne twister) is idealised as independent uniform numbers on [0, 1]; numbers are reals. The nearest neighbour search is assumed to satisfy its specification, as in C105."
  },
  {
   "property": "C114",
   "status": "proved",
   "theorems": [
    "PathPlanning.C114_draws",
    "PathPlanning.C114_uniform_r2",
    "PathPlanning.C114_uniform_se2",
    "PathPlanning.C114_goal_probability"
   ],
   "note": "The generator is idealised as independent numbers uniform on [0, 1]; numbers are reals."
  },
  {
   "property": "C115",
   "status": "proved",
   "theorems": [
    "PathPlanning.C115_answers_are_exact",
    "PathPlanning.C115_no_overflow",
    "PathPlanning.C115_no_overflow_edges",
    "PathPlanning.C115_all_executions",
    "PathPlanning.C115_larger_map_overflows",
    "PathPlanning.C115_storage_fits"
   ],
   "note": ""
  },
  {
   "property": "C116",
   "status": "proved",
   "theorems": [
    "PathPlanning.C116_lookup",
    "PathPlanning.C116_size",
    "PathPlanning.C116_keys_lawful",
    "PathPlanning.C116_equality",
    "PathPlanning.C116_unlawful_keys"
   ],
   "note": ""
  },
  {
   "property": "C117",
   "status": "partial",
   "theorems": [
    "PathPlanning.SingletonPlain.C117_one_thread_partial",
    "PathPlanning.SingletonPlain.C117_initialised_first_partial",
    "PathPlanning.SingletonPlain.C117_race"
   ],
   "note": "Violated: two threads that make the first call of Get at the same time construct two instances, and the first one is destroyed while it is used (C117_race). Proved for calls from one thread (C117_one_thread_partial) and for all schedules after Init has returned (C117_initialised_first_partial)."
  },
  {
   "property": "C118",
   "status": "proved",
   "theorems": [
    "PathPlanning.Prof.Threads.C118_file",
    "PathPlanning.Prof.Threads.C118_order",
    "PathPlanning.Prof.Threads.C118_no_deadlock",
    "PathPlanning.Prof.Threads.C118_json"
   ],
   "note": ""
  },
  {
   "property": "C119",
   "status": "proved",
   "theorems": [
    "PathPlanning.C119_double_near_optimal",
    "PathPlanning.C119_double_dijkstra_exact",
    "PathPlanning.C119_rounded_near_optimal",
    "PathPlanning.C119_dijkstra_exact",
    "PathPlanning.C119_rounding_costs"
   ],
   "note": "C119_rounded_near_optimal bounds the reported cost and the exact cost of the returned path; C119_dijkstra_exact is the case without heuristic; C119_rounding_costs shows that rounding does make the search return a longer path."
  },
  {
   "property": "C120",
   "status": "partial",
   "theorems": [
    "PathPlanning.C120_power_of_two_partial",
    "PathPlanning.C120_cell_or_lower_neighbour_partial",
    "PathPlanning.C120_rounded_cell_near_partial",
    "PathPlanning.C120_size_covered",
    "PathPlanning.C120_tenth_resolution_fails"
   ],
   "note": "Violated: C120_tenth_resolution_fails. Missing from the positive results: exactness for resolutions that are not powers of two (false), maps above 2^23 rows, overflow of int and of the exponent."
  },
  {
   "property": "C121",
   "status": "partial",
   "theorems": [
    "PathPlanning.Flt.C121_wrap_returns_partial",
    "PathPlanning.Flt.C121_large_angles_hang",
    "PathPlanning.Flt.C121_wrap_exact_near",
    "PathPlanning.Flt.C121_wrap_idempotent"
   ],
   "note": "Violated for headings above 2^56: C121_large_angles_hang. NaN and infinities are not modelled."
  },
  {
   "property": "C122",
   "status": "proved",
   "theorems": [
    "PathPlanning.C122_is_least",
    "PathPlanning.C122_distance"
   ],
   "note": "Complete for the families of Reeds and Shepp with their ranges (also C Cu | Cu C for u up to pi/2, for which the solver has no formula between pi/3 and pi/2: there a path of the kind C C | C is not longer, Lemmas/ReedsSheppGap). That no other path of bounded curvature is shorter (the theorem of Reeds and Shepp) is not part of the model."
  },
  {
   "property": "C123",
   "status": "proved",
   "theorems": [
    "PathPlanning.C123_symmetric",
    "PathPlanning.C123_same_pose",
    "PathPlanning.C123_frame",
    "PathPlanning.C123_mirror",
    "PathPlanning.C123_reverse",
    "PathPlanning.C123_scale",
    "PathPlanning.C123_zero"
   ],
   "note": "All symmetries follow from the completeness C122; the triangle inequality is not claimed."
  },
  {
   "property": "C124",
   "status": "partial",
   "theorems": [
    "PathPlanning.HoloMem.C124_defined_partial",
    "PathPlanning.HoloMem.C124_value_partial",
    "PathPlanning.HoloMem.C124_no_leak_partial",
    "PathPlanning.HoloMem.C124_copy_violated"
   ],
   "note": "Proved for every history of building and destroying: it is defined (C124_defined_partial), every table reads the values of Build at every place and has no other place (C124_value_partial), nothing is left at the end (C124_no_leak_partial). Violated for copies: the implicit copy constructor copies the pointer, so destroying a heuristic and its copy frees the table twice, after every history and in both orders (C124_copy_violated)."
  },
  {
   "property": "C125",
   "status": "partial",
   "theorems": [
    "PathPlanning.SizedMap.C125_obstacles_forgotten",
    "PathPlanning.SizedMap.C125_validator_sees_nothing",
    "PathPlanning.SizedMap.C125_diagram_left_behind",
    "PathPlanning.SizedMap.C125_diagram_outside",
    "PathPlanning.SizedMap.C125_empty_partial",
    "PathPlanning.SizedMap.C125_readd_partial"
   ],
   "note": "violated: InitializeSize (called by each new validator) replaces the matrix and the distance map but keeps the list of obstacles, so that obstacles become invisible and cannot be added again; diagrams keep the old distance map. Proved for all histories; the partial theorems cover maps without registered obstacles and obstacles that are removed and added again."
  },
  {
   "property": "C126",
   "status": "partial",
   "theorems": [
    "PathPlanning.C126_unit_interval",
    "PathPlanning.C126_lower_bound",
    "PathPlanning.C126_exact_range_partial",
    "PathPlanning.C126_r2_partial",
    "PathPlanning.C126_se2_partial",
    "PathPlanning.C126_gaussian",
    "PathPlanning.C126_gaussian_se2",
    "PathPlanning.C126_gaussian_accuracy",
    "PathPlanning.C126_gaussian_accuracy_se2",
    "PathPlanning.C126_above_upper_bound",
    "PathPlanning.C126_accuracy",
    "PathPlanning.C126_upper_bound_partial"
   ],
   "note": "violated in the last bit: with bounds -1 and 1 + 3 * 2^-52 a sample exceeds the upper bound (C126_above_upper_bound). Proved: the lower bound, both bounds if their difference is a double (symmetric bounds, bounds from 0), Gaussian samples, and that the excess is at most eight roundings."
  },
  {
   "property": "C127",
   "status": "partial",
   "theorems": [
    "PathPlanning.C127_reeds_shepp_clearance_partial",
    "PathPlanning.Validator.C127_state_valid_iff",
    "PathPlanning.Validator.C127_terminates_partial",
    "PathPlanning.Validator.C127_length_zero",
    "PathPlanning.Validator.C127_accepted_partial",
    "PathPlanning.Validator.C127_rejected",
    "PathPlanning.Validator.C127_ratios_in_range",
    "PathPlanning.Validator.C127_long_paths_hang",
    "PathPlanning.Validator.C127_clearance_partial",
    "PathPlanning.Validator.C127_constant_clearance_partial"
   ],
   "note": "Violated for paths of more than about 2^53 interpolation steps: C127_long_paths_hang (the rounded length stops growing and the loop does not end); the example has a step of 2^-60. Proved for paths of at most 2^52 steps and headings of at most 2^56. As in C53 and C70 the final state of the path is not checked, and the constant clearance is for a single obstacle. Subnormals and overflow are not modelled."
  },
  {
   "property": "C128",
   "status": "proved",
   "theorems": [
    "PathPlanning.ObstHeuristic.C128_update",
    "PathPlanning.ObstHeuristic.C128_error",
    "PathPlanning.ObstHeuristic.C128_at_most_diag_times_the_shortest",
    "PathPlanning.ObstHeuristic.C128_saturates",
    "PathPlanning.ObstHeuristic.C128_corridor_saturates",
    "PathPlanning.ObstHeuristic.C128_straight_line",
    "PathPlanning.ObstHeuristic.C128_value",
    "PathPlanning.ObstHeuristic.C128_constants"
   ],
   "note": "The range of exponents is not bounded in the model; C128_saturates shows that costs do not overflow, but the products of GetHeuristicValue may for extreme resolutions."
  },
  {
   "property": "C129",
   "status": "proved",
   "theorems": [
    "PathPlanning.Raster.C129_line_exact",
    "PathPlanning.Raster.C129_line_no_overflow",
    "PathPlanning.Raster.C129_long_line_overflows",
    "PathPlanning.Raster.C129_last_column_overflows",
    "PathPlanning.Shape.C129_cells_exact",
    "PathPlanning.Shape.C129_no_overflow",
    "PathPlanning.Shape.C129_far_corner_undefined"
   ],
   "note": "Positions are exact real numbers, as in Model/OccMap; the memory of the list of cells is not bounded."
  },
  {
   "property": "C130",
   "status": "partial",
   "theorems": [
    "PathPlanning.C130_same_samples_partial",
    "PathPlanning.C130_samples_partial",
    "PathPlanning.C130_cusps_partial",
    "PathPlanning.C130_cusps_missed",
    "PathPlanning.C130_long_path_undefined"
   ],
   "note": "Violated by rounding (C130_cusps_missed): a direction switch just above the middle between two multiples of the interpolation distance is not sampled, nor is any later one, though exact arithmetic samples all; and for paths of 2^54 interpolation distances the loop never ends (C130_long_path_undefined). Proved for all other inputs: same samples as in exact arithmetic (C130_same_samples_partial); for all direction switches, on paths of up to 2^28 interpolation distances: termination, no read past the set, order, range and distances. `GetCuspPointRatios` and the length are taken as given doubles; the memory of the ratios and the conversion in `reserve` are not modelled."
  },
  {
   "property": "C131",
   "status": "partial",
   "theorems": [
    "PathPlanning.C131_length_and_final",
    "PathPlanning.C131_interpolate_partial",
    "PathPlanning.C131_truncate",
    "PathPlanning.C131_truncated_interpolate_partial",
    "PathPlanning.C131_cusps",
    "PathPlanning.C131_truncated_beyond_end",
    "PathPlanning.C131_direction_partial",
    "PathPlanning.C131_direction_at_end_undefined"
   ],
   "note": "Interpolation of a path as built is within its parts and at the right position (C131_interpolate_partial), and so is GetDirection before the end (C131_direction_partial); at the end it is undefined (C131_direction_at_end_undefined). After Truncate, interpolation may ask the last part for a ratio above 1 (C131_truncated_beyond_end, 2 m and 49 m truncated at 3 m), but the position is still the one asked for up to the roundings (C131_truncated_interpolate_partial). Exponent range not modelled (no overflow or underflow)."
  },
  {
   "property": "C132",
   "status": "partial",
   "theorems": [
    "PathPlanning.C132_length",
    "PathPlanning.C132_interpolate",
    "PathPlanning.C132_direction_partial",
    "PathPlanning.C132_cusps_partial",
    "PathPlanning.C132_direction_exists_partial",
    "PathPlanning.C132_add_motion",
    "PathPlanning.C132_no_direction_at_end",
    "PathPlanning.C132_spurious_cusp",
    "PathPlanning.C132_cusp_missed"
   ],
   "note": "Violated at the end of the path: with a radius of 5 m, motions of 0.2 and 2.6 radii forward have no direction at ratio 1 (C132_no_direction_at_end), hence two such paths in a row report a change of direction (C132_spurious_cusp); the change before a very short last motion is missed (C132_cusp_missed). Everything else holds up to T / 2^48. sin, cos and the exponent range are not modelled."
  },
  {
   "property": "C133",
   "status": "partial",
   "theorems": [
    "PathPlanning.C133_relative_error",
    "PathPlanning.C133_between_zero_and_one",
    "PathPlanning.C133_zero_iff_edge_or_far",
    "PathPlanning.C133_decreases_with_obstacle_distance",
    "PathPlanning.C133_increases_with_edge_distance_partial",
    "PathPlanning.C133_one_iff_obstacle",
    "PathPlanning.C133_no_underflow",
    "PathPlanning.C133_not_increasing_with_edge_distance",
    "PathPlanning.C133_potential_map"
   ],
   "note": "Violated in one respect: with the edge at the greater of two distances the rounded potential can be less (C133_not_increasing_with_edge_distance, cells of 1 m); C133_increases_with_edge_distance_partial proves it up to a relative error of 2^-18. All the rest is proved: [0, 1], 1 exactly at obstacles, 0 exactly on edges and beyond dMax, no division by zero, no underflow, monotone in the obstacle distance."
  },
  {
   "property": "C134",
   "status": "partial",
   "theorems": [
    "PathPlanning.C134_reeds_shepp_cost_partial",
    "PathPlanning.C134_no_motion",
    "PathPlanning.C134_optimal_partial",
    "PathPlanning.C134_sampling_step",
    "PathPlanning.C134_voronoi_undefined",
    "PathPlanning.C134_voronoi_of_nothing",
    "PathPlanning.C134_voronoi_cost",
    "PathPlanning.C134_steer_cost",
    "PathPlanning.C134_goal_cost_partial",
    "PathPlanning.C134_forward_multiplier_ignored"
   ],
   "note": "Violated by the code: a reverse multiplier that is rounded to 1, without a switching cost, makes the program ignore the forward multiplier (C134_forward_multiplier_ignored; the path costs half of what it should). Otherwise, i.e. if the reverse multiplier is not rounded to 1, there is a switching cost, or the forward multiplier is rounded to 1: C134_reeds_shepp_cost_partial, C134_optimal_partial and C134_goal_cost_partial. C134_steer_cost, C134_voronoi_cost, C134_voronoi_undefined, C134_voronoi_of_nothing, C134_sampling_step and C134_no_motion have no such hypothesis; paths are supposed not longer than 2^28 cells."
  },
  {
   "property": "C135",
   "status": "partial",
   "theorems": [
    "PathPlanning.C135_grid_undefined_iff",
    "PathPlanning.C135_grid_new",
    "PathPlanning.C135_grid_access",
    "PathPlanning.C135_initialize_size",
    "PathPlanning.C135_small_map",
    "PathPlanning.C135_large_map_undefined",
    "PathPlanning.C135_cell_of_position_partial",
    "PathPlanning.C135_far_position_undefined",
    "PathPlanning.C135_state_valid_partial",
    "PathPlanning.C135_discretize_partial",
    "PathPlanning.C135_discretize_far_undefined"
   ],
   "note": "Violated for positions more than 2147483650 cells away from the corner of the map: C135_far_position_undefined, C135_discretize_far_undefined (undefined instead of false). Proved for positions up to 2147483647 cells away (C135_cell_of_position_partial, C135_state_valid_partial, C135_discretize_partial); the statements on the size and the storage of maps are proved in full."
  },
  {
   "property": "C136",
   "status": "proved",
   "theorems": [
    "PathPlanning.C136_sum",
    "PathPlanning.C136_difference",
    "PathPlanning.C136_reeds_shepp_pose",
    "PathPlanning.C136_reeds_shepp_final",
    "PathPlanning.C136_reeds_shepp_start",
    "PathPlanning.C136_headings",
    "PathPlanning.C136_unit_speed"
   ],
   "note": "For turns of at most 7 radians (those of the words are at most 2\u03c0) and headings in the range that the constructor of a pose establishes. The lengths of the motions are any doubles: how far the path of rounded lengths ends from the goal is not covered."
  },
  {
   "property": "C137",
   "status": "proved",
   "theorems": [
    "PathPlanning.C137_constant_steer",
    "PathPlanning.C137_doubles",
    "PathPlanning.C137_ends",
    "PathPlanning.C137_steering_angles",
    "PathPlanning.C137_hybrid_motion"
   ],
   "note": "C137_constant_steer is about every vehicle with |rearToCenter tan s| <= |wheelbase|; hybrid A* uses rearToCenter = 0. The alternative with the curvature below 1.001e-9 is what the branch in the program does; C52 covers the same function with exact arithmetic. More than five motions: see C58. Exponents are unbounded, so overflow and underflow are not modelled."
  },
  {
   "property": "C138",
   "status": "proved",
   "theorems": [
    "PathPlanning.C138_arrives",
    "PathPlanning.C138_steering",
    "PathPlanning.C138_rrt",
    "PathPlanning.C138_rrtStar",
    "PathPlanning.C138_stuck",
    "PathPlanning.C138_leaves_bounds"
   ],
   "note": "Nearest neighbours are taken with respect to the rounded squared distance. C138_stuck and C138_leaves_bounds are theorems about the code as it is: no iteration count helps if the connection distance is below the rounding of the coordinates, and the free validator's own test rejects a point of a returned path."
  },
  {
   "property": "C139",
   "status": "partial",
   "theorems": [
    "PathPlanning.C139_costs_partial",
    "PathPlanning.C139_shortest_through_neighbours_partial",
    "PathPlanning.C139_r2_partial",
    "PathPlanning.C139_paths_are_kept",
    "PathPlanning.C139_search_runs"
   ],
   "note": "The costs and the choice of parents are right up to rounding (C139_costs_partial, C139_shortest_through_neighbours_partial, C139_r2_partial), and paths are kept (C139_paths_are_kept). Missing: iterations that end in a state of the tree, for which the costs are wrong also without rounding (C104_longer_than_needed)."
  },
  {
   "property": "C140",
   "status": "proved",
   "theorems": [
    "PathPlanning.C140_rrt",
    "PathPlanning.C140_rrtStar"
   ],
   "note": ""
  },
  {
   "property": "C141",
   "status": "proved",
   "theorems": [
    "PathPlanning.C141_rounded_within_factor_two",
    "PathPlanning.C141_double_within_factor_two"
   ],
   "note": "Twice the optimum is what exact arithmetic gives (C16); rounding adds the stated factor."
  },
  {
   "property": "C142",
   "status": "proved",
   "theorems": [
    "PathPlanning.C142_path_visits_no_state_twice",
    "PathPlanning.C142_grid",
    "PathPlanning.C142_hybrid"
   ],
   "note": "Holds for any cost arithmetic, including rounded costs."
  },
  {
   "property": "C143",
   "status": "proved",
   "theorems": [
    "PathPlanning.C143_near_shortest",
    "PathPlanning.C143_shortest",
    "PathPlanning.C143_shortest_small_maps",
    "PathPlanning.C143_complete"
   ],
   "note": "The distance is the one of example_a_star_grid.py:47-53, rounded at every operation."
  },
  {
   "property": "C144",
   "status": "proved",
   "theorems": [
    "PathPlanning.C144_iteration_defined_iff",
    "PathPlanning.C144_undefined"
   ],
   "note": "Divisions are exact; overflow to infinity and rounding to zero are not modelled."
  },
  {
   "property": "C145",
   "status": "proved",
   "theorems": [
    "PathPlanning.C145_r2",
    "PathPlanning.C145_r2_truncate",
    "PathPlanning.C145_se2",
    "PathPlanning.C145_se2_truncate"
   ],
   "note": "Exponents are unbounded (no overflow or underflow). The linear interpolation of headings is C45."
  },
  {
   "property": "C146",
   "status": "proved",
   "theorems": [
    "PathPlanning.C146_vertices",
    "PathPlanning.C146_outline_near_cells",
    "PathPlanning.C146_cells_near_outline",
    "PathPlanning.C146_accepted_state_keeps_clear",
    "PathPlanning.C146_rejected_state_is_near",
    "PathPlanning.C146_obstacle",
    "PathPlanning.C146_no_shape"
   ],
   "note": "Proved for corners on the map and at most 2^31 rows and columns; the overflow of int in the rasterisation is the subject of C129. The safe radius shrinks by the same factor as in the exact theorem C92 (the distance map is not exact, C38)."
  },
  {
   "property": "C147",
   "status": "proved",
   "theorems": [
    "PathPlanning.C147_rectangle",
    "PathPlanning.C147_regular_polygon",
    "PathPlanning.C147_circle",
    "PathPlanning.C147_circle_contains_disc"
   ],
   "note": "Proved for at most 2^24 corners (larger counts are rounded when converted to float) and, for circles, at least 3 corners."
  },
  {
   "property": "C148",
   "status": "proved",
   "theorems": [
    "PathPlanning.C148_accepted_path_keeps_clear",
    "PathPlanning.C148_accepted_path_stays_outside",
    "PathPlanning.C148_reeds_shepp_follows",
    "PathPlanning.C148_straight_follows",
    "PathPlanning.C148_steer_follows"
   ],
   "note": "The reported distances may be 8.2 % too large (C38), which is why the guarantee loses a part of the largest reported distance."
  },
  {
   "property": "C149",
   "status": "partial",
   "theorems": [
    "PathPlanning.NonHolo.C149_defined_iff",
    "PathPlanning.NonHolo.C149_lookup_partial",
    "PathPlanning.NonHolo.C149_outside",
    "PathPlanning.NonHolo.C149_area",
    "PathPlanning.NonHolo.C149_build_size",
    "PathPlanning.NonHolo.C149_build",
    "PathPlanning.NonHolo.C149_table_entry",
    "PathPlanning.NonHolo.C149_negative_index"
   ],
   "note": "Violated as C56: for half of the headings the angular index is negative (C149_negative_index, exact criterion C149_defined_iff). The rounding of the Reeds-Shepp solver that fills the table is not modelled."
  },
  {
   "property": "C150",
   "status": "proved",
   "theorems": [
    "PathPlanning.SingletonInit.C150_get",
    "PathPlanning.SingletonInit.C150_instances",
    "PathPlanning.SingletonInit.C150_assertions",
    "PathPlanning.SingletonInit.C150_without_assertions",
    "PathPlanning.SingletonInit.C150_second_init_without_assertions"
   ],
   "note": "One thread. Without assertions a second Init destroys the instance in use (C150_second_init_without_assertions). The class is not used by the planner."
  },
  {
   "property": "C151",
   "status": "partial",
   "theorems": [
    "PathPlanning.C151_thrown_iff_a_call_throws",
    "PathPlanning.C151_returned",
    "PathPlanning.C151_thrown_reports_nothing",
    "PathPlanning.C151_nothing_dangling",
    "PathPlanning.C151_reusable",
    "PathPlanning.C151_planner_thrown",
    "PathPlanning.C151_bidirectional_thrown_iff_a_call_throws",
    "PathPlanning.C151_bidirectional_returned",
    "PathPlanning.C151_bidirectional_thrown_partial",
    "PathPlanning.C151_bidirectional_retry",
    "PathPlanning.C151_half_a_path_left"
   ],
   "note": "A* in full. Bidirectional A*: an exception in the SetGoal of the forward heuristic leaves the reverse half of the former path as the path of the planner (C151_half_a_path_left); the other points of exception are as claimed, and the next search is not affected. Exceptions of containers and of copies of states are not modelled."
  },
  {
   "property": "C152",
   "status": "proved",
   "theorems": [
    "PathPlanning.C152_rrt_ends",
    "PathPlanning.C152_rrt_returned",
    "PathPlanning.C152_rrt_thrown_if",
    "PathPlanning.C152_rrt_thrown",
    "PathPlanning.C152_rrtStar_ends",
    "PathPlanning.C152_rrtStar_returned",
    "PathPlanning.C152_rrtStar_thrown_if",
    "PathPlanning.C152_rrtStar_thrown",
    "PathPlanning.RRTPlanner.C152_rrt_reusable",
    "PathPlanning.RRTPlanner.C152_rrtStar_reusable",
    "PathPlanning.RRTPlanner.C152_rrtStar_r2_reusable"
   ],
   "note": "Proved for RRT and RRT*: a search always ends (ends), is the usual one if nothing throws in its iterations (returned), is left by an exception if one is thrown before the tree is extended or in the call of IsSolution that would end it (thrown_if), and then reports no path and holds exactly the tree of the completed iterations (thrown). After any history the next search has the guarantees of C103 (reusable). Exceptions of the containers, of flann and of copies of states are not modelled."
  },
  {
   "property": "C153",
   "status": "partial",
   "theorems": [
    "PathPlanning.Shared.C153_undisturbed_partial",
    "PathPlanning.Shared.C153_any_schedule_partial",
    "PathPlanning.Shared.C153_calls_partial",
    "PathPlanning.Shared.C153_ends",
    "PathPlanning.Shared.C153_disturbed"
   ],
   "note": "Violated: C153_disturbed. A search writes its goal into the shared heuristic, so that another search in progress goes on with the wrong goal; with a consistent heuristic it then returns a path of cost 11 instead of 3. Proved for every schedule: the path returned is a route from start to goal with the reported cost, failure is returned only if the goal cannot be reached, no state is expanded twice, and the search ends; the result is that of the search alone if no search with the same heuristic and another goal starts meanwhile. Memory is taken to be sequentially consistent."
  },
  {
   "property": "C154",
   "status": "partial",
   "theorems": [
    "PathPlanning.Rng.C154_one_thread_partial",
    "PathPlanning.Rng.C154_constructed_first_partial",
    "PathPlanning.Rng.C154_taking_turns_partial",
    "PathPlanning.Rng.C154_race",
    "PathPlanning.Rng.C154_exception",
    "PathPlanning.Rng.C154_rrtStar_float",
    "PathPlanning.Rng.C154_same_number_twice"
   ],
   "note": "Proved for every history of one thread without exceptions and without RRT* on float spaces (C154_one_thread_partial), and for every schedule of threads started after the first object was constructed: always defined, and only numbers of the sequence are drawn (C154_constructed_first_partial), each once and in order if the threads take turns (C154_taking_turns_partial). Violated otherwise: two threads that construct their first objects at the same time (C154_race), an exception of the random device after which the engine is never constructed (C154_exception), RRT* on float spaces, whose constructor does not call Init (C154_rrtStar_float), and threads that draw at the same time (C154_same_number_twice)."
  },
  {
   "property": "C155",
   "status": "proved",
   "theorems": [
    "PathPlanning.C155_path_visits_no_state_twice",
    "PathPlanning.C155_double",
    "PathPlanning.C155_grid"
   ],
   "note": "For all equalities of states, propagators and heuristics; corollaries for double costs and for the grid planner. The second copy of the meeting state in the path is C13."
  },
  {
   "property": "C156",
   "status": "proved",
   "theorems": [
    "PathPlanning.C156_terminates",
    "PathPlanning.C156_fails_iff_no_walk",
    "PathPlanning.C156_within_factor_two"
   ],
   "note": "The heuristics are those towards the goal and towards the start (C99 says when the planner object sets them so). Overflow is excluded by the size of the map; doubles are modelled as the reals with 53 bits and no exponent bounds."
  },
  {
   "property": "C157",
   "status": "partial",
   "theorems": [
    "PathPlanning.C157_search_calls_existing_partial",
    "PathPlanning.C157_nothing_left",
    "PathPlanning.C157_getters_dangle",
    "PathPlanning.C157_null_part",
    "PathPlanning.C157_explored_until_next_search",
    "PathPlanning.C157_explored_gone_after"
   ],
   "note": "Proved: a search calls only existing objects and no null member, nothing is left at the end, and explored nodes live exactly until the next search. Violated: GetStatePropagators and GetHeuristics return references that dangle in every history (C157_getters_dangle); GetAverageHeuristicPair and Initialize accept null heuristics, which the search then calls (C157_null_part)."
  },
  {
   "property": "C158",
   "status": "proved",
   "theorems": [
    "PathPlanning.C158_expanded",
    "PathPlanning.C158_explored_states",
    "PathPlanning.C158_order",
    "PathPlanning.C158_failure",
    "PathPlanning.C158_better_heuristic"
   ],
   "note": "Costs in any linearly ordered cancellative commutative monoid (exact arithmetic); deterministic propagators; the guard of hybrid A* on shortcuts is excluded by hypothesis."
  },
  {
   "property": "C159",
   "status": "proved",
   "theorems": [
    "PathPlanning.C159_within_factor",
    "PathPlanning.C159_weighted",
    "PathPlanning.C159_grid",
    "PathPlanning.C159_manhattan"
   ],
   "note": "Exact arithmetic (any linearly ordered commutative ring, e.g. the reals); deterministic propagators with non-negative costs; the guard of hybrid A* on shortcuts is excluded by hypothesis."
  },
  {
   "property": "C160",
   "status": "proved",
   "theorems": [
    "PathPlanning.C160_rrt",
    "PathPlanning.C160_rrtStar",
    "PathPlanning.C160_rrt_same_path",
    "PathPlanning.C160_rrtStar_same_path"
   ],
   "note": "For all draws, limits and histories."
  },
  {
   "property": "C161",
   "status": "partial",
   "theorems": [
    "PathPlanning.C161_stays_longer",
    "PathPlanning.C161_settles_partial"
   ],
   "note": "Violated: C161_stays_longer shows, in the empty plane, a length above that of the straight path that the result has or exceeds with a positive probability independent of the limits, with the number of neighbours of the code. Proved: with probability one the path is the same for all large enough limits (C161_settles_partial)."
  },
  {
   "property": "C162",
   "status": "proved",
   "theorems": [
    "PathPlanning.C162_rrt",
    "PathPlanning.C162_rrtStar"
   ],
   "note": "For searches of RRT and of RRT* in the plane with exact arithmetic. The random number is the length of a block of iterations times the number of limits, in blocks, with which the search would fail."
  },
  {
   "property": "C163",
   "status": "proved",
   "theorems": [
    "PathPlanning.C163_more_obstacles",
    "PathPlanning.C163_symmetric",
    "PathPlanning.C163_triangle",
    "PathPlanning.C163_more_obstacles_double",
    "PathPlanning.C163_symmetric_double",
    "PathPlanning.C163_triangle_double"
   ],
   "note": "Occupied ends are left out of the symmetric statement: the start may be occupied, the goal may not (C19). ConsistentOn is the hypothesis of C20."
  },
  {
   "property": "C164",
   "status": "partial",
   "theorems": [
    "PathPlanning.C164_distances_fall_partial",
    "PathPlanning.Validator.C164_state_stays_rejected_partial",
    "PathPlanning.Validator.C164_state_stays_rejected_double_partial",
    "PathPlanning.Validator.C164_path_accepted_with_more_obstacles",
    "PathPlanning.C164_fresh_map_reports_more"
   ],
   "note": "The distances and the states of a map to which obstacles are added: proved, for the states also with rounding. The claim is false for paths (`Validator.C164_path_accepted_with_more_obstacles`) and for maps made from scratch (`C164_fresh_map_reports_more`)."
  },
  {
   "property": "C165",
   "status": "partial",
   "theorems": [
    "PathPlanning.C165_map_partial",
    "PathPlanning.C165_obstacle_partial",
    "PathPlanning.C165_state_valid_partial",
    "PathPlanning.C165_voronoi_partial",
    "PathPlanning.C165_obstacle_heuristic_partial",
    "PathPlanning.C165_nonholonomic_heuristic_partial",
    "PathPlanning.C165_motion_partial",
    "PathPlanning.C165_smooth_partial",
    "PathPlanning.C165_path_depends_on_origin",
    "PathPlanning.C165_nodes_depend_on_origin"
   ],
   "note": "Proved for the map, obstacles, states, Voronoi queries, heuristics, motions and the smoother. False for paths (`C165_path_depends_on_origin`) and for the nodes of hybrid A* (`C165_nodes_depend_on_origin`). Rounding is not considered."
  },
  {
   "property": "C166",
   "status": "partial",
   "theorems": [
    "PathPlanning.C166_same_up_to_eight_percent_partial",
    "PathPlanning.C166_same_for_two_obstacles_partial",
    "PathPlanning.C166_same_where_exact_partial",
    "PathPlanning.C166_depends_on_history",
    "PathPlanning.C166_depends_on_order"
   ],
   "note": "False after removals (`C166_depends_on_history`) and without (`C166_depends_on_order`). Without removals: equal distances for the sets of obstacles for which distances are exact, and within 8.3 % for all others."
  },
  {
   "property": "C167",
   "status": "partial",
   "theorems": [
    "PathPlanning.Validator.C167_state_stays_rejected_partial",
    "PathPlanning.Validator.C167_state_stays_rejected_double_partial",
    "PathPlanning.Validator.C167_valid_throughout_accepted",
    "PathPlanning.Validator.C167_accepted_with_smaller_radius_partial",
    "PathPlanning.Validator.C167_path_accepted_with_greater_radius",
    "PathPlanning.Validator.C167_path_accepted_with_smaller_step"
   ],
   "note": "Proved for states, with reals and with rounding. A path all of whose states are valid is accepted with every positive step and every smaller radius. A path accepted with a radius is accepted with a radius that is smaller by the step and two cell diagonals (exact distances, path within the bounds). False for paths: with the greater radius 0.95 instead of 0.9 (C167_path_accepted_with_greater_radius), or the smaller step 0.08 instead of 0.1 (C167_path_accepted_with_smaller_step), the validator checks other states and accepts a path with an invalid state that it rejects otherwise."
  },
  {
   "property": "C168",
   "status": "partial",
   "theorems": [
    "PathPlanning.C168_override_called_partial",
    "PathPlanning.C168_path_valid_never_called",
    "PathPlanning.C168_names_usable_partial",
    "PathPlanning.C168_is_occupied_unusable"
   ],
   "note": "Proved for all virtual functions but IsPathValid, and all names but one. The wrapper of IsPathValid looks up IsStateValid (pyplanning.cpp:405), so the IsPathValid of a validator written in Python is never called (C168_path_valid_never_called). OccupancyMap::IsOccupied is offered as \"is_occupied)\" (C168_is_occupied_unusable). The conversion of arguments and results between the languages is not modelled."
  },
  {
   "property": "C169",
   "status": "proved",
   "theorems": [
    "PathPlanning.C169_same_cells",
    "PathPlanning.C169_same_cells_double",
    "PathPlanning.C169_same_occupancy"
   ],
   "note": "C169_same_cells (exact), C169_same_cells_double (with rounding, any mathematical library) and C169_same_occupancy (the occupancy values after AddObstacle and RemoveObstacle). The distances may still differ within the bounds of C166, since they depend on the order in which the cells are marked."
  },
  {
   "property": "C170",
   "status": "proved",
   "theorems": [
    "PathPlanning.C170_same_cost",
    "PathPlanning.C170_same_length_double",
    "PathPlanning.C170_bidirectional"
   ],
   "note": "C170_same_cost (any costs that are turned with the map), C170_same_length_double (doubles, up to 65536 cells) and C170_bidirectional (doubles, free ends; its cost may differ since it is not optimal, see C16)."
  },
  {
   "property": "C171",
   "status": "proved",
   "theorems": [
    "PathPlanning.C171_add_difference",
    "PathPlanning.C171_subtract_sum"
   ],
   "note": "C171_add_difference and C171_subtract_sum, for every library accurate to one unit in the last place. Overflow to infinity is not modelled."
  },
  {
   "property": "C172",
   "status": "partial",
   "theorems": [
    "PathPlanning.ObstHeuristic.C172_more_obstacles_partial",
    "PathPlanning.ObstHeuristic.C172_symmetric_partial",
    "PathPlanning.ObstHeuristic.C172_more_obstacles_lower",
    "PathPlanning.ObstHeuristic.C172_not_symmetric"
   ],
   "note": "Proved: reachable cells only shrink with the obstacles and are the same in both directions, and the values hold up to a factor sqrt(2) (C172_more_obstacles_partial, C172_symmetric_partial). Violated exactly, as a consequence of C55_not_the_shortest: one more obstacle lowers a value from 5.66 to 5.41 cells (C172_more_obstacles_lower); the value between two cells is 6.41 in one direction and 6.66 in the other (C172_not_symmetric)."
  },
  {
   "property": "C173",
   "status": "proved",
   "theorems": [
    "PathPlanning.AStar.C173_a_star",
    "PathPlanning.Bi.C173_bidirectional",
    "PathPlanning.C173_factor",
    "PathPlanning.C173_double"
   ],
   "note": "Renaming need not be onto and may identify no more states than the state equality does. With doubles a factor that is not a power of two may change the roundings, so it is not claimed."
  },
  {
   "property": "C174",
   "status": "proved",
   "theorems": [
    "PathPlanning.RRTUnits.C174_rrt",
    "PathPlanning.RRTUnits.C174_rrt_star",
    "PathPlanning.RRTUnits.C174_rrt_plane",
    "PathPlanning.RRTUnits.C174_rrt_star_plane"
   ],
   "note": "The answers of the nearest-neighbour search are taken to correspond (for exhaustive search this is proved in the file); rounding is not considered."
  },
  {
   "property": "C175",
   "status": "partial",
   "theorems": [
    "PathPlanning.C175_map_partial",
    "PathPlanning.C175_obstacle_partial",
    "PathPlanning.C175_shapes",
    "PathPlanning.C175_state_valid_partial",
    "PathPlanning.C175_path_valid_partial",
    "PathPlanning.C175_paths_partial",
    "PathPlanning.C175_voronoi_partial",
    "PathPlanning.C175_obstacle_heuristic_partial",
    "PathPlanning.C175_reeds_shepp_partial",
    "PathPlanning.C175_nonholonomic_heuristic_partial",
    "PathPlanning.C175_motion_partial",
    "PathPlanning.C175_hybrid_partial",
    "PathPlanning.C175_path_cost_depends_on_unit",
    "PathPlanning.C175_motion_depends_on_unit",
    "PathPlanning.C175_goal_test_depends_on_unit"
   ],
   "note": "Proved for the functions of the statement with real numbers. False where the program has lengths of its own: the path cost of the Voronoi diagram (20 m and 30 m, C175_path_cost_depends_on_unit), the curvature below which a motion is straight (1e-9 rad/m, C175_motion_depends_on_unit), the goal test of hybrid A* (1 mm, C175_goal_test_depends_on_unit). The smoother is not compared."
  },
  {
   "property": "C176",
   "status": "proved",
   "theorems": [
    "PathPlanning.C176_map",
    "PathPlanning.C176_map_and_diagram",
    "PathPlanning.C176_diagram",
    "PathPlanning.C176_second_update_exists"
   ],
   "note": "C176_map: any number of further updates. C176_map_and_diagram: any further updates of the map and its Voronoi map. C176_diagram: GVD::Update with the path costs. C176_second_update_exists: the further update can always be made (it makes no iteration)."
  },
  {
   "property": "C177",
   "status": "partial",
   "theorems": [
    "PathPlanning.C177_difference_partial",
    "PathPlanning.C177_difference_unwrapped",
    "PathPlanning.C177_nonholonomic_heuristic_partial",
    "PathPlanning.C177_reeds_shepp_partial",
    "PathPlanning.C177_motion",
    "PathPlanning.C177_reeds_shepp_path",
    "PathPlanning.C177_connect_partial",
    "PathPlanning.C177_line",
    "PathPlanning.C177_goal_test_partial",
    "PathPlanning.C177_goal_test_depends_on_axes",
    "PathPlanning.C177_heuristic_depends_on_axes",
    "PathPlanning.C177_cells_depend_on_axes"
   ],
   "note": "Proved for motions, Reeds-Shepp paths, straight lines, and for the solver, its paths and the non-holonomic heuristic unless the two headings are opposite. Violations: with opposite headings the difference is pi in one frame and -pi in another, and the non-holonomic heuristic then reads outside its table (C177_heuristic_depends_on_axes); the goal test compares headings as numbers, so that two poses that are the same in one frame are different in another (C177_goal_test_depends_on_axes). The cells of hybrid A* follow the axes (C177_cells_depend_on_axes)."
  },
  {
   "property": "C178",
   "status": "proved",
   "theorems": [
    "PathPlanning.C178_part_of_accepted",
    "PathPlanning.C178_parts_of_rejected",
    "PathPlanning.C178_reported_part",
    "PathPlanning.C178_rejected_part",
    "PathPlanning.C178_truncated_motion",
    "PathPlanning.C178_truncated_line"
   ],
   "note": "For paths of positive length over the reals. Truncate of Reeds-Shepp paths is not a prefix of the path (C46) and hybrid A* does not truncate them; the empty part (ratio 0) is C53_length_zero."
  },
  {
   "property": "C179",
   "status": "partial",
   "theorems": [
    "PathPlanning.C179_same_status_partial",
    "PathPlanning.C179_costs_partial",
    "PathPlanning.C179_costs_differ",
    "PathPlanning.C179_occupied_goal",
    "PathPlanning.C179_occupied_start"
   ],
   "note": "Proved between free cells: the status is the same, and the cost of the bidirectional planner is at least the cost of A* and at most twice this cost. Violated otherwise: the costs differ on a 3 x 3 map (34 and 40); when the goal is occupied A* fails and the bidirectional planner succeeds; when the start is occupied it is the other way round."
  },
  {
   "property": "C180",
   "status": "proved",
   "theorems": [
    "PathPlanning.C180_shortest",
    "PathPlanning.C180_connection_cost",
    "PathPlanning.C180_heuristic"
   ],
   "note": ""
  },
  {
   "property": "C181",
   "status": "proved",
   "theorems": [
    "PathPlanning.C181_reported_cost",
    "PathPlanning.C181_no_cheaper_than_line"
   ],
   "note": ""
  },
  {
   "property": "C182",
   "status": "proved",
   "theorems": [
    "PathPlanning.C182_walk_at_least_octile",
    "PathPlanning.C182_walk_of_octile_length",
    "PathPlanning.C182_planner_at_least_octile",
    "PathPlanning.C182_planner",
    "PathPlanning.C182_octile_is_consistent",
    "PathPlanning.C182_bidirectional",
    "PathPlanning.C182_bidirectional_octile",
    "PathPlanning.C182_obstacle_heuristic"
   ],
   "note": "Props/Octile.lean. Proved over any linearly ordered field, so without the rounding of the costs."
  },
  {
   "property": "C183",
   "status": "proved",
   "theorems": [
    "PathPlanning.C183_checked_motions_give_walk",
    "PathPlanning.C183_plan_gives_walk",
    "PathPlanning.C183_grid_searches_succeed",
    "PathPlanning.C183_heuristic_bounded_by_drive"
   ],
   "note": "Props/DriveWalk.lean; a case that meets the hypotheses is the planner of Props/PlanOutsideExample.lean. The occupied cells are those covered by registered obstacles (C30)."
  },
  {
   "property": "C184",
   "status": "proved",
   "theorems": [
    "PathPlanning.C184_rrt_keeps_clear",
    "PathPlanning.C184_rrtStar_keeps_clear",
    "PathPlanning.C184_rrt_gives_walk",
    "PathPlanning.C184_rrtStar_gives_walk",
    "PathPlanning.C184_grid_search_succeeds"
   ],
   "note": "Straight connections over poses (path_se2.cpp) with the validator of the occupancy map; exact arithmetic."
  }
 ]
}