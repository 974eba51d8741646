# Axioms of each theorem

Output of `#print axioms` for every theorem of MANIFEST.json.

| property | theorem | axioms |
|---|---|---|
| C01 | `PathPlanning.C01_frontier_refines_reference` | propext, Classical.choice, Quot.sound |
| C01 | `PathPlanning.C01_frontier_one_element_per_key` | propext, Classical.choice, Quot.sound |
| C02 | `PathPlanning.C02_best_is_last_inserted_best` | propext, Quot.sound |
| C02 | `PathPlanning.C02_frontier_pop_best_lifo` | propext, Classical.choice, Quot.sound |
| C03 | `PathPlanning.C03_frontier_remove_exact` | propext, Classical.choice, Quot.sound |
| C04 | `PathPlanning.C04_astar_success_path_is_route` | propext, Classical.choice, Quot.sound |
| C05 | `PathPlanning.C05_astar_cost_and_actions_match_path` | propext, Classical.choice, Quot.sound |
| C06 | `PathPlanning.C06_astar_consistent_optimal` | propext, Classical.choice, Quot.sound |
| C06 | `PathPlanning.C06_planner_optimal` | propext, Classical.choice, Quot.sound |
| C07 | `PathPlanning.C07_astar_failure_unreachable` | propext, Classical.choice, Quot.sound |
| C07 | `PathPlanning.C07_astar_success_iff_reachable` | propext, Classical.choice, Quot.sound |
| C08 | `PathPlanning.C08_astar_graph_search_terminates` | propext, Classical.choice, Quot.sound |
| C08 | `PathPlanning.C08_astar_no_state_expanded_twice` | propext, Classical.choice, Quot.sound |
| C08 | `PathPlanning.C08_astar_fuel_irrelevant` | propext, Quot.sound |
| C09 | `PathPlanning.C09_astar_failure_reports_nothing_partial` | propext, Classical.choice, Quot.sound |
| C09 | `PathPlanning.C09_stale_path_after_rejected_initialize` | propext, Quot.sound |
| C10 | `PathPlanning.C10_astar_reusable` | propext, Quot.sound |
| C11 | `PathPlanning.C11_tree_search_uniform_cost_optimal_partial` | propext, Classical.choice, Quot.sound |
| C11 | `PathPlanning.C11_tree_search_not_optimal` | propext, Quot.sound |
| C12 | `PathPlanning.C12_combined_is_max` | propext, Quot.sound |
| C12 | `PathPlanning.C12_combined_admissible` | propext, Quot.sound |
| C12 | `PathPlanning.C12_combined_consistent` | propext, Quot.sound |
| C12 | `PathPlanning.C12_combined_forwards_goal` | none |
| C12 | `PathPlanning.C12_adapter_uses_adapted_goal` | propext, Quot.sound |
| C13 | `PathPlanning.C13_bidirectional_path_real_partial` | propext, Classical.choice, Quot.sound |
| C13 | `PathPlanning.C13_meeting_state_listed_twice` | propext, Quot.sound |
| C14 | `PathPlanning.C14_bidirectional_failure_unreachable` | propext, Classical.choice, Quot.sound |
| C14 | `PathPlanning.C14_bidirectional_terminates` | propext, Classical.choice, Quot.sound |
| C15 | `PathPlanning.C15_bidirectional_cost_matches_path` | propext, Classical.choice, Quot.sound |
| C16 | `PathPlanning.C16_planner_bound_partial` | propext, Classical.choice, Quot.sound |
| C16 | `PathPlanning.C16_bidirectional_bound_partial` | propext, Classical.choice, Quot.sound |
| C16 | `PathPlanning.C16_bidirectional_within_factor_two_partial` | propext, Classical.choice, Quot.sound |
| C16 | `PathPlanning.C16_average_metric_partial` | propext, Classical.choice, Quot.sound |
| C16 | `PathPlanning.C16_bidirectional_not_optimal` | propext, Quot.sound |
| C16 | `PathPlanning.C16_factor_two_is_tight` | propext, Classical.choice, Quot.sound |
| C17 | `PathPlanning.C17_average_pair_consistent_partial` | propext, Classical.choice, Quot.sound |
| C17 | `PathPlanning.C17_parts_keep_stale_goals` | propext, Classical.choice, Quot.sound |
| C18 | `PathPlanning.C18_neighbors_exact` | propext, Classical.choice, Quot.sound |
| C18 | `PathPlanning.C18_neighbors_symmetric` | propext, Classical.choice, Quot.sound |
| C18 | `PathPlanning.C18_adjacent_iff` | propext, Classical.choice, Quot.sound |
| C18 | `PathPlanning.C18_invalid_no_neighbors` | propext, Classical.choice, Quot.sound |
| C19 | `PathPlanning.C19_propagator_exact` | propext, Classical.choice, Quot.sound |
| C19 | `PathPlanning.C19_propagator_reversible` | propext, Classical.choice, Quot.sound |
| C20 | `PathPlanning.C20_grid_search_terminates` | propext, Classical.choice, Quot.sound |
| C20 | `PathPlanning.C20_grid_failure_no_path` | propext, Classical.choice, Quot.sound |
| C20 | `PathPlanning.C20_grid_success_is_free_path` | propext, Classical.choice, Quot.sound |
| C20 | `PathPlanning.C20_grid_optimal` | propext, Classical.choice, Quot.sound |
| C21 | `PathPlanning.C21_wall_not_crossed` | propext, Classical.choice, Quot.sound |
| C22 | `PathPlanning.C22_forest_preserved` | propext, Classical.choice, Quot.sound |
| C22 | `PathPlanning.C22_depth` | propext, Classical.choice, Quot.sound |
| C22 | `PathPlanning.C22_isDescendantOf` | propext, Classical.choice, Quot.sound |
| C22 | `PathPlanning.C22_isAncestorOf` | propext, Classical.choice, Quot.sound |
| C23 | `PathPlanning.C23_reparent` | propext, Classical.choice, Quot.sound |
| C24 | `PathPlanning.C24_one_node_per_state_partial` | propext, Classical.choice, Quot.sound |
| C24 | `PathPlanning.C24_nearest_is_minimal` | propext, Classical.choice, Quot.sound |
| C24 | `PathPlanning.C24_belongs_iff` | propext, Classical.choice, Quot.sound |
| C24 | `PathPlanning.C24_nodes_belong` | propext, Classical.choice, Quot.sound |
| C24 | `PathPlanning.C24_extend_existing` | propext, Classical.choice, Quot.sound |
| C24 | `PathPlanning.C24_extend_adds_leaf` | propext, Classical.choice, Quot.sound |
| C24 | `PathPlanning.C24_clear_empty` | propext, Classical.choice, Quot.sound |
| C24 | `PathPlanning.C24_create_root_twice_dangles` | none |
| C25 | `PathPlanning.C25_rrt_path` | propext, Classical.choice, Quot.sound |
| C25 | `PathPlanning.C25_failure_empty` | propext, Classical.choice, Quot.sound |
| C25 | `PathPlanning.C25_motion_length` | propext, Classical.choice, Quot.sound |
| C25 | `PathPlanning.C25_rrt_r2` | propext, Classical.choice, Quot.sound |
| C26 | `PathPlanning.C26_rrt_bounded` | propext, Classical.choice, Quot.sound |
| C26 | `PathPlanning.C26_rrtStar_bounded` | propext, Classical.choice, Quot.sound |
| C27 | `PathPlanning.C27_rrtStar_path_partial` | propext, Classical.choice, Quot.sound |
| C27 | `PathPlanning.C27_edges_partial` | propext, Classical.choice, Quot.sound |
| C27 | `PathPlanning.C27_unvalidated_edge` | propext, Classical.choice, Quot.sound |
| C27 | `PathPlanning.C27_rrtStar_r2` | propext, Classical.choice, Quot.sound |
| C28 | `PathPlanning.C28_cell_world_cell` | propext, Classical.choice, Quot.sound |
| C28 | `PathPlanning.C28_position_in_cell` | propext, Classical.choice, Quot.sound |
| C29 | `PathPlanning.C29_inside_exact` | propext, Classical.choice, Quot.sound |
| C29 | `PathPlanning.C29_inside_iff_rectangle_partial` | propext, Classical.choice, Quot.sound |
| C29 | `PathPlanning.C29_low_border_accepted` | propext, Classical.choice, Quot.sound |
| C29 | `PathPlanning.C29_frames_agree_partial` | propext, Classical.choice, Quot.sound |
| C29 | `PathPlanning.C29_set_position_after_size` | propext, Classical.choice, Quot.sound |
| C30 | `PathPlanning.C30_occupied_is_covered_partial` | propext, Classical.choice, Quot.sound |
| C30 | `PathPlanning.C30_occupied_iff_covered_partial` | propext, Classical.choice, Quot.sound |
| C30 | `PathPlanning.C30_overlap_lost` | propext, Quot.sound |
| C30 | `PathPlanning.C30_moved_obstacle_leaves_cells` | propext, Quot.sound |
| C31 | `PathPlanning.C31_no_exception` | propext, Classical.choice, Quot.sound |
| C31 | `PathPlanning.C31_identifiers_unique` | propext, Classical.choice, Quot.sound |
| C31 | `PathPlanning.C31_add_gives_smallest_identifier` | propext, Classical.choice, Quot.sound |
| C31 | `PathPlanning.C31_remove_result` | propext, Classical.choice, Quot.sound |
| C31 | `PathPlanning.C31_uninitialised_throws` | propext |
| C32 | `PathPlanning.C32_rasterised_line` | propext, Classical.choice, Quot.sound |
| C32 | `PathPlanning.C32_line_inside_map` | propext, Classical.choice, Quot.sound |
| C32 | `PathPlanning.C32_line_cells_inside` | propext, Classical.choice, Quot.sound |
| C33 | `PathPlanning.C33_polygon_boundary_closed` | propext, Classical.choice, Quot.sound |
| C33 | `PathPlanning.C33_composite_is_union` | propext, Classical.choice, Quot.sound |
| C34 | `PathPlanning.C34_distance_of_reported_obstacle` | propext, Classical.choice, Quot.sound |
| C34 | `PathPlanning.C34_obstacles_report_themselves` | propext, Classical.choice, Quot.sound |
| C34 | `PathPlanning.C34_linked_maps` | propext, Classical.choice, Quot.sound |
| C35 | `PathPlanning.C35_removed_obstacle_still_reported` | propext, Classical.choice, Quot.sound |
| C35 | `PathPlanning.C35_no_removal_partial` | propext, Classical.choice, Quot.sound |
| C35 | `PathPlanning.C35_adjacent_partial` | propext, Classical.choice, Quot.sound |
| C36 | `PathPlanning.C36_every_cell_sees_an_obstacle` | propext, Classical.choice, Quot.sound |
| C36 | `PathPlanning.C36_locally_exact` | propext, Classical.choice, Quot.sound |
| C37 | `PathPlanning.C37_update_terminates` | propext, Classical.choice, Quot.sound |
| C37 | `PathPlanning.C37_linked_update_terminates` | propext, Classical.choice, Quot.sound |
| C38 | `PathPlanning.C38_handed_partial` | propext, Classical.choice, Quot.sound |
| C38 | `PathPlanning.C38_rectangle_partial` | propext, Classical.choice, Quot.sound |
| C38 | `PathPlanning.C38_two_obstacles_partial` | propext, Classical.choice, Quot.sound |
| C38 | `PathPlanning.C38_not_the_nearest` | propext, Classical.choice, Quot.sound |
| C38 | `PathPlanning.C38_at_most_eight_percent_partial` | propext, Classical.choice, Quot.sound |
| C38 | `PathPlanning.C38_compass_directions_partial` | propext, Classical.choice, Quot.sound |
| C38 | `PathPlanning.C38_never_below_partial` | propext, Classical.choice, Quot.sound |
| C39 | `PathPlanning.C39_update_reads_inside` | propext, Classical.choice, Quot.sound |
| C39 | `PathPlanning.C39_linked_update_reads_inside` | propext, Classical.choice, Quot.sound |
| C39 | `PathPlanning.C39_histories_execute` | propext, Classical.choice, Quot.sound |
| C39 | `PathPlanning.C39_linked_histories_execute` | propext, Classical.choice, Quot.sound |
| C40 | `PathPlanning.C40_between_zero_and_one` | propext, Classical.choice, Quot.sound |
| C40 | `PathPlanning.C40_one_iff_obstacle` | propext, Classical.choice, Quot.sound |
| C40 | `PathPlanning.C40_zero_iff_edge_or_far` | propext, Classical.choice, Quot.sound |
| C40 | `PathPlanning.C40_decreases_with_obstacle_distance` | propext, Classical.choice, Quot.sound |
| C40 | `PathPlanning.C40_increases_with_edge_distance` | propext, Classical.choice, Quot.sound |
| C40 | `PathPlanning.C40_potential_map` | propext, Classical.choice, Quot.sound |
| C41 | `PathPlanning.C41_range` | propext, Classical.choice, Quot.sound |
| C41 | `PathPlanning.C41_same_angle` | propext, Classical.choice, Quot.sound |
| C41 | `PathPlanning.C41_unchanged` | propext, Classical.choice, Quot.sound |
| C41 | `PathPlanning.C41_idempotent` | propext, Classical.choice, Quot.sound |
| C41 | `PathPlanning.C41_hash` | propext, Classical.choice, Quot.sound |
| C41 | `PathPlanning.C41_equal_iff` | propext, Classical.choice, Quot.sound |
| C41 | `PathPlanning.C41_pi_and_minus_pi_differ` | propext, Classical.choice, Quot.sound |
| C42 | `PathPlanning.C42_add_sub` | propext, Classical.choice, Quot.sound |
| C42 | `PathPlanning.C42_sub_add` | propext, Classical.choice, Quot.sound |
| C42 | `PathPlanning.C42_assoc` | propext, Classical.choice, Quot.sound |
| C42 | `PathPlanning.C42_neutral` | propext, Classical.choice, Quot.sound |
| C42 | `PathPlanning.C42_congr` | propext, Classical.choice, Quot.sound |
| C42 | `PathPlanning.C42_range` | propext, Classical.choice, Quot.sound |
| C43 | `PathPlanning.C43_r2_validate` | propext, Classical.choice, Quot.sound |
| C43 | `PathPlanning.C43_se2_validate` | propext, Classical.choice, Quot.sound |
| C43 | `PathPlanning.C43_r2` | propext, Classical.choice, Quot.sound |
| C43 | `PathPlanning.C43_se2` | propext, Classical.choice, Quot.sound |
| C44 | `PathPlanning.C44_r2` | propext, Classical.choice, Quot.sound |
| C44 | `PathPlanning.C44_se2` | propext, Classical.choice, Quot.sound |
| C44 | `PathPlanning.C44_r2_covers` | propext, Classical.choice, Quot.sound |
| C44 | `PathPlanning.C44_se2_covers` | propext, Classical.choice, Quot.sound |
| C44 | `PathPlanning.C44_gaussian_r2` | propext, Classical.choice, Quot.sound |
| C44 | `PathPlanning.C44_gaussian_se2` | propext, Classical.choice, Quot.sound |
| C45 | `PathPlanning.C45_r2` | propext, Classical.choice, Quot.sound |
| C45 | `PathPlanning.C45_r2_connect` | propext, Classical.choice, Quot.sound |
| C45 | `PathPlanning.C45_se2` | propext, Classical.choice, Quot.sound |
| C45 | `PathPlanning.C45_se2_long_way_round` | propext, Classical.choice, Quot.sound |
| C45 | `PathPlanning.C45_constant_steer` | propext, Classical.choice, Quot.sound |
| C45 | `PathPlanning.C45_se2_connect` | propext, Classical.choice, Quot.sound |
| C45 | `PathPlanning.C45_reeds_shepp` | propext, Classical.choice, Quot.sound |
| C46 | `PathPlanning.C46_composite` | propext, Classical.choice, Quot.sound |
| C46 | `PathPlanning.C46_r2` | propext, Classical.choice, Quot.sound |
| C46 | `PathPlanning.C46_se2` | propext, Classical.choice, Quot.sound |
| C46 | `PathPlanning.C46_constant_steer` | propext, Classical.choice, Quot.sound |
| C46 | `PathPlanning.C46_reeds_shepp_partial` | propext, Classical.choice, Quot.sound |
| C46 | `PathPlanning.C46_reeds_shepp_motion_erased` | propext, Classical.choice, Quot.sound |
| C46 | `PathPlanning.C46_reeds_shepp_last_partial` | propext, Classical.choice, Quot.sound |
| C47 | `PathPlanning.C47_length_and_final` | propext, Quot.sound |
| C47 | `PathPlanning.C47_interpolate` | propext, Classical.choice, Quot.sound |
| C47 | `PathPlanning.C47_interpolate_end` | propext, Classical.choice, Quot.sound |
| C47 | `PathPlanning.C47_ratio_cases` | propext, Quot.sound |
| C47 | `PathPlanning.C47_direction_partial` | propext, Classical.choice, Quot.sound |
| C47 | `PathPlanning.C47_direction_at_end_undefined` | propext, Classical.choice, Quot.sound |
| C47 | `PathPlanning.C47_initial_state_not_set` | propext, Quot.sound |
| C47 | `PathPlanning.C47_cusps_partial` | propext, Classical.choice, Quot.sound |
| C47 | `PathPlanning.C47_initial_state_wrong` | propext, Classical.choice, Quot.sound |
| C47 | `PathPlanning.C47_cusps_not_rescaled` | propext, Classical.choice, Quot.sound |
| C47 | `PathPlanning.C47_push_after_truncate_wrong` | propext, Classical.choice, Quot.sound |
| C48 | `PathPlanning.C48_arc` | propext, Classical.choice, Quot.sound |
| C48 | `PathPlanning.C48_word` | propext, Classical.choice, Quot.sound |
| C48 | `PathPlanning.C48_at_least_euclidean` | propext, Classical.choice, Quot.sound |
| C49 | `PathPlanning.C49_exists` | propext, Classical.choice, Quot.sound |
| C49 | `PathPlanning.C49_connect` | propext, Classical.choice, Quot.sound |
| C49 | `PathPlanning.C49_shortest` | propext, Classical.choice, Quot.sound |
| C50 | `PathPlanning.C50_shortest_partial` | propext, Classical.choice, Quot.sound |
| C50 | `PathPlanning.C50_distance_not_scaled` | propext, Classical.choice, Quot.sound |
| C50 | `PathPlanning.C50_shortest_at_least_euclidean` | propext, Classical.choice, Quot.sound |
| C50 | `PathPlanning.C50_optimal` | propext, Classical.choice, Quot.sound |
| C51 | `PathPlanning.C51_cost_partial` | propext, Classical.choice, Quot.sound |
| C51 | `PathPlanning.C51_no_motion` | propext, Classical.choice, Quot.sound |
| C51 | `PathPlanning.C51_forward_multiplier_ignored` | propext, Classical.choice, Quot.sound |
| C52 | `PathPlanning.C52_flow` | propext, Classical.choice, Quot.sound |
| C52 | `PathPlanning.C52_reverse` | propext, Classical.choice, Quot.sound |
| C52 | `PathPlanning.C52_rear_axle` | propext, Classical.choice, Quot.sound |
| C52 | `PathPlanning.C52_circle` | propext, Classical.choice, Quot.sound |
| C52 | `PathPlanning.C52_radius` | propext, Classical.choice, Quot.sound |
| C52 | `PathPlanning.C52_radius_too_small` | propext, Classical.choice, Quot.sound |
| C53 | `PathPlanning.Validator.C53_state_valid_iff` | propext, Classical.choice, Quot.sound |
| C53 | `PathPlanning.Validator.C53_terminates` | propext, Classical.choice, Quot.sound |
| C53 | `PathPlanning.Validator.C53_accepted_partial` | propext, Classical.choice, Quot.sound |
| C53 | `PathPlanning.Validator.C53_rejected` | propext, Classical.choice, Quot.sound |
| C53 | `PathPlanning.Validator.C53_length_zero` | propext, Classical.choice, Quot.sound |
| C53 | `PathPlanning.Validator.C53_zero_step_does_not_end` | propext, Classical.choice, Quot.sound |
| C53 | `PathPlanning.Validator.C53_final_state_not_checked` | propext, Classical.choice, Quot.sound |
| C53 | `PathPlanning.Validator.C53_moved_map_leaves_bounds` | propext, Classical.choice, Quot.sound |
| C54 | `PathPlanning.ObstHeuristic.C54_update` | propext, Classical.choice, Quot.sound |
| C54 | `PathPlanning.ObstHeuristic.C54_update_to_goal` | propext, Classical.choice, Quot.sound |
| C54 | `PathPlanning.ObstHeuristic.C54_no_goal_cell` | propext, Classical.choice, Quot.sound |
| C55 | `PathPlanning.ObstHeuristic.C55_not_the_shortest` | propext, Classical.choice, Quot.sound |
| C55 | `PathPlanning.ObstHeuristic.C55_at_most_diag_times_the_shortest_partial` | propext, Classical.choice, Quot.sound |
| C56 | `PathPlanning.C56_defined_iff` | propext, Classical.choice, Quot.sound |
| C56 | `PathPlanning.C56_lookup_partial` | propext, Classical.choice, Quot.sound |
| C56 | `PathPlanning.C56_negative_index` | propext, Classical.choice, Quot.sound |
| C57 | `PathPlanning.C57_samples_partial` | propext, Classical.choice, Quot.sound |
| C57 | `PathPlanning.C57_cusps_partial` | propext, Classical.choice, Quot.sound |
| C57 | `PathPlanning.C57_end_sampled_iff` | propext, Classical.choice, Quot.sound |
| C57 | `PathPlanning.C57_end_missing` | propext, Classical.choice, Quot.sound |
| C57 | `PathPlanning.C57_spacing_exceeded` | propext, Classical.choice, Quot.sound |
| C57 | `PathPlanning.C57_cusps_missed` | propext, Classical.choice, Quot.sound |
| C58 | `PathPlanning.C58_symmetric` | propext, Classical.choice, Quot.sound |
| C58 | `PathPlanning.C58_radius_partial` | propext, Classical.choice, Quot.sound |
| C58 | `PathPlanning.C58_sharpest_turn` | propext, Classical.choice, Quot.sound |
| C58 | `PathPlanning.C58_too_sharp` | propext, Classical.choice, Quot.sound |
| C59 | `PathPlanning.C59_optimised_points` | propext, Classical.choice, Quot.sound |
| C59 | `PathPlanning.C59_defined` | propext, Classical.choice, Quot.sound |
| C59 | `PathPlanning.C59_kept_partial` | propext, Classical.choice, Quot.sound |
| C59 | `PathPlanning.C59_moved_partial` | propext, Classical.choice, Quot.sound |
| C59 | `PathPlanning.C59_point_near_cusp_moves` | propext, Classical.choice, Quot.sound |
| C60 | `PathPlanning.C60_status` | propext, Classical.choice, Quot.sound |
| C60 | `PathPlanning.C60_iterations` | propext, Classical.choice, Quot.sound |
| C60 | `PathPlanning.C60_short` | propext, Classical.choice, Quot.sound |
| C60 | `PathPlanning.C60_step_tolerance` | propext, Classical.choice, Quot.sound |
| C61 | `PathPlanning.SingletonTS.C61_single_instance` | propext, Quot.sound |
| C61 | `PathPlanning.SingletonTS.C61_returned_instance_exists` | propext, Quot.sound |
| C61 | `PathPlanning.SingletonTS.C61_no_deadlock` | propext, Quot.sound |
| C61 | `PathPlanning.SingletonTS.C61_release_can_break_get` | propext, Quot.sound |
| C62 | `PathPlanning.Prof.C62_session_file` | propext, Classical.choice, Quot.sound |
| C62 | `PathPlanning.Prof.C62_other_files_untouched` | propext, Classical.choice, Quot.sound |
| C62 | `PathPlanning.Prof.C62_lifetime` | propext, Classical.choice, Quot.sound |
| C62 | `PathPlanning.Prof.C62_cannot_open` | propext, Classical.choice, Quot.sound |
| C62 | `PathPlanning.Prof.C62_json` | propext, Classical.choice, Quot.sound |
| C63 | `PathPlanning.GridStore.C63_new` | propext, Classical.choice, Quot.sound |
| C63 | `PathPlanning.GridStore.C63_set` | propext, Classical.choice, Quot.sound |
| C63 | `PathPlanning.GridStore.C63_writes` | propext, Classical.choice, Quot.sound |
| C64 | `PathPlanning.C64_preOrder` | propext, Classical.choice, Quot.sound |
| C64 | `PathPlanning.C64_postOrder` | propext, Classical.choice, Quot.sound |
| C64 | `PathPlanning.C64_siblings` | propext, Classical.choice, Quot.sound |
| C64 | `PathPlanning.C64_children_walk` | propext, Classical.choice, Quot.sound |
| C65 | `PathPlanning.C65_batch_writes_out_of_range` | propext, Quot.sound |
| C65 | `PathPlanning.C65_empty_batch_partial` | none |
| C66 | `PathPlanning.C66_direction` | propext, Classical.choice, Quot.sound |
| C66 | `PathPlanning.C66_direction_zero` | propext, Classical.choice, Quot.sound |
| C66 | `PathPlanning.C66_cusps` | propext, Classical.choice, Quot.sound |
| C66 | `PathPlanning.C66_constant_steer` | propext, Classical.choice, Quot.sound |
| C67 | `PathPlanning.C67_no_obstacle_is_an_edge` | propext, Classical.choice, Quot.sound |
| C68 | `PathPlanning.C68_query_result` | propext, Classical.choice, Quot.sound |
| C68 | `PathPlanning.C68_nearest_obstacle_at_reported_distance_partial` | propext, Classical.choice, Quot.sound |
| C68 | `PathPlanning.C68_bogus_position_without_obstacles` | propext, Classical.choice, Quot.sound |
| C68 | `PathPlanning.C68_path_cost` | propext, Classical.choice, Quot.sound |
| C68 | `PathPlanning.C68_nearest_edge_at_reported_distance_partial` | propext, Classical.choice, Quot.sound |
| C69 | `PathPlanning.Prof.C69_characters_removed_and_quotes_replaced` | propext, Quot.sound |
| C69 | `PathPlanning.Prof.C69_no_double_quote` | propext, Quot.sound |
| C69 | `PathPlanning.Prof.C69_unchanged_without_occurrence` | propext, Classical.choice, Quot.sound |
| C69 | `PathPlanning.Prof.C69_occurrence_removed` | propext, Quot.sound |
| C69 | `PathPlanning.Prof.C69_second_of_two_occurrences_stays` | propext, Classical.choice, Quot.sound |
| C70 | `PathPlanning.Validator.C70_constant_clearance_handed_partial` | propext, Classical.choice, Quot.sound |
| C70 | `PathPlanning.C70_unit_speed_constant_steer` | propext, Classical.choice, Quot.sound |
| C70 | `PathPlanning.C70_unit_speed_reeds_shepp` | propext, Classical.choice, Quot.sound |
| C70 | `PathPlanning.C70_unit_speed_connect` | propext, Classical.choice, Quot.sound |
| C70 | `PathPlanning.C70_unit_speed_straight` | propext, Classical.choice, Quot.sound |
| C70 | `PathPlanning.Validator.C70_clearance_partial` | propext, Classical.choice, Quot.sound |
| C70 | `PathPlanning.Validator.C70_constant_clearance_partial` | propext, Classical.choice, Quot.sound |
| C71 | `PathPlanning.ObstHeuristic.C71_bounds_partial` | propext, Classical.choice, Quot.sound |
| C71 | `PathPlanning.ObstHeuristic.C71_overestimates` | propext, Classical.choice, Quot.sound |
| C72 | `PathPlanning.C72_place_isometry` | propext, Classical.choice, Quot.sound |
| C72 | `PathPlanning.C72_place_frame` | propext, Classical.choice, Quot.sound |
| C72 | `PathPlanning.C72_regular_polygon` | propext, Classical.choice, Quot.sound |
| C72 | `PathPlanning.C72_circle_contains_disc` | propext, Classical.choice, Quot.sound |
| C72 | `PathPlanning.C72_circle_edges_touch` | propext, Classical.choice, Quot.sound |
| C72 | `PathPlanning.C72_rectangle` | propext, Classical.choice, Quot.sound |
| C73 | `PathPlanning.C73_no_penalties_partial` | propext, Classical.choice, Quot.sound |
| C73 | `PathPlanning.C73_entry_partial` | propext, Classical.choice, Quot.sound |
| C73 | `PathPlanning.C73_outside_partial` | propext, Classical.choice, Quot.sound |
| C73 | `PathPlanning.C73_table_value` | propext, Classical.choice, Quot.sound |
| C73 | `PathPlanning.C73_within_half_the_bounds` | propext, Classical.choice, Quot.sound |
| C73 | `PathPlanning.C73_beyond_half_the_bounds` | propext, Classical.choice, Quot.sound |
| C73 | `PathPlanning.C73_overestimates` | propext, Classical.choice, Quot.sound |
| C74 | `PathPlanning.Validator.C74_constructed` | propext, Classical.choice, Quot.sound |
| C74 | `PathPlanning.Validator.C74_covers_partial` | propext, Classical.choice, Quot.sound |
| C74 | `PathPlanning.Validator.C74_not_beyond` | propext, Classical.choice, Quot.sound |
| C74 | `PathPlanning.Validator.C74_asymmetric_bounds_not_covered` | propext, Classical.choice, Quot.sound |
| C74 | `PathPlanning.Validator.C74_upper_bound_not_covered` | propext, Classical.choice, Quot.sound |
| C75 | `PathPlanning.C75_smooth_term` | propext, Classical.choice, Quot.sound |
| C75 | `PathPlanning.C75_collision_term` | propext, Classical.choice, Quot.sound |
| C75 | `PathPlanning.C75_collision_moves_away` | propext, Classical.choice, Quot.sound |
| C75 | `PathPlanning.C75_voronoi_coefficients` | propext, Classical.choice, Quot.sound |
| C75 | `PathPlanning.C75_voronoi_term` | propext, Classical.choice, Quot.sound |
| C75 | `PathPlanning.C75_curvature_term` | propext, Classical.choice, Quot.sound |
| C76 | `PathPlanning.C76_straight_unchanged_partial` | propext, Classical.choice, Quot.sound |
| C76 | `PathPlanning.C76_empty_map_moves_points` | propext, Classical.choice, Quot.sound |
| C77 | `PathPlanning.C77_path_term_negated` | propext, Classical.choice, Quot.sound |
| C77 | `PathPlanning.C77_path_term_moves_away` | propext, Classical.choice, Quot.sound |
| C77 | `PathPlanning.C77_path_term_default_partial` | propext, Classical.choice, Quot.sound |
| C78 | `PathPlanning.C78_new_edge_is_a_border` | propext, Classical.choice, Quot.sound |
| C79 | `PathPlanning.C79_at_most_seven_headings` | propext, Classical.choice, Quot.sound |
| C79 | `PathPlanning.C79_headings_merged` | propext, Classical.choice, Quot.sound |
| C79 | `PathPlanning.C79_opposite_headings_merged` | propext, Classical.choice, Quot.sound |
| C79 | `PathPlanning.C79_position_partial` | propext, Classical.choice, Quot.sound |
| C79 | `PathPlanning.C79_heading_partial` | propext, Classical.choice, Quot.sound |
| C79 | `PathPlanning.C79_same_cell_same_node` | propext, Classical.choice, Quot.sound |
| C79 | `PathPlanning.C79_cells_across_axes` | propext, Classical.choice, Quot.sound |
| C80 | `PathPlanning.C80_clearance` | propext, Classical.choice, Quot.sound |
| C80 | `PathPlanning.C80_success` | propext, Classical.choice, Quot.sound |
| C82 | `PathPlanning.C82_planner_fails` | propext, Classical.choice, Quot.sound |
| C82 | `PathPlanning.C82_missed_only_if_cell_expanded_partial` | propext, Classical.choice, Quot.sound |
| C82 | `PathPlanning.C82_goal_ahead_not_found` | propext, Classical.choice, Quot.sound |
| C82 | `PathPlanning.C82_goal_in_the_cell_of_the_start` | propext, Classical.choice, Quot.sound |
| C82 | `PathPlanning.C82_goal_cell_never_expanded` | propext, Classical.choice, Quot.sound |
| C81 | `PathPlanning.C81_terminates` | propext, Classical.choice, Quot.sound |
| C81 | `PathPlanning.C81_always_ends` | propext, Classical.choice, Quot.sound |
| C83 | `PathPlanning.C83_switch_not_charged` | propext, Classical.choice, Quot.sound |
| C83 | `PathPlanning.C83_steer_cost_partial` | propext, Classical.choice, Quot.sound |
| C83 | `PathPlanning.C83_reeds_shepp_cost` | propext, Classical.choice, Quot.sound |
| C83 | `PathPlanning.C83_voronoi_of_last_sample` | propext, Classical.choice, Quot.sound |
| C84 | `PathPlanning.C84_start_is_goal` | propext, Classical.choice, Quot.sound |
| C85 | `PathPlanning.C85_connection_recognised_partial` | propext, Classical.choice, Quot.sound |
| C85 | `PathPlanning.C85_full_turn` | propext, Classical.choice, Quot.sound |
| C85 | `PathPlanning.C85_motion_not_recognised` | propext, Classical.choice, Quot.sound |
| C87 | `PathPlanning.C87_every_steering_angle` | propext, Classical.choice, Quot.sound |
| C87 | `PathPlanning.C87_reeds_shepp` | propext, Classical.choice, Quot.sound |
| C88 | `PathPlanning.C88_first_generated_partial` | propext, Classical.choice, Quot.sound |
| C88 | `PathPlanning.C88_cheaper_ignored` | propext, Classical.choice, Quot.sound |
| C86 | `PathPlanning.C86_result` | propext, Classical.choice, Quot.sound |
| C86 | `PathPlanning.C86_smoothed_or_samples` | propext, Classical.choice, Quot.sound |
| C86 | `PathPlanning.C86_failure` | propext, Classical.choice, Quot.sound |
| C89 | `PathPlanning.C89_late_diagram_is_empty` | propext, Classical.choice, Quot.sound |
| C89 | `PathPlanning.C89_late_field_has_no_valley` | propext, Classical.choice, Quot.sound |
| C89 | `PathPlanning.C89_created_before_first_update_partial` | propext, Quot.sound |
| C89 | `PathPlanning.C89_corridor` | propext, Classical.choice, Quot.sound |
| C90 | `PathPlanning.C90_occupied_iff_distance_zero` | propext, Classical.choice, Quot.sound |
| C90 | `PathPlanning.C90_distance_zero_iff_covered` | propext, Classical.choice, Quot.sound |
| C90 | `PathPlanning.C90_distance_to_registered` | propext, Classical.choice, Quot.sound |
| C90 | `PathPlanning.C90_accepted_state_is_clear` | propext, Classical.choice, Quot.sound |
| C90 | `PathPlanning.C90_exact_without_removal` | propext, Classical.choice, Quot.sound |
| C90 | `PathPlanning.C90_rejected_state_is_near` | propext, Classical.choice, Quot.sound |
| C90 | `PathPlanning.C90_state_on_obstacle_is_rejected` | propext, Classical.choice, Quot.sound |
| C90 | `PathPlanning.C90_unseen_before_update` | propext, Classical.choice, Quot.sound |
| C90 | `PathPlanning.C90_histories_execute` | propext, Classical.choice, Quot.sound |
| C91 | `PathPlanning.C91_outline_near_cells` | propext, Classical.choice, Quot.sound |
| C91 | `PathPlanning.C91_cells_near_outline` | propext, Classical.choice, Quot.sound |
| C92 | `PathPlanning.C92_checked_motion_keeps_clear` | propext, Classical.choice, Quot.sound |
| C92 | `PathPlanning.C92_planned_path_keeps_clear` | propext, Classical.choice, Quot.sound |
| C92 | `PathPlanning.C92_reported_distance_bounded` | propext, Classical.choice, Quot.sound |
| C92 | `PathPlanning.C92_accepted_state_keeps_clear` | propext, Classical.choice, Quot.sound |
| C92 | `PathPlanning.C92_rejected_state_is_near` | propext, Classical.choice, Quot.sound |
| C93 | `PathPlanning.C93_checked_motion_stays_outside` | propext, Classical.choice, Quot.sound |
| C93 | `PathPlanning.C93_planned_path_stays_outside` | propext, Classical.choice, Quot.sound |
| C93 | `PathPlanning.C93_library_shapes` | propext, Classical.choice, Quot.sound |
| C94 | `PathPlanning.C94_deep_inside_accepted` | propext, Classical.choice, Quot.sound |
| C94 | `PathPlanning.C94_thin_rectangle_partial` | propext, Classical.choice, Quot.sound |
| C94 | `PathPlanning.C94_inside_accepted` | propext, Classical.choice, Quot.sound |
| C95 | `PathPlanning.C95_not_initialised` | propext, Classical.choice, Quot.sound |
| C95 | `PathPlanning.C95_always_returns` | propext, Classical.choice, Quot.sound |
| C95 | `PathPlanning.C95_plans_for_current_obstacles` | propext, Classical.choice, Quot.sound |
| C96 | `PathPlanning.C96_reusable` | propext, Classical.choice, Quot.sound |
| C97 | `PathPlanning.C97_parameters_used_partial` | propext, Classical.choice, Quot.sound |
| C97 | `PathPlanning.C97_initialize_resets_parameters` | propext, Classical.choice, Quot.sound |
| C98 | `PathPlanning.C98_reports_the_search` | propext, Classical.choice, Quot.sound |
| C98 | `PathPlanning.C98_failure_reports_nothing` | propext, Classical.choice, Quot.sound |
| C98 | `PathPlanning.C98_kept` | propext, Classical.choice, Quot.sound |
| C99 | `PathPlanning.C99_each_heuristic_has_its_goal_partial` | propext, Quot.sound |
| C99 | `PathPlanning.C99_shared_heuristic` | propext, Quot.sound |
| C99 | `PathPlanning.C99_averaged_partial` | propext, Classical.choice, Quot.sound |
| C99 | `PathPlanning.C99_average_of_one_heuristic` | propext, Classical.choice, Quot.sound |
| C100 | `PathPlanning.C100_success_for_inputs_in_force` | propext, Classical.choice, Quot.sound |
| C100 | `PathPlanning.C100_failure_reports_nothing` | propext, Classical.choice, Quot.sound |
| C100 | `PathPlanning.C100_not_initialized` | propext, Quot.sound |
| C100 | `PathPlanning.C100_initialize_accepts` | propext |
| C101 | `PathPlanning.C101_terminates` | propext, Classical.choice, Quot.sound |
| C101 | `PathPlanning.C101_failure_no_path_partial` | propext, Classical.choice, Quot.sound |
| C101 | `PathPlanning.C101_success_is_free_path_partial` | propext, Classical.choice, Quot.sound |
| C101 | `PathPlanning.C101_cost_bound_partial` | propext, Classical.choice, Quot.sound |
| C101 | `PathPlanning.C101_occupied_goal` | propext, Quot.sound |
| C101 | `PathPlanning.C101_occupied_start` | propext, Quot.sound |
| C101 | `PathPlanning.C101_not_shortest` | propext, Quot.sound |
| C102 | `PathPlanning.C102_gvd_file` | propext, Classical.choice, Quot.sound |
| C102 | `PathPlanning.C102_heuristic_file` | propext, Classical.choice, Quot.sound |
| C102 | `PathPlanning.C102_heuristic_image` | propext, Classical.choice, Quot.sound |
| C102 | `PathPlanning.C102_heuristic_shades` | propext, Classical.choice, Quot.sound |
| C102 | `PathPlanning.C102_hue` | propext, Classical.choice, Quot.sound |
| C102 | `PathPlanning.C102_gvd_image` | propext, Classical.choice, Quot.sound |
| C102 | `PathPlanning.C102_no_hue_for_removed_obstacles` | propext, Classical.choice, Quot.sound |
| C103 | `PathPlanning.RRTPlanner.C103_rrt` | propext, Classical.choice, Quot.sound |
| C103 | `PathPlanning.RRTPlanner.C103_rrtStar_partial` | propext, Classical.choice, Quot.sound |
| C103 | `PathPlanning.RRTPlanner.C103_rrtStar_r2` | propext, Classical.choice, Quot.sound |
| C103 | `PathPlanning.RRTPlanner.C103_no_search_empty` | propext, Quot.sound |
| C103 | `PathPlanning.RRTPlanner.C103_default_limits` | propext, Classical.choice, Quot.sound |
| C104 | `PathPlanning.C104_shortest_through_neighbours_partial` | propext, Classical.choice, Quot.sound |
| C104 | `PathPlanning.C104_r2_partial` | propext, Classical.choice, Quot.sound |
| C104 | `PathPlanning.C104_paths_are_kept` | propext, Classical.choice, Quot.sound |
| C104 | `PathPlanning.C104_search_runs` | propext, Quot.sound |
| C104 | `PathPlanning.C104_longer_than_needed` | propext, Classical.choice, Quot.sound |
| C105 | `PathPlanning.C105_rrt` | propext, Classical.choice, Quot.sound |
| C105 | `PathPlanning.C105_rrtStar` | propext, Classical.choice, Quot.sound |
| C105 | `PathPlanning.C105_planner` | propext, Classical.choice, Quot.sound |
| C106 | `PathPlanning.C106_state_valid_iff` | propext, Classical.choice, Quot.sound |
| C106 | `PathPlanning.C106_rrt_partial` | propext, Classical.choice, Quot.sound |
| C106 | `PathPlanning.C106_rrtStar_partial` | propext, Classical.choice, Quot.sound |
| C106 | `PathPlanning.C106_leaves_bounds` | propext, Classical.choice, Quot.sound |
| C107 | `PathPlanning.C107_same_search` | propext, Classical.choice, Quot.sound |
| C107 | `PathPlanning.C107_empty_before_search` | propext, Classical.choice, Quot.sound |
| C107 | `PathPlanning.C107_explored_paths` | propext, Classical.choice, Quot.sound |
| C108 | `PathPlanning.C108_corners` | propext, Classical.choice, Quot.sound |
| C108 | `PathPlanning.C108_polygon` | propext, Classical.choice, Quot.sound |
| C108 | `PathPlanning.C108_rigid` | propext, Classical.choice, Quot.sound |
| C108 | `PathPlanning.C108_no_shape` | propext, Classical.choice, Quot.sound |
| C109 | `PathPlanning.C109_gradient_descent` | propext, Classical.choice, Quot.sound |
| C110 | `PathPlanning.C110_success_partial` | propext, Classical.choice, Quot.sound |
| C110 | `PathPlanning.C110_failure_keeps` | propext, Classical.choice, Quot.sound |
| C110 | `PathPlanning.C110_kept` | propext, Classical.choice, Quot.sound |
| C110 | `PathPlanning.C110_before_search` | propext, Classical.choice, Quot.sound |
| C110 | `PathPlanning.C110_stale_after_reset` | propext, Classical.choice, Quot.sound |
| C110 | `PathPlanning.C110_stale` | propext, Classical.choice, Quot.sound |
| C111 | `PathPlanning.C111_parameters` | propext, Classical.choice, Quot.sound |
| C111 | `PathPlanning.C111_initialize` | propext, Classical.choice, Quot.sound |
| C111 | `PathPlanning.C111_not_initialised` | propext, Classical.choice, Quot.sound |
| C111 | `PathPlanning.C111_answers` | propext, Classical.choice, Quot.sound |
| C111 | `PathPlanning.C111_kept` | propext, Classical.choice, Quot.sound |
| C111 | `PathPlanning.C111_defined` | propext, Classical.choice, Quot.sound |
| C112 | `PathPlanning.C112_cost_decreases_partial` | propext, Classical.choice, Quot.sound |
| C112 | `PathPlanning.C112_cost_can_increase` | propext, Classical.choice, Quot.sound |
| C113 | `PathPlanning.C113_corridor_rrt` | propext, Classical.choice, Quot.sound |
| C113 | `PathPlanning.C113_corridor_rrtStar` | propext, Classical.choice, Quot.sound |
| C113 | `PathPlanning.C113_rrt` | propext, Classical.choice, Quot.sound |
| C113 | `PathPlanning.C113_rrtStar` | propext, Classical.choice, Quot.sound |
| C113 | `PathPlanning.C113_almost_surely` | propext, Classical.choice, Quot.sound |
| C113 | `PathPlanning.C113_success_tends_to_one` | propext, Classical.choice, Quot.sound |
| C114 | `PathPlanning.C114_draws` | propext, Classical.choice, Quot.sound |
| C114 | `PathPlanning.C114_uniform_r2` | propext, Classical.choice, Quot.sound |
| C114 | `PathPlanning.C114_uniform_se2` | propext, Classical.choice, Quot.sound |
| C114 | `PathPlanning.C114_goal_probability` | propext, Classical.choice, Quot.sound |
| C115 | `PathPlanning.C115_answers_are_exact` | propext, Classical.choice, Quot.sound |
| C115 | `PathPlanning.C115_no_overflow` | propext, Classical.choice, Quot.sound |
| C115 | `PathPlanning.C115_no_overflow_edges` | propext, Classical.choice, Quot.sound |
| C115 | `PathPlanning.C115_all_executions` | propext, Classical.choice, Quot.sound |
| C115 | `PathPlanning.C115_larger_map_overflows` | propext, Classical.choice, Quot.sound |
| C115 | `PathPlanning.C115_storage_fits` | propext, Classical.choice, Quot.sound |
| C116 | `PathPlanning.C116_lookup` | propext, Classical.choice, Quot.sound |
| C116 | `PathPlanning.C116_size` | propext, Classical.choice, Quot.sound |
| C116 | `PathPlanning.C116_keys_lawful` | propext, Classical.choice, Quot.sound |
| C116 | `PathPlanning.C116_equality` | propext, Classical.choice, Quot.sound |
| C116 | `PathPlanning.C116_unlawful_keys` | propext, Quot.sound |
| C117 | `PathPlanning.SingletonPlain.C117_one_thread_partial` | propext, Classical.choice, Quot.sound |
| C117 | `PathPlanning.SingletonPlain.C117_initialised_first_partial` | propext, Quot.sound |
| C117 | `PathPlanning.SingletonPlain.C117_race` | propext, Quot.sound |
| C118 | `PathPlanning.Prof.Threads.C118_file` | propext, Classical.choice, Quot.sound |
| C118 | `PathPlanning.Prof.Threads.C118_order` | propext, Classical.choice, Quot.sound |
| C118 | `PathPlanning.Prof.Threads.C118_no_deadlock` | propext, Classical.choice, Quot.sound |
| C118 | `PathPlanning.Prof.Threads.C118_json` | propext, Classical.choice, Quot.sound |
| C119 | `PathPlanning.C119_double_near_optimal` | propext, Classical.choice, Quot.sound |
| C119 | `PathPlanning.C119_double_dijkstra_exact` | propext, Classical.choice, Quot.sound |
| C119 | `PathPlanning.C119_rounded_near_optimal` | propext, Classical.choice, Quot.sound |
| C119 | `PathPlanning.C119_dijkstra_exact` | propext, Classical.choice, Quot.sound |
| C119 | `PathPlanning.C119_rounding_costs` | propext, Classical.choice, Quot.sound |
| C120 | `PathPlanning.C120_power_of_two_partial` | propext, Classical.choice, Quot.sound |
| C120 | `PathPlanning.C120_cell_or_lower_neighbour_partial` | propext, Classical.choice, Quot.sound |
| C120 | `PathPlanning.C120_rounded_cell_near_partial` | propext, Classical.choice, Quot.sound |
| C120 | `PathPlanning.C120_size_covered` | propext, Classical.choice, Quot.sound |
| C120 | `PathPlanning.C120_tenth_resolution_fails` | propext, Classical.choice, Quot.sound |
| C121 | `PathPlanning.Flt.C121_wrap_returns_partial` | propext, Classical.choice, Quot.sound |
| C121 | `PathPlanning.Flt.C121_large_angles_hang` | propext, Classical.choice, Quot.sound |
| C121 | `PathPlanning.Flt.C121_wrap_exact_near` | propext, Classical.choice, Quot.sound |
| C121 | `PathPlanning.Flt.C121_wrap_idempotent` | propext, Classical.choice, Quot.sound |
| C122 | `PathPlanning.C122_is_least` | propext, Classical.choice, Quot.sound |
| C122 | `PathPlanning.C122_distance` | propext, Classical.choice, Quot.sound |
| C123 | `PathPlanning.C123_symmetric` | propext, Classical.choice, Quot.sound |
| C123 | `PathPlanning.C123_same_pose` | propext, Classical.choice, Quot.sound |
| C123 | `PathPlanning.C123_frame` | propext, Classical.choice, Quot.sound |
| C123 | `PathPlanning.C123_mirror` | propext, Classical.choice, Quot.sound |
| C123 | `PathPlanning.C123_reverse` | propext, Classical.choice, Quot.sound |
| C123 | `PathPlanning.C123_scale` | propext, Classical.choice, Quot.sound |
| C123 | `PathPlanning.C123_zero` | propext, Classical.choice, Quot.sound |
| C124 | `PathPlanning.HoloMem.C124_defined_partial` | propext, Classical.choice, Quot.sound |
| C124 | `PathPlanning.HoloMem.C124_value_partial` | propext, Classical.choice, Quot.sound |
| C124 | `PathPlanning.HoloMem.C124_no_leak_partial` | propext, Classical.choice, Quot.sound |
| C124 | `PathPlanning.HoloMem.C124_copy_violated` | propext, Classical.choice, Quot.sound |
| C125 | `PathPlanning.SizedMap.C125_obstacles_forgotten` | propext, Classical.choice, Quot.sound |
| C125 | `PathPlanning.SizedMap.C125_validator_sees_nothing` | propext, Classical.choice, Quot.sound |
| C125 | `PathPlanning.SizedMap.C125_diagram_left_behind` | propext, Classical.choice, Quot.sound |
| C125 | `PathPlanning.SizedMap.C125_diagram_outside` | propext, Classical.choice, Quot.sound |
| C125 | `PathPlanning.SizedMap.C125_empty_partial` | propext, Classical.choice, Quot.sound |
| C125 | `PathPlanning.SizedMap.C125_readd_partial` | propext, Classical.choice, Quot.sound |
| C126 | `PathPlanning.C126_unit_interval` | propext, Classical.choice, Quot.sound |
| C126 | `PathPlanning.C126_lower_bound` | propext, Classical.choice, Quot.sound |
| C126 | `PathPlanning.C126_exact_range_partial` | propext, Classical.choice, Quot.sound |
| C126 | `PathPlanning.C126_r2_partial` | propext, Classical.choice, Quot.sound |
| C126 | `PathPlanning.C126_se2_partial` | propext, Classical.choice, Quot.sound |
| C126 | `PathPlanning.C126_gaussian` | propext, Classical.choice, Quot.sound |
| C126 | `PathPlanning.C126_gaussian_se2` | propext, Classical.choice, Quot.sound |
| C126 | `PathPlanning.C126_gaussian_accuracy` | propext, Classical.choice, Quot.sound |
| C126 | `PathPlanning.C126_gaussian_accuracy_se2` | propext, Classical.choice, Quot.sound |
| C126 | `PathPlanning.C126_above_upper_bound` | propext, Classical.choice, Quot.sound |
| C126 | `PathPlanning.C126_accuracy` | propext, Classical.choice, Quot.sound |
| C126 | `PathPlanning.C126_upper_bound_partial` | propext, Classical.choice, Quot.sound |
| C127 | `PathPlanning.C127_reeds_shepp_clearance_partial` | propext, Classical.choice, Quot.sound |
| C127 | `PathPlanning.Validator.C127_state_valid_iff` | propext, Classical.choice, Quot.sound |
| C127 | `PathPlanning.Validator.C127_terminates_partial` | propext, Classical.choice, Quot.sound |
| C127 | `PathPlanning.Validator.C127_length_zero` | propext, Classical.choice, Quot.sound |
| C127 | `PathPlanning.Validator.C127_accepted_partial` | propext, Classical.choice, Quot.sound |
| C127 | `PathPlanning.Validator.C127_rejected` | propext, Classical.choice, Quot.sound |
| C127 | `PathPlanning.Validator.C127_ratios_in_range` | propext, Classical.choice, Quot.sound |
| C127 | `PathPlanning.Validator.C127_long_paths_hang` | propext, Classical.choice, Quot.sound |
| C127 | `PathPlanning.Validator.C127_clearance_partial` | propext, Classical.choice, Quot.sound |
| C127 | `PathPlanning.Validator.C127_constant_clearance_partial` | propext, Classical.choice, Quot.sound |
| C128 | `PathPlanning.ObstHeuristic.C128_update` | propext, Classical.choice, Quot.sound |
| C128 | `PathPlanning.ObstHeuristic.C128_error` | propext, Classical.choice, Quot.sound |
| C128 | `PathPlanning.ObstHeuristic.C128_at_most_diag_times_the_shortest` | propext, Classical.choice, Quot.sound |
| C128 | `PathPlanning.ObstHeuristic.C128_saturates` | propext, Classical.choice, Quot.sound |
| C128 | `PathPlanning.ObstHeuristic.C128_corridor_saturates` | propext, Classical.choice, Quot.sound |
| C128 | `PathPlanning.ObstHeuristic.C128_straight_line` | propext, Classical.choice, Quot.sound |
| C128 | `PathPlanning.ObstHeuristic.C128_value` | propext, Classical.choice, Quot.sound |
| C128 | `PathPlanning.ObstHeuristic.C128_constants` | propext, Classical.choice, Quot.sound |
| C129 | `PathPlanning.Raster.C129_line_exact` | propext, Quot.sound |
| C129 | `PathPlanning.Raster.C129_line_no_overflow` | propext, Classical.choice, Quot.sound |
| C129 | `PathPlanning.Raster.C129_long_line_overflows` | propext, Classical.choice, Quot.sound |
| C129 | `PathPlanning.Raster.C129_last_column_overflows` | propext, Classical.choice, Quot.sound |
| C129 | `PathPlanning.Shape.C129_cells_exact` | propext, Classical.choice, Quot.sound |
| C129 | `PathPlanning.Shape.C129_no_overflow` | propext, Classical.choice, Quot.sound |
| C129 | `PathPlanning.Shape.C129_far_corner_undefined` | propext, Classical.choice, Quot.sound |
| C130 | `PathPlanning.C130_same_samples_partial` | propext, Classical.choice, Quot.sound |
| C130 | `PathPlanning.C130_samples_partial` | propext, Classical.choice, Quot.sound |
| C130 | `PathPlanning.C130_cusps_partial` | propext, Classical.choice, Quot.sound |
| C130 | `PathPlanning.C130_cusps_missed` | propext, Classical.choice, Quot.sound |
| C130 | `PathPlanning.C130_long_path_undefined` | propext, Classical.choice, Quot.sound |
| C131 | `PathPlanning.C131_length_and_final` | propext, Classical.choice, Quot.sound |
| C131 | `PathPlanning.C131_interpolate_partial` | propext, Classical.choice, Quot.sound |
| C131 | `PathPlanning.C131_truncate` | propext, Classical.choice, Quot.sound |
| C131 | `PathPlanning.C131_truncated_interpolate_partial` | propext, Classical.choice, Quot.sound |
| C131 | `PathPlanning.C131_cusps` | propext, Classical.choice, Quot.sound |
| C131 | `PathPlanning.C131_truncated_beyond_end` | propext, Classical.choice, Quot.sound |
| C131 | `PathPlanning.C131_direction_partial` | propext, Classical.choice, Quot.sound |
| C131 | `PathPlanning.C131_direction_at_end_undefined` | propext, Classical.choice, Quot.sound |
| C132 | `PathPlanning.C132_length` | propext, Classical.choice, Quot.sound |
| C132 | `PathPlanning.C132_interpolate` | propext, Classical.choice, Quot.sound |
| C132 | `PathPlanning.C132_direction_partial` | propext, Classical.choice, Quot.sound |
| C132 | `PathPlanning.C132_cusps_partial` | propext, Classical.choice, Quot.sound |
| C132 | `PathPlanning.C132_direction_exists_partial` | propext, Classical.choice, Quot.sound |
| C132 | `PathPlanning.C132_add_motion` | propext, Classical.choice, Quot.sound |
| C132 | `PathPlanning.C132_no_direction_at_end` | propext, Classical.choice, Quot.sound |
| C132 | `PathPlanning.C132_spurious_cusp` | propext, Classical.choice, Quot.sound |
| C132 | `PathPlanning.C132_cusp_missed` | propext, Classical.choice, Quot.sound |
| C133 | `PathPlanning.C133_relative_error` | propext, Classical.choice, Quot.sound |
| C133 | `PathPlanning.C133_between_zero_and_one` | propext, Classical.choice, Quot.sound |
| C133 | `PathPlanning.C133_zero_iff_edge_or_far` | propext, Classical.choice, Quot.sound |
| C133 | `PathPlanning.C133_decreases_with_obstacle_distance` | propext, Classical.choice, Quot.sound |
| C133 | `PathPlanning.C133_increases_with_edge_distance_partial` | propext, Classical.choice, Quot.sound |
| C133 | `PathPlanning.C133_one_iff_obstacle` | propext, Classical.choice, Quot.sound |
| C133 | `PathPlanning.C133_no_underflow` | propext, Classical.choice, Quot.sound |
| C133 | `PathPlanning.C133_not_increasing_with_edge_distance` | propext, Classical.choice, Quot.sound |
| C133 | `PathPlanning.C133_potential_map` | propext, Classical.choice, Quot.sound |
| C134 | `PathPlanning.C134_reeds_shepp_cost_partial` | propext, Classical.choice, Quot.sound |
| C134 | `PathPlanning.C134_no_motion` | propext, Classical.choice, Quot.sound |
| C134 | `PathPlanning.C134_optimal_partial` | propext, Classical.choice, Quot.sound |
| C134 | `PathPlanning.C134_sampling_step` | propext, Classical.choice, Quot.sound |
| C134 | `PathPlanning.C134_voronoi_undefined` | propext, Classical.choice, Quot.sound |
| C134 | `PathPlanning.C134_voronoi_of_nothing` | propext, Classical.choice, Quot.sound |
| C134 | `PathPlanning.C134_voronoi_cost` | propext, Classical.choice, Quot.sound |
| C134 | `PathPlanning.C134_steer_cost` | propext, Classical.choice, Quot.sound |
| C134 | `PathPlanning.C134_goal_cost_partial` | propext, Classical.choice, Quot.sound |
| C134 | `PathPlanning.C134_forward_multiplier_ignored` | propext, Classical.choice, Quot.sound |
| C135 | `PathPlanning.C135_grid_undefined_iff` | propext, Classical.choice, Quot.sound |
| C135 | `PathPlanning.C135_grid_new` | propext, Classical.choice, Quot.sound |
| C135 | `PathPlanning.C135_grid_access` | propext, Classical.choice, Quot.sound |
| C135 | `PathPlanning.C135_initialize_size` | propext, Classical.choice, Quot.sound |
| C135 | `PathPlanning.C135_small_map` | propext, Classical.choice, Quot.sound |
| C135 | `PathPlanning.C135_large_map_undefined` | propext, Classical.choice, Quot.sound |
| C135 | `PathPlanning.C135_cell_of_position_partial` | propext, Classical.choice, Quot.sound |
| C135 | `PathPlanning.C135_far_position_undefined` | propext, Classical.choice, Quot.sound |
| C135 | `PathPlanning.C135_state_valid_partial` | propext, Classical.choice, Quot.sound |
| C135 | `PathPlanning.C135_discretize_partial` | propext, Classical.choice, Quot.sound |
| C135 | `PathPlanning.C135_discretize_far_undefined` | propext, Classical.choice, Quot.sound |
| C136 | `PathPlanning.C136_sum` | propext, Classical.choice, Quot.sound |
| C136 | `PathPlanning.C136_difference` | propext, Classical.choice, Quot.sound |
| C136 | `PathPlanning.C136_reeds_shepp_pose` | propext, Classical.choice, Quot.sound |
| C136 | `PathPlanning.C136_reeds_shepp_final` | propext, Classical.choice, Quot.sound |
| C136 | `PathPlanning.C136_reeds_shepp_start` | propext, Classical.choice, Quot.sound |
| C136 | `PathPlanning.C136_headings` | propext, Classical.choice, Quot.sound |
| C136 | `PathPlanning.C136_unit_speed` | propext, Classical.choice, Quot.sound |
| C137 | `PathPlanning.C137_constant_steer` | propext, Classical.choice, Quot.sound |
| C137 | `PathPlanning.C137_doubles` | propext, Classical.choice, Quot.sound |
| C137 | `PathPlanning.C137_ends` | propext, Classical.choice, Quot.sound |
| C137 | `PathPlanning.C137_steering_angles` | propext, Classical.choice, Quot.sound |
| C137 | `PathPlanning.C137_hybrid_motion` | propext, Classical.choice, Quot.sound |
| C138 | `PathPlanning.C138_arrives` | propext, Classical.choice, Quot.sound |
| C138 | `PathPlanning.C138_steering` | propext, Classical.choice, Quot.sound |
| C138 | `PathPlanning.C138_rrt` | propext, Classical.choice, Quot.sound |
| C138 | `PathPlanning.C138_rrtStar` | propext, Classical.choice, Quot.sound |
| C138 | `PathPlanning.C138_stuck` | propext, Classical.choice, Quot.sound |
| C138 | `PathPlanning.C138_leaves_bounds` | propext, Classical.choice, Quot.sound |
| C139 | `PathPlanning.C139_costs_partial` | propext, Classical.choice, Quot.sound |
| C139 | `PathPlanning.C139_shortest_through_neighbours_partial` | propext, Classical.choice, Quot.sound |
| C139 | `PathPlanning.C139_r2_partial` | propext, Classical.choice, Quot.sound |
| C139 | `PathPlanning.C139_paths_are_kept` | propext, Classical.choice, Quot.sound |
| C139 | `PathPlanning.C139_search_runs` | propext, Classical.choice, Quot.sound |
| C140 | `PathPlanning.C140_rrt` | propext, Classical.choice, Quot.sound |
| C140 | `PathPlanning.C140_rrtStar` | propext, Classical.choice, Quot.sound |
| C141 | `PathPlanning.C141_rounded_within_factor_two` | propext, Classical.choice, Quot.sound |
| C141 | `PathPlanning.C141_double_within_factor_two` | propext, Classical.choice, Quot.sound |
| C142 | `PathPlanning.C142_path_visits_no_state_twice` | propext, Classical.choice, Quot.sound |
| C142 | `PathPlanning.C142_grid` | propext, Classical.choice, Quot.sound |
| C142 | `PathPlanning.C142_hybrid` | propext, Classical.choice, Quot.sound |
| C143 | `PathPlanning.C143_near_shortest` | propext, Classical.choice, Quot.sound |
| C143 | `PathPlanning.C143_shortest` | propext, Classical.choice, Quot.sound |
| C143 | `PathPlanning.C143_shortest_small_maps` | propext, Classical.choice, Quot.sound |
| C143 | `PathPlanning.C143_complete` | propext, Classical.choice, Quot.sound |
| C144 | `PathPlanning.C144_iteration_defined_iff` | propext, Classical.choice, Quot.sound |
| C144 | `PathPlanning.C144_undefined` | propext, Classical.choice, Quot.sound |
| C145 | `PathPlanning.C145_r2` | propext, Classical.choice, Quot.sound |
| C145 | `PathPlanning.C145_r2_truncate` | propext, Classical.choice, Quot.sound |
| C145 | `PathPlanning.C145_se2` | propext, Classical.choice, Quot.sound |
| C145 | `PathPlanning.C145_se2_truncate` | propext, Classical.choice, Quot.sound |
| C146 | `PathPlanning.C146_vertices` | propext, Classical.choice, Quot.sound |
| C146 | `PathPlanning.C146_outline_near_cells` | propext, Classical.choice, Quot.sound |
| C146 | `PathPlanning.C146_cells_near_outline` | propext, Classical.choice, Quot.sound |
| C146 | `PathPlanning.C146_accepted_state_keeps_clear` | propext, Classical.choice, Quot.sound |
| C146 | `PathPlanning.C146_rejected_state_is_near` | propext, Classical.choice, Quot.sound |
| C146 | `PathPlanning.C146_obstacle` | propext, Classical.choice, Quot.sound |
| C146 | `PathPlanning.C146_no_shape` | propext, Classical.choice, Quot.sound |
| C147 | `PathPlanning.C147_rectangle` | propext, Classical.choice, Quot.sound |
| C147 | `PathPlanning.C147_regular_polygon` | propext, Classical.choice, Quot.sound |
| C147 | `PathPlanning.C147_circle` | propext, Classical.choice, Quot.sound |
| C147 | `PathPlanning.C147_circle_contains_disc` | propext, Classical.choice, Quot.sound |
| C148 | `PathPlanning.C148_accepted_path_keeps_clear` | propext, Classical.choice, Quot.sound |
| C148 | `PathPlanning.C148_accepted_path_stays_outside` | propext, Classical.choice, Quot.sound |
| C148 | `PathPlanning.C148_reeds_shepp_follows` | propext, Classical.choice, Quot.sound |
| C148 | `PathPlanning.C148_straight_follows` | propext, Classical.choice, Quot.sound |
| C148 | `PathPlanning.C148_steer_follows` | propext, Classical.choice, Quot.sound |
| C149 | `PathPlanning.NonHolo.C149_defined_iff` | propext, Classical.choice, Quot.sound |
| C149 | `PathPlanning.NonHolo.C149_lookup_partial` | propext, Classical.choice, Quot.sound |
| C149 | `PathPlanning.NonHolo.C149_outside` | propext, Classical.choice, Quot.sound |
| C149 | `PathPlanning.NonHolo.C149_area` | propext, Classical.choice, Quot.sound |
| C149 | `PathPlanning.NonHolo.C149_build_size` | propext, Classical.choice, Quot.sound |
| C149 | `PathPlanning.NonHolo.C149_build` | propext, Classical.choice, Quot.sound |
| C149 | `PathPlanning.NonHolo.C149_table_entry` | propext, Classical.choice, Quot.sound |
| C149 | `PathPlanning.NonHolo.C149_negative_index` | propext, Classical.choice, Quot.sound |
| C150 | `PathPlanning.SingletonInit.C150_get` | propext, Classical.choice, Quot.sound |
| C150 | `PathPlanning.SingletonInit.C150_instances` | propext, Classical.choice, Quot.sound |
| C150 | `PathPlanning.SingletonInit.C150_assertions` | propext, Classical.choice, Quot.sound |
| C150 | `PathPlanning.SingletonInit.C150_without_assertions` | propext, Classical.choice, Quot.sound |
| C150 | `PathPlanning.SingletonInit.C150_second_init_without_assertions` | propext |
| C151 | `PathPlanning.C151_thrown_iff_a_call_throws` | propext, Classical.choice, Quot.sound |
| C151 | `PathPlanning.C151_returned` | propext, Classical.choice, Quot.sound |
| C151 | `PathPlanning.C151_thrown_reports_nothing` | propext, Classical.choice, Quot.sound |
| C151 | `PathPlanning.C151_nothing_dangling` | propext, Classical.choice, Quot.sound |
| C151 | `PathPlanning.C151_reusable` | propext, Quot.sound |
| C151 | `PathPlanning.C151_planner_thrown` | propext, Classical.choice, Quot.sound |
| C151 | `PathPlanning.C151_bidirectional_thrown_iff_a_call_throws` | propext, Classical.choice, Quot.sound |
| C151 | `PathPlanning.C151_bidirectional_returned` | propext, Classical.choice, Quot.sound |
| C151 | `PathPlanning.C151_bidirectional_thrown_partial` | propext, Classical.choice, Quot.sound |
| C151 | `PathPlanning.C151_bidirectional_retry` | propext, Quot.sound |
| C151 | `PathPlanning.C151_half_a_path_left` | propext, Classical.choice, Quot.sound |
| C152 | `PathPlanning.C152_rrt_ends` | propext, Classical.choice, Quot.sound |
| C152 | `PathPlanning.C152_rrt_returned` | propext, Classical.choice, Quot.sound |
| C152 | `PathPlanning.C152_rrt_thrown_if` | propext, Classical.choice, Quot.sound |
| C152 | `PathPlanning.C152_rrt_thrown` | propext, Classical.choice, Quot.sound |
| C152 | `PathPlanning.C152_rrtStar_ends` | propext, Classical.choice, Quot.sound |
| C152 | `PathPlanning.C152_rrtStar_returned` | propext, Classical.choice, Quot.sound |
| C152 | `PathPlanning.C152_rrtStar_thrown_if` | propext, Classical.choice, Quot.sound |
| C152 | `PathPlanning.C152_rrtStar_thrown` | propext, Classical.choice, Quot.sound |
| C152 | `PathPlanning.RRTPlanner.C152_rrt_reusable` | propext, Classical.choice, Quot.sound |
| C152 | `PathPlanning.RRTPlanner.C152_rrtStar_reusable` | propext, Classical.choice, Quot.sound |
| C152 | `PathPlanning.RRTPlanner.C152_rrtStar_r2_reusable` | propext, Classical.choice, Quot.sound |
| C153 | `PathPlanning.Shared.C153_undisturbed_partial` | propext, Quot.sound |
| C153 | `PathPlanning.Shared.C153_any_schedule_partial` | propext, Classical.choice, Quot.sound |
| C153 | `PathPlanning.Shared.C153_calls_partial` | propext, Classical.choice, Quot.sound |
| C153 | `PathPlanning.Shared.C153_ends` | propext, Classical.choice, Quot.sound |
| C153 | `PathPlanning.Shared.C153_disturbed` | propext, Quot.sound |
| C154 | `PathPlanning.Rng.C154_one_thread_partial` | propext, Quot.sound |
| C154 | `PathPlanning.Rng.C154_constructed_first_partial` | propext, Classical.choice, Quot.sound |
| C154 | `PathPlanning.Rng.C154_taking_turns_partial` | propext, Classical.choice, Quot.sound |
| C154 | `PathPlanning.Rng.C154_race` | propext, Quot.sound |
| C154 | `PathPlanning.Rng.C154_exception` | none |
| C154 | `PathPlanning.Rng.C154_rrtStar_float` | propext, Classical.choice, Quot.sound |
| C154 | `PathPlanning.Rng.C154_same_number_twice` | none |
| C155 | `PathPlanning.C155_path_visits_no_state_twice` | propext, Classical.choice, Quot.sound |
| C155 | `PathPlanning.C155_double` | propext, Classical.choice, Quot.sound |
| C155 | `PathPlanning.C155_grid` | propext, Classical.choice, Quot.sound |
| C156 | `PathPlanning.C156_terminates` | propext, Classical.choice, Quot.sound |
| C156 | `PathPlanning.C156_fails_iff_no_walk` | propext, Classical.choice, Quot.sound |
| C156 | `PathPlanning.C156_within_factor_two` | propext, Classical.choice, Quot.sound |
| C157 | `PathPlanning.C157_search_calls_existing_partial` | propext, Classical.choice, Quot.sound |
| C157 | `PathPlanning.C157_nothing_left` | propext, Classical.choice, Quot.sound |
| C157 | `PathPlanning.C157_getters_dangle` | propext, Classical.choice, Quot.sound |
| C157 | `PathPlanning.C157_null_part` | propext |
| C157 | `PathPlanning.C157_explored_until_next_search` | propext, Classical.choice, Quot.sound |
| C157 | `PathPlanning.C157_explored_gone_after` | propext, Classical.choice, Quot.sound |
| C158 | `PathPlanning.C158_expanded` | propext, Classical.choice, Quot.sound |
| C158 | `PathPlanning.C158_explored_states` | propext, Classical.choice, Quot.sound |
| C158 | `PathPlanning.C158_order` | propext, Classical.choice, Quot.sound |
| C158 | `PathPlanning.C158_failure` | propext, Classical.choice, Quot.sound |
| C158 | `PathPlanning.C158_better_heuristic` | propext, Classical.choice, Quot.sound |
| C159 | `PathPlanning.C159_within_factor` | propext, Classical.choice, Quot.sound |
| C159 | `PathPlanning.C159_weighted` | propext, Classical.choice, Quot.sound |
| C159 | `PathPlanning.C159_grid` | propext, Classical.choice, Quot.sound |
| C159 | `PathPlanning.C159_manhattan` | propext, Classical.choice, Quot.sound |
| C160 | `PathPlanning.C160_rrt` | propext, Quot.sound |
| C160 | `PathPlanning.C160_rrtStar` | propext, Quot.sound |
| C160 | `PathPlanning.C160_rrt_same_path` | propext, Quot.sound |
| C160 | `PathPlanning.C160_rrtStar_same_path` | propext, Quot.sound |
| C161 | `PathPlanning.C161_stays_longer` | propext, Classical.choice, Quot.sound |
| C161 | `PathPlanning.C161_settles_partial` | propext, Classical.choice, Quot.sound |
| C162 | `PathPlanning.C162_rrt` | propext, Classical.choice, Quot.sound |
| C162 | `PathPlanning.C162_rrtStar` | propext, Classical.choice, Quot.sound |
| C163 | `PathPlanning.C163_more_obstacles` | propext, Classical.choice, Quot.sound |
| C163 | `PathPlanning.C163_symmetric` | propext, Classical.choice, Quot.sound |
| C163 | `PathPlanning.C163_triangle` | propext, Classical.choice, Quot.sound |
| C163 | `PathPlanning.C163_more_obstacles_double` | propext, Classical.choice, Quot.sound |
| C163 | `PathPlanning.C163_symmetric_double` | propext, Classical.choice, Quot.sound |
| C163 | `PathPlanning.C163_triangle_double` | propext, Classical.choice, Quot.sound |
| C164 | `PathPlanning.C164_distances_fall_partial` | propext, Classical.choice, Quot.sound |
| C164 | `PathPlanning.Validator.C164_state_stays_rejected_partial` | propext, Classical.choice, Quot.sound |
| C164 | `PathPlanning.Validator.C164_state_stays_rejected_double_partial` | propext, Classical.choice, Quot.sound |
| C164 | `PathPlanning.Validator.C164_path_accepted_with_more_obstacles` | propext, Classical.choice, Quot.sound |
| C164 | `PathPlanning.C164_fresh_map_reports_more` | propext, Classical.choice, Quot.sound |
| C165 | `PathPlanning.C165_map_partial` | propext, Classical.choice, Quot.sound |
| C165 | `PathPlanning.C165_obstacle_partial` | propext, Classical.choice, Quot.sound |
| C165 | `PathPlanning.C165_state_valid_partial` | propext, Classical.choice, Quot.sound |
| C165 | `PathPlanning.C165_voronoi_partial` | propext, Classical.choice, Quot.sound |
| C165 | `PathPlanning.C165_obstacle_heuristic_partial` | propext, Classical.choice, Quot.sound |
| C165 | `PathPlanning.C165_nonholonomic_heuristic_partial` | propext, Classical.choice, Quot.sound |
| C165 | `PathPlanning.C165_motion_partial` | propext, Classical.choice, Quot.sound |
| C165 | `PathPlanning.C165_smooth_partial` | propext, Classical.choice, Quot.sound |
| C165 | `PathPlanning.C165_path_depends_on_origin` | propext, Classical.choice, Quot.sound |
| C165 | `PathPlanning.C165_nodes_depend_on_origin` | propext, Classical.choice, Quot.sound |
| C166 | `PathPlanning.C166_same_up_to_eight_percent_partial` | propext, Classical.choice, Quot.sound |
| C166 | `PathPlanning.C166_same_for_two_obstacles_partial` | propext, Classical.choice, Quot.sound |
| C166 | `PathPlanning.C166_same_where_exact_partial` | propext, Classical.choice, Quot.sound |
| C166 | `PathPlanning.C166_depends_on_history` | propext, Classical.choice, Quot.sound |
| C166 | `PathPlanning.C166_depends_on_order` | propext, Classical.choice, Quot.sound |
| C167 | `PathPlanning.Validator.C167_state_stays_rejected_partial` | propext, Classical.choice, Quot.sound |
| C167 | `PathPlanning.Validator.C167_state_stays_rejected_double_partial` | propext, Classical.choice, Quot.sound |
| C167 | `PathPlanning.Validator.C167_valid_throughout_accepted` | propext, Classical.choice, Quot.sound |
| C167 | `PathPlanning.Validator.C167_accepted_with_smaller_radius_partial` | propext, Classical.choice, Quot.sound |
| C167 | `PathPlanning.Validator.C167_path_accepted_with_greater_radius` | propext, Classical.choice, Quot.sound |
| C167 | `PathPlanning.Validator.C167_path_accepted_with_smaller_step` | propext, Classical.choice, Quot.sound |
| C168 | `PathPlanning.C168_override_called_partial` | propext |
| C168 | `PathPlanning.C168_path_valid_never_called` | propext, Classical.choice, Quot.sound |
| C168 | `PathPlanning.C168_names_usable_partial` | propext, Classical.choice, Quot.sound |
| C168 | `PathPlanning.C168_is_occupied_unusable` | propext, Classical.choice, Quot.sound |
| C169 | `PathPlanning.C169_same_cells` | propext, Classical.choice, Quot.sound |
| C169 | `PathPlanning.C169_same_cells_double` | propext, Classical.choice, Quot.sound |
| C169 | `PathPlanning.C169_same_occupancy` | propext, Classical.choice, Quot.sound |
| C170 | `PathPlanning.C170_same_cost` | propext, Classical.choice, Quot.sound |
| C170 | `PathPlanning.C170_same_length_double` | propext, Classical.choice, Quot.sound |
| C170 | `PathPlanning.C170_bidirectional` | propext, Classical.choice, Quot.sound |
| C171 | `PathPlanning.C171_add_difference` | propext, Classical.choice, Quot.sound |
| C171 | `PathPlanning.C171_subtract_sum` | propext, Classical.choice, Quot.sound |
| C172 | `PathPlanning.ObstHeuristic.C172_more_obstacles_partial` | propext, Classical.choice, Quot.sound |
| C172 | `PathPlanning.ObstHeuristic.C172_symmetric_partial` | propext, Classical.choice, Quot.sound |
| C172 | `PathPlanning.ObstHeuristic.C172_more_obstacles_lower` | propext, Classical.choice, Quot.sound |
| C172 | `PathPlanning.ObstHeuristic.C172_not_symmetric` | propext, Classical.choice, Quot.sound |
| C173 | `PathPlanning.AStar.C173_a_star` | propext, Quot.sound |
| C173 | `PathPlanning.Bi.C173_bidirectional` | propext, Quot.sound |
| C173 | `PathPlanning.C173_factor` | propext, Classical.choice, Quot.sound |
| C173 | `PathPlanning.C173_double` | propext, Classical.choice, Quot.sound |
| C174 | `PathPlanning.RRTUnits.C174_rrt` | propext, Classical.choice, Quot.sound |
| C174 | `PathPlanning.RRTUnits.C174_rrt_star` | propext, Classical.choice, Quot.sound |
| C174 | `PathPlanning.RRTUnits.C174_rrt_plane` | propext, Classical.choice, Quot.sound |
| C174 | `PathPlanning.RRTUnits.C174_rrt_star_plane` | propext, Classical.choice, Quot.sound |
| C175 | `PathPlanning.C175_map_partial` | propext, Classical.choice, Quot.sound |
| C175 | `PathPlanning.C175_obstacle_partial` | propext, Classical.choice, Quot.sound |
| C175 | `PathPlanning.C175_shapes` | propext, Classical.choice, Quot.sound |
| C175 | `PathPlanning.C175_state_valid_partial` | propext, Classical.choice, Quot.sound |
| C175 | `PathPlanning.C175_path_valid_partial` | propext, Classical.choice, Quot.sound |
| C175 | `PathPlanning.C175_paths_partial` | propext, Classical.choice, Quot.sound |
| C175 | `PathPlanning.C175_voronoi_partial` | propext, Classical.choice, Quot.sound |
| C175 | `PathPlanning.C175_obstacle_heuristic_partial` | propext, Classical.choice, Quot.sound |
| C175 | `PathPlanning.C175_reeds_shepp_partial` | propext, Classical.choice, Quot.sound |
| C175 | `PathPlanning.C175_nonholonomic_heuristic_partial` | propext, Classical.choice, Quot.sound |
| C175 | `PathPlanning.C175_motion_partial` | propext, Classical.choice, Quot.sound |
| C175 | `PathPlanning.C175_hybrid_partial` | propext, Classical.choice, Quot.sound |
| C175 | `PathPlanning.C175_path_cost_depends_on_unit` | propext, Classical.choice, Quot.sound |
| C175 | `PathPlanning.C175_motion_depends_on_unit` | propext, Classical.choice, Quot.sound |
| C175 | `PathPlanning.C175_goal_test_depends_on_unit` | propext, Classical.choice, Quot.sound |
| C176 | `PathPlanning.C176_map` | propext, Classical.choice, Quot.sound |
| C176 | `PathPlanning.C176_map_and_diagram` | propext, Classical.choice, Quot.sound |
| C176 | `PathPlanning.C176_diagram` | propext, Classical.choice, Quot.sound |
| C176 | `PathPlanning.C176_second_update_exists` | propext, Quot.sound |
| C177 | `PathPlanning.C177_difference_partial` | propext, Classical.choice, Quot.sound |
| C177 | `PathPlanning.C177_difference_unwrapped` | propext, Classical.choice, Quot.sound |
| C177 | `PathPlanning.C177_nonholonomic_heuristic_partial` | propext, Classical.choice, Quot.sound |
| C177 | `PathPlanning.C177_reeds_shepp_partial` | propext, Classical.choice, Quot.sound |
| C177 | `PathPlanning.C177_motion` | propext, Classical.choice, Quot.sound |
| C177 | `PathPlanning.C177_reeds_shepp_path` | propext, Classical.choice, Quot.sound |
| C177 | `PathPlanning.C177_connect_partial` | propext, Classical.choice, Quot.sound |
| C177 | `PathPlanning.C177_line` | propext, Classical.choice, Quot.sound |
| C177 | `PathPlanning.C177_goal_test_partial` | propext, Classical.choice, Quot.sound |
| C177 | `PathPlanning.C177_goal_test_depends_on_axes` | propext, Classical.choice, Quot.sound |
| C177 | `PathPlanning.C177_heuristic_depends_on_axes` | propext, Classical.choice, Quot.sound |
| C177 | `PathPlanning.C177_cells_depend_on_axes` | propext, Classical.choice, Quot.sound |
| C178 | `PathPlanning.C178_part_of_accepted` | propext, Classical.choice, Quot.sound |
| C178 | `PathPlanning.C178_parts_of_rejected` | propext, Classical.choice, Quot.sound |
| C178 | `PathPlanning.C178_reported_part` | propext, Classical.choice, Quot.sound |
| C178 | `PathPlanning.C178_rejected_part` | propext, Classical.choice, Quot.sound |
| C178 | `PathPlanning.C178_truncated_motion` | propext, Classical.choice, Quot.sound |
| C178 | `PathPlanning.C178_truncated_line` | propext, Classical.choice, Quot.sound |
| C179 | `PathPlanning.C179_same_status_partial` | propext, Classical.choice, Quot.sound |
| C179 | `PathPlanning.C179_costs_partial` | propext, Classical.choice, Quot.sound |
| C179 | `PathPlanning.C179_costs_differ` | propext, Quot.sound |
| C179 | `PathPlanning.C179_occupied_goal` | propext, Quot.sound |
| C179 | `PathPlanning.C179_occupied_start` | propext, Quot.sound |
| C180 | `PathPlanning.C180_shortest` | propext, Classical.choice, Quot.sound |
| C180 | `PathPlanning.C180_connection_cost` | propext, Classical.choice, Quot.sound |
| C180 | `PathPlanning.C180_heuristic` | propext, Classical.choice, Quot.sound |
| C181 | `PathPlanning.C181_reported_cost` | propext, Classical.choice, Quot.sound |
| C181 | `PathPlanning.C181_no_cheaper_than_line` | propext, Classical.choice, Quot.sound |
| C182 | `PathPlanning.C182_walk_at_least_octile` | propext, Classical.choice, Quot.sound |
| C182 | `PathPlanning.C182_walk_of_octile_length` | propext, Classical.choice, Quot.sound |
| C182 | `PathPlanning.C182_planner_at_least_octile` | propext, Classical.choice, Quot.sound |
| C182 | `PathPlanning.C182_planner` | propext, Classical.choice, Quot.sound |
| C182 | `PathPlanning.C182_octile_is_consistent` | propext, Classical.choice, Quot.sound |
| C182 | `PathPlanning.C182_bidirectional` | propext, Classical.choice, Quot.sound |
| C182 | `PathPlanning.C182_bidirectional_octile` | propext, Classical.choice, Quot.sound |
| C182 | `PathPlanning.C182_obstacle_heuristic` | propext, Classical.choice, Quot.sound |
| C183 | `PathPlanning.C183_checked_motions_give_walk` | propext, Classical.choice, Quot.sound |
| C183 | `PathPlanning.C183_plan_gives_walk` | propext, Classical.choice, Quot.sound |
| C183 | `PathPlanning.C183_grid_searches_succeed` | propext, Classical.choice, Quot.sound |
| C183 | `PathPlanning.C183_heuristic_bounded_by_drive` | propext, Classical.choice, Quot.sound |
| C184 | `PathPlanning.C184_rrt_keeps_clear` | propext, Classical.choice, Quot.sound |
| C184 | `PathPlanning.C184_rrtStar_keeps_clear` | propext, Classical.choice, Quot.sound |
| C184 | `PathPlanning.C184_rrt_gives_walk` | propext, Classical.choice, Quot.sound |
| C184 | `PathPlanning.C184_rrtStar_gives_walk` | propext, Classical.choice, Quot.sound |
| C184 | `PathPlanning.C184_grid_search_succeeds` | propext, Classical.choice, Quot.sound |
