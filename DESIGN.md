# Design

Formal model of lfilipozzi/PathPlanning (C++ sources in /repo/planner/src) in Lean 4, with
machine-checked proofs of the properties listed in properties.jsonl.

## Layout

* `lean/Verif/Model/*`  function-by-function model; each definition cites file and lines.
* `lean/Verif/Spec/*`   small specifications, independent of the model's helpers.
* `lean/Verif/Lemmas/*` helper lemmas and invariants.
* `lean/Verif/Props/*`  the property theorems (`C01_...`), each with a concrete non-vacuity example.

## Trusted base

* Lean 4 kernel; Mathlib definitions used in statements (real numbers, `Real.sin`, lists, orders).
* Axioms: only `propext`, `Classical.choice`, `Quot.sound`. AXIOMS.md lists them for each theorem, as printed by
  `#print axioms`.
* The faithfulness of the hand-written model to the C++ text, argued by the citations in comments.

## Modelling decisions

* Numbers. Search costs are an abstract type: structural theorems ask only for a linear order and
  an addition with no laws, so they also cover rounded double arithmetic without NaN; optimality
  theorems ask for a linearly ordered commutative group (exact arithmetic). Geometry is over the reals.
  `float` and `double` are the numbers with 24 and 53 significant bits, without bounds on exponents, and each operation rounds
  to nearest, ties to even. They are modelled for the costs of A* (C119, C141, C143), positions and cells (C120), headings (C121),
  samples of the state space (C126), validation of paths (C127), the obstacle heuristic (C128), sampling of hybrid A*
  paths (C130), composite paths (C131), Reeds-Shepp paths (C132, C136), the Voronoi potential (C133), costs of motions
  (C134), constant-steer motions (C137) and RRT and RRT* in the plane (C138, C139, C140),
  straight paths (C145), obstacles and shapes (C146, C147, C148) and the
  non-holonomic heuristic (C149); sin, cos, tan and atan2 are there any
  functions with a bounded error. Elsewhere numbers are exact. Infinity and NaN results that the code can
  return are explicit outcomes. `int` is unbounded, except that 32 bit integers and
  their overflow are modelled as well for the distance maps (C115), rasterisation (C129) and cells of positions (C135).
* Containers. `std::vector` is `List`; `std::unordered_set/map` is a list searched with the key
  equality (bucket order is never observable in the modelled code). That this is what a hash table with
  the code's hash functions does is C116.
* Pointers. A* nodes are never modified after being created, so a node is the inductive chain of
  its ancestors; `utils/node.h` itself is modelled with an explicit heap.
* Randomness and the FLANN nearest-neighbour index are parameters (arbitrary streams / any function
  returning a minimiser). In the probabilistic theorems (C113, C114) the numbers of the random engine are
  independent and uniform on [0, 1].
* Threads. Interleavings of atomic steps, sequentially consistent memory (C61, C117, C118).
* `std::priority_queue` ties: the queue pops *any* entry of minimal priority.
* Loops without an evident bound are relations or fuelled functions with a termination theorem.
* Undefined behaviour is a distinct outcome (`none`/`Except`).

## Modelled code

| file | modules of lean/Verif/Model |
|---|---|
| algo/a_star.h | AStar, AStarPlanner, BiPlanner, Bidirectional, FloatAStar, Grid, Handles, Heuristic, HybridPlanner, Interrupt, SearchTree, SharedHeuristic |
| algo/a_star_n2.cpp | Grid |
| algo/a_star_n2.h | BiGrid, Grid |
| algo/bidirectional_a_star.h | BiPlanner, Bidirectional, Handles, Interrupt |
| algo/heuristics.cpp | FloatHeuristic, FloatNonHolo, Image, NonHoloMemory, NonHolonomic, ObstHeuristic |
| algo/heuristics.h | FloatHeuristic, Hash, NonHoloMemory, NonHolonomic, ObstHeuristic |
| algo/hybrid_a_star.cpp | FloatCost, FloatHybrid, FloatSteer, HybridAStar, HybridPlanner, SearchTree |
| algo/hybrid_a_star.h | AStar, FloatHybrid, Hash, HybridAStar, HybridPlanner, MapInt |
| algo/path_planner.h | AStar, AStarPlanner, BiPlanner, HybridPlanner, RRTInterrupt, RRTPlanner, SharedHeuristic |
| algo/rrt.h | FloatRRT, RRT, RRTInterrupt, RRTPlanner, RRTStream, RandomInit |
| algo/rrt_star.h | FloatRRT, RRT, RRTInterrupt, RRTPlanner, RRTStream, RandomInit |
| algo/smoother.cpp | HybridPlanner, Smoother, SmootherDiv, SmootherObject |
| algo/smoother.h | Smoother, SmootherObject |
| core/base.h | Handles |
| core/hash.h | Hash |
| debug/profiler.cpp | Profiler, ProfilerThreads |
| debug/profiler.h | Profiler |
| geometry/2dplane.h | FloatDrive, FloatPose, Hash, HybridAStar, Obstacle, OccMap, Pose |
| geometry/reeds_shepp.cpp | FloatCost, FloatReedsShepp, ReedsShepp |
| geometry/reeds_shepp.h | FloatReedsShepp, ReedsShepp |
| models/kinematic_bicycle_model.cpp | FloatSteer, Path |
| models/kinematic_bicycle_model.h | Path |
| paths/path.h | Composite, HybridAStar, Path, RRT, ReedsShepp, Validator |
| paths/path_composite.cpp | Composite, FloatComposite |
| paths/path_composite.h | Composite, FloatComposite, HybridAStar |
| paths/path_constant_steer.cpp | FloatSteer, Path |
| paths/path_constant_steer.h | Path |
| paths/path_r2.cpp | FloatRRT, Path |
| paths/path_reeds_shepp.cpp | FloatCost, FloatDrive, FloatReedsShepp, ReedsShepp |
| paths/path_reeds_shepp.h | ReedsShepp |
| paths/path_se2.cpp | FloatPath, Path |
| state_space/state_space.h | RandomInit, StateSpace |
| state_space/state_space_r2.cpp | FloatSample, RRTStream, RandomInit, StateSpace |
| state_space/state_space_se2.cpp | FloatSample, StateSpace |
| state_validator/gvd.cpp | DistMap, DistMapInt, FloatGVD, GVD, GVDQueries, HybridPlanner, Image, MapUpdate, Resize |
| state_validator/gvd.h | DistMap, DistMapInt, FloatGVD, FloatValidator, GVD, GVDQueries, HybridAStar, Smoother, SmootherObject, Validator |
| state_validator/obstacle.cpp | FloatObstacle, Obstacle, ObstacleMap, OccMap, Raster, RasterInt, Resize |
| state_validator/obstacle.h | Obstacle, ObstacleMap, OccMap |
| state_validator/obstacle_list_occupancy_map.cpp | Grid, MapUpdate, ObstacleMap |
| state_validator/obstacle_list_occupancy_map.h | MapUpdate, ObstacleMap |
| state_validator/occupancy_map.cpp | FloatMap, Grid, MapInt, MapUpdate, ObstacleMap, OccMap, Resize, Validator |
| state_validator/occupancy_map.h | FloatMap, Grid, MapInt, MapUpdate, ObstacleMap, OccMap, RasterInt, Resize |
| state_validator/state_validator_free.h | Validator |
| state_validator/state_validator_occupancy_map.cpp | FloatValidator, HybridPlanner, MapInt, Resize, Validator |
| state_validator/state_validator_occupancy_map.h | HybridPlanner, SmootherObject, Validator |
| utils/frontier.h | Frontier |
| utils/grid.cpp | DistMapInt, Grid, Hash |
| utils/grid.h | FloatMap, Grid, GridStore, Hash, MapInt, ObstHeuristic, OccMap |
| utils/maths.h | ReedsShepp |
| utils/node.h | AStar, Node, SearchTree, Tree |
| utils/random.h | FloatSample, RRTStream, RandomInit, StateSpace |
| utils/singleton.h | Singleton, SingletonInit, SingletonPlain |
| utils/tree.h | FloatRRT, Hash, Tree |


What the citations do not cover in these files are declarations, template headers, member access functions and
data members whose definitions are modelled where they are used.

## Not modelled

* state_validator/gvd.cpp:100-103, 133-184, `CheckVoroConditions`, `RebuildVoronoi`, `PatternMatch`: never called.
* state_space/state_space.h:49-57, the batch `SampleGaussian`: names a function that does not exist, so it cannot be called.
* state_validator/state_validator.h:30-37, `IsPathValid` with a state: does not compile when it is used.
* core/log.*, core/assert.h, core/base.h, core/timer.h, utils/make_ref_enabler.h: logging, aliases of smart pointers, clock.
* Profiling macros around functions, opening and closing the files of `Visualize`.
* FLANN (the nearest neighbour index), Eigen, spdlog, the standard library: replaced by what their documentation says.
* interfaces/python beyond the wrapper classes and the names (Model/Python.lean): the conversions of pybind11; main.cpp, planner/tests.
* Memory allocation failure, rounding of floating point numbers in the other theorems, overflow and underflow of exponents, the C++ memory model.

## Properties that do not hold in full

Nearly all of these are violated by the code: one theorem gives the counterexample, and the theorems whose names end in
`_partial` say what does hold. MANIFEST.json says `partial` for all of them.

* **C09 A*: after a failed search no path is reported.** Violated after a rejected Initialize (C09_stale_path_after_rejected_initialize); holds for every history whose last Initialize was accepted.
* **C11 A*: tree search with an admissible heuristic is optimal.** Violated: C11_tree_search_not_optimal is a counterexample with a zero heuristic. Holds for uniform step costs and a constant heuristic.
* **C13 Bidirectional A*: a successful search returns a real path from start to goal.** Violated as stated: the meeting state is listed twice (C13_meeting_state_listed_twice); the path is real once that duplicate is removed.
* **C16 Bidirectional A*: the returned path is optimal for a consistent heuristic pair.** Violated: C16_bidirectional_not_optimal. Proved: with consistent heuristics the reported cost is bounded by twice the optimum (C16_bidirectional_bound_partial, C16_average_metric_partial, C16_planner_bound_partial), and no factor below two is enough (C16_factor_two_is_tight).
* **C17 Average heuristic pair is a consistent pair.** The pair is consistent when the parts' goals are set; AverageHeuristic never forwards SetGoal to them (C17_parts_keep_stale_goals).
* **C24 Tree: one node per state, Extend returns the existing node, size counts nodes.** Violated by CreateRootNode on a non-empty tree, which leaves dangling entries (C24_create_root_twice_dangles); holds for every other history. Nearest-neighbour answers are an oracle with the stated laws.
* **C27 RRT*: every edge of the returned path was accepted by the validator.** Violated: when no neighbour has an accepted connection the node is attached to its nearest node without validation (C27_unvalidated_edge). Holds when the nearest node of the sample is among the neighbours and prefixes of accepted paths are accepted. Holds for straight connections in the plane (C27_rrtStar_r2).
* **C29 A position is inside the map iff its coordinates are inside the map rectangle.** Violated: points up to one resolution below the low border are accepted because the cast truncates toward zero (C29_low_border_accepted), and SetPosition after InitializeSize leaves the frames inconsistent (C29_set_position_after_size). The exact accepted set and the statement for points not below the border are proved.
* **C30 A cell is occupied iff a registered obstacle covers it.** Violated for overlapping obstacles (C30_overlap_lost) and for obstacles moved while registered (C30_moved_obstacle_leaves_cells). The equivalence is proved for every other history; one direction also with overlaps.
* **C35 Obstacle distance map: after Update the reported obstacle cell is a current obstacle.** Violated: C35_removed_obstacle_still_reported is a history after which, with every order of the queue, a removed obstacle is still reported. Holds without removals, and for obstacles on adjacent cells with any history.
* **C38 Obstacle distance map: reported distance is the exact Euclidean distance to the nearest obstacle.** Violated even without removals: C38_not_the_nearest, with every order of the queue. The reported distance is at most 8.3 % above the exact one for every history, exact in the eight compass directions, and never below without removals. It is exact on the whole map, without removals, for one or two obstacle cells and for the sides of a rectangle (C38_two_obstacles_partial, C38_rectangle_partial); the counterexample has three cells.
* **C46 Truncating a path keeps a prefix of it.** Proved for elementary and composite paths. Violated by Reeds-Shepp paths: C46_reeds_shepp_motion_erased shows that Truncate erases the motion in which the cut falls; length, end point and the cut inside the last array entry are right (_partial theorems).
* **C47 Composite path: interpolation, direction and cusps follow the concatenation of the parts.** Length, final state and interpolation are proved. Violated: the initial state is never set (C47_initial_state_wrong), GetDirection(1) dereferences end (C47_direction_at_end_undefined), inner cusps are not rescaled (C47_cusps_not_rescaled), PushBack after Truncate (C47_push_after_truncate_wrong). Partial theorems: direction before the end, cusps when parts have none inside.
* **C50 The Reeds-Shepp solver returns the best of its words.** Violated for GetShortestDistance, which is not scaled by the turning radius (C50_distance_not_scaled). The minimum over the 48 words, the optimal path and the Euclidean bound are proved.
* **C51 Reeds-Shepp path cost is the weighted length plus the switching cost.** Violated: the forward cost multiplier is ignored (C51_forward_multiplier_ignored). Proved in every other case.
* **C53 IsPathValid accepts only paths whose checked states, including the final one, are valid, and terminates.** Violated: the final state is not checked (C53_final_state_not_checked); for a moved map the bounds are not respected between the checked states (C53_moved_map_leaves_bounds). Proved: state validity, termination for a positive step, initial state and spacing of the checked states, the ratio returned on rejection.
* **C55 Obstacle heuristic: table values are shortest path costs.** Violated: C55_not_the_shortest (the test for a better walk compares the stored value with itself, so a cell keeps its first value). Holds up to a factor of sqrt 2.
* **C56 Non-holonomic heuristic lookups stay inside the table.** Violated: C56_negative_index (a goal heading behind the state heading gives a negative index). C56_defined_iff says exactly when the look-up is defined.
* **C57 Hybrid A*: returned samples start at the start, end at the end of the path and are evenly spaced.** Violated: the end of the path is sampled only in the cases of C57_end_sampled_iff (C57_end_missing), the spacing can exceed the interpolation distance (C57_spacing_exceeded), cusps can be missed (C57_cusps_missed). Proved: the first sample, the order and range of the samples, the spacing bound, the cusp indices.
* **C58 Hybrid A*: generated motions respect the minimum turning radius.** Violated for numGeneratedMotion >= 6 (C58_too_sharp). Proved for at most 5, for every wheelbase and radius, and that the sharpest turn is attained.
* **C59 Smoother: moves only interior points away from cusps, keeps endpoints, cusps, headings and size.** Size, headings, end points, cusps and the neighbours of cusps are kept for every run, and no access is out of range. 'Only points with no cusp within two samples move' is false of the code: the curvature term of a neighbour moves a point two samples from a cusp (C59_point_near_cusp_moves); it is proved when the curvature term is inactive (C59_moved_partial).
* **C65 Batch sampling returns the requested number of in-bounds states.** Violated: every non-empty batch writes outside the vector (C65_batch_writes_out_of_range).
* **C68 Voronoi diagram queries by world position.** Violated without obstacles: the query returns true with a position outside the map (C68_bogus_position_without_obstacles).
* **C70 Accepted paths keep their clearance between the checked states.** With the error of the incremental distance map the guarantee depends on the reported distance (C70_clearance_partial); with exact distances (one or two obstacle cells, the sides of a rectangle) it is the constant of the statement, also for the final state of the path. The motions of the library meet the hypothesis on the speed (C70_unit_speed_*).
* **C71 Obstacle heuristic: the value never exceeds the cost of a collision-free drive.** Violated: C71_overestimates (the octile metric exceeds the straight-line distance; the discount constant is unused). Proved: always defined, bounds.
* **C73 The non-holonomic heuristic never exceeds the cost of driving to the goal.** Violated: C73_overestimates (the table holds the cost of the trip from the goal back to the state, C73_table_value). Holds outside the table. Without penalties for reversing (multipliers 1, no cost for switching), the value inside the table is the length of the shortest path to a pose within half a cell and half an angular step of the goal (C73_no_penalties_partial, C73_entry_partial).
* **C74 A new occupancy-map validator covers its state space.** Violated: C74_asymmetric_bounds_not_covered, C74_upper_bound_not_covered. Holds for symmetric bounds below the upper bounds.
* **C76 Smoother: a straight evenly spaced path away from obstacles is returned unchanged.** Proved when the reported nearest obstacle is far enough. False on a map without obstacles: the nearest obstacle is reported in the cell (-1,-1) and the path is bent (C76_empty_map_moves_points).
* **C77 Smoother: the weight on the requested path keeps the result close to it.** False for a positive weight: the term has the wrong sign and pushes the point away (C77_path_term_negated, C77_path_term_moves_away). Proved only for the default weight 0.
* **C79 Hybrid A*: two states are one search node exactly if they lie in the same cell of the configuration space.** Violated: at most seven headings are distinguished (C79_at_most_seven_headings, C79_headings_merged, C79_opposite_headings_merged) and cells on the axes are twice as wide (C79_cells_across_axes). Proved: the position bound, the heading bound for angular resolutions above pi/4, same cell implies same node.
* **C82 Hybrid A*: a goal that a checked motion reaches from an expanded state is found.** Violated: C82_goal_in_the_cell_of_the_start, C82_goal_cell_never_expanded, and the concrete search C82_goal_ahead_not_found. Proved that this is the only reason: C82_missed_only_if_cell_expanded_partial.
* **C83 Hybrid A*: the cost of a motion is its weighted length, plus the switching cost, plus the Voronoi cost along it.** Violated in the code: a change of direction between steering motions is never charged (C83_switch_not_charged) and the Voronoi cost is that of the last sample only (C83_voronoi_of_last_sample). The rest of the formula is proved.
* **C84 Hybrid A*: a start that is the goal gives a path.** Violated in the code: proved that SearchPath throws for every start within 1 mm and 0.001 degrees of the goal.
* **C85 Hybrid A*: the goal is recognised, whatever full turns the motions make.** Proved for Reeds-Shepp connections of positive length to goals with a heading in (-pi, pi). Violated for steering motions that end past pi.
* **C88 Hybrid A*: a cell is represented by the cheapest of the states found in it.** Violated in the code (there is a TODO): proved that a cheaper state of the same cell at 1 mm or more is dropped, and that the expanded state is the first generated one up to replacements within 1 mm and 0.001 degrees.
* **C89 The Voronoi field does not depend on when the diagram was created.** Violated by the code when the diagram (HybridAStar::Initialize) is created after an OccupancyMap update: C89_late_diagram_is_empty, C89_late_field_has_no_valley, C89_corridor. Proved: creation commutes with placing and removing obstacles before the first update.
* **C94 A state inside an obstacle is rejected.** Violated: the centre of a registered 9 m box is accepted with a safe radius of 1 m (C94_inside_accepted); in general every state far enough from all outlines is accepted, inside or outside (C94_deep_inside_accepted). Proved: states inside thin rectangles are rejected (C94_thin_rectangle_partial).
* **C97 SetSmootherParameters determines how all later searches smooth.** Initialize overwrites parameters that were set before it (C97_initialize_resets_parameters); proved for parameters set after the last Initialize.
* **C99 Each heuristic of a bidirectional search estimates the cost to the goal of its own direction.** Proved for two different plain heuristic objects. Violated otherwise: with one object for both directions the forward search estimates the cost to its own start (C99_shared_heuristic); an averaged pair uses the goals stored in its parts (C99_averaged_partial, C17), and the pair averaged from one heuristic, as in the Python example, is constant (C99_average_of_one_heuristic).
* **C101 The bidirectional grid planner finds a shortest free path or proves that there is none.** Proved: termination; for free start and goal, Failure means no walk exists, Success returns a walk in which the meeting cell is listed twice, and the cost is at most twice the optimum. Violated: occupied goal (C101_occupied_goal), occupied start (C101_occupied_start), optimality (C101_not_shortest).
* **C103 RRT planners can be reused.** Proved for RRT (C103_rrt) and for RRT* in the plane (C103_rrtStar_r2). For RRT* with other connections an edge may not have been accepted (C27_unvalidated_edge), so the general theorem is C103_rrtStar_partial.
* **C104 RRT* attaches each new state where the path from the start is shortest.** Proved as long as no iteration ends in a state already in the tree: C104_shortest_through_neighbours_partial (general), C104_r2_partial (plane, all hypotheses on the connections discharged), C104_paths_are_kept. Violated by the code otherwise: the cost of the existing node is overwritten although its parent stays, and later states are attached to it at the wrong cost (C104_longer_than_needed).
* **C106 With the free validator planned paths stay within the bounds of the state space.** C106_state_valid_iff; C106_rrt_partial and C106_rrtStar_partial assume a start and a goal within the bounds. Violated otherwise: IsPathValid does not look at the bounds (C106_leaves_bounds).
* **C110 The statistics of hybrid A* describe the last search.** Violated after a failed search: the smoothing status, the smoothed path and the path stay those of an earlier search (C110_failure_keeps, C110_stale), and a search of a planner that was re-initialised without a validator returns Failure while GetStats still says Success (C110_stale_after_reset). After a success the property holds for every history (C110_success_partial).
* **C112 Small steps of the smoother do not make the path worse.** Proved where the path is regular (C109), no optimised point lies on the border of cells, and the curvature at the optimised points next to points that are not optimised is at most the maximum. Violated without the last condition: the neighbours of the optimised points follow the curvature term but not the bends, C112_cost_can_increase gives a path whose cost grows for every small learning rate with the default weights.
* **C117 All threads use one logger and one profiler.** Violated: two threads that make the first call of Get at the same time construct two instances, and the first one is destroyed while it is used (C117_race). Proved for calls from one thread (C117_one_thread_partial) and for all schedules after Init has returned (C117_initialised_first_partial).
* **C120 The position of a cell lies in this cell.** Violated: C120_tenth_resolution_fails. Missing from the positive results: exactness for resolutions that are not powers of two (false), maps above 2^23 rows, overflow of int and of the exponent.
* **C121 Every heading is wrapped to [-pi, pi], with doubles.** Violated for headings above 2^56: C121_large_angles_hang. NaN and infinities are not modelled.
* **C124 The tables of the non-holonomic heuristic are allocated, read and freed correctly.** Proved for every history of building and destroying: it is defined (C124_defined_partial), every table reads the values of Build at every place and has no other place (C124_value_partial), nothing is left at the end (C124_no_leak_partial). Violated for copies: the implicit copy constructor copies the pointer, so destroying a heuristic and its copy frees the table twice, after every history and in both orders (C124_copy_violated).
* **C125 Setting the size of a map again keeps its obstacles and diagrams.** violated: InitializeSize (called by each new validator) replaces the matrix and the distance map but keeps the list of obstacles, so that obstacles become invisible and cannot be added again; diagrams keep the old distance map. Proved for all histories; the partial theorems cover maps without registered obstacles and obstacles that are removed and added again.
* **C126 Samples lie within the bounds, with doubles.** violated in the last bit: with bounds -1 and 1 + 3 * 2^-52 a sample exceeds the upper bound (C126_above_upper_bound). Proved: the lower bound, both bounds if their difference is a double (symmetric bounds, bounds from 0), Gaussian samples, and that the excess is at most eight roundings.
* **C127 Path validation with float and double arithmetic.** Violated for paths of more than about 2^53 interpolation steps: C127_long_paths_hang (the rounded length stops growing and the loop does not end); the example has a step of 2^-60. Proved for paths of at most 2^52 steps and headings of at most 2^56. As in C53 and C70 the final state of the path is not checked, and the constant clearance is for a single obstacle. Subnormals and overflow are not modelled.
* **C130 Hybrid A*: the samples of the returned path, with float and double arithmetic.** Violated by rounding (C130_cusps_missed): a direction switch just above the middle between two multiples of the interpolation distance is not sampled, nor is any later one, though exact arithmetic samples all; and for paths of 2^54 interpolation distances the loop never ends (C130_long_path_undefined). Proved for all other inputs: same samples as in exact arithmetic (C130_same_samples_partial); for all direction switches, on paths of up to 2^28 interpolation distances: termination, no read past the set, order, range and distances. `GetCuspPointRatios` and the length are taken as given doubles; the memory of the ratios and the conversion in `reserve` are not modelled.
* **C131 Composite paths with double arithmetic.** Interpolation of a path as built is within its parts and at the right position (C131_interpolate_partial), and so is GetDirection before the end (C131_direction_partial); at the end it is undefined (C131_direction_at_end_undefined). After Truncate, interpolation may ask the last part for a ratio above 1 (C131_truncated_beyond_end, 2 m and 49 m truncated at 3 m), but the position is still the one asked for up to the roundings (C131_truncated_interpolate_partial). Exponent range not modelled (no overflow or underflow).
* **C132 Reeds-Shepp paths with double arithmetic.** Violated at the end of the path: with a radius of 5 m, motions of 0.2 and 2.6 radii forward have no direction at ratio 1 (C132_no_direction_at_end), hence two such paths in a row report a change of direction (C132_spurious_cusp); the change before a very short last motion is missed (C132_cusp_missed). Everything else holds up to T / 2^48. sin, cos and the exponent range are not modelled.
* **C133 Voronoi potential with float and double arithmetic.** Violated in one respect: with the edge at the greater of two distances the rounded potential can be less (C133_not_increasing_with_edge_distance, cells of 1 m); C133_increases_with_edge_distance_partial proves it up to a relative error of 2^-18. All the rest is proved: [0, 1], 1 exactly at obstacles, 0 exactly on edges and beyond dMax, no division by zero, no underflow, monotone in the obstacle distance.
* **C134 Costs of motions with float and double arithmetic.** Violated by the code: a reverse multiplier that is rounded to 1, without a switching cost, makes the program ignore the forward multiplier (C134_forward_multiplier_ignored; the path costs half of what it should). Otherwise, i.e. if the reverse multiplier is not rounded to 1, there is a switching cost, or the forward multiplier is rounded to 1: C134_reeds_shepp_cost_partial, C134_optimal_partial and C134_goal_cost_partial. C134_steer_cost, C134_voronoi_cost, C134_voronoi_undefined, C134_voronoi_of_nothing, C134_sampling_step and C134_no_motion have no such hypothesis; paths are supposed not longer than 2^28 cells.
* **C135 Maps and positions with 32 bit integers.** Violated for positions more than 2147483650 cells away from the corner of the map: C135_far_position_undefined, C135_discretize_far_undefined (undefined instead of false). Proved for positions up to 2147483647 cells away (C135_cell_of_position_partial, C135_state_valid_partial, C135_discretize_partial); the statements on the size and the storage of maps are proved in full.
* **C139 Lengths of RRT* paths in the plane with double arithmetic.** The costs and the choice of parents are right up to rounding (C139_costs_partial, C139_shortest_through_neighbours_partial, C139_r2_partial), and paths are kept (C139_paths_are_kept). Missing: iterations that end in a state of the tree, for which the costs are wrong also without rounding (C104_longer_than_needed).
* **C149 The non-holonomic heuristic with the arithmetic of the program.** Violated as C56: for half of the headings the angular index is negative (C149_negative_index, exact criterion C149_defined_iff). The rounding of the Reeds-Shepp solver that fills the table is not modelled.
* **C151 Searches left by an exception.** A* in full. Bidirectional A*: an exception in the SetGoal of the forward heuristic leaves the reverse half of the former path as the path of the planner (C151_half_a_path_left); the other points of exception are as claimed, and the next search is not affected. Exceptions of containers and of copies of states are not modelled.
* **C153 Planners that share a heuristic.** Violated: C153_disturbed. A search writes its goal into the shared heuristic, so that another search in progress goes on with the wrong goal; with a consistent heuristic it then returns a path of cost 11 instead of 3. Proved for every schedule: the path returned is a route from start to goal with the reported cost, failure is returned only if the goal cannot be reached, no state is expanded twice, and the search ends; the result is that of the search alone if no search with the same heuristic and another goal starts meanwhile. Memory is taken to be sequentially consistent.
* **C154 Random numbers are ready when they are needed, and each is used once.** Proved for every history of one thread without exceptions and without RRT* on float spaces (C154_one_thread_partial), and for every schedule of threads started after the first object was constructed: always defined, and only numbers of the sequence are drawn (C154_constructed_first_partial), each once and in order if the threads take turns (C154_taking_turns_partial). Violated otherwise: two threads that construct their first objects at the same time (C154_race), an exception of the random device after which the engine is never constructed (C154_exception), RRT* on float spaces, whose constructor does not call Init (C154_rrtStar_float), and threads that draw at the same time (C154_same_number_twice).
* **C157 A bidirectional planner never uses an object that is gone.** Proved: a search calls only existing objects and no null member, nothing is left at the end, and explored nodes live exactly until the next search. Violated: GetStatePropagators and GetHeuristics return references that dangle in every history (C157_getters_dangle); GetAverageHeuristicPair and Initialize accept null heuristics, which the search then calls (C157_null_part).
* **C161 RRT* approaches the shortest path as it is allowed more iterations.** Violated: C161_stays_longer shows, in the empty plane, a length above that of the straight path that the result has or exceeds with a positive probability independent of the limits, with the number of neighbours of the code. Proved: with probability one the path is the same for all large enough limits (C161_settles_partial).
* **C164 More obstacles never make the distances greater or the validator more permissive.** The distances and the states of a map to which obstacles are added: proved, for the states also with rounding. The claim is false for paths (`Validator.C164_path_accepted_with_more_obstacles`) and for maps made from scratch (`C164_fresh_map_reports_more`).
* **C165 Nothing depends on where the origin of the world is.** Proved for the map, obstacles, states, Voronoi queries, heuristics, motions and the smoother. False for paths (`C165_path_depends_on_origin`) and for the nodes of hybrid A* (`C165_nodes_depend_on_origin`). Rounding is not considered.
* **C166 The distances depend only on the obstacles.** False after removals (`C166_depends_on_history`) and without (`C166_depends_on_order`). Without removals: equal distances for the sets of obstacles for which distances are exact, and within 8.3 % for all others.
* **C167 A stricter setting of the validator is stricter.** Proved for states, with reals and with rounding. A path all of whose states are valid is accepted with every positive step and every smaller radius. A path accepted with a radius is accepted with a radius that is smaller by the step and two cell diagonals (exact distances, path within the bounds). False for paths: with the greater radius 0.95 instead of 0.9 (C167_path_accepted_with_greater_radius), or the smaller step 0.08 instead of 0.1 (C167_path_accepted_with_smaller_step), the validator checks other states and accepts a path with an invalid state that it rejects otherwise.
* **C168 Classes derived in Python are called back, under usable names.** Proved for all virtual functions but IsPathValid, and all names but one. The wrapper of IsPathValid looks up IsStateValid (pyplanning.cpp:405), so the IsPathValid of a validator written in Python is never called (C168_path_valid_never_called). OccupancyMap::IsOccupied is offered as "is_occupied)" (C168_is_occupied_unusable). The conversion of arguments and results between the languages is not modelled.
* **C172 The obstacle heuristic grows with the obstacles and is the same in both directions.** Proved: reachable cells only shrink with the obstacles and are the same in both directions, and the values hold up to a factor sqrt(2) (C172_more_obstacles_partial, C172_symmetric_partial). Violated exactly, as a consequence of C55_not_the_shortest: one more obstacle lowers a value from 5.66 to 5.41 cells (C172_more_obstacles_lower); the value between two cells is 6.41 in one direction and 6.66 in the other (C172_not_symmetric).
* **C175 The unit of length does not matter.** Proved for the functions of the statement with real numbers. False where the program has lengths of its own: the path cost of the Voronoi diagram (20 m and 30 m, C175_path_cost_depends_on_unit), the curvature below which a motion is straight (1e-9 rad/m, C175_motion_depends_on_unit), the goal test of hybrid A* (1 mm, C175_goal_test_depends_on_unit). The smoother is not compared.
* **C177 What the vehicle does, does not depend on the direction of the axes.** Proved for motions, Reeds-Shepp paths, straight lines, and for the solver, its paths and the non-holonomic heuristic unless the two headings are opposite. Violations: with opposite headings the difference is pi in one frame and -pi in another, and the non-holonomic heuristic then reads outside its table (C177_heuristic_depends_on_axes); the goal test compares headings as numbers, so that two poses that are the same in one frame are different in another (C177_goal_test_depends_on_axes). The cells of hybrid A* follow the axes (C177_cells_depend_on_axes).
* **C179 The two grid planners agree.** Proved between free cells: the status is the same, and the cost of the bidirectional planner is at least the cost of A* and at most twice this cost. Violated otherwise: the costs differ on a 3 x 3 map (34 and 40); when the goal is occupied A* fails and the bidirectional planner succeeds; when the start is occupied it is the other way round.


## Plan per property

* **C01 Frontier: one element per key, and the two internal containers never disagree.** Model `Frontier` as (vec : List T, set : List T), every operation literal, including the two hand written binary searches. Invariant by induction over an operation list; refinement to a finite set of keys.
* **C02 Frontier: Pop and Top return a best element, ties are last-in first-out.** Same model. Invariant "vec sorted by Compare"; binary search = upper bound is proved by well-founded induction on the interval.
* **C03 Frontier: Remove deletes the stored element with that key whatever its priority.** Same model. The start position of the scan is proved to be at or before the stored element.
* **C04 A*: a successful search returns a real path from start to goal.** Model A* with immutable parent-chain nodes, Frontier model above, list for the explored set, abstract cost type with a linear order and an addition (no laws). Inductive invariant over loop iterations.
* **C05 A*: reported cost and actions match the returned path.** Same invariant carries the left-to-right sum.
* **C06 A*: with a consistent heuristic the returned path is optimal.** Same model, costs in a linearly ordered additive commutative group; classical frontier-cut argument.
* **C07 A*: Failure means there is no path.** Invariant: explored set closed except towards the frontier.
* **C08 A*: graph search terminates on finite graphs and expands each state at most once.** Fuel-indexed loop; measure = reachable states not expanded. Theorem gives an explicit fuel bound.
* **C09 A*: after a failed search no path is reported.** Planner object state machine (Initialize / SetInit / SetGoal / SearchPath). Expected violated when de-initialised: witness plus partial theorem.
* **C10 A*: a planner object can be reused; results do not depend on earlier searches.** Same object model: result is a function of the current inputs.
* **C11 A*: tree search with an admissible heuristic is optimal.** Tree-search variant of Expand (Push may silently refuse). Expected violated: witness by decide; soundness for tree search is proved in C04.
* **C12 Combined heuristic: max of the parts, keeps admissibility and consistency, forwards the goal.** Fold of max over WithBot values, SetGoal state.
* **C13 Bidirectional A*: a successful search returns a real path from start to goal.** Two A* models side by side. GetPath duplicates the meeting state: witness; partial theorem after removing the duplicate.
* **C14 Bidirectional A*: Failure means there is no path.** Invariant of both searches; exhaustion of a frontier implies the component is explored.
* **C15 Bidirectional A*: GetOptimalCost is the cost of the returned path.** Invariant of the best meeting point.
* **C16 Bidirectional A*: the returned path is optimal for a consistent heuristic pair.** Violated: C16_bidirectional_not_optimal. Proved: a bound of twice the optimum, for consistent heuristics and for the planner object after any history, and that no factor below two holds (C16_factor_two_is_tight).
* **C17 Average heuristic pair is a consistent pair.** Algebra over a field; SetGoal is not forwarded to the parts: witness.
* **C18 Grid neighbourhood is exactly the in-bounds 8-neighbourhood.** Direct model of GetNeighbors; membership equivalence by case analysis.
* **C19 Grid planner moves: only to free neighbours, never between two blocked corners, and reversible.** Model of GetNeighborStates over an occupancy predicate.
* **C20 Grid planner end to end: shortest collision-free cell path or proof that none exists.** Instantiation of the generic A* theorems.
* **C21 A rasterised wall cannot be crossed by the grid planner.** Discrete Jordan-type argument: invariant "strictly on one side of the wall" along N2 moves.
* **C22 Node hierarchy stays a tree under AddChild/RemoveChild/ReplaceChild.** Heap model: node id -> (parent, children). Invariant by induction over operations.
* **C23 Reparent keeps all nodes in one tree and makes newParent the parent of child.** Same heap model.
* **C24 Tree: one node per state, Extend returns the existing node, size counts nodes.** Tree model: list of (state, parent index). Nearest = argmin oracle.
* **C25 RRT: the returned path is rooted at the start, validated edge by edge, and ends near the goal.** RRT loop over an arbitrary sample stream, steering and validator as parameters.
* **C26 RRT / RRT*: search is bounded.** Same loop, counting.
* **C27 RRT*: every edge of the returned path was accepted by the validator.** RRT* loop. Expected violated: witness; partial: when the validator accepts the nearest connection.
* **C28 Cell <-> world conversion round trip.** Conversions over the reals; C120 is about the same functions with the rounding of the program.
* **C29 A position is inside the map iff its coordinates are inside the map rectangle.** Same. Truncation towards zero makes the low border one cell too generous: witness; partial for non-negative coordinates.
* **C30 A cell is occupied iff a registered obstacle covers it.** ObstacleList map model over histories. Violated for overlapping obstacles: witness; partial for pairwise disjoint obstacles.
* **C31 Obstacle identifiers are unique and the smallest available.** Same model, induction over histories.
* **C32 Rasterised line: contains both end cells, is 8-connected, in bounds and follows the segment.** Bresenham loop model over Int; invariant on the error term.
* **C33 Polygon obstacle: rasterised boundary is a closed 8-connected chain through all vertices.** Composition of C32.
* **C34 Obstacle distance map: reported distance is exactly the distance to the reported obstacle cell.** Distance map model with a non-deterministic queue; invariant over histories and steps.
* **C35 Obstacle distance map: after Update the reported obstacle cell is a current obstacle.** Simulation shows it is violated (a cell can be cut off from its obstacle region): witness for every tie-breaking; partial theorem for histories without removal.
* **C36 Obstacle distance map: after Update every cell sees an obstacle if there is one, and distances are locally exact.** Invariant at the fixpoint.
* **C37 Obstacle distance map: Update terminates.** Lexicographic measure.
* **C38 Obstacle distance map: reported distance is the exact Euclidean distance to the nearest obstacle.** Violated: witness. Partial: never below the true minimum (no removals), at most 8.3 % above it, exact in the eight compass directions, and exact where a step towards a nearest obstacle always leads to a cell it alone is nearest to (Spec.Handed: one or two cells, the sides of a rectangle).
* **C39 Obstacle distance map never reads outside the grid.** All indices used are in bounds by invariant.
* **C40 Voronoi potential is in [0,1], 1 exactly at obstacles and 0 on Voronoi edges and beyond the cut-off.** Real arithmetic.
* **C41 Angle wrapping.** Loop model with fuel and closed form; hash model.
* **C42 Pose composition is a group action up to 2 pi.** Trigonometry in Mathlib.
* **C43 State-space bounds: EnforceBounds yields a valid state, and is the identity on valid ones.** Real arithmetic, clamp.
* **C44 Sampled states are within the bounds.** Draws as parameters.
* **C45 Paths interpolate from their initial to their final state.** Real arithmetic / trigonometry.
* **C46 Truncating a path keeps a prefix of it.** Same; Reeds-Shepp Truncate is expected violated: witness.
* **C47 Composite path: interpolation, direction and cusps follow the concatenation of the parts.** List of parts with cumulative lengths.
* **C48 Each Reeds-Shepp word formula reaches the goal.** Model of the 12 base formulas with goal transformations over the reals; each word by trigonometric identities.
* **C49 The Reeds-Shepp solver always finds a path.** Case split on the distance between turning centres.
* **C50 The Reeds-Shepp solver returns the best of its words.** Fold over the word list.
* **C51 Reeds-Shepp path cost is the weighted length plus the switching cost.** Fold over motions; early return ignores the forward multiplier: witness.
* **C52 Constant-steer motion is a flow.** Trigonometry.
* **C53 IsPathValid accepts only paths whose checked states, including the final one, are valid, and terminates.** Loop model; final state is never checked: witness; partial theorem for sampled states.
* **C54 Obstacle heuristic: table values are costs of real free-cell paths and cover exactly the reachable cells.** Loop model on a finite grid.
* **C55 Obstacle heuristic: table values are shortest path costs.** Expected violated (decrease-key test compares the same value): witness by decide.
* **C56 Non-holonomic heuristic lookups stay inside the table.** Integer index model; negative k: witness.
* **C57 Hybrid A*: returned samples start at the start, end at the end of the path and are evenly spaced.** Model of the sampling loop for any ordered field; invariant on the ratios and cusp indices; the last sample can miss the end, two samples can be 1.5 steps apart and cusps can be missed: witnesses.
* **C58 Hybrid A*: generated motions respect the minimum turning radius.** Model of the list of steering angles and of the bicycle; heading change per distance bounded by 1/radius for at most 5 motions; violated from 6 on (witness for every vehicle).
* **C59 Smoother: moves only interior points away from cusps, keeps endpoints, cusps, headings and size.** Model/Smoother.lean models Smooth with the gradient terms as parameters (so the theorems hold for every arithmetic, also floating point), every vector access checked. C59_optimised_points: the optimised points are exactly those at least two samples from the ends and from the cusps; C59_defined: no access is out of range; C59_kept_partial: size, headings, ends, cusps and their neighbours are kept. Violated: with the terms of the code a point two samples from a cusp is moved by the curvature term of its neighbour (C59_point_near_cusp_moves); C59_moved_partial proves the claim when the curvature term is inactive.
* **C60 Smoother: a non-negative status means every state of the result is valid, and it terminates.** Same model; C60_status: at most maxIterations iterations, and status >= 0 iff every state of the result passed the validator; C60_iterations: the result is exactly the reported number of gradient steps from the given path and the status says why it stopped; C60_short: short paths are unchanged.
* **C61 Thread-safe singleton: at most one instance for every thread schedule.** Interleaving semantics with program counters per thread, invariant over schedules.
* **C62 Profiler output is a well-formed event list.** Event-trace model of the output file.
* **C63 Grid storage: reading back a cell returns the last value written to it and to no other.** Flat array model indexed by row * columns + column; injectivity of the index.
* **C64 Tree traversals visit every descendant exactly once, in order; sibling navigation is consistent.** Same heap model as C22; traversal as structural recursion on the depth bound, order by list positions.
* **C65 Batch sampling returns the requested number of in-bounds states.** Vector model with size; expected violated: witness for every batch size.
* **C66 Paths report the direction being driven and exactly the points where it changes.** Loop invariant over the motions of a segment; cusps characterised by a decomposition of the list of motions. For constant-steer paths, the derivative of the position with respect to the ratio, projected on the heading, has the sign of the reported direction.
* **C67 A cell is never both an obstacle and a Voronoi edge.** Invariant of the linked maps: each obstacle is waiting to be processed or is no edge; the edge test never marks an obstacle.
* **C68 Voronoi diagram queries by world position.** Direct from the frames model (C28, C29) and C34, C36; expected violated without obstacles (returns the marker cell).
* **C69 Names of profiled scopes cannot break the profile file.** Model of the compile-time loop of CleanupOutputString as a recursion over the remaining literal; induction on its length.
* **C70 Accepted paths keep their clearance between the checked states.** Triangle inequality between a state, the previous checked state (C53), its cell and the obstacle, with the error bound of the distance map (C38).
* **C71 Obstacle heuristic: the value never exceeds the cost of a collision-free drive.** Total function on reals over the tables of C54; expected violated by the octile metric: witness on an empty map using a lower bound on the cost of every walk.
* **C72 Obstacle shapes have the geometry they are constructed with.** Reals; trigonometric identities for the edge normals of a regular polygon.
* **C73 The non-holonomic heuristic never exceeds the cost of driving to the goal.** Table entries as Reeds-Shepp costs of the modelled solver; bounds from C48/C50/C51; a witness where every word of the reverse trip costs more.
* **C74 A new occupancy-map validator covers its state space.** Map frame arithmetic after InitializeSize (C29) over the reals.
* **C75 Smoother: the terms of a step are the gradients of the costs they stand for.** Spec/Smoother.lean defines the costs and what a gradient is (derivative along every line) without the code; Props/SmootherGrad.lean proves by calculus over the reals that each term of the model is the gradient of its cost (nearest obstacle and edge held fixed; curvature for points not on a line) and computes the effect of a clearance step.
* **C76 Smoother: a straight evenly spaced path away from obstacles is returned unchanged.** C76_straight_unchanged_partial: fixed point when every point inside the map keeps its distance to the reported nearest obstacle cell. Violated on a map without obstacles: the reported cell is (-1,-1) and the Voronoi term bends every straight path nearer than dMax = 30 to it (C76_empty_map_moves_points).
* **C77 Smoother: the weight on the requested path keeps the result close to it.** Violated: the term has the wrong sign (C77_path_term_negated), a step multiplies the deviation by 1 + rate * weight (C77_path_term_moves_away). Partial: no effect with the default weight 0.
* **C78 A cell becomes a Voronoi edge only on the border of two different obstacles.** Model/DistMap.lean (process, lowerOne, checkVoro, markEdges): case analysis of one iteration, with an induction over the neighbours that shows the entries read for the marking are those recorded after the iteration.
* **C79 Hybrid A*: two states are one search node exactly if they lie in the same cell of the configuration space.** Model of DiscretizePose including the wrapping of the heading *index* by the constructor of Pose2<int>; exact range of that wrapping by strong induction; what merging implies and what implies merging.
* **C80 Hybrid A*: a successful graph search gives connected, checked motions of the vehicle from the start to the goal.** Model of the propagator (steering, truncation, Reeds-Shepp children) on top of the A* model; C05 gives the route, each transition is analysed with C46, C49, C53; a concrete search that succeeds shows non-vacuity.
* **C82 Hybrid A*: a goal that a checked motion reaches from an expanded state is found.** Violated: an extra invariant of the A* loop shows that no expanded state shares the cell of the solution; hence goals in the cell of the start are never found (concrete search: C82_goal_ahead_not_found). Positive part: a goal connected to an expanded state is missed only if another pose of its cell was expanded (C82_missed_only_if_cell_expanded_partial).
* **C81 Hybrid A*: the graph search always ends.** Every child of the propagator is at its parent, at the goal, or at most 1.5 resolutions from an acceptable parent (unit speed of the motions), so that finitely many cells are reachable; then the termination theorem of A* (C08).
* **C83 Hybrid A*: the cost of a motion is its weighted length, plus the switching cost, plus the Voronoi cost along it.** Model of the costs in HybridAStar. Proved: the cost of a steering motion is multiplier × length + Voronoi cost (C83_steer_cost_partial), that of a connection its path cost + Voronoi cost (C83_reeds_shepp_cost). Violated: the switching cost compares the direction of the motion with itself, so that children do not depend on the direction of the state (C83_switch_not_charged); the Voronoi cost is overwritten in the loop instead of accumulated (C83_voronoi_of_last_sample).
* **C84 Hybrid A*: a start that is the goal gives a path.** Model of SearchPath after the graph search. Violated: the search succeeds without an action, and sampling the empty composite path throws (C84_start_is_goal).
* **C85 Hybrid A*: the goal is recognised, whatever full turns the motions make.** The end of the connection is exactly the goal when the heading of the goal is strictly between -pi and pi (C85_connection_recognised_partial); violated in general: IdenticalPoses subtracts headings without wrapping (C85_full_turn), which concerns motions the planner generates (C85_motion_not_recognised).
* **C87 Hybrid A*: every expansion offers every steering angle in both directions, and the connection to the goal.** Induction over the list of steering angles; case analysis of the collision check.
* **C88 Hybrid A*: a cell is represented by the cheapest of the states found in it.** Invariant of the generic search: every node in the frontier or expanded comes from the first generated state of its cell by allowed replacements (C88_first_generated_partial). Violated: replacement needs poses within 1 mm (C88_cheaper_ignored).
* **C86 Hybrid A*: SearchPath returns samples of checked motions from the start to the goal, or their smoothed version if that is acceptable.** Model/HybridAStar.lean models SearchPath of an initialised planner from the graph search to the returned path (searchPath, finish, processPath, smoothPoses). Spec/HybridAStar.lean defines the position along a list of motions (OnPath), lists of samples (SampledPath) and the ends kept by the smoother (Reshaped). The proof combines C80 (motions), C47 (composite path), C57 (ratios), C70 (unit speed), C59/C60 (smoother) and C53 (validation).
* **C89 The Voronoi field does not depend on when the diagram was created.** **Violated.** Edges are only found while distances spread, so a diagram created after an update of the map (no later change of obstacles) has no edge at all, whatever the obstacles: C89_late_diagram_is_empty, for all histories and queue orders; its potential vanishes nowhere within dMax of an obstacle (C89_late_field_has_no_valley). C89_corridor: the same obstacles, linked in time, have an edge in every queue order. Partial: before the first update the moment of creation is irrelevant (C89_created_before_first_update_partial).
* **C90 After Update the validator keeps away from the cells of every registered obstacle.** MapState = obstacle list + occupancy matrix + distance map, with the distance map driven by the recorded calls (Model/MapUpdate). Invariant over all histories: the obstacles of the distance map are the occupied cells; then C30, C38 and C53.
* **C91 The cells of an obstacle represent its outline.** Digital lines have one cell per step of the dominant axis and stay within half a cell along the minor axis; the end cells are truncations (less than a cell off); combine per coordinate; induction over composites.
* **C92 Accepted states and planned paths keep clear of the outline of the obstacles.** C90 and C91 with the triangle inequality; for the planner, C86 (what SearchPath returns) and C70/C80 (clearance of checked paths).
* **C93 A planned path never enters an obstacle.** A continuous curve that starts outside a polygon with left turns only and meets none of its sides stays outside (intermediate value theorem on the least signed area); motions are continuous by unit speed and miss the outline by C92.
* **C94 A state inside an obstacle is rejected.** Violated: only the cells of the outline are registered, so the centre of a large rectangle is accepted (witness; general statement C94_deep_inside_accepted). Proved for rectangles thin enough compared with the safe radius.
* **C95 A search plans for the obstacles that are registered when it is called.** Model/HybridPlanner models a planner object with the shared map; an invariant over all histories (Props/HybridPlanner.run_tracked) links the state of the object to the calls; then the theorems on the validator, the distance map and the outlines (C90-C93) apply to the map updated by the search. Existence of a result by the termination of the graph search (C81).
* **C96 A hybrid A* planner can be reused like a new one.** Invariant over histories: outside the map the path cost map is 0, and the update overwrites it inside; the rest of the state is overwritten by SearchPath. Equality of the sets of possible results.
* **C97 SetSmootherParameters determines how all later searches smooth.** Invariant over histories for the parameters in force. Violated: Initialize replaces them by the defaults (witness theorem for all histories); proved for parameters set after the last Initialize.
* **C98 GetGraphSearchPath and GetGraphSearchOptimalCost describe the last search.** Cost of a chain of motions by induction over the route of the graph search (C05, C83); invariants of the object.
* **C99 Each heuristic of a bidirectional search estimates the cost to the goal of its own direction.** Model the planner object with a store of shared heuristic objects (references, stored goals, constants of the averages); show that after any history the search equals the pure bidirectional search with the heuristics for the goals in force. Violated when one object serves both directions and for averaged pairs.
* **C100 A bidirectional planner answers for the inputs in force.** Induction over the history of calls with the inputs in force computed from the history; then C15 and the invariant of the bidirectional loop.
* **C101 The bidirectional grid planner finds a shortest free path or proves that there is none.** Instance of the bidirectional search for the grid propagator; termination from the finite set of cells, paths and failures by translating routes into walks of legal moves, cost by the factor-two bound of C16; violations by evaluating small maps.
* **C102 The images show the maps they are made from.** Files are modelled as header and list of bytes. Positions by a lemma on concatenated blocks of equal length; the loops for the largest values by the order-theoretic characterisation of a fold; the six sectors of HSVToRGB are compared with the independent formula clip(|6h-3|-1) etc.; ranges by C40, C54 and C34.
* **C103 RRT planners can be reused.** Model of the planner objects (`RRTPlanner`: parameters, states, tree, solution) with the public calls and two random streams per search. Induction over histories: the tree stays reachable, so C25-C27 apply with the inputs in force (`lastInit`, `lastGoal`, `lastParams`).
* **C104 RRT* attaches each new state where the path from the start is shortest.** Model `rrtStarStep` (one iteration) and `bestParent`. Invariant: the finite costs of the nodes are the lengths of the paths of `GetPath`; the choice of the parent is a minimum over the accepted neighbours. Witness for repeated states.
* **C105 RRT and RRT* reach a goal that can be seen from everywhere.** Potential argument over the loop: the distance of the tree to the goal decreases by maxConnectionDistance with each draw of the goal, until the goal itself is added.
* **C106 With the free validator planned paths stay within the bounds of the state space.** Invariant of both loops: the states of the tree satisfy a predicate preserved by the steering; boxes are convex. Witness: goal out of bounds.
* **C107 The explored paths of hybrid A* show the search that was made.** Model/SearchTree.lean adds to the model of the graph search the list of nodes attached to the tree, and the walk over the tree that collects the paths. Proved by simulation (the search is the same) and an invariant of the loop over all states of the search. Theorems in Props/SearchTree.lean.
* **C108 The positions an obstacle reports are its shape at its pose.** Model/Obstacle.lean models the obstacle objects, the shapes they hold and all their calls; a missing shape is a null dereference (none). Proved by induction over the history and by geometry over the reals. Theorems in Props/Obstacle.lean.
* **C109 Every iteration of the smoother is a step of gradient descent.** The gradients of the single terms (C75, C77) are summed: pathCost in Spec/Smoother.lean is the cost of a whole path, and the fold over the optimised points is shown to compute its gradient for every point; induction over the points and the iterations. Theorems in Props/SmootherDescent.lean.
* **C110 The statistics of hybrid A* describe the last search.** The members of the planner (Model/HybridPlanner.lean) now carry the smoothing status and the smoothed path. Theorems in Props/HybridStats.lean; the success case for every history, the violations by executing the example of C96 (a success, then a call that makes every later search fail).
* **C111 A smoother answers for what was set last.** Model/SmootherObject.lean: pointers are identifiers, a world says what they point to and may change between the calls; folds over the history say what is in force (Spec part of Props/SmootherObject.lean); induction over the history.
* **C112 Small steps of the smoother do not make the path worse.** Props/SmootherDecrease.lean: the cost of C109 is differentiable as a function of all coordinates (so its derivative along the step is the sum over the points), the cells of the points do not change for small steps, hence the cost decreases. Negation by a path with a right angle whose derivative along the step is positive.
* **C113 RRT and RRT* are probabilistically complete in the plane.** Model/RRTStream.lean models one stream of random numbers from which the iterations take one or three numbers each. Props/RRTCorridor.lean proves that samples which visit the places of a corridor in order make both searches succeed, whatever the other samples are (induction over the iterations). Props/RRTRandom.lean cuts the curve into a corridor, shows that a block of consecutive numbers in given intervals makes the planner draw its places (two small numbers synchronise the iterations with the block), and bounds the probability that none of m independent blocks does so. The example constructs independent uniform numbers (an infinite product measure) and a planner beside a wall.
* **C114 goalBias is the probability of drawing the goal, and the samples are uniform.** Props/Sampling.lean: the image of the uniform distribution under SampleUniform is computed by a change of variables. The stream of numbers is the product measure; the first draw has the stated law and is independent of the rest of the stream (which begins after one or three numbers), hence, by induction, finitely many draws are independent, and so is the whole sequence.
* **C115 The distance maps do not overflow, and give exact answers, whenever the squared diagonal of the map is an int.** Model/DistMapInt.lean models the maps again with the types of the code: distances are integers, the greatest int is "no obstacle", and each operation whose result is not an int gives `none`. Props/DistMapInt.lean: a lockstep simulation with the ideal maps of Model/DistMap.lean (embedding of the ideal map; each step overflows, or gives the embedding of the ideal step; it cannot overflow between cells of a map whose diagonal fits; 2³¹ - 1 is not a sum of two squares, so no finite distance equals it), lifted to histories by induction. The larger maps: the far corner would have a distance that is not an int, by C36 and C34.
* **C116 Look-ups in the explored sets, frontiers and trees are by equality of the states.** Model/Hash.lean: the hash functions with 64 bit arithmetic over arbitrary hashes of numbers, and a table with buckets for std::unordered_set/map (insertion, removal, clearing, redistribution over any number of buckets at any time). Props/Hash.lean: invariant (every entry is in the bucket of its hash, keys of a bucket are different) by induction over the history; look-ups and the size agree with a specification by recursion over the history. The five key types are lawful; with unlawful keys a look-up misses.
* **C117 All threads use one logger and one profiler.** Interleaving semantics of Singleton (one step per access to the pointer). Violated: C117_race is a schedule of two first calls of Get. Proved for one thread with any calls, and for any number of threads once Init has returned.
* **C118 The profile file is intact wherever the program stops.** Interleaving semantics of WriteProfile with the mutex, the buffer of the stream and the file; a prefix of a schedule is a crash point. Invariant over executions.
* **C119 With floating point costs A* is optimal up to rounding.** The model of A* assumes no law of addition, so it already covers rounded arithmetic. Spec/Rounding.lean says what a rounded addition is (relative error at most ε per sum of non-negative numbers). The invariant of graph search is restated with total costs instead of path costs (Lemmas/AStarRound.lean: no law of addition is needed), and each expansion adds one factor (1+ε)²/(1-ε) to the bound on the path costs of expanded states. Overflow and NaN are outside: the numbers stand for reals.
* **C120 The position of a cell lies in this cell.** Model of float and double: rounding to 24 or 53 bits, to nearest, ties to even, unbounded exponents (Model/Float.lean); the conversions of OccupancyMap with each operation rounded in its C++ type (Model/FloatMap.lean). The claim is false: with the resolution 0.1f and a size of 10 by 10 the position of cell (7,7) is in cell (6,6) for the program. Proved: exact for resolutions that are powers of two; otherwise the cell or the one before it in either direction, never outside the map; the cell of any position is off by at most one from the exact one; sizes are covered up to one rounding.
* **C121 Every heading is wrapped to [-pi, pi], with doubles.** Model/FloatPose.lean: the two loops with doubles, none = does not end. Proved: ends for every double of absolute value at most 2^56, in [-M_PI, M_PI], with an error bound per turn; exact up to two turns; idempotent. The claim is false for larger headings: t - 2 M_PI rounds to t and the loop never ends.
* **C122 No path of the Reeds-Shepp families is shorter than the returned one.** Spec/ReedsSheppFamilies defines the paths of the families by their stretches (curvature, sense, length) with the ranges of the lengths, independently of the formulas. Lemmas/ReedsSheppComplete proves for each of the twelve base formulas that it finds every such path whose end it is given, up to paths of the same length; Lemmas/ReedsSheppLimits treats the end points of the ranges and the time flip and reflection. C122_is_least: the returned path is of the families, reaches the goal and is the shortest of them.
* **C123 The Reeds-Shepp distance is symmetric and does not depend on the frame.** Each symmetry maps paths of the families to paths of the families of the same length (or scaled), so that by C122 the least lengths agree.
* **C124 The tables of the non-holonomic heuristic are allocated, read and freed correctly.** Model the table as blocks of a heap (Model/NonHoloMemory): allocation, loads, stores and frees, with undefined accesses as failure. Loop invariants for the constructor, the filling and the destructor give the exact blocks of a table; an invariant over histories (tables disjoint, each live block inside a live table) gives definedness, the values and the absence of leaks.
* **C125 Setting the size of a map again keeps its obstacles and diagrams.** The map with its frame, its obstacle list, matrix and distance map, and the distance maps that were replaced but that diagrams still refer to (`Verif.Model.Resize`), for histories of resizing, obstacle calls, updates and creation and update of diagrams. The property is false: `InitializeSize` replaces the matrix and the distance map and keeps the list of obstacles. Proved: after it, and for every continuation that does not remove or newly register an obstacle, no cell is occupied, every distance is infinite, the number of obstacles is unchanged and adding one of them again is refused; the validator accepts every state within the bounds; a diagram that was up to date keeps its distances forever, and reads outside its matrix at positions of a larger map. What holds: with no obstacle registered, the map is as new; an obstacle that is removed and added again is seen.
* **C126 Samples lie within the bounds, with doubles.** Sampling with every operation rounded to double (`Verif.Model.FloatSample`), including the number from the engine as libstdc++ computes it. By monotonicity of rounding the lower bound always holds, and the upper bound if the difference of the bounds is a double, in particular for bounds symmetric about 0 or starting at 0 (all bounds in the examples and tests). Otherwise the upper bound can be exceeded by the last bit: a witness, and a bound of eight roundings. Gaussian samples are clamped and always within the bounds.
* **C127 Path validation with float and double arithmetic.** Same functions as C53 with every operation rounded (`isPathValidF`; positions, lengths and ratios are doubles, distances and steps floats). Growth of the rounded length by at least a quarter of the step gives termination by induction; `partial_correctness` of the loop gives the hang; clearance by the triangle inequality with the error of each rounding.
* **C128 The obstacle heuristic with float arithmetic.** `Update` is the generic function of `Model/ObstHeuristic`, instantiated with the type of `float`s (reals with 24 bits, addition rounded). Its invariant (`Lemmas/ObstHeuristic`) is proved for any cost type whose addition is monotone and whose non-negative summands do not decrease the sum; it need be neither associative nor commutative. The error of the accumulated sum by induction over the walk; saturation because adding less than half the last bit changes nothing.
* **C129 Rasterising an obstacle does not overflow unless it reaches billions of cells beyond the map.** The functions of `Model/Raster` and of the shapes, with every operation on `int` checked. The loop does not overflow by an invariant that bounds the remaining steps of the minor axis by the accumulated error. Undefined cases by evaluating the failing operation.
* **C130 Hybrid A*: the samples of the returned path, with float and double arithmetic.** `Model/FloatHybrid` is the sampling loop of `Model/HybridAStar` with each operation rounded (`float` interpolation distance and half, `double` lengths and ratios); the first 2^29 multiples of a `float` are `double`s, so the counter of the loop is exact for paths of up to 2^28 interpolation distances. Refinement: unless a direction switch is within rounding errors of the middle between two multiples of the interpolation distance, the result is that of exact arithmetic, rounded. Termination, bounds, order and distances hold without that condition, by an invariant of the loop. Violated: a direction switch in such a middle is missed, and all later ones with it; and paths of 2^54 interpolation distances never end.
* **C131 Composite paths with double arithmetic.** Composite model with every operation rounded to 53 bits, the parts uninterpreted. Induction over the parts bounds the accumulated error; monotonicity of rounding gives the ratios in [0, 1]. Violated after Truncate: concrete witness.
* **C132 Reeds-Shepp paths with double arithmetic.** The loops of path_reeds_shepp.cpp with every operation rounded to 53 bits; driving a motion is uninterpreted. Induction over the motions with the rounded and the exact length driven so far. Violated at the end of the path: concrete witnesses.
* **C133 Voronoi potential with float and double arithmetic.** Model/FloatGVD.lean: the potential of a cell and Update with every operation rounded (float distances, double squares). Proved from a relative error bound (Lemmas/FloatRel.lean), monotonicity of rounding and the facts about the maps (C34, C67). Violated in one respect: the rounded sum of the distances makes the potential decrease slightly with the edge distance (witness).
* **C134 Costs of motions with float and double arithmetic.** `Model/FloatCost.lean` has the cost functions with every operation rounded to the type of the program (`float` multipliers and costs, `double` products with the turning radius). Proved by composing relative errors (`Lemmas/FloatRel.lean`): the loop of `ComputeCost` by induction over the motions, `GetOptimalPath` by an invariant of the fold over the 48 words, the loop of `GetVoronoiCost` from the fact that the first 2^29 multiples of a `float` are `double`s. The paths of the words and the potential of a ratio are arbitrary functions. The shortcut of `ComputeCost` (reverse multiplier 1 and no switching cost) ignores the forward multiplier; with rounding it is also taken for a reverse multiplier close to 1: `C134_forward_multiplier_ignored`.
* **C135 Maps and positions with 32 bit integers.** `Model/MapInt.lean` has the storage of grids, InitializeSize, the cell of a position, IsStateValid and the cell of hybrid A* with every `int` operation and every conversion to `int` checked; an overflow is the outcome `none`. Proved equal to the models with unbounded integers where they are defined, with the exact condition for the former two. The conversion of a position more than 2^31 cells away is undefined, and IsStateValid performs it before it looks at the bounds: `C135_far_position_undefined`.
* **C136 Poses along Reeds-Shepp paths with double arithmetic.** The operators on poses, Straight, Turn and the loop of Interpolate are modelled with each operation rounded to a double; sin and cos are arbitrary functions with a relative error of at most 2^-52 on doubles (a hypothesis, `Libm.Accurate`, not an axiom). One motion is compared with the exact arc from the computed pose, the exact arc with the one from the exact pose, and the errors are added up over at most five motions; the amount driven comes from C132. The result is compared with `driveDist` of Spec/ReedsShepp.lean. Interpolation, unit speed and headings are then what C127 asks for (C127_reeds_shepp_clearance_partial).
* **C137 Constant-steer motions with double arithmetic.** Model/FloatSteer.lean: ConstantSteer, GetSteeringAngleFromTurningRadius, PathConstantSteer and the steering angles of hybrid A* with each operation rounded, for an arbitrary mathematical library. Props/FloatSteer.lean: the exact motion is specified by `steered` (the rear axle follows `Spec.arc`); relative error calculus through the slip angle and the curvature, Lipschitz bounds of sin, cos and arctan, and a mean value bound for the straight branch; the tangent of the rounded arc tangent by the addition theorem.
* **C138 RRT and RRT* in the plane with double arithmetic.** `Model/FloatRRT.lean`: connection, interpolation, truncation and steering in the plane with each operation rounded to a double, the squared distance of the k-d tree, and the RRT* iteration with rounded costs; the RRT loop is the one of `Model/RRT.lean` over the rounded steering (rounding commutes with clamping: `steerTowards_r2F`). `Props/FloatRRT.lean`: `C138_arrives`, `C138_steering` (against the exact steering), `C138_rrt`, `C138_rrtStar` (invariant: some node of the tree is within the distance that the remaining draws cover), and two limits with witnesses: `C138_stuck` (connection distance lost in rounding) and `C138_leaves_bounds` (a returned path leaves the bounds by 2^-49).
* **C139 Lengths of RRT* paths in the plane with double arithmetic.** Invariant of the iterations (the cost of a node is the rounded sum of the cost of its parent and the rounded length of the connection), relative errors along paths by induction on the depth, which is at most the number of iterations.
* **C140 RRT and RRT* leave the bounds at most by rounding errors.** Invariant of the loops with a bound that grows with the iterations; the error of an interpolated coordinate from C138.
* **C141 Bidirectional A* with rounded costs stays within twice the optimum.** The bidirectional model with a cost type that only has a commutative rounded addition (Spec/Rounding.lean); the invariant of C119 for both halves, and the stopping test with its three rounded sums; instantiated for double. C16 shows that the optimum itself is not reached in general, so twice the optimum is the exact-arithmetic guarantee.
* **C142 The path of a graph search visits no state twice.** The parent chain of the goal node is a list of expanded nodes whose states are pairwise inequivalent (invariant of C08) and whose depth decreases, so the reported path has no repetition; instances for the grid planner and hybrid A*. Proved in Props/AStarSimple.lean for any cost arithmetic.
* **C143 With double costs the grid planner finds exactly shortest paths on maps of up to 65536 cells.** C119 (A* with rounded costs) is instantiated with the distances of the Python example computed in double arithmetic; the number of expansions and of moves is bounded by the number of cells (C08, C142), loops are cut from the competing walk, and two different lengths p + q sqrt 2 have squares at least 1 apart, which turns the near-optimality into exact optimality. Spec/GridFloat.lean, Props/GridFloat.lean.
* **C144 Smoother: a step is free of divisions by zero exactly for paths that move on.** Model/SmootherDiv.lean computes an iteration with divisions that are undefined for a zero denominator (normalized of Eigen returns a zero vector unchanged); each term is defined exactly under a geometric condition (the sine of the turning angle is zero exactly for parallel steps) and is then the term of Model/Smoother.lean. Props/SmootherDiv.lean.
* **C145 Straight paths with double arithmetic.** Interpolation with each operation rounded (Model/FloatRRT.lean for points, Model/FloatPath.lean for poses); at the ratios 0 and 1 all roundings are exact, in between the errors of four roundings add up. Props/FloatPath.lean.
* **C146 Obstacles on the map with the arithmetic of the program.** `Verif.Model.FloatObstacle` repeats the placing of corners, the rasterisation and the constructors of shapes with every operation rounded; the specification (`Verif.Spec.FloatObstacle`) bounds the error of a placed corner. The proof follows the exact one (C91): the error of a rotation (C136), the error of the cell of a position (one cell and 2^-19), the exact rasterisation between the computed cells (integers, C91), and C127 for the distances.
* **C147 Predefined shapes with the arithmetic of the program.** Halving is exact. The angle of a corner has an error of at most 23 units of 2^-53, its cosine and sine of at most 25. For the disc the exact margin of an edge is at least (4r/n)(r - distance), by Jordan's inequality, and moving the corners by E changes the signed area by at most 24 r E.
* **C148 Accepted paths and obstacles with the arithmetic of the program.** The clearance of the checked path from a cell (C127), the outline near the cells (C146) and the distance of the computed path to the exact curve (C136, C137, C145); the end of the curve by continuity, and the curve cannot enter a polygon without meeting its outline (C93).
* **C149 The non-holonomic heuristic with the arithmetic of the program.** Model.FloatNonHolo, the functions of C56 with each operation rounded to a double; the values of the table are an argument. Error bounds for the two roundings of an index; C77 for the distance outside of the table. The negative angular index of C56 is proved for the rounded program as well.
* **C150 Singletons with constructor arguments.** Model.SingletonInit: state (pointer, instances constructed and destroyed, returned references), a call as a step; induction over the calls.
* **C151 Searches left by an exception.** Model/Interrupt.lean runs the searches with a budget of calls of the user's functions that return; the next call throws, and the state written so far is what remains. Induction over the loop: an interrupted expansion is a complete one with fewer neighbours, so the invariants of the frontier and of the tree hold at every point of exception. For histories, the inputs are tracked as in C10. The bidirectional search is described call by call.
* **C152 Random trees left by an exception.** The loops of RRT and RRT* are modelled with a fault per iteration, before or after the tree is extended. By induction on the iterations left, an interrupted loop leaves what the same search, limited to the iterations before the exception, leaves; consistency then follows from the theorems about uninterrupted searches, and an invariant over histories gives the guarantees of the next search.
* **C153 Planners that share a heuristic.** Model/SharedHeuristic.lean splits a search into steps (test of the frontier, one neighbour, end of an expansion) and lets a scheduler interleave any number of planners, which hold references to heuristic objects whose goals are written by `InitializeSearch`. Invariants over schedules: with an unchanged goal each thread simulates the sequential search (refinement); with any goal the tree of nodes is still a tree of transitions, and explored states are never visited twice.
* **C154 Random numbers are ready when they are needed, and each is used once.** Model/RandomInit.lean: device and engine of each type, threads that run lists of calls of Init and Sample in small steps (test, device, engine; read, store), outcomes with exceptions, a null engine as undefined behaviour; the calls made by the constructors and iterations. Invariants over schedules: engine present whenever a draw is next, and its state is the iterate of the seed by the number of draws.
* **C155 The path of a bidirectional search has no loop.** Model: Bidirectional, BiGrid, FloatAStar. Invariant over the loop: in each direction the explored nodes contain their ancestors and have pairwise different states; no pair of explored nodes with equal states is cheaper than the best pair; the ancestors of the best pair have only the pair itself in common, for otherwise the common ancestors would have been a pair at least as cheap, found before. Only monotonicity and commutativity of the addition are used, so the theorem is applied to exact and to rounded costs.
* **C156 The bidirectional grid planner with double costs.** Model: BiGrid with the cost type Double of FloatAStar and the distance of the grid example. C141 (rounded bidirectional search within twice the optimum) is applied with the relative error 2^-53 of a sum and with the tolerance of the triangle inequality of the rounded distances; expansions and path lengths are bounded by the number of cells (C155); exact route costs and walk lengths differ by 2^-53 relatively.
* **C157 A bidirectional planner never uses an object that is gone.** Model/Handles.lean: the objects, the references of the user, the members and raw pointers of the planner and the temporaries, with one step per API call. Invariant over all histories: while the planner is initialised its raw pointers are exactly the averaged heuristics among its own references. Violated by the two getters, which return references into a temporary tuple (C157_getters_dangle), and by averages of null heuristics, which Initialize accepts (C157_null_part).
* **C158 A* expands only what it has to.** Model/AStar.lean with an invariant on top of that of C06: each expanded state was popped at its least cost, and its cost plus heuristic is at most that of everything in the frontier. Spec/Work.lean defines the least cost.
* **C159 A* with a heuristic that overestimates.** Model/AStar.lean with the invariant of C06 weakened by the factor: the cost at which a state is expanded is at most w times its least cost, although expanded states are not opened again. Grid corollaries through Props/Grid.lean.
* **C160 Higher limits do not change what RRT and RRT* find.** The loops of both planners with two sets of limits are compared by induction over the iterations that the smaller limits still allow; until success the tests of the limits are the only difference.
* **C161 RRT* approaches the shortest path as it is allowed more iterations.** Violated: SearchPath returns with the first solution and never reconnects nodes. In the empty plane a first draw beside the line from the start to the goal and then the goal give a detour; by the independence of the draws (C114) this has a positive probability that does not depend on the limits. What holds is that the path settles (C113 and C160).
* **C162 RRT and RRT* need a finite number of iterations in the mean.** Sum of the exponentially small probabilities of failure of C113 over blocks of iterations; the searches with different limits are compared by C160, the number of iterations by C26.
* **C163 Grid planner: the reported costs are a distance, and grow with the obstacles.** Walks of legal moves can be reversed between free cells, appended, and kept when obstacles are taken away; with the optimality of the returned walk (C20, C143) the costs compare as stated.
* **C164 More obstacles never make the distances greater or the validator more permissive.** Model: the distance map of C38 and the validator of C53 (and C127 with rounding). Distances: after an update nothing inside the map is being raised, so that an iteration of `Update` can only lower distances; this is kept by `SetObstacle` and by every iteration, for every order in which the queue is emptied. States: the reported distance is monotone in the squared distance (the diagonal of the map must fit an int, otherwise `INT_MAX`, the value without obstacle, is not the greatest); with rounding because rounding is monotone. **Violated** for paths: the steps of `IsPathValid` depend on the distances, and with a second obstacle a straight path is accepted that was rejected because of the first one, with the default parameters (minimal step 0.1, safe radius 1, resolution 1). **Violated** for maps made from scratch: because of the errors of C38, a map with three obstacles reports 170 where a map with one of them reports 169.
* **C165 Nothing depends on where the origin of the world is.** Model: those of C29, C30, C53, C56, C59, C68, C71 and C79 over the reals; two maps are moved by `t` if they are made alike, with the position `p` and `p + t` (`Spec.MovedBy`). Every function is shown to depend only on differences of positions and of the origins; the smoother by induction over its iterations (the terms depend on differences, a step moves a point by a gradient). **Violated** for paths: `IsPathValid` compares world positions with bounds that are relative to the map, so that on a map 10 m from the origin a drive out of the bounds is accepted. **Violated** for the nodes of hybrid A*: the cast to int truncates towards zero, so that the cells at the axes are twice as wide.
* **C166 The distances depend only on the obstacles.** Model: the distance map of C38, two runs of it. **Violated**: the history of C35, in which an obstacle was removed, and a new map with the two remaining obstacles (where distances are exact, C38) report 169 and 170 in one cell, with every order of the queues; without removals the history of C38 reports 170, and with the obstacles placed in the other order 169 (the distance of the first one, which cannot grow by C164). Proved without removals: equal distances where they are exact (one or two obstacle cells, the sides of a rectangle), and distances within 8.3 % of each other for all obstacles, as a consequence of the two bounds of C38.
* **C167 A stricter setting of the validator is stricter.** The validator of Model/Validator.lean and Model/FloatValidator.lean with two settings, on the same map. States: by the specification of valid states; paths: from the clearance of accepted paths (C70) for radii that differ by the step and two diagonals of a cell, and by the termination and rejection theorems of C53 for paths that are valid throughout. Expected to fail for paths in general: the settings change which states are checked.
* **C168 Classes derived in Python are called back, under usable names.** Model/Python.lean: a Python object is a table of methods, the macros of pybind11 look a method up by name, and each wrapper class is one line per virtual function; the names of the module are listed. Proof by cases on the virtual function; the names by evaluation of the complete list. Expected to fail for IsPathValid and is_occupied.
* **C169 The cells of an obstacle do not depend on how its shape is described.** On the models of the shapes, exact and with the arithmetic of the program: a relation between shapes generated by the changes of the description; the rasterised line is the same in both directions because its ends are ordered first; induction over the relation and the shapes.
* **C170 On a turned or mirrored map the grid planners give equally good answers.** On the models of the grid planners: the symmetries, generated by two reflections, map legal moves to legal moves in both directions and keep distances; the answers are shortest paths (C20, C143) or the absence of a path (C156).
* **C171 Sums and differences of poses undo each other with double arithmetic.** On the model of poses with double arithmetic (Model/FloatDrive.lean): the error bounds of C136 for a sum and a difference are composed; the rotations cancel.
* **C172 The obstacle heuristic grows with the obstacles and is the same in both directions.** On the model of the obstacle heuristic: a walk on the map with more obstacles is one on the map with fewer, and walks can be reversed; the values are compared by the bounds of C55. Expected to fail exactly, since the values are not shortest lengths.
* **C173 Neither the unit of costs nor the names of states and actions matter to the searches.** A map of nodes, frontiers and searches along the renaming; every function of the frontier and of both searches commutes with it, by induction on the binary searches and on the iterations. Factors of exact costs and powers of two for doubles (rounding commutes with them) are changes of the unit.
* **C174 RRT and RRT* do not depend on the unit of lengths, the origin or the names of states.** A relation between trees that holds if they have the same nodes and their states correspond; every function of the tree and one iteration of RRT and of RRT* keep it, by induction on the iterations. In the plane: straight paths, samples and clamped ratios are compatible with scaling and moving.
* **C175 The unit of length does not matter.** Maps, shapes, validators and paths in two units are related by a factor (Spec.MapInUnit, Spec.shapeInUnit, Spec.ValidatorInUnit, Spec.pathInUnit); each function of the model is shown to commute with the factor. The loop of IsPathValid is compared by fixpoint induction in both directions, so that the results also agree where it does not end.
* **C176 Updating again changes nothing.** Model: MapState (occupancy matrix, obstacles, distance map, linked Voronoi map) and GVD. An update ends with an empty queue, and an update that starts with an empty queue makes no step; the path costs are recomputed from the same distances. Both orders of further updates of the map and of the diagram are covered.
* **C177 What the vehicle does, does not depend on the direction of the axes.** Model: Bicycle, PathRS, RS, NonHolo, PathSE2 and identicalPoses over the reals. A rigid motion is given by its coordinates; poses are compared up to full turns of the heading. The difference of two poses is shown to be invariant, hence everything computed from it; motions commute with the rigid motion.
* **C178 The part of a path that is reported as valid is itself accepted.** Model: Validator.isPathValid for arbitrary paths. The loops on a path and on a part of it check the same states; by induction on the run on the whole path. Then instantiated with the Truncate of constant-steer motions and of straight paths.
* **C179 The two grid planners agree.** Both planners are related to the free cell paths of the map (C20, C101), so their answers are compared through these paths. Witnesses on small maps show where they differ.
* **C180 How long a Reeds-Shepp connection is.** From below: driving along the motions of a word moves and turns at most as much as its length allows. From above: one of two words (forward-backward-backward arcs, or an arc, a quarter circle, a line and an arc) always exists and its length is estimated; the returned path is the best of all the words (C50).
* **C181 The cost that hybrid A* reports fits the plan and the distance to the goal.** The motions and costs that are reported (C98) are summed up: a motion leads no further than its length (C70), its cost is bounded by its length, the number of changes of direction of the 48 words and the range of the Voronoi field (C40).
* **C182 Octile distance.** `Spec.octile` and `Spec.ClearBetween` are stated on cells alone. The octile distance satisfies the triangle inequality, so by induction no walk is shorter; in a free rectangle a walk of that length is built by induction on the Chebyshev distance. The results of C20, C101, C54 and C55 then give the values of the three searches. Arithmetic is exact.
* **C183 Where the vehicle can drive there is a walk over free cells.** The reported motions are followed at steps shorter than a cell. Every position on them is within reach of an acceptable state (C53, C86), whose reported distance bounds the distance to covered cells (C38, C92), so its cell and the neighbours of its cell are not covered; consecutive cells are equal or joined by a legal move. Positions outside the map, which the path check allows for less than the interpolation step, are replaced by the nearest cell of the map. C20 and C54 give the consequences for the grid planner and the obstacle heuristic.
* **C184 RRT and RRT* over poses keep clear of the obstacles.** The accepted motions of C25 (the accepted connections of C27 for RRT*) are straight paths whose length is the distance they cover, so C53 puts every point of them within reach of an accepted state. The clearance then follows from C90 to C92, the polygons from the argument of C93 and the walk from the one of C183.
