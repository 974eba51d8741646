{"id": "C01", "title": "Frontier: one element per key, and the two internal containers never disagree", "statement": "After any sequence of Push/Pop/Remove/Clear, the Frontier contains at most one element per key; Find(x) returns an element iff one with an equal key was pushed and not yet popped/removed; Size() is the number of such elements; Push reports true iff no key-equal element was stored and otherwise returns the stored one unchanged.", "quantifier": "every element type, every strict-weak Compare, every key equivalence, every sequence of operations", "why_tests_cant": "the claim is about all operation histories and all element values; a test fixes one history", "anchors": ["planner/src/utils/frontier.h: Frontier::Push, Frontier::Remove, Frontier::Pop, Frontier::Find, Frontier::Size, Frontier::Clear"]}
{"id": "C02", "title": "Frontier: Pop and Top return a best element, ties are last-in first-out", "statement": "After any sequence of operations on a non-empty Frontier, iteration order is sorted by Compare, Top()/Pop() return an element that no stored element outranks, among equally ranked elements the most recently pushed one is returned first, and Pop removes exactly that element. Pop/Top on an empty Frontier is undefined behaviour.", "quantifier": "every strict-weak Compare, every operation sequence", "why_tests_cant": "priority order must survive every interleaving of insertions and removals at every position", "anchors": ["planner/src/utils/frontier.h: Frontier::Top, Frontier::Pop, Frontier::FindFirstCompareIsFalse"]}
{"id": "C03", "title": "Frontier: Remove deletes the stored element with that key whatever its priority", "statement": "Remove(x) returns 1 and deletes exactly the stored element whose key equals that of x, even if x itself has a different priority from the stored element, keeping every other element and their relative order; it returns 0 and changes nothing when there is none.", "quantifier": "every reachable Frontier state and every argument", "why_tests_cant": "the binary search start position must never skip the element, for every position and every number of ties", "anchors": ["planner/src/utils/frontier.h: Frontier::Remove, Frontier::FindLastCompareIsTrue"]}
{"id": "C04", "title": "A*: a successful search returns a real path from start to goal", "statement": "When SearchPath returns Success, GetPath starts with the initial state, ends with a state equal to the goal, and each consecutive pair is a transition produced by the state propagator.", "quantifier": "every state type, every propagator (including infinite and non-symmetric graphs), every heuristic (even inadmissible), every cost type that is totally ordered (so also rounded floating point without NaN), every start/goal, graph search and tree search", "why_tests_cant": "no finite set of graphs covers all graphs and heuristics", "anchors": ["planner/src/algo/a_star.h: AStar::SearchPath, AStar::Expand, AStar::GetPath"]}
{"id": "C05", "title": "A*: reported cost and actions match the returned path", "statement": "On Success, GetOptimalCost equals the sum, in travel order from 0, of the transition costs the propagator reported along GetPath, GetActions has one action fewer than GetPath has states, and the i-th action is the one the propagator attached to the i-th transition.", "quantifier": "every propagator, heuristic, start and goal", "why_tests_cant": "costs are updated through re-parenting shortcuts whose order depends on the graph", "anchors": ["planner/src/algo/a_star.h: AStar::GetOptimalCost, AStar::GetActions, AStar::ProcessPossibleShortcut"]}
{"id": "C06", "title": "A*: with a consistent heuristic the returned path is optimal", "statement": "If transition costs and the heuristic satisfy h(u) <= c(u,v) + h(v) for each transition, then on Success no propagator path from the initial state to the goal is cheaper than GetOptimalCost.", "quantifier": "every graph, every consistent heuristic, costs in an ordered abelian group (exact arithmetic)", "why_tests_cant": "optimality is a statement about all paths of all graphs", "anchors": ["planner/src/algo/a_star.h: AStar::SearchPath, AStar::Expand, AStar::ProcessPossibleShortcut, AStar::Initialize (documented requirements)"]}
{"id": "C07", "title": "A*: Failure means there is no path", "statement": "If an initialised SearchPath returns Failure then no sequence of propagator transitions leads from the initial state to the goal; conversely, if it terminates and the goal is reachable it returns Success.", "quantifier": "every graph, every heuristic, every start and goal", "why_tests_cant": "completeness quantifies over every graph", "anchors": ["planner/src/algo/a_star.h: AStar::SearchPath"]}
{"id": "C08", "title": "A*: graph search terminates on finite graphs and expands each state at most once", "statement": "If only finitely many states (N of them) are reachable, graph-search SearchPath terminates after at most N+1 frontier pops, and no state is expanded twice.", "quantifier": "every graph with finite reachable set, every heuristic, every start/goal", "why_tests_cant": "termination is a liveness property of all inputs", "anchors": ["planner/src/algo/a_star.h: AStar::SearchPath, AStar::Expand"]}
{"id": "C09", "title": "A*: after a failed search no path is reported", "statement": "After SearchPath returns Failure, GetPath and GetActions are empty and GetOptimalCost is infinite.", "quantifier": "every history of Initialize/SetInitState/SetGoalState/SearchPath calls", "why_tests_cant": "depends on the whole call history of the planner object", "anchors": ["planner/src/algo/a_star.h: AStar::SearchPath, AStar::InitializeSearch, AStar::Initialize, AStar::GetPath"]}
{"id": "C10", "title": "A*: a planner object can be reused; results do not depend on earlier searches", "statement": "The status, path, actions and cost produced by SearchPath are a function of the current propagator, heuristic, initial state and goal only, not of any earlier call on the same object.", "quantifier": "every history of calls before the search", "why_tests_cant": "history independence quantifies over all histories", "anchors": ["planner/src/algo/a_star.h: AStar::InitializeSearch"]}
{"id": "C11", "title": "A*: tree search with an admissible heuristic is optimal", "statement": "With GraphSearch = false and a heuristic that never over-estimates (the only documented requirement for tree search), the cost of the returned path is minimal.", "quantifier": "every finite graph and every admissible heuristic", "why_tests_cant": "optimality quantifies over all graphs", "anchors": ["planner/src/algo/a_star.h: AStar::Expand (else branch of if constexpr), AStar::Initialize"]}
{"id": "C12", "title": "Combined heuristic: max of the parts, keeps admissibility and consistency, forwards the goal", "statement": "AStarCombinedHeuristic returns the maximum of its parts at every state (minus infinity when empty), is admissible/consistent when all parts are, and setting its goal sets the goal of each part; AStarHeuristicAdapter evaluates the adapted state against the adapted goal.", "quantifier": "every list of heuristics, every state, every goal", "why_tests_cant": "quantifies over all heuristic functions", "anchors": ["planner/src/algo/a_star.h: AStarCombinedHeuristic, AStarHeuristicAdapter"]}
{"id": "C13", "title": "Bidirectional A*: a successful search returns a real path from start to goal", "statement": "When SearchPath returns Success, GetPath starts with the initial state, ends with the goal and each consecutive pair of states is a transition of the forward propagator.", "quantifier": "every forward propagator with its exact reverse, every heuristic pair, start and goal", "why_tests_cant": "quantifies over all graphs; the meeting point depends on the interleaving of two searches", "anchors": ["planner/src/algo/bidirectional_a_star.h: BidirectionalAStar::GetPath, BidirectionalAStar::SearchPath, BidirectionalAStar::FindIntersection"]}
{"id": "C14", "title": "Bidirectional A*: Failure means there is no path", "statement": "If the reverse propagator is the exact reverse of the forward one, an initialised SearchPath returns Failure only if the goal is unreachable from the start, and on finite graphs it always terminates.", "quantifier": "every graph, every heuristic pair", "why_tests_cant": "completeness over all graphs", "anchors": ["planner/src/algo/bidirectional_a_star.h: BidirectionalAStar::SearchPath"]}
{"id": "C15", "title": "Bidirectional A*: GetOptimalCost is the cost of the returned path", "statement": "On Success, GetOptimalCost is the sum of forward transition costs along the forward half plus the reverse transition costs along the reverse half of the returned path.", "quantifier": "every graph, heuristics, start, goal", "why_tests_cant": "best meeting point is updated over the run", "anchors": ["planner/src/algo/bidirectional_a_star.h: BidirectionalAStar::GetOptimalCost, FindIntersection"]}
{"id": "C16", "title": "Bidirectional A*: the returned path is optimal for a consistent heuristic pair", "statement": "With consistent forward and reverse heuristics whose sum is constant (the documented requirements), no path from start to goal is cheaper than GetOptimalCost.", "quantifier": "every graph, every consistent heuristic pair", "why_tests_cant": "optimality over all graphs", "anchors": ["planner/src/algo/bidirectional_a_star.h: BidirectionalAStar::SearchPath (stopping criterion), Initialize (documented requirements)"]}
{"id": "C17", "title": "Average heuristic pair is a consistent pair", "statement": "The two heuristics returned by GetAverageHeuristicPair always add up to the same constant at every state, each is consistent when both input heuristics are, and both are evaluated for the start and goal of the current search.", "quantifier": "every pair of heuristics, every start/goal, every state", "why_tests_cant": "quantifies over all heuristics and states", "anchors": ["planner/src/algo/bidirectional_a_star.h: AverageHeuristic::Update, AverageHeuristic::GetHeuristicValue, BidirectionalAStar::GetAverageHeuristicPair"]}
{"id": "C18", "title": "Grid neighbourhood is exactly the in-bounds 8-neighbourhood", "statement": "For a cell inside a rows x columns grid, GetNeighbors lists, without repetition, exactly the in-bounds cells at Chebyshev distance 1; the relation is symmetric and agrees with IsAdjacentTo; invalid cells have no neighbours.", "quantifier": "every grid size and every cell", "why_tests_cant": "all boundary/corner combinations of all sizes", "anchors": ["planner/src/utils/grid.cpp: GridCellPosition::GetNeighbors, IsAdjacentTo, IsDiagonalTo"]}
{"id": "C19", "title": "Grid planner moves: only to free neighbours, never between two blocked corners, and reversible", "statement": "AStarStatePropagatorFcnN2 proposes exactly the free 8-neighbours except diagonals both of whose orthogonal cells are occupied; between free cells the proposal is symmetric, so the same propagator is its own reverse; no out-of-bounds occupancy access happens for cells inside the map.", "quantifier": "every occupancy map and cell", "why_tests_cant": "all maps", "anchors": ["planner/src/algo/a_star_n2.cpp: AStarStatePropagatorFcnN2::GetNeighborStates"]}
{"id": "C20", "title": "Grid planner end to end: shortest collision-free cell path or proof that none exists", "statement": "AStarN2 on any map terminates; on Success it returns a path of pairwise adjacent cells, all free except possibly the start, optimal for the cost function if the heuristic is consistent; on Failure no such path exists.", "quantifier": "every finite map, cost function, start, goal", "why_tests_cant": "all maps", "anchors": ["planner/src/algo/a_star_n2.h: AStarN2", "planner/src/algo/a_star_n2.cpp", "planner/src/algo/a_star.h"]}
{"id": "C21", "title": "A rasterised wall cannot be crossed by the grid planner", "statement": "If the rasterised line of an obstacle edge spans the map from side to side, no path of the grid planner leads from one side of it to the other, although rasterised lines are only 8-connected.", "quantifier": "every map, every wall whose rows/columns advance by at most one cell per step, every path length", "why_tests_cant": "topological claim over all paths and walls", "anchors": ["planner/src/algo/a_star_n2.cpp: GetNeighborStates", "planner/src/state_validator/obstacle.cpp: Shape::RasterizeLine"]}
{"id": "C22", "title": "Node hierarchy stays a tree under AddChild/RemoveChild/ReplaceChild", "statement": "Starting from single nodes, any sequence of AddChild, RemoveChild, ReplaceChild leaves every node with at most one owner, parent links and child lists in agreement and no cycles; GetDepth equals the length of the parent chain and IsDescendantOf is its transitive closure.", "quantifier": "every sequence of operations respecting the ownership preconditions", "why_tests_cant": "aliasing structure over all histories", "anchors": ["planner/src/utils/node.h: Node::AddChild, RemoveChild, ReplaceChild, GetDepth, IsDescendantOf"]}
{"id": "C23", "title": "Reparent keeps all nodes in one tree and makes newParent the parent of child", "statement": "For distinct child and newParent in one tree, Reparent leaves a single tree with the same nodes and makes newParent the parent of child; when newParent is not a descendant of child no other parent/child link changes, otherwise newParent takes the former place of child.", "quantifier": "every tree and every pair of distinct nodes", "why_tests_cant": "all trees and positions", "anchors": ["planner/src/utils/node.h: Node::Reparent", "planner/src/utils/tree.h: Tree::Reparent"]}
{"id": "C24", "title": "Tree: one node per state, Extend returns the existing node, size counts nodes", "statement": "After any sequence of CreateRootNode/Extend/Clear, the tree holds one node per distinct state, Size() is their number, Extend of a present state returns its node and changes nothing, Extend of a new state adds one leaf under the given (or nearest) node, and GetNearestNode returns a node of minimal distance.", "quantifier": "every sequence of operations and states", "why_tests_cant": "all histories", "anchors": ["planner/src/utils/tree.h: Tree::Extend, Tree::Size, Tree::CreateRootNode, Tree::GetNearestNode, Tree::Clear"]}
{"id": "C25", "title": "RRT: the returned path is rooted at the start, validated edge by edge, and ends near the goal", "statement": "When RRT SearchPath returns Success, GetPath starts at the initial state, consecutive states are the ends of a connection the validator accepted and no longer than maxConnectionDistance, and the last state is within distance 1 of the goal.", "quantifier": "every sequence of random samples, every validator, parameters, start and goal", "why_tests_cant": "randomised algorithm: quantifies over all random streams", "anchors": ["planner/src/algo/rrt.h: RRT::SearchPath, RRT::GetPath, RRT::SteerTowards, RRT::IsSolution"]}
{"id": "C26", "title": "RRT / RRT*: search is bounded", "statement": "SearchPath always terminates, after at most maxIteration+1 samples, and the tree never holds more than maxNumberTreeNode+1 nodes.", "quantifier": "every random stream and parameters", "why_tests_cant": "all random streams", "anchors": ["planner/src/algo/rrt.h: RRT::SearchPath", "planner/src/algo/rrt_star.h: RRTStar::SearchPath"]}
{"id": "C27", "title": "RRT*: every edge of the returned path was accepted by the validator", "statement": "When RRT* SearchPath returns Success, GetPath starts at the initial state, ends at a state equal to the goal, and every consecutive pair of states is joined by a connection the validator accepted.", "quantifier": "every random stream, validator, parameters, start, goal", "why_tests_cant": "all random streams", "anchors": ["planner/src/algo/rrt_star.h: RRTStar::SearchPath", "planner/src/utils/tree.h: Tree::Extend"]}
{"id": "C28", "title": "Cell <-> world conversion round trip", "statement": "GridCellToWorldPosition followed by WorldPositionToGridCell gives the cell back (likewise for local coordinates), and a world position inside a cell maps to that cell.", "quantifier": "every map size, resolution, map position and cell (exact arithmetic)", "why_tests_cant": "all sizes and resolutions", "anchors": ["planner/src/state_validator/occupancy_map.h: GridCellToWorldPosition, WorldPositionToGridCell, GridCellToLocalPosition, LocalPositionToGridCell"]}
{"id": "C29", "title": "A position is inside the map iff its coordinates are inside the map rectangle", "statement": "IsInsideMap(p) holds iff p lies in the half-open rectangle covered by the rows x columns cells, and the world, local and grid conversions agree with each other.", "quantifier": "every map, every world position, every order of SetPosition and InitializeSize", "why_tests_cant": "all positions on all sides of every border", "anchors": ["planner/src/state_validator/occupancy_map.h: GridPositionToGridCell, SetPosition", "planner/src/state_validator/occupancy_map.cpp: InitializeSize, IsInsideMap"]}
{"id": "C30", "title": "A cell is occupied iff a registered obstacle covers it", "statement": "After any sequence of AddObstacle/RemoveObstacle, IsOccupied(c) holds iff some obstacle currently registered rasterises to c.", "quantifier": "every sequence of additions and removals of arbitrary, possibly overlapping obstacles", "why_tests_cant": "all histories and all overlaps", "anchors": ["planner/src/state_validator/obstacle_list_occupancy_map.cpp: AddObstacle, RemoveObstacle, IsOccupied"]}
{"id": "C31", "title": "Obstacle identifiers are unique and the smallest available", "statement": "After any sequence of AddObstacle/RemoveObstacle, distinct registered obstacles have distinct identifiers, the set of identifiers in use is exactly those of the registered obstacles, each new obstacle receives the smallest unused identifier, and adding a registered obstacle twice or removing an unknown one changes nothing and returns false.", "quantifier": "every operation sequence", "why_tests_cant": "all histories", "anchors": ["planner/src/state_validator/obstacle_list_occupancy_map.cpp: FindSmallestIDAvailable, AddObstacle, RemoveObstacle"]}
{"id": "C32", "title": "Rasterised line: contains both end cells, is 8-connected, in bounds and follows the segment", "statement": "RasterizeLine between two cells yields, for cells inside the map, one cell per step along the dominant axis, includes both end cells, consecutive cells are 8-adjacent, all are inside the map, and each is within one half cell (plus rounding) of the ideal segment.", "quantifier": "every pair of end points and every map", "why_tests_cant": "all slopes, octants and lengths", "anchors": ["planner/src/state_validator/obstacle.cpp: Shape::RasterizeLine"]}
{"id": "C33", "title": "Polygon obstacle: rasterised boundary is a closed 8-connected chain through all vertices", "statement": "For a polygon inside the map, GetBoundaryGridCellPosition contains the cell of every vertex and the cells form a closed 8-connected chain.", "quantifier": "every polygon, pose and map", "why_tests_cant": "all polygons", "anchors": ["planner/src/state_validator/obstacle.cpp: PolygonShape::GetGridCellsPosition, GetVerticesPosition", "planner/src/state_validator/obstacle.cpp: Obstacle::GetBoundaryGridCellPosition"]}
{"id": "C34", "title": "Obstacle distance map: reported distance is exactly the distance to the reported obstacle cell", "statement": "After any sequence of SetObstacle/UnsetObstacle/Update, for each cell the stored squared distance is the squared distance to GetNearestObstacleCell, or the cell has no obstacle and the distance is the maximum value; obstacle cells report distance 0 and themselves.", "quantifier": "every grid, every history of changes, every tie-breaking of the priority queue", "why_tests_cant": "all histories of incremental updates and all queue orders", "anchors": ["planner/src/state_validator/gvd.cpp: ObstacleDistanceMap::Update, SetObstacle, UnsetObstacle"]}
{"id": "C35", "title": "Obstacle distance map: after Update the reported obstacle cell is a current obstacle", "statement": "After any sequence of SetObstacle/UnsetObstacle followed by Update, GetNearestObstacleCell is a cell that is currently an obstacle, so the reported distance never underestimates the true distance and no removed obstacle leaves a trace.", "quantifier": "every history of additions and removals", "why_tests_cant": "all incremental histories", "anchors": ["planner/src/state_validator/gvd.cpp: ObstacleDistanceMap::Update"]}
{"id": "C36", "title": "Obstacle distance map: after Update every cell sees an obstacle if there is one, and distances are locally exact", "statement": "After Update, if the map contains an obstacle then every cell reports a finite distance, and no cell could improve its distance by using the obstacle of one of its neighbours.", "quantifier": "every history, every queue tie-breaking", "why_tests_cant": "all incremental histories", "anchors": ["planner/src/state_validator/gvd.cpp: ObstacleDistanceMap::Update"]}
{"id": "C37", "title": "Obstacle distance map: Update terminates", "statement": "Update terminates for every grid, every pending set of changes and every tie-breaking of the queue.", "quantifier": "every state reachable by any history", "why_tests_cant": "liveness over all states", "anchors": ["planner/src/state_validator/gvd.cpp: ObstacleDistanceMap::Update"]}
{"id": "C38", "title": "Obstacle distance map: reported distance is the exact Euclidean distance to the nearest obstacle", "statement": "After Update, the reported distance of each cell is the minimum over all obstacle cells.", "quantifier": "every set of obstacle cells", "why_tests_cant": "all obstacle configurations", "anchors": ["planner/src/state_validator/gvd.cpp: ObstacleDistanceMap::Update"]}
{"id": "C39", "title": "Obstacle distance map never reads outside the grid", "statement": "No call sequence on in-bounds cells makes Update or the Voronoi edge test access a cell outside the grid (in particular the (-1,-1) marker is never used as an index).", "quantifier": "every history", "why_tests_cant": "memory safety over all histories", "anchors": ["planner/src/state_validator/gvd.cpp: ObstacleDistanceMap::Update, CheckVoro"]}
{"id": "C40", "title": "Voronoi potential is in [0,1], 1 exactly at obstacles and 0 on Voronoi edges and beyond the cut-off", "statement": "GetPathCost lies in [0,1] for all non-negative obstacle and Voronoi distances that are not both zero, is 1 at obstacle cells, 0 on Voronoi edges and when the obstacle is at least dMax away, decreases with the obstacle distance and increases with the edge distance.", "quantifier": "all distances (exact arithmetic)", "why_tests_cant": "all real distances", "anchors": ["planner/src/state_validator/gvd.cpp: PathCostMap::Update"]}
{"id": "C41", "title": "Angle wrapping", "statement": "WrapTheta terminates with a value in [-pi, pi] that differs from the input by a multiple of 2 pi, leaves values already in that range unchanged, and is idempotent; equal poses have equal hashes.", "quantifier": "every real angle", "why_tests_cant": "all reals", "anchors": ["planner/src/geometry/2dplane.h: Pose2::WrapTheta, std::hash<Pose2>, std::equal_to<Pose2>"]}
{"id": "C42", "title": "Pose composition is a group action up to 2 pi", "statement": "rhs + (lhs - rhs) = lhs and (a + b) - a = b up to a multiple of 2 pi in the angle, composition is associative up to 2 pi, and the identity pose is neutral.", "quantifier": "all poses (exact arithmetic)", "why_tests_cant": "all reals", "anchors": ["planner/src/geometry/2dplane.h: operator+, operator-"]}
{"id": "C43", "title": "State-space bounds: EnforceBounds yields a valid state, and is the identity on valid ones", "statement": "For ordered bounds, after EnforceBounds ValidateBounds is true; valid states are unchanged; enforcing twice equals once; the result is the nearest in-bounds state coordinate-wise.", "quantifier": "all bounds with lower <= upper and all states, R2 and SE2", "why_tests_cant": "all reals", "anchors": ["planner/src/state_space/state_space_r2.cpp", "planner/src/state_space/state_space_se2.cpp"]}
{"id": "C44", "title": "Sampled states are within the bounds", "statement": "SampleUniform and SampleGaussian return states for which ValidateBounds is true. Every state within the bounds can be drawn by both, and the Gaussian sample lies as many deviations from the mean as the number drawn, in each coordinate.", "quantifier": "every random draw, every mean/deviation, every ordered bounds", "why_tests_cant": "all random streams", "anchors": ["planner/src/state_space/state_space_r2.cpp: SampleUniform, SampleGaussian", "planner/src/state_space/state_space_se2.cpp: SampleUniform, SampleGaussian", "planner/src/utils/random.h"]}
{"id": "C45", "title": "Paths interpolate from their initial to their final state", "statement": "For PathR2, PathSE2, PathConstantSteer and PathReedsShepp, Interpolate(0) is the initial state and Interpolate(1) the final state (angles up to 2 pi).", "quantifier": "all end points, controls and lengths (exact arithmetic)", "why_tests_cant": "all reals", "anchors": ["planner/src/paths/path_r2.cpp", "planner/src/paths/path_se2.cpp", "planner/src/paths/path_constant_steer.cpp", "planner/src/paths/path_reeds_shepp.cpp: Interpolate"]}
{"id": "C46", "title": "Truncating a path keeps a prefix of it", "statement": "After Truncate(r), the length is r times the old length and Interpolate(s) is the old Interpolate(r*s), for PathR2, PathSE2, PathConstantSteer and PathReedsShepp; the final state is the new Interpolate(1).", "quantifier": "all paths, all ratios in [0,1]", "why_tests_cant": "all reals", "anchors": ["planner/src/paths/path_r2.cpp: Truncate", "planner/src/paths/path_se2.cpp: Truncate", "planner/src/paths/path_constant_steer.cpp: Truncate", "planner/src/paths/path_reeds_shepp.cpp: Truncate"]}
{"id": "C47", "title": "Composite path: interpolation, direction and cusps follow the concatenation of the parts", "statement": "A composite path has the total length of its parts, its initial state is that of the first part, Interpolate at total length l is the interpolation of the part containing l, GetDirection is the direction of that part for every ratio in [0,1], and GetCuspPointRatios are the cusps of the parts rescaled to the whole path.", "quantifier": "all lists of parts, all ratios in [0,1]", "why_tests_cant": "all compositions", "anchors": ["planner/src/paths/path_composite.h", "planner/src/paths/path_composite.cpp"]}
{"id": "C48", "title": "Each Reeds-Shepp word formula reaches the goal", "statement": "For each of the 48 path words, whenever the solver reports a finite length for a goal pose, driving the returned motions from the start pose ends exactly at the goal position with the goal heading modulo 2 pi.", "quantifier": "all start and goal poses, all turning radii > 0, all 48 words (exact arithmetic)", "why_tests_cant": "continuum of poses; trigonometric identities", "anchors": ["planner/src/geometry/reeds_shepp.cpp: LfSfLf ... LfRbpi2SbLbpi2Rf, GetPath, PathSegment, Solver", "planner/src/paths/path_reeds_shepp.cpp: Interpolate"]}
{"id": "C49", "title": "The Reeds-Shepp solver always finds a path", "statement": "For every pair of poses and every positive turning radius the solver finds at least one word, so Connect always yields a path ending at the goal.", "quantifier": "all pose pairs", "why_tests_cant": "continuum of poses", "anchors": ["planner/src/geometry/reeds_shepp.cpp: Solver::GetShortestPath, GetShortestDistance, GetOptimalPath", "planner/src/paths/path_reeds_shepp.cpp: PathConnectionReedsShepp::Connect"]}
{"id": "C50", "title": "The Reeds-Shepp solver returns the best of its words", "statement": "GetShortestDistance equals turning radius times the minimal length over the 48 words, GetShortestPath has that length, GetOptimalPath has minimal ComputeCost over the words.", "quantifier": "all poses, multipliers, radii", "why_tests_cant": "continuum of poses", "anchors": ["planner/src/geometry/reeds_shepp.cpp: Solver::GetShortestDistance, Solver::GetShortestPath, Solver::GetOptimalPath"]}
{"id": "C51", "title": "Reeds-Shepp path cost is the weighted length plus the switching cost", "statement": "ComputeCost is the turning radius times the sum of motion lengths weighted by the forward/reverse multiplier, plus the switching cost for each change of direction.", "quantifier": "all segments, all multipliers", "why_tests_cant": "all parameter combinations", "anchors": ["planner/src/geometry/reeds_shepp.cpp: PathSegment::ComputeCost"]}
{"id": "C52", "title": "Constant-steer motion is a flow", "statement": "ConstantSteer for d1 then d2 equals ConstantSteer for d1+d2; driving d and then -d returns to the start; the rear-axle motion has curvature tan(delta)/wheelbase and arc length |d|; steering angle and turning radius conversions are inverse.", "quantifier": "all poses, steering angles, distances", "why_tests_cant": "continuum", "anchors": ["planner/src/models/kinematic_bicycle_model.cpp: ConstantSteer, GetSteeringAngleFromTurningRadius"]}
{"id": "C53", "title": "IsPathValid accepts only paths whose checked states, including the final one, are valid, and terminates", "statement": "With a positive interpolation step IsPathValid terminates; if it returns true then the initial state, the final state and the states sampled at spacing no larger than the free distance are valid; if it returns false, last is the ratio of the last valid sample before the first invalid one.", "quantifier": "all paths, maps, step sizes", "why_tests_cant": "all paths", "anchors": ["planner/src/state_validator/state_validator_occupancy_map.cpp: IsPathValid, IsStateValid"]}
{"id": "C54", "title": "Obstacle heuristic: table values are costs of real free-cell paths and cover exactly the reachable cells", "statement": "After Update every explored cell has a finite value which is the cost of some collision-free grid path to the goal cell, and exactly the cells connected to the goal are explored.", "quantifier": "all maps and goals", "why_tests_cant": "all maps", "anchors": ["planner/src/algo/heuristics.cpp: ObstaclesHeuristic::Update"]}
{"id": "C55", "title": "Obstacle heuristic: table values are shortest path costs", "statement": "After Update the value of each explored cell is the minimal cost over all collision-free grid paths to the goal cell.", "quantifier": "all maps and goals", "why_tests_cant": "all maps", "anchors": ["planner/src/algo/heuristics.cpp: ObstaclesHeuristic::Update"]}
{"id": "C56", "title": "Non-holonomic heuristic lookups stay inside the table", "statement": "GetHeuristicValue of the precomputed non-holonomic heuristic accesses the table only at valid indices, whatever the state and goal.", "quantifier": "all states, goals and table sizes", "why_tests_cant": "continuum of states", "anchors": ["planner/src/algo/heuristics.cpp: NonHolonomicHeuristic::GetHeuristicValue"]}
{"id": "C57", "title": "Hybrid A*: returned samples start at the start, end at the end of the path and are evenly spaced", "statement": "The ratios at which the result path is sampled are increasing in [0,1], start with 0, end with 1, are spaced by at most the interpolation distance, and contain each direction switch.", "quantifier": "all path lengths, cusp sets and interpolation distances", "why_tests_cant": "continuum of lengths", "anchors": ["planner/src/algo/hybrid_a_star.cpp: HybridAStar::SearchPath"]}
{"id": "C58", "title": "Hybrid A*: generated motions respect the minimum turning radius", "statement": "Every steering angle used to expand a node has absolute value at most the one of the minimum turning radius, and the set is symmetric and contains 0.", "quantifier": "all numGeneratedMotion values and radii", "why_tests_cant": "all parameters", "anchors": ["planner/src/algo/hybrid_a_star.cpp: HybridAStar::StatePropagator::Initialize, GetNeighborStates"]}
{"id": "C59", "title": "Smoother: moves only interior points away from cusps, keeps endpoints, cusps, headings and size", "statement": "Smooth returns a path with the same number of states and the same headings; the first and last states and each cusp state are never moved, and the positions moved by the gradient are those with no cusp within two samples.", "quantifier": "all input paths, cusp sets, parameters, gradients and iteration counts", "why_tests_cant": "all inputs", "anchors": ["planner/src/algo/smoother.cpp: Smoother::Smooth"]}
{"id": "C60", "title": "Smoother: a non-negative status means every state of the result is valid, and it terminates", "statement": "Smooth performs at most maxIterations iterations; if it returns a non-failure status then every state of GetPath passed the validator.", "quantifier": "all inputs and validators", "why_tests_cant": "all inputs", "anchors": ["planner/src/algo/smoother.cpp: Smoother::Smooth, Smoother::IsPathSafe"]}
{"id": "C61", "title": "Thread-safe singleton: at most one instance for every thread schedule", "statement": "In every interleaving of any number of threads calling Get, the constructor runs at most once and every call returns the same instance (sequentially consistent memory).", "quantifier": "all schedules and thread counts", "why_tests_cant": "schedules cannot be enumerated by tests", "anchors": ["planner/src/utils/singleton.h: SingletonThreadSafe::Get"]}
{"id": "C62", "title": "Profiler output is a well-formed event list", "statement": "For every sequence of BeginSession/WriteProfile/EndSession calls, each closed session file consists of the header, the events written during that session in order separated by commas, and the footer.", "quantifier": "all call sequences", "why_tests_cant": "all histories", "anchors": ["planner/src/debug/profiler.cpp: Profiler::BeginSession, WriteProfile, EndSession"]}
{"id": "C63", "title": "Grid storage: reading back a cell returns the last value written to it and to no other", "statement": "In a grid of positive dimensions, writing an in-bounds cell changes exactly that cell: every other in-bounds cell reads the same value as before, whatever the dimensions.", "quantifier": "all dimensions, cells, values and write sequences", "why_tests_cant": "all dimensions and index pairs", "anchors": ["planner/src/utils/grid.h: Grid::Grid, Grid::operator[]"]}
{"id": "C64", "title": "Tree traversals visit every descendant exactly once, in order; sibling navigation is consistent", "statement": "PreOrderTraversal, PostOrderTraversal visit the node and each of its descendants exactly once, parents before (resp. after) their children; GetNext and GetPrevious are inverse of each other on siblings and GetFirst is the first child of the parent.", "quantifier": "all trees that a caller can build", "why_tests_cant": "trees of every shape and depth", "anchors": ["planner/src/utils/node.h: Node::PreOrderTraversal, PostOrderTraversal, GetNext, GetPrevious, GetFirst"]}
{"id": "C65", "title": "Batch sampling returns the requested number of in-bounds states", "statement": "SampleUniform(n) returns n states, each within the bounds.", "quantifier": "all batch sizes", "why_tests_cant": "memory outside the vector is written without any observable failure in most runs", "anchors": ["planner/src/state_space/state_space.h: StateSpace::SampleUniform(unsigned int), StateSpace::SampleGaussian(..., unsigned int)"]}
{"id": "C66", "title": "Paths report the direction being driven and exactly the points where it changes", "statement": "GetDirection(r) of a Reeds-Shepp path is the direction of the motion that covers the distance r * length (none for a path of length 0), and GetCuspPointRatios is exactly the set of ratios at which the direction of two successive motions differs. A constant-steer path reports at every ratio the direction it was made with, and moves against its heading there exactly when it reports backward.", "quantifier": "all initial poses, Reeds-Shepp words, turning radii and ratios; all bicycle models, steering angles and positive lengths", "why_tests_cant": "every word, every sharing of the length between motions and every ratio", "anchors": ["planner/src/paths/path_reeds_shepp.cpp: PathReedsShepp::GetDirection, PathReedsShepp::GetCuspPointRatios", "planner/src/paths/path_constant_steer.cpp: PathConstantSteer::GetDirection"]}
{"id": "C67", "title": "A cell is never both an obstacle and a Voronoi edge", "statement": "After an update of the obstacle map, no cell is at distance 0 from an obstacle and from a Voronoi edge at once, so the potential never divides zero by zero.", "quantifier": "every history of additions, removals and updates, every occupancy labelling, every queue tie-breaking", "why_tests_cant": "all incremental histories", "anchors": ["planner/src/state_validator/gvd.cpp: ObstacleDistanceMap::CheckVoro, ObstacleDistanceMap::Update, PathCostMap::Update"]}
{"id": "C68", "title": "Voronoi diagram queries by world position", "statement": "A query by world position returns true exactly for the positions the map accepts, with the value of the cell that contains the position, and otherwise leaves its output untouched; the reported nearest obstacle position is that of an obstacle, at the reported distance from the cell, and likewise for the nearest Voronoi edge; the path cost lies in [0, 1], is 1 exactly on the obstacles and 0 exactly on the edges and far from the obstacles.", "quantifier": "all maps, positions and histories", "why_tests_cant": "all positions and histories", "anchors": ["planner/src/state_validator/gvd.cpp: GVD::GetNearestObstaclePosition, GVD::GetDistanceToNearestObstacle, GVD::GetNearestVoronoiEdgePosition, GVD::GetDistanceToNearestVoronoiEdge, GVD::GetPathCost"]}
{"id": "C69", "title": "Names of profiled scopes cannot break the profile file", "statement": "The name recorded for a profiled scope contains no double quote, is never longer than the literal it comes from, and is that literal (with double quotes replaced by single quotes) when the text to remove does not occur in it.", "quantifier": "all literals and all texts to remove", "why_tests_cant": "all strings", "anchors": ["planner/src/debug/profiler.h: ProfilerUtilities::CleanupOutputString"]}
{"id": "C70", "title": "Accepted paths keep their clearance between the checked states", "statement": "Every state of a path accepted by IsPathValid is away from every obstacle by at least the safe radius less the interpolation step and the diagonal of a cell.", "quantifier": "all maps, obstacle histories, paths that do not move faster than their length, and ratios along the path", "why_tests_cant": "all continuous states between the finitely many checked ones", "anchors": ["planner/src/state_validator/state_validator_occupancy_map.cpp: IsPathValid", "planner/src/state_validator/gvd.cpp: ObstacleDistanceMap"]}
{"id": "C71", "title": "Obstacle heuristic: the value never exceeds the cost of a collision-free drive", "statement": "After Update the heuristic value of every state is defined, at least the straight-line distance to the goal, and never more than the cost of driving from the state to the goal without collision.", "quantifier": "all maps, goals, states and cost multipliers", "why_tests_cant": "all continuous states and all drives", "anchors": ["planner/src/algo/heuristics.cpp: ObstaclesHeuristic::GetHeuristicValue, ObstaclesHeuristic::Update"]}
{"id": "C72", "title": "Obstacle shapes have the geometry they are constructed with", "statement": "Placing a shape keeps distances; the vertices of a regular polygon lie on the circle of the given radius; a rectangle has its four corners at half the given sides; the polygon of a circle contains the whole disc and each of its edges touches it.", "quantifier": "all radii, sides, vertex counts and poses", "why_tests_cant": "all real radii, poses and vertex counts", "anchors": ["planner/src/state_validator/obstacle.cpp: PolygonShape, RegularPolygonShape, RectangleShape, CircleShape"]}
{"id": "C73", "title": "The non-holonomic heuristic never exceeds the cost of driving to the goal", "statement": "GetHeuristicValue of the non-holonomic heuristic is at most the cost of the cheapest Reeds-Shepp path from the state to the goal with the same multipliers and switching cost, so that A* with it stays optimal.", "quantifier": "all states, goals, table sizes and cost parameters", "why_tests_cant": "continuum of states, all parameters", "anchors": ["planner/src/algo/heuristics.cpp: NonHolonomicHeuristic::Build, GetHeuristicValue"]}
{"id": "C74", "title": "A new occupancy-map validator covers its state space", "statement": "After construction, every state within the bounds of the state space lies inside the occupancy map, and without obstacles such a state is valid.", "quantifier": "all bounds, resolutions, map positions and states", "why_tests_cant": "continuum of states", "anchors": ["planner/src/state_validator/state_validator_occupancy_map.cpp: StateValidatorOccupancyMap, IsStateValid", "planner/src/state_validator/occupancy_map.cpp: InitializeSize"]}
{"id": "C75", "title": "Smoother: the terms of a step are the gradients of the costs they stand for", "statement": "The smoothing, clearance, Voronoi and curvature contributions to a step are the exact gradients of the squared second differences, of the squared missing clearance, of the Voronoi potential and of the squared excess of the discrete curvature; in particular a point too close to its nearest obstacle is moved away from it.", "quantifier": "all points, weights, obstacles and curvature bounds", "why_tests_cant": "continuum of configurations", "anchors": ["planner/src/algo/smoother.cpp: Smoother::Smooth, Smoother::CalculateCurvatureTerm"]}
{"id": "C76", "title": "Smoother: a straight evenly spaced path away from obstacles is returned unchanged", "statement": "Smoothing an evenly spaced straight path that keeps its clearance to the obstacles (in particular on a map without obstacles) returns exactly that path.", "quantifier": "all maps, straight paths, cusp sets and parameters", "why_tests_cant": "all paths and maps", "anchors": ["planner/src/algo/smoother.cpp: Smoother::Smooth", "planner/src/state_validator/gvd.cpp: GVD::GetNearestObstacleCell"]}
{"id": "C77", "title": "Smoother: the weight on the requested path keeps the result close to it", "statement": "A positive weight on the error to the requested path pulls a point towards its requested position in every step.", "quantifier": "all positions, weights and learning rates", "why_tests_cant": "continuum of positions and weights", "anchors": ["planner/src/algo/smoother.cpp: Smoother::Smooth"]}
{"id": "C78", "title": "A cell becomes a Voronoi edge only on the border of two different obstacles", "statement": "When the update of the obstacle map makes a cell a Voronoi edge, the cell or its neighbour is nearest to another obstacle, the two obstacle cells belong to different obstacles and are not adjacent, and the cell is the one of the pair whose distances to both are closer to equal.", "quantifier": "all states of the two maps, all occupancy labellings and all queue orders", "why_tests_cant": "all incremental histories", "anchors": ["planner/src/state_validator/gvd.cpp: ObstacleDistanceMap::CheckVoro, ObstacleDistanceMap::Update"]}
{"id": "C79", "title": "Hybrid A*: two states are one search node exactly if they lie in the same cell of the configuration space", "statement": "Two states are merged by the search if and only if their positions lie in the same cell of the spatial resolution and their headings in the same cell of the angular resolution; merged states differ by less than the resolutions.", "quantifier": "all pairs of poses, all resolutions", "why_tests_cant": "continuum of poses", "anchors": ["planner/src/algo/hybrid_a_star.h: HybridAStar::State::Equal, HybridAStar::StatePropagator::DiscretizePose", "planner/src/geometry/2dplane.h: Pose2::WrapTheta"]}
{"id": "C80", "title": "Hybrid A*: a successful graph search gives connected, checked motions of the vehicle from the start to the goal", "statement": "When SearchPath succeeds, GetGraphSearchPath is a list of motions (constant steering of the generated angles for at most 1.5 times the spatial resolution, or the optimal Reeds-Shepp path to the goal), the first starts at the start pose, each starts where the previous one ends, the last ends within 1 mm and 0.001 degrees of the goal, each passed the validation, and GetGraphSearchOptimalCost is the sum of the transition costs.", "quantifier": "all maps, validators, vehicles, heuristics, random numbers, start and goal poses", "why_tests_cant": "unbounded searches on a continuum of states with random expansion", "anchors": ["planner/src/algo/hybrid_a_star.cpp: HybridAStar::StatePropagator::GetNeighborStates, GetConstantSteerChild, GetReedsSheppChild", "planner/src/algo/a_star.h: AStar::SearchPath, AStar::GetActions"]}
{"id": "C82", "title": "Hybrid A*: a goal that a checked motion reaches from an expanded state is found", "statement": "If the search expands a state from which one of the generated motions leads to the goal, the search succeeds; in particular a goal directly ahead of the start is found, however close it is.", "quantifier": "all maps, start and goal poses", "why_tests_cant": "continuum of poses, random expansion", "anchors": ["planner/src/algo/hybrid_a_star.h: HybridAStar::GraphSearch::IsSolution, ProcessPossibleShortcut", "planner/src/algo/a_star.h: AStar::Expand"]}
{"id": "C81", "title": "Hybrid A*: the graph search always ends", "statement": "Whatever the obstacles, the heuristic (even an infinite or wrong one), the random choices and the costs, a search on a bounded state space ends; the number of iterations is at most seven headings times the number of position cells within 1.5 spatial resolutions of the acceptable positions, the start and the goal.", "quantifier": "all maps, parameters, start and goal poses, heuristics and random number sequences", "why_tests_cant": "termination over all inputs and random choices cannot be observed by running", "anchors": ["planner/src/algo/hybrid_a_star.cpp: HybridAStar::SearchPath, StatePropagator::GetNeighborStates", "planner/src/algo/a_star.h: AStar::SearchPath"]}
{"id": "C83", "title": "Hybrid A*: the cost of a motion is its weighted length, plus the switching cost, plus the Voronoi cost along it", "statement": "The transition cost of a motion is its length times the multiplier of its direction, plus the direction switching cost when the motion changes the direction of travel of the state it starts from, plus the Voronoi field accumulated along the motion times its multiplier.", "quantifier": "all states, motions, maps, Voronoi fields and cost parameters", "why_tests_cant": "continuum of motions and fields; costs are only visible in the sum", "anchors": ["planner/src/algo/hybrid_a_star.cpp: HybridAStar::StatePropagator::GetConstantSteerChild, GetReedsSheppChild, GetVoronoiCost"]}
{"id": "C84", "title": "Hybrid A*: a start that is the goal gives a path", "statement": "SearchPath returns normally, with a path, when the start pose is the goal pose.", "quantifier": "all maps, parameters and poses", "why_tests_cant": "all configurations", "anchors": ["planner/src/algo/hybrid_a_star.cpp: HybridAStar::SearchPath, GetCompositePath", "planner/src/paths/path_composite.h: PathComposite::Interpolate"]}
{"id": "C85", "title": "Hybrid A*: the goal is recognised, whatever full turns the motions make", "statement": "A state at the position of the goal whose heading is that of the goal (up to full turns) ends the search; in particular the end of every Reeds-Shepp connection to the goal does.", "quantifier": "all goals, all states generated by the motions", "why_tests_cant": "continuum of poses; needs a sequence of motions through the heading pi", "anchors": ["planner/src/algo/hybrid_a_star.h: HybridAStar::GraphSearch::IsSolution, IdenticalPoses", "planner/src/paths/path_reeds_shepp.cpp: PathReedsShepp::Interpolate"]}
{"id": "C87", "title": "Hybrid A*: every expansion offers every steering angle in both directions, and the connection to the goal", "statement": "Each expansion offers the motion of 1.5 resolutions for each steering angle forward and backward, in full if it is free of collisions and otherwise the part that was found free (unless it does not leave the cell); and, near the goal or when the random number is small enough, the Reeds-Shepp path to the goal if it is free of collisions.", "quantifier": "all states, maps, parameters and random numbers", "why_tests_cant": "continuum of states and random choices", "anchors": ["planner/src/algo/hybrid_a_star.cpp: HybridAStar::StatePropagator::GetNeighborStates"]}
{"id": "C88", "title": "Hybrid A*: a cell is represented by the cheapest of the states found in it", "statement": "When the search finds a cheaper state in a cell that is waiting for its expansion, the cheaper one is expanded.", "quantifier": "all searches: maps, heuristics, random numbers", "why_tests_cant": "depends on the whole history of the search", "anchors": ["planner/src/algo/hybrid_a_star.h: HybridAStar::GraphSearch::ProcessPossibleShortcut", "planner/src/algo/a_star.h: AStar::Expand"]}
{"id": "C86", "title": "Hybrid A*: SearchPath returns samples of checked motions from the start to the goal, or their smoothed version if that is acceptable", "statement": "On success the path has the start as first state and a last state within 1.5 interpolation distances of the end of the motions found (itself within 1 mm and 0.001 degrees of the goal); neighbouring samples are less than 2 interpolation distances apart and lie on the motions. The smoothed path (same number of states, headings and ends) is returned exactly if all its states are acceptable, otherwise the samples. On failure the path of the last search is kept. No exception is thrown unless the start is the goal.", "quantifier": "all maps, vehicles, heuristics, random numbers, parameters of the smoother, starts and goals", "why_tests_cant": "continuum of inputs; the whole history of the search", "anchors": ["planner/src/algo/hybrid_a_star.cpp: HybridAStar::SearchPath, GetCompositePath", "planner/src/algo/smoother.cpp: Smoother::Smooth"]}
{"id": "C89", "title": "The Voronoi field does not depend on when the diagram was created", "statement": "After Update, the Voronoi edges and the potential are determined by the obstacles of the map; it makes no difference whether the diagram (or the hybrid A* planner that owns it) was created before or after an update of the map.", "quantifier": "all histories of obstacle changes, updates and the creation of the diagram; all queue orders", "why_tests_cant": "all interleavings of calls", "anchors": ["planner/src/state_validator/gvd.cpp: GVD::GVD, GVD::Update, ObstacleDistanceMap::GetVoronoiDistanceMap, ObstacleDistanceMap::Update", "planner/src/algo/hybrid_a_star.cpp: HybridAStar::Initialize"]}
{"id": "C90", "title": "After Update the validator keeps away from the cells of every registered obstacle", "statement": "The distance map and IsOccupied agree at all times. If registered obstacles are neither moved nor overlap, the cells at distance 0 are those of the registered obstacles; after Update an accepted state is at least the safe radius (less 7.7 % and a cell diagonal) from each of them, and, as long as no obstacle was removed, a rejected state within the bounds is closer than the safe radius plus a cell diagonal to one of them. Before Update an added or removed obstacle only concerns its own cells.", "quantifier": "all histories of obstacle changes, updates and diagram creations; all states and queue orders", "why_tests_cant": "all interleavings of calls and all positions", "anchors": ["planner/src/state_validator/obstacle_list_occupancy_map.cpp: AddObstacle, RemoveObstacle", "planner/src/state_validator/occupancy_map.cpp: InitializeSize, Update", "planner/src/state_validator/state_validator_occupancy_map.cpp: IsStateValid"]}
{"id": "C91", "title": "The cells of an obstacle represent its outline", "statement": "Every point of the outline of an obstacle whose corners are on the map is at most two and a half cells away from the corner of a cell the map receives for it, and every such cell is at most 1.81 cells away from a point of the outline.", "quantifier": "all shapes (composites included), placements, maps and resolutions", "why_tests_cant": "all real placements and polygons", "anchors": ["planner/src/state_validator/obstacle.cpp: GetGridCellsPosition, RasterizeLine"]}
{"id": "C92", "title": "Accepted states and planned paths keep clear of the outline of the obstacles", "statement": "After Update, a state that the validator accepts keeps the safe radius, less 7.7 % and less than four cells, from every point of the outline of every registered obstacle; so do all the states of a smoothed path that hybrid A* returns, and the motions it drives keep the clearance of the path check.", "quantifier": "all histories of the map, shapes, states, planner parameters and searches", "why_tests_cant": "end-to-end statement over all inputs", "anchors": ["planner/src/state_validator/state_validator_occupancy_map.cpp: IsStateValid, IsPathValid", "planner/src/state_validator/obstacle_list_occupancy_map.cpp: AddObstacle", "planner/src/algo/hybrid_a_star.cpp: SearchPath"]}
{"id": "C93", "title": "A planned path never enters an obstacle", "statement": "If the safe radius exceeds 7.7 % of the largest reported distance, the interpolation step and four cells, then after Update the motions of a path that hybrid A* found never enter a registered convex obstacle that does not contain the start, and neither do the returned states unless they are the smoothed ones. Rectangles, regular polygons and circles of the library are such obstacles, wherever they are placed.", "quantifier": "all histories of the map, placements, starts, goals, planner parameters and searches", "why_tests_cant": "all positions between the samples of the path check", "anchors": ["planner/src/state_validator/state_validator_occupancy_map.cpp: IsPathValid", "planner/src/algo/hybrid_a_star.cpp: SearchPath", "planner/src/state_validator/obstacle.cpp: PolygonShape::GetGridCellsPosition"]}
{"id": "C94", "title": "A state inside an obstacle is rejected", "statement": "After Update, the validator accepts no state whose position is inside a registered obstacle.", "quantifier": "all obstacles, placements, histories of the map and states", "why_tests_cant": "all positions and shapes", "anchors": ["planner/src/state_validator/obstacle.cpp: GetGridCellsPosition", "planner/src/state_validator/state_validator_occupancy_map.cpp: IsStateValid"]}
{"id": "C95", "title": "A search plans for the obstacles that are registered when it is called", "statement": "SearchPath of an initialised planner returns for every start that is not the goal; whatever was called before, and without a prior Update of the map, the motions it found keep the clearance of the path check from the outline of every obstacle registered at that moment, never enter a convex one that does not contain the start, and lead from the start in force to the goal in force. A planner that is not initialised fails and changes nothing.", "quantifier": "all histories of calls on the map and on the planner, all obstacles, parameters and random numbers", "why_tests_cant": "all interleavings of calls; all positions along the motions", "anchors": ["planner/src/algo/hybrid_a_star.cpp: HybridAStar::Initialize, SearchPath", "planner/src/state_validator/gvd.cpp: GVD::Update"]}
{"id": "C96", "title": "A hybrid A* planner can be reused like a new one", "statement": "After any history, SearchPath of an initialised planner has the same possible results (status, motions, cost, path of a success, map) as that of a new planner that is given the same validator, start, goal and smoother parameters.", "quantifier": "all histories of calls on the map and on the planner", "why_tests_cant": "all histories; hidden state of the search, of the path cost map and of the heuristics", "anchors": ["planner/src/algo/hybrid_a_star.cpp: HybridAStar::Initialize, SearchPath", "planner/src/state_validator/gvd.cpp: GVD::Update, PathCostMap::Update"]}
{"id": "C97", "title": "SetSmootherParameters determines how all later searches smooth", "statement": "The parameters given to SetSmootherParameters are returned by GetSmootherParameters and used by every later SearchPath, until they are set again.", "quantifier": "all histories of calls, all parameters", "why_tests_cant": "all interleavings of calls", "anchors": ["planner/src/algo/hybrid_a_star.h: HybridAStar::SetSmootherParameters, GetSmootherParameters", "planner/src/algo/smoother.cpp: Smoother::Initialize, Smooth"]}
{"id": "C98", "title": "GetGraphSearchPath and GetGraphSearchOptimalCost describe the last search", "statement": "After a successful search they return motions that lead from the start to the goal and the sum of the costs of these motions (driving cost plus Voronoi cost on the map updated by the search), which is finite; after a failed search no motion and an infinite cost. No other call changes them or GetPath.", "quantifier": "all histories of calls on the map and on the planner, all parameters and random numbers", "why_tests_cant": "all histories and continuum of motions", "anchors": ["planner/src/algo/hybrid_a_star.cpp: HybridAStar::GetGraphSearchPath, GetGraphSearchOptimalCost, SearchPath"]}
{"id": "C99", "title": "Each heuristic of a bidirectional search estimates the cost to the goal of its own direction", "statement": "Whatever was called before, SearchPath evaluates the forward heuristic for the goal in force and the reverse heuristic for the start in force, whether the heuristics are plain or an averaged pair, and whether or not one object is used for both directions.", "quantifier": "all histories of calls, propagators, heuristics, starts and goals", "why_tests_cant": "all histories; aliasing of the heuristic objects", "anchors": ["planner/src/algo/bidirectional_a_star.h: BidirectionalAStar::Initialize, SearchPath, GetAverageHeuristicPair, AverageHeuristic", "planner/src/algo/a_star.h: AStarHeuristic::SetGoal"]}
{"id": "C100", "title": "A bidirectional planner answers for the inputs in force", "statement": "Whatever was called before, a successful SearchPath reports a forward route from the start in force and a reverse route from the goal in force along the propagators of the last accepted Initialize, and the sum of their costs; a failed one reports an empty path and an infinite cost; a planner that is not initialised fails and changes nothing. Initialize accepts exactly non-null arguments.", "quantifier": "all histories of calls, propagators, heuristics, starts and goals", "why_tests_cant": "all histories; hidden state of the two searches", "anchors": ["planner/src/algo/bidirectional_a_star.h: BidirectionalAStar::Initialize, SearchPath, GetPath, GetOptimalCost"]}
{"id": "C101", "title": "The bidirectional grid planner finds a shortest free path or proves that there is none", "statement": "The bidirectional A* planner on the grid terminates on every map; Success returns a path of legal moves through free cells from the start to the goal and its cost, which is the smallest there is; Failure means that there is no such path.", "quantifier": "all occupancy grids, costs, heuristics, starts and goals", "why_tests_cant": "infinitely many maps; optimality is over all paths", "anchors": ["planner/src/algo/a_star_n2.h: BidirectionalAStarN2, AStarStatePropagatorFcnN2", "planner/src/algo/bidirectional_a_star.h: BidirectionalAStar::SearchPath, GetPath, GetOptimalCost"]}
{"id": "C102", "title": "The images show the maps they are made from", "statement": "Visualize writes a binary PPM image with one pixel per cell: the header announces rows and columns, exactly three bytes per pixel follow, and the pixel in column x, line j from the top, shows the cell (x, columns - 1 - j). In the image of the obstacle heuristic unreachable cells are black and the others 255 (1 - cost / largest cost) rounded down. In the image of the Voronoi diagram occupied cells, and cells without a known obstacle, are black; elsewhere the hue tells the reported obstacle, if it is still on the map, and the brightness is one minus the potential.", "quantifier": "all map sizes, occupancy maps, goals and histories of the maps", "why_tests_cant": "all sizes and histories; order of bytes, conversions to bytes and ranges of colours", "anchors": ["planner/src/state_validator/gvd.cpp: GVD::Visualize, HSVToRGB", "planner/src/algo/heuristics.cpp: ObstaclesHeuristic::Visualize"]}
{"id": "C103", "title": "RRT planners can be reused", "statement": "Whatever was called before (setters, searches in any order), SearchPath of RRT and RRT* returns, and plans for the last initial state, the last goal and the last parameters set: on Success GetPath goes from that initial state to a state that reaches that goal by accepted motions, on Failure GetPath is empty. Setters called afterwards do not change the path; before the first search it is empty.", "quantifier": "all histories of calls, all random streams, validators and connections", "why_tests_cant": "all histories; hidden state (the tree of the previous search) is reused", "anchors": ["planner/src/algo/rrt.h: RRT::SearchPath, GetPath, SetParameters, Clear", "planner/src/algo/rrt_star.h: RRTStar::SearchPath, GetPath", "planner/src/algo/path_planner.h: PathPlanner::SetInitState, SetGoalState"]}
{"id": "C104", "title": "RRT* attaches each new state where the path from the start is shortest", "statement": "Whenever RRT* adds a state, the path from the start to it is at most as long as the path to any of the neighbours looked up followed by the connection from it, if the validator accepts this connection. Later iterations do not change the path of a state.", "quantifier": "every random stream, validator, connection, neighbour search, parameters and start", "why_tests_cant": "all random streams and tree shapes; a global relation between all neighbours", "anchors": ["planner/src/algo/rrt_star.h: RRTStar::SearchPath, SteerExactly, GetPath", "planner/src/utils/tree.h: Tree::Extend, GetNearestNodes"]}
{"id": "C105", "title": "RRT and RRT* reach a goal that can be seen from everywhere", "statement": "If the validator accepts the motions towards the goal from all points that accepted motions can reach from the start (for instance on an open map), and the goal is drawn at least distance / maxConnectionDistance times within the allowed iterations and nodes, SearchPath returns Success, whatever the other samples are.", "quantifier": "every random stream, start, goal, parameters, free region and history", "why_tests_cant": "all random streams; a liveness property of a randomised algorithm", "anchors": ["planner/src/algo/rrt.h: RRT::SearchPath, SteerTowards", "planner/src/algo/rrt_star.h: RRTStar::SearchPath"]}
{"id": "C106", "title": "With the free validator planned paths stay within the bounds of the state space", "statement": "The free validator accepts a state exactly if it is within the bounds of the state space; a path planned in the plane by RRT or RRT* with this validator consists of states that it accepts, also between its vertices.", "quantifier": "all bounds, starts, goals, parameters and random streams", "why_tests_cant": "all random streams; universally quantified over the points of the path", "anchors": ["planner/src/state_validator/state_validator_free.h: StateValidatorFree::IsStateValid, IsPathValid", "planner/src/algo/rrt.h: RRT::SearchPath"]}
{"id": "C107", "title": "The explored paths of hybrid A* show the search that was made", "statement": "GetGraphSearchExploredPathSet reports vehicle motions only: every reported path passed the validator and starts at a state that the search expanded and that the start reaches through reported paths; the motions of the reported solution are among them; every expanded state is the start or the end of a reported path; every cell an expanded state leads to is the cell of the start or is reached by a reported path. Before the first search the set is empty.", "quantifier": "all maps, validators, starts, goals and parameters", "why_tests_cant": "all maps and search orders; relates the tree to the whole history of the search", "anchors": ["planner/src/algo/hybrid_a_star.cpp: HybridAStar::GetGraphSearchExploredPathSet", "planner/src/algo/a_star.h: AStar::SearchPath", "planner/src/utils/node.h: Node"]}
{"id": "C108", "title": "The positions an obstacle reports are its shape at its pose", "statement": "Whatever was called before, GetBoundaryWorldPosition reports exactly the corners of the shape set last, placed at the pose set last; each of them lies on the outline of the obstacle, and on every map the cell of each that is inside is among the reported boundary cells. Moving an obstacle keeps the distances of its corners.", "quantifier": "all histories of calls, shapes, poses and maps", "why_tests_cant": "all shapes, poses, maps and histories", "anchors": ["planner/src/state_validator/obstacle.h: Obstacle, Shape", "planner/src/state_validator/obstacle.cpp: Obstacle::GetBoundaryWorldPosition, GetBoundaryGridCellPosition, CompositeShape, PolygonShape, RectangleShape, RegularPolygonShape"]}
{"id": "C109", "title": "Every iteration of the smoother is a step of gradient descent", "statement": "Smooth reaches its result in exactly the reported number of iterations, and in each of them every point moves by the learning rate times the gradient, with respect to this point, of one cost of the whole path before the iteration: the squared bends, the squared excess of the curvature over the maximum, the squared missing clearance to the nearest obstacle and the Voronoi potential (and minus the squared distance to the requested path, see C77). Points at the ends and near cusps follow the curvature of their optimised neighbours only. Paths that stop or turn back on the spot at an optimised point, and points exactly on an obstacle or edge position or at the range of the Voronoi potential, where the cost has no gradient, are excluded.", "quantifier": "all paths, cusps, maps, Voronoi diagrams, parameters and numbers of iterations", "why_tests_cant": "continuous inputs; a derivative is a statement about all directions and all nearby paths", "anchors": ["planner/src/algo/smoother.cpp: Smoother::Smooth, CalculateCurvatureTerm", "planner/src/algo/smoother.h: Smoother"]}
{"id": "C110", "title": "The statistics of hybrid A* describe the last search", "statement": "After SearchPath, GetStats and GetSmoothedPath of hybrid A* describe that search: the status of the graph search is the one returned, the smoothing status is negative exactly if a state of the smoothed path is not acceptable, and GetPath is the smoothed path if the status is not negative and the sampled graph path otherwise. After a failed search they report that nothing was smoothed. No other call changes them; before the first search both statuses are Failure and there is no path.", "quantifier": "all histories of calls, maps, obstacles, parameters and random streams", "why_tests_cant": "all histories; members that survive from earlier searches", "anchors": ["planner/src/algo/hybrid_a_star.h: HybridAStar::Stats, GetStats, GetSmoothedPath", "planner/src/algo/hybrid_a_star.cpp: HybridAStar::SearchPath, GetPath"]}
{"id": "C111", "title": "A smoother answers for what was set last", "statement": "Whatever was called before, Smooth works with the validator and the Voronoi diagram of the last Initialize as they are at the time of the call, with the map that the validator had at Initialize, and with the parameters set last, or the defaults if Initialize was accepted later. Without a valid Initialize it fails and changes nothing. GetPath is the result of the last Smooth carried out and empty before. Initialize accepts exactly non-null arguments. No history of calls dereferences a null pointer.", "quantifier": "all histories of calls and all changes of the objects pointed to in between", "why_tests_cant": "all histories; pointers to objects that change between the calls", "anchors": ["planner/src/algo/smoother.h: Smoother::Initialize, SetParameters, GetParameters, GetPath", "planner/src/algo/smoother.cpp: Smoother::Smooth"]}
{"id": "C112", "title": "Small steps of the smoother do not make the path worse", "statement": "For a small enough learning rate, an iteration of Smooth reduces the cost of the path (the squared bends, the squared excess of the curvature over the maximum, the missing clearance and the Voronoi potential), unless it leaves the path as it is.", "quantifier": "all paths, cusps, maps, Voronoi diagrams, parameters and iterations, and all learning rates below a bound that depends on the path", "why_tests_cant": "continuous inputs; a limit statement over all learning rates", "anchors": ["planner/src/algo/smoother.cpp: Smoother::Smooth, CalculateCurvatureTerm"]}
{"id": "C113", "title": "RRT and RRT* are probabilistically complete in the plane", "statement": "Let a continuous curve lead from the start to the goal inside the bounds, around each point of which the validator accepts all straight motions up to some distance, let the goal bias be between 0 and 1 and the longest motion positive. Then the probability that a search of RRT or of RRT* fails decreases exponentially with the number of iterations (and of nodes) that the parameters allow; it tends to zero, and with probability one a stream of random numbers makes every search succeed whose limits are large enough. This holds whatever the planner was used for before.", "quantifier": "all spaces, validators, curves, clearances, states of the planner, parameters, and all streams of independent numbers uniform on [0, 1]", "why_tests_cant": "probability over infinite streams of random numbers; a limit statement", "anchors": ["planner/src/algo/rrt.h: RRT::SearchPath", "planner/src/algo/rrt_star.h: RRTStar::SearchPath", "planner/src/state_space/state_space_r2.cpp: StateSpaceR2::SampleUniform", "planner/src/utils/random.h: Random::SampleUniform"]}
{"id": "C114", "title": "goalBias is the probability of drawing the goal, and the samples are uniform", "statement": "In each iteration a search of RRT or RRT* in the plane draws the goal with probability goalBias and otherwise a point that is uniform on the rectangle of the bounds, and the draws of different iterations are independent, although an iteration takes one or three random numbers. SampleUniform of the plane and of the poses is uniform on the box of the bounds.", "quantifier": "all bounds with lower below upper, goals, goal biases in [0, 1], iterations, and all streams of independent numbers uniform on [0, 1]", "why_tests_cant": "a statement about distributions over infinite streams; tests see finitely many samples", "anchors": ["planner/src/algo/rrt.h: RRTParameters::goalBias, RRT::SearchPath", "planner/src/algo/rrt_star.h: RRTStarParameters::goalBias, RRTStar::SearchPath", "planner/src/state_space/state_space_r2.cpp: StateSpaceR2::SampleUniform", "planner/src/state_space/state_space_se2.cpp: StateSpaceSE2::SampleUniform", "planner/src/utils/random.h: Random::SampleUniform"]}
{"id": "C115", "title": "The distance maps do not overflow, and give exact answers, whenever the squared diagonal of the map is an int", "statement": "Distances are kept as 32 bit integers, of which the greatest stands for \"no obstacle\". For every history of SetObstacle, UnsetObstacle, Update and of the linked Voronoi map, the program with these integers either overflows or holds exactly the ideal (unbounded) distances, and it never mistakes a distance for \"no obstacle\". It never overflows if (rows-1)² + (columns-1)² is at most 2147483647, for instance on maps of 32768 × 32768 cells. On every larger map a single SetObstacle makes Update overflow. On a map that fits, the sizes and offsets of the matrices are ints, too.", "quantifier": "all sizes of maps, histories of calls, occupancy matrices and orders of equal entries of the queue", "why_tests_cant": "all histories and sizes; the critical sizes are far beyond what a test can run", "anchors": ["planner/src/state_validator/gvd.cpp: SquaredDistance, GVD::ObstacleDistanceMap::Update, CheckVoro, GVD::VoronoiDistanceMap::Update", "planner/src/state_validator/gvd.h: GVD::ObstacleDistanceMap, GVD::VoronoiDistanceMap"]}
{"id": "C116", "title": "Look-ups in the explored sets, frontiers and trees are by equality of the states", "statement": "The sets and maps of the library are hash tables. Whatever the hash values of the numbers are, however many keys collide, and whenever the table is redistributed over another number of buckets, a look-up after any history of insertions, removals and clearings finds exactly what was stored for an equal key, and the size is the number of different keys: equal points, poses, grid cells, cells with a value and states of hybrid A* always have the same hash. Poses are equal if the position and the wrapped heading are, states of hybrid A* if their cells are. If equal keys had different hashes, look-ups could miss.", "quantifier": "all keys, hash functions of numbers, numbers of buckets and histories of calls with redistributions", "why_tests_cant": "collisions and redistributions depend on hash values and sizes that a test does not control", "anchors": ["planner/src/core/hash.h: HashCombine", "planner/src/geometry/2dplane.h: std::hash, std::equal_to", "planner/src/utils/grid.h: std::hash<GridCellPosition>", "planner/src/algo/hybrid_a_star.h: State::Hash, State::Equal", "planner/src/algo/heuristics.h: HashCell, EqualCell", "planner/src/algo/a_star.h: Explored, ExploredMap"]}
{"id": "C117", "title": "All threads use one logger and one profiler", "statement": "Singleton::Get gives every caller the same instance, which is constructed once and is not destroyed while it is used: no call dereferences a null pointer and no reference that was returned is left dangling.", "quantifier": "all numbers of threads, schedules and sequences of Get, Init and Release", "why_tests_cant": "the failing schedules have a window of a few instructions", "anchors": ["planner/src/utils/singleton.h: Singleton::Get, Singleton::Init, Singleton::Release", "planner/src/core/log.h: Log", "planner/src/debug/profiler.h: Profiler"]}
{"id": "C118", "title": "The profile file is intact wherever the program stops", "statement": "While a session is open, whatever threads record events and whenever the program stops, the file holds the header, then all events whose calls of WriteProfile have returned, complete, in the order of their return, and at most the beginning of one further event. Each thread's events are in the order of its calls, none is lost or doubled, and calls do not block each other for ever. If no call is in progress, the file with the two closing brackets added is valid JSON.", "quantifier": "all numbers of threads, schedules, crash points and moments at which the stream empties its buffer", "why_tests_cant": "crash points and schedules cannot be enumerated by tests", "anchors": ["planner/src/debug/profiler.cpp: Profiler::WriteProfile, Profiler::WriteHeader", "planner/src/debug/profiler.h: Profiler"]}
{"id": "C119", "title": "With floating point costs A* is optimal up to rounding", "statement": "Costs are doubles, so sums are rounded. On Success, graph search with non-negative costs and a non-negative heuristic that is zero at the goal and consistent up to a small relative tolerance reports a cost, and returns a path whose exact cost, exceeds the exact cost of any other path to the goal at most by a factor that is close to one: one rounding factor per expanded state and one tolerance factor per transition. Without a heuristic the reported cost is exactly the least of the rounded costs of all paths to the goal.", "quantifier": "all problems, graphs, costs and roundings with a relative error of at most epsilon per addition", "why_tests_cant": "all graphs and all ways in which rounding errors add up", "anchors": ["planner/src/algo/a_star.h: AStar::SearchPath, AStar::Expand, AStar::ProcessPossibleShortcut, AStar::GetOptimalCost"]}
{"id": "C120", "title": "The position of a cell lies in this cell", "statement": "With the float and double arithmetic of the program, the world or local position of every cell of the map converts back to this cell. The numbers of rows and columns are the smallest that cover the requested size.", "quantifier": "all maps (resolution, size, origin) and all their cells; all positions", "why_tests_cant": "depends on how each product and quotient is rounded, for all resolutions and indices", "anchors": ["planner/src/state_validator/occupancy_map.h: OccupancyMap::GridCellToWorldPosition, OccupancyMap::WorldPositionToGridCell, OccupancyMap::GridCellToLocalPosition, OccupancyMap::LocalPositionToGridCell", "planner/src/state_validator/occupancy_map.cpp: OccupancyMap::InitializeSize"]}
{"id": "C121", "title": "Every heading is wrapped to [-pi, pi], with doubles", "statement": "With double arithmetic, WrapTheta (and so the construction of a pose) returns for every finite heading, with a heading between -M_PI and M_PI that differs from the given one by a multiple of 2 M_PI up to rounding, exactly if the heading is at most two turns; wrapping twice is wrapping once.", "quantifier": "all finite doubles", "why_tests_cant": "all of 2^64 inputs; the loops do not end for some of them, which a test cannot tell from slowness", "anchors": ["planner/src/geometry/2dplane.h: Pose2::WrapTheta, Pose2::Pose2"]}
{"id": "C122", "title": "No path of the Reeds-Shepp families is shorter than the returned one", "statement": "The path that GetShortestPath returns leads from the start to the goal, and no path that leads there and that consists of the turns and lines of one of the Reeds-Shepp families, driven forward or backward and to the left or right, with arbitrary lengths of the stretches, is shorter. GetShortestDistance times the turning radius is the least length of all such paths.", "quantifier": "all start and goal poses, turning radii and paths of the families", "why_tests_cant": "the paths are a continuum: a formula that misses a solution in some region of goals returns a path that is valid but too long", "anchors": ["planner/src/geometry/reeds_shepp.cpp: ReedsShepp::Solver::GetShortestPath, GetShortestDistance, LfSfLf, LfSfRf, LfRbLf, LfRbLb, LfRfLb, LfRufLubRb, LfRubLubRf, LfRbpi2SbLb, LfRbpi2SbRb, LfSfRfpi2Lb, LfSfLfpi2Rb, LfRbpi2SbLbpi2Rf"]}
{"id": "C123", "title": "The Reeds-Shepp distance is symmetric and does not depend on the frame", "statement": "The Reeds-Shepp distance from one pose to another is that of the way back, it is zero exactly if the poses are equal up to full turns of the heading, and it does not change if both poses are moved by the same rigid motion, reflected, turned by half a turn or given by other headings that differ by full turns. Scaling the positions and the turning radius scales the length of the path.", "quantifier": "all pairs of poses, motions, factors and turning radii", "why_tests_cant": "relations between pairs of runs over a continuum of poses, where the solver takes different branches", "anchors": ["planner/src/geometry/reeds_shepp.cpp: ReedsShepp::Solver::GetShortestPath, GetShortestDistance"]}
{"id": "C124", "title": "The tables of the non-holonomic heuristic are allocated, read and freed correctly", "statement": "Building and destroying non-holonomic heuristics, in any order and number, never accesses memory outside a live block and never frees a block twice. Each heuristic that still exists reads the values computed when it was built, whatever happened to the others. Nothing stays allocated once all are destroyed. This also holds if a heuristic is copied.", "quantifier": "all histories of building, copying and destroying heuristics, of all sizes of the tables", "why_tests_cant": "a test runs one history with one size, and a leak or a double free need not show in it", "anchors": ["planner/src/algo/heuristics.cpp: NonHolonomicHeuristic::NonHolonomicHeuristic, NonHolonomicHeuristic::~NonHolonomicHeuristic, NonHolonomicHeuristic::Build, NonHolonomicHeuristic::GetHeuristicValue"]}
{"id": "C125", "title": "Setting the size of a map again keeps its obstacles and diagrams", "statement": "Constructing a second state validator for an occupancy map, or calling InitializeSize again, leaves the registered obstacles in the map: their cells are occupied, and states near them are invalid. Diagrams of the map that exist go on showing the distances to its obstacles after updates, at every position of the map.", "quantifier": "all histories of calls before and after, all sizes, obstacles and diagrams", "why_tests_cant": "all interleavings of resizing, adding, removing, updating and creating diagrams", "anchors": ["planner/src/state_validator/occupancy_map.cpp: OccupancyMap::InitializeSize", "planner/src/state_validator/state_validator_occupancy_map.cpp: StateValidatorOccupancyMap::StateValidatorOccupancyMap", "planner/src/state_validator/gvd.cpp: GVD::GVD, GVD::Update, GVD::GetDistanceToNearestObstacle"]}
{"id": "C126", "title": "Samples lie within the bounds, with doubles", "statement": "With double arithmetic, every state drawn by SampleUniform or SampleGaussian lies within the bounds of its state space, so that ValidateBounds accepts it. The random numbers behind a uniform sample lie in [0, 1], both ends included, and the sample differs from that of exact arithmetic by a few roundings; so does a Gaussian sample from the mean plus the deviation times the number drawn, moved to the bounds.", "quantifier": "all bounds and all random numbers, i.e. all doubles", "why_tests_cant": "a sample that exceeds a bound by the last bit occurs for some bounds and random numbers only", "anchors": ["planner/src/utils/random.h: Random::Init, Random::SampleUniform, Random::SampleGaussian", "planner/src/state_space/state_space_se2.cpp: StateSpaceSE2::SampleUniform, StateSpaceSE2::SampleGaussian", "planner/src/state_space/state_space_r2.cpp: StateSpaceR2::SampleUniform, StateSpaceR2::SampleGaussian"]}
{"id": "C127", "title": "Path validation with float and double arithmetic", "statement": "IsPathValid terminates with the rounding of the program, calls Interpolate with ratios in [0, 1] only and never reads outside the map. An accepted path was checked at its start and then at distances that leave no gap larger than the reported free distance or the interpolation step, so that every state but the last keeps the safe radius, less the step, the diagonal of a cell and a few roundings, from the obstacles. A rejected path has an unacceptable state, and the returned ratio lies in [0, 1] and is that of the acceptable state checked before.", "quantifier": "all maps, obstacles, bounds, interpolation steps, safe radii and paths, with all intermediate results rounded", "why_tests_cant": "whether a loop with a rounded counter ends, and whether the rounded ratios stay in range, depends on all lengths and steps", "anchors": ["planner/src/state_validator/state_validator_occupancy_map.cpp: StateValidatorOccupancyMap::IsStateValid, StateValidatorOccupancyMap::IsPathValid", "planner/src/state_validator/gvd.h: GVD::GetDistanceToNearestObstacle"]}
{"id": "C128", "title": "The obstacle heuristic with float arithmetic", "statement": "With the rounding of the program, Update of the obstacle heuristic terminates and explores the same cells as in exact arithmetic: those connected with the goal. The value of an explored cell is the length of a collision-free walk to the goal, up to one rounding per move, and at most the square root of two times the length of every such walk, up to the same roundings. Values neither overflow nor exceed 33554432; in a corridor all cells more than 16777216 cells away from the goal have the same value. GetHeuristicValue is defined for every state, at least the (rounded) straight-line distance, and else the scaled value less the diagonal of a cell, up to two roundings.", "quantifier": "all maps, obstacles, goals, states, multipliers and resolutions, with all intermediate results rounded", "why_tests_cant": "rounded addition is not associative, and the order of the additions depends on the whole search", "anchors": ["planner/src/algo/heuristics.cpp: ObstaclesHeuristic::ObstaclesHeuristic, ObstaclesHeuristic::Update, ObstaclesHeuristic::GetHeuristicValue"]}
{"id": "C129", "title": "Rasterising an obstacle does not overflow unless it reaches billions of cells beyond the map", "statement": "With 32 bit integers, the cells of an obstacle are computed without overflow if all its corners are less than 2^30 cells away from the corner of the map, inside the map or not, and they are then the cells that unbounded integers would give. Whenever the program does not overflow, its cells are those. An obstacle with a corner more than 2^31 cells away, a line that spans more rows or columns than an int can count, and a line that ends in the last column an int can hold, are undefined.", "quantifier": "all maps, shapes, poses and pairs of cells", "why_tests_cant": "overflow occurs for extreme coordinates only, and differently for each branch of the line algorithm", "anchors": ["planner/src/state_validator/obstacle.cpp: Shape::RasterizeLine, PolygonShape::GetGridCellsPosition, CompositeShape::GetGridCellsPosition", "planner/src/state_validator/occupancy_map.h: OccupancyMap::WorldPositionToGridCell"]}
{"id": "C130", "title": "Hybrid A*: the samples of the returned path, with float and double arithmetic", "statement": "With the rounding of the program, SearchPath samples the path of the graph search as exact arithmetic would, except that the ratios are rounded: the sampling ends, never reads past the set of direction switches, takes one sample per interpolation distance, strictly increasing and in [0, 1], and passes the same samples to the smoother as direction switches.", "quantifier": "all lengths, interpolation distances and direction switches, with all intermediate results rounded", "why_tests_cant": "a comparison that rounding decides differently occurs for some lengths only, and then changes all later samples", "anchors": ["planner/src/algo/hybrid_a_star.cpp: HybridAStar::SearchPath", "planner/src/algo/hybrid_a_star.h: HybridAStar::pathInterpolation"]}
{"id": "C131", "title": "Composite paths with double arithmetic", "statement": "With the rounding of the program, the length of a path made of parts is the sum of their lengths up to one rounding per part. Interpolate with a ratio in [0, 1] asks one part for a state at a ratio in [0, 1], at the position on the path that was asked for up to the roundings, also after Truncate. Truncate keeps the parts before the position, truncates one at a ratio in [0, 1] and never makes the path longer. GetDirection is that of a part at a ratio in [0, 1], at the position asked for up to the roundings. GetCuspPointRatios reports, besides what the parts report, one ratio in [0, 1] for each change of direction between two parts.", "quantifier": "all lists of up to 2^50 parts, of whatever kind, and all ratios, with all intermediate results rounded", "why_tests_cant": "whether a rounded ratio exceeds one depends on all lengths and on the ratio", "anchors": ["planner/src/paths/path_composite.h: PathComposite::PushBack, PathComposite::Interpolate, PathComposite::Truncate, PathComposite::FindSegment", "planner/src/paths/path_composite.cpp: PathSE2CompositeNonHolonomic::GetCuspPointRatios, PathSE2CompositeNonHolonomic::GetDirection"]}
{"id": "C132", "title": "Reeds-Shepp paths with double arithmetic", "statement": "With the rounding of the program, Interpolate of a Reeds-Shepp path with a ratio in [0, 1] drives its motions in order, each but the last driven one in full and none backward or beyond its end, for the distance asked for up to the roundings. GetDirection with a ratio in [0, 1] is the direction of the motion driven there, and GetCuspPointRatios reports the changes of direction, in [0, 1], and nothing else; a path that only drives forward has no change of direction, nor has one composed of such paths.", "quantifier": "all paths of up to five motions, turning radii and ratios, with all intermediate results rounded", "why_tests_cant": "whether the rounded sum of the motions exceeds the rounded length depends on all of them", "anchors": ["planner/src/paths/path_reeds_shepp.cpp: PathReedsShepp::Interpolate, PathReedsShepp::GetDirection, PathReedsShepp::GetCuspPointRatios", "planner/src/geometry/reeds_shepp.cpp: ReedsShepp::PathSegment::AddMotion", "planner/src/geometry/reeds_shepp.h: ReedsShepp::PathSegment::GetLength", "planner/src/paths/path_composite.cpp: PathSE2CompositeNonHolonomic::GetCuspPointRatios, PathSE2CompositeNonHolonomic::GetDirection"]}
{"id": "C133", "title": "Voronoi potential with float and double arithmetic", "statement": "With the rounding of the program, after Update GetPathCost of every cell lies in [0, 1], is 1 exactly at the obstacle cells and 0 exactly on the Voronoi edges and where the reported obstacle distance is at least dMax; no division by zero and no underflow occurs. For the same edge distance it does not increase with the obstacle distance, and for the same obstacle distance it does not decrease with the edge distance.", "quantifier": "all histories of maps whose squared diagonal is an int, all positive resolutions and all cells, with all intermediate results rounded", "why_tests_cant": "a potential rounded to 1 next to an obstacle, or to 0 next to an edge, occurs for some distances only", "anchors": ["planner/src/state_validator/gvd.cpp: GVD::PathCostMap::Update, GVD::Update", "planner/src/state_validator/gvd.h: GVD::ObstacleDistanceMap::GetDistanceToNearestObstacle, GVD::VoronoiDistanceMap::GetDistanceToNearestVoronoiEdge"]}
{"id": "C134", "title": "Costs of motions with float and double arithmetic", "statement": "With the rounding of the program, ComputeCost of a Reeds-Shepp path is the length of each motion times the multiplier of its direction, plus the switching cost for each change of direction, and GetOptimalPath returns the cheapest path of all words, up to a relative error of 2^-18. The cost of a motion of hybrid A* adds the Voronoi term: the multiplier times the potential of a state on the motion, at most the diagonal of a cell before its end, times that diagonal. The computation ends and reads no state outside the motion.", "quantifier": "all paths of up to five motions, turning radii, multipliers, switching costs, potentials and resolutions, with all intermediate results rounded", "why_tests_cant": "the relative error of a sum, and a comparison that rounding decides, depend on all costs", "anchors": ["planner/src/geometry/reeds_shepp.cpp: ReedsShepp::PathSegment::ComputeCost, ReedsShepp::Solver::GetOptimalPath", "planner/src/paths/path_reeds_shepp.cpp: PathReedsShepp::ComputeCost", "planner/src/algo/hybrid_a_star.cpp: HybridAStar::StatePropagator::GetVoronoiCost, HybridAStar::StatePropagator::GetConstantSteerChild, HybridAStar::StatePropagator::GetReedsSheppChild"]}
{"id": "C135", "title": "Maps and positions with 32 bit integers", "statement": "InitializeSize with positive sizes succeeds whenever the number of cells is an int (it is undefined exactly otherwise), and then every cell of the map can be read and written without overflow and reads the last value written. IsInsideMap and IsStateValid return false for every position outside the map, however far away, and WorldPositionToGridCell and the cells of hybrid A* are defined for every position.", "quantifier": "all sizes, resolutions, sequences of writes, positions and states, with all intermediate results rounded", "why_tests_cant": "overflow occurs for extreme sizes and positions only, which tests do not allocate or reach", "anchors": ["planner/src/utils/grid.h: Grid::Grid, Grid::operator[]", "planner/src/state_validator/occupancy_map.cpp: OccupancyMap::InitializeSize, OccupancyMap::IsInsideMap", "planner/src/state_validator/occupancy_map.h: OccupancyMap::WorldPositionToGridCell, OccupancyMap::GridPositionToGridCell", "planner/src/state_validator/state_validator_occupancy_map.cpp: StateValidatorOccupancyMap::IsStateValid", "planner/src/algo/hybrid_a_star.h: HybridAStar::StatePropagator::DiscretizePose"]}
{"id": "C136", "title": "Poses along Reeds-Shepp paths with double arithmetic", "statement": "With the rounding of the program and a sin and cos that are right up to one unit in the last place, the sum and the difference of two poses are the exact ones up to a few roundings, with a heading in range. Interpolate of a Reeds-Shepp path with a ratio in [0, 1] returns the pose that the exact drive along its motions reaches after that ratio of its length, up to 2^-45 of the length and 2^-49 of the coordinates of the start, and Interpolate(0) returns the start exactly. Hence no two states of the path are further apart than the length between them, up to such errors.", "quantifier": "all poses, paths of up to five motions that turn by at most 7 radians each, turning radii and ratios, with all intermediate results rounded, and all accurate implementations of sin and cos", "why_tests_cant": "rounding errors accumulate differently for every path and every implementation of sin and cos", "anchors": ["planner/src/geometry/2dplane.h: Pose2::operator+, Pose2::operator-, Pose2::WrapTheta", "planner/src/paths/path_reeds_shepp.cpp: PathReedsShepp::Interpolate, PathReedsShepp::Straight, PathReedsShepp::Turn"]}
{"id": "C137", "title": "Constant-steer motions with double arithmetic", "statement": "With the rounding of the program and library functions that are right up to one unit in the last place, ConstantSteer returns the pose that the vehicle reaches when its rear axle drives the given distance along the arc of the steering angle, up to a few hundred units in the last place of the turning radius and the distance; a curvature below about 1e-9 per metre is driven straight, with an error of at most the curvature times about twice the squared distance. A motion starts exactly at its initial state and ends exactly at its final state, also after Truncate. The motions of hybrid A* (up to five) follow arcs no sharper than the minimum turning radius up to 2^-46, and the sharpest turn is among them.", "quantifier": "all vehicles with a slip angle of at most 45 degrees, poses, steering angles, distances, directions and ratios, with all intermediate results rounded, and all accurate implementations of the mathematical library", "why_tests_cant": "the cancellation in the difference of two sines is worst for nearly straight motions and depends on all inputs", "anchors": ["planner/src/models/kinematic_bicycle_model.cpp: KinematicBicycleModel::ConstantSteer, KinematicBicycleModel::GetSteeringAngleFromTurningRadius", "planner/src/paths/path_constant_steer.cpp: PathConstantSteer::PathConstantSteer, PathConstantSteer::Interpolate, PathConstantSteer::Truncate", "planner/src/algo/hybrid_a_star.cpp: HybridAStar::StatePropagator::StatePropagator, HybridAStar::StatePropagator::GetConstantSteerChild"]}
{"id": "C138", "title": "RRT and RRT* in the plane with double arithmetic", "statement": "With the rounding of the program, steering arrives exactly at a point whose computed distance is at most the connection distance; otherwise it arrives, up to 2^-47 of the largest coordinate, where exact steering does, with a motion whose length is right up to 2^-48. Hence RRT and RRT* (whose goal test is equality) reach a goal that can be seen from everywhere once it has been drawn so often that motions shorter than the connection distance by 2^-45 of the largest coordinate cover the distance. A connection distance below the rounding of the coordinates leads nowhere, however often the goal is drawn, and a path between points on the boundary of the state space can leave it by a rounding error.", "quantifier": "all points, connection distances, validators, random streams and parameters, with all intermediate results rounded, and all earlier calls", "why_tests_cant": "whether a rounded ratio of exactly 1 is reached, and whether rounded motions make progress, depends on every bit of the coordinates", "anchors": ["planner/src/paths/path_r2.cpp: PathR2::PathR2, PathR2::Interpolate, PathR2::Truncate", "planner/src/algo/rrt.h: RRT::SearchPath, RRT::SteerTowards", "planner/src/algo/rrt_star.h: RRTStar::SearchPath, RRTStar::SteerTowards", "planner/src/utils/tree.h: Tree::GetNearestNode"]}
{"id": "C139", "title": "Lengths of RRT* paths in the plane with double arithmetic", "statement": "With the rounding of the program, as long as no iteration ends in a state that is in the tree already, the cost that RRT* keeps for a node is the length of the path to it up to (k+4) 2^-52 of this length after k iterations, the path to a new state is at most 1 + (k+5) 2^-50 times as long as the path to any neighbour looked up followed by an accepted segment from it, and later iterations do not change a path.", "quantifier": "all validators, random streams, parameters and neighbour searches, with all intermediate results rounded, all iterations and all earlier calls", "why_tests_cant": "the errors of the sums along paths grow with the number of iterations, and neighbours are compared by these sums", "anchors": ["planner/src/algo/rrt_star.h: RRTStar::SearchPath", "planner/src/paths/path_r2.cpp: PathR2::PathR2", "planner/src/utils/tree.h: Tree::Extend, Tree::GetNearestNodes"]}
{"id": "C140", "title": "RRT and RRT* leave the bounds at most by rounding errors", "statement": "With the rounding of the program, if the start and all samples lie within the bounds of the state space, then after k iterations no state of the tree, and no point of a returned path, is further beyond the bounds than k 2^-50 times the largest absolute value of a bound, whatever the validator accepts.", "quantifier": "all state spaces, starts, samples within the bounds, validators, neighbour searches and parameters, with all intermediate results rounded, and all earlier calls", "why_tests_cant": "interpolation with rounding can leave the bounds (C138), and each iteration starts from the results of earlier ones", "anchors": ["planner/src/algo/rrt.h: RRT::SearchPath, RRT::SteerTowards", "planner/src/algo/rrt_star.h: RRTStar::SearchPath", "planner/src/paths/path_r2.cpp: PathR2::Interpolate, PathR2::Truncate", "planner/src/state_space/state_space_r2.cpp: StateSpaceR2::ValidateBounds"]}
{"id": "C141", "title": "Bidirectional A* with rounded costs stays within twice the optimum", "statement": "Bidirectional graph search whose cost additions are rounded (double), with non-negative costs, a reverse propagator that exactly reverses the forward one and heuristics that are non-negative, consistent up to a relative tolerance and zero at the end they lead to, reports on Success a cost of at most twice the exact cost of any route from the start to the goal, up to a factor ((1+e)^2/(1-e))^(k+2) (1+h)^m (k propagator calls, m transitions, e = 2^-53, tolerance h); and the reported cost is the exact cost of the reported path up to the rounding of the additions.", "quantifier": "all problems, all heuristics and propagators as stated, any addition with relative error at most e, all fuel", "why_tests_cant": "costs are summed in different orders by the two searches, the stopping test compares rounded sums, and the error compounds over all expansions", "anchors": ["planner/src/algo/bidirectional_a_star.h: BidirectionalAStar::SearchPath, FindIntersection, GetOptimalCost, GetPath"]}
{"id": "C142", "title": "The path of a graph search visits no state twice", "statement": "On Success the path reported by A* as a graph search (the default, as opposed to tree search) contains no state twice in the sense of the equality used by the search; on the grid its cells are pairwise different and there are at most rows*columns of them; for hybrid A* no two nodes fall in the same cell of the discretised state space. This needs nothing of the costs, which may be rounded, negative or inconsistent with the heuristic.", "quantifier": "all problems whose equality is an equivalence, all maps, costs and heuristics in any arithmetic, all fuel", "why_tests_cant": "a cycle would need a parent pointer that is rewired during the search; which rewirings happen depends on the whole history of the frontier", "anchors": ["planner/src/algo/a_star.h: AStar::SearchPath, Expand, ProcessPossibleShortcut, GetPath", "planner/src/algo/a_star_n2.h: AStarN2", "planner/src/algo/hybrid_a_star.h: HybridAStar"]}
{"id": "C143", "title": "With double costs the grid planner finds exactly shortest paths on maps of up to 65536 cells", "statement": "A* on the grid with the euclidean distance as cost and as heuristic, both computed in double arithmetic, terminates, reports Success exactly when a walk leads from the start to the goal, and on Success returns a walk whose exact length is at most 1/(1-(6n+2) 2^-53) times that of any other walk (n cells); if (12n+4)(L^2+1) < 2^53 for the length L of some walk, and on every map of at most 65536 cells, the returned walk is exactly a shortest one. The reported cost is the length of the returned walk up to the same rounding.", "quantifier": "all occupancy maps with at most 2^26 rows and columns (up to 65536 cells for the exact statement), all start cells in the map, all goal cells, all fuel", "why_tests_cant": "rounding makes the heuristic inconsistent and makes sums of costs depend on the order of the moves; that ties and near ties are never decided wrongly needs a bound for every map", "anchors": ["planner/src/algo/a_star_n2.h: AStarN2, AStarStatePropagatorFcnN2::GetNeighborStates", "planner/src/algo/a_star.h: AStar::SearchPath, Expand"]}
{"id": "C144", "title": "Smoother: a step is free of divisions by zero exactly for paths that move on", "statement": "In every iteration of Smooth, the gradients are computed without a division by zero exactly if at every optimised point the path has moved since the point before, does not bend more than the maximal curvature while going exactly straight on or straight back, and the point is not exactly at the position of the obstacle cell it is pushed away from; the path after the iteration is then the one computed with real numbers. A path with two equal consecutive points, or that turns back on the spot, makes the first iteration divide by zero, so that its points are no numbers (NaN).", "quantifier": "all paths, cusp sets, parameters (with a positive alpha of the Voronoi field), maps, nearest obstacle and edge cells, and iterations", "why_tests_cant": "the exceptional points are a set of measure zero that random tests do not hit, and every iteration of every path has to avoid them", "anchors": ["planner/src/algo/smoother.cpp: Smoother::Smooth, Smoother::CalculateCurvatureTerm, OrthogonalComplement"]}
{"id": "C145", "title": "Straight paths with double arithmetic", "statement": "Computed with doubles, a straight path of points or poses is exactly its first state at ratio 0 and exactly its last state at ratio 1; at every ratio in between it is within M/2^51 of the exact point of the segment (M bounds the coordinates, and likewise for the heading); its length is the distance up to a relative error of 2^-50. After Truncate the first state is unchanged, the last state and the state at ratio 1 are exactly the interpolated state, the length is the part of the distance up to a relative error of 2^-49, and every state is within M/2^49 of the exact part of the segment.", "quantifier": "all points and poses whose coordinates are doubles, all ratios in [0, 1]", "why_tests_cant": "that rounding never makes a path miss its ends or leave the segment further than the last bits has to hold for all doubles", "anchors": ["planner/src/paths/path_r2.cpp: PathR2::Interpolate, PathR2::Truncate", "planner/src/paths/path_se2.cpp: PathSE2::Interpolate, PathSE2::Truncate"]}
{"id": "C146", "title": "Obstacles on the map with the arithmetic of the program", "statement": "With the roundings of the program (doubles, float resolution, any library whose sin and cos are accurate to 2^-52), the placed corners of a shape are those of the exact computation up to a few units in the last place. Every point of the outline of an obstacle whose corners are on the map is at most 2.5 cells (plus these roundings) away from a cell that the program marks, and every marked cell is at most sqrt(13)/2 cells away from the outline. After Update, a state that the program accepts keeps the safe radius, less 7.7 % and 4 cells, from the outlines of all registered obstacles; a state within the bounds that it rejects (nothing having been removed) is at most 3.3 cells further than the safe radius away from an outline.", "quantifier": "all maps of at most 2^31 rows and columns, shapes (polygons and composites), poses, states and histories of the map", "why_tests_cant": "rounding can move a corner into another cell, so the guarantee has to hold for every real position, shape and history", "anchors": ["planner/src/state_validator/obstacle.cpp: PolygonShape::GetGridCellsPosition, GetVerticesPosition, RasterizeLine", "planner/src/state_validator/occupancy_map.h: OccupancyMap::WorldPositionToGridCell", "planner/src/state_validator/state_validator_occupancy_map.cpp: StateValidatorOccupancyMap::IsStateValid"]}
{"id": "C147", "title": "Predefined shapes with the arithmetic of the program", "statement": "A rectangle has exactly the corners of the exact computation. The corners of a regular polygon (at most 2^24 of them) are those of the exact computation up to 2^-48 of the radius, and those of a circle (at least 3) up to 2^-46 of the radius. The placed polygon of a circle, with the corners that the program computes, contains the whole disc but for a rim as wide as the rounding error of the corners times six times their number.", "quantifier": "all sizes, numbers of corners up to 2^24, poses and points of the plane; any library whose sin and cos are accurate to 2^-52", "why_tests_cant": "that the polygon covers the disc has to hold for every point of the disc and every number of corners; rounding could open it", "anchors": ["planner/src/state_validator/obstacle.cpp: RegularPolygonShape, RectangleShape, CircleShape, PolygonShape::GetVerticesPosition"]}
{"id": "C148", "title": "Accepted paths and obstacles with the arithmetic of the program", "statement": "When the program, with the roundings of its doubles and floats, accepts a path after Update, then the exact curve that the path follows up to rounding keeps clear, from its start to its end, of the outline of every registered obstacle whose corners are on the map: by the safe radius less 7.7 % of the largest reported distance (or of the safe radius and the interpolation step), four cells and rounding errors. If this is positive, the curve never enters a convex obstacle that does not contain its start. Reeds-Shepp paths, straight paths and the motions of hybrid A* follow the exact drive, segment and arc up to a few units in the last place.", "quantifier": "all maps of at most 2^31 rows and columns, histories, obstacles, poses and paths of the program; any library whose functions are accurate to 2^-52", "why_tests_cant": "the path is checked at finitely many rounded states, and the claim is about all points of the exact curve", "anchors": ["planner/src/state_validator/state_validator_occupancy_map.cpp: StateValidatorOccupancyMap::IsPathValid", "planner/src/state_validator/obstacle.cpp: PolygonShape::GetGridCellsPosition", "planner/src/paths/path_reeds_shepp.cpp: PathReedsShepp::Interpolate", "planner/src/paths/path_constant_steer.cpp: PathConstantSteer::Interpolate"]}
{"id": "C149", "title": "The non-holonomic heuristic with the arithmetic of the program", "statement": "With the roundings of its doubles: the table made by Build has an odd number of cells along each axis and covers the search space up to a relative error of 2^-51; GetHeuristicValue accesses the table only at valid indices; in the tabulated area around the state, which is the rectangle of the size of the table up to one cell, the value is the one of an entry whose pose is within half a cell and half an angular step (up to rounding) of the goal seen from the state; outside it, the value is the cheaper multiplier times the distance up to a relative error of 2^-46 and thus does not exceed the cost of the shortest Reeds-Shepp path by more than that.", "quantifier": "all parameters, states and goals with at most 2^29 cells between them; any library whose functions are accurate to 2^-52", "why_tests_cant": "a continuum of states, and indices that are rounded twice", "anchors": ["planner/src/algo/heuristics.cpp: NonHolonomicHeuristic::Build, NonHolonomicHeuristic::GetHeuristicValue"]}
{"id": "C150", "title": "Singletons with constructor arguments", "statement": "Get of a SingletonInit returns the instance made by the last Init, with its arguments, as long as Release was not called since; then this instance is not destroyed, and all earlier ones are destroyed, once each. In a build with assertions a sequence of calls returns exactly if each Init is called when there is no instance and each Get when there is one; for these sequences a build without assertions does the same.", "quantifier": "all sequences of calls of Init, Get and Release, of any length, and all arguments", "why_tests_cant": "the claim is about every history of calls", "anchors": ["planner/src/utils/singleton.h: SingletonInit::Get, SingletonInit::Init, SingletonInit::Release"]}
{"id": "C151", "title": "Searches left by an exception", "statement": "If the propagator or the heuristic given by the user throws during SearchPath, wherever that happens, the planner reports nothing (A*) or nothing or one complete path with its cost (bidirectional A*), refers to no node that has been freed, keeps its inputs, and its next search is that of a planner on which the interrupted search was never started. If nothing throws the search is the usual one.", "quantifier": "all search problems, start and goal states, histories of calls with any number of interrupted searches, and every call of the propagator or of the heuristic as the point of the exception", "why_tests_cant": "the exception may be raised at any of an unbounded number of calls, at any point of any history", "anchors": ["planner/src/algo/a_star.h: AStar::SearchPath, AStar::InitializeSearch, AStar::Expand, AStar::ProcessPossibleShortcut", "planner/src/algo/bidirectional_a_star.h: BidirectionalAStar::SearchPath, BidirectionalAStar::GetPath, AverageHeuristic::Update"]}
{"id": "C152", "title": "Random trees left by an exception", "statement": "If the state space, the connection, the validator or the test for the goal given by the user throws during SearchPath of RRT or RRT*, in any iteration, the planner reports no path, its tree is consistent, within its limit and that of the iterations completed before, and after any history of interrupted searches the next search has all guarantees of a first one. If nothing throws the search is the usual one.", "quantifier": "all connections, validators, random numbers, states and parameters, histories of calls with any number of interrupted searches, and every iteration as the point of the exception", "why_tests_cant": "the exception may be raised in any iteration of any search of any history", "anchors": ["planner/src/algo/rrt.h: RRT::SearchPath, RRT::GetPath, RRT::Clear", "planner/src/algo/rrt_star.h: RRTStar::SearchPath, RRTStar::GetPath, RRTStar::Clear"]}
{"id": "C153", "title": "Planners that share a heuristic", "statement": "Several A* planners may be given the same heuristic object. Their searches do not disturb each other, even when they overlap: each search ends, with the status, path and cost that it has when it runs alone.", "quantifier": "all planners, propagators, heuristics, histories and schedules of overlapping searches (in threads, or started by a propagator), where between any two evaluations of a heuristic other searches may take steps", "why_tests_cant": "the number of interleavings is unbounded, and a disturbance depends on the moment at which another search starts", "anchors": ["planner/src/algo/a_star.h: AStar::SearchPath, AStar::InitializeSearch, AStar::Expand, AStarHeuristic::SetGoal"]}
{"id": "C154", "title": "Random numbers are ready when they are needed, and each is used once", "statement": "Once a state space and a planner have been constructed, sampling and searching always find a working random generator, whatever other objects are constructed, in whichever order and threads, and even if a constructor was left by an exception before. All objects draw successive numbers of one sequence: constructing an object never starts the sequence again, and no number is drawn twice.", "quantifier": "all histories of constructing and using state spaces, RRT and RRT* planners with coordinates of either floating point type, all schedules of threads, all engines and seeds, and all points at which the random device may throw", "why_tests_cant": "whether the generator is ready depends on the order of constructions in all threads, and the orders are unbounded", "anchors": ["planner/src/utils/random.h: Random::Init, Random::SampleUniform, Random::SampleGaussian", "planner/src/state_space/state_space.h: StateSpace::StateSpace", "planner/src/algo/rrt.h: RRT::RRT, RRT::SearchPath", "planner/src/algo/rrt_star.h: RRTStar::RRTStar, RRTStar::SearchPath"]}
{"id": "C155", "title": "The path of a bidirectional search has no loop", "statement": "On Success of a bidirectional graph search with non-negative costs, the two halves of the returned path have only the meeting state in common: apart from its second copy, no two states of the path are equal. So the grid planner returns at most one cell more than the map has. This holds with exact costs and with double costs that are rounded at every addition.", "quantifier": "all propagators with non-negative costs (also randomised ones), all heuristics, equalities of states, start and goal states, and all numbers of iterations", "why_tests_cant": "a loop appears only when the two trees overlap in more than one state, which depends on the order of all expansions", "anchors": ["planner/src/algo/bidirectional_a_star.h: BidirectionalAStar::SearchPath, BidirectionalAStar::FindIntersection, BidirectionalAStar::GetPath", "planner/src/algo/a_star.h: AStar::Expand", "planner/src/algo/a_star_n2.h: BidirectionalAStarN2"]}
{"id": "C156", "title": "The bidirectional grid planner with double costs", "statement": "BidirectionalAStarN2 with costs in double ends after at most one iteration per cell of the map plus one, and between free cells it fails exactly if no walk of legal moves leads from the start to the goal, whatever the costs. With the straight-line distance computed in double as cost and heuristics, the returned path (without the second copy of the meeting cell) is a walk of legal moves that visits no cell twice, its length and the reported cost are at most twice the length of any such walk, and the reported cost is at least the length of the returned walk, all up to a relative error of (6 n + 6) / 2^53 on a map of n cells.", "quantifier": "all maps of up to 2^26 rows and columns and all free start and goal cells, with the rounding of every distance, square root and addition", "why_tests_cant": "the rounding errors accumulate along paths of any length, and ties of exact costs are broken by them", "anchors": ["planner/src/algo/a_star_n2.h: BidirectionalAStarN2, AStarStatePropagatorFcnN2", "planner/src/algo/bidirectional_a_star.h: BidirectionalAStar::SearchPath", "interfaces/python/scripts/example_a_star_grid.py: path_cost_fcn, heuristic_fcn"]}
{"id": "C157", "title": "A bidirectional planner never uses an object that is gone", "statement": "Whatever propagators and heuristics are made, paired, handed to a BidirectionalAStar in accepted and rejected calls of Initialize, and released by the user: a search calls only objects that exist and are not null, and once the planner is destroyed and the user has released all of them nothing is left. The references returned by GetStatePropagators and GetHeuristics can be read while the planner exists. The nodes behind GetExploredStates exist until the next search or the end of the planner.", "quantifier": "all histories of making, copying and releasing references, of accepted and rejected calls of Initialize, of searches, of calls of the getters and of the end of the planner", "why_tests_cant": "lifetimes depend on the whole history, and reading through a dangling reference often seems to work in a test", "anchors": ["planner/src/algo/bidirectional_a_star.h: BidirectionalAStar::Initialize, BidirectionalAStar::GetStatePropagators, BidirectionalAStar::GetHeuristics, BidirectionalAStar::GetExploredStates, BidirectionalAStar::GetAverageHeuristicPair", "planner/src/algo/a_star.h: AStar::Initialize, AStar::GetExploredStates"]}
{"id": "C158", "title": "A* expands only what it has to", "statement": "In a graph search with a consistent heuristic, SearchPath asks the propagator for the neighbours of a state only if the least cost to it plus its heuristic is at most the optimal cost, does ask for every state that can be reached for less than that, and asks in the order of these sums, never twice for one state. GetExploredStates contains these states and the start. A failed search has asked for exactly the states that can be reached. A consistent heuristic that is nowhere less than another one makes the search ask for no other states, except for those whose sum is exactly the optimal cost.", "quantifier": "all graphs (also infinite ones), costs (also negative), consistent heuristics, start states and goals", "why_tests_cant": "the amount of work depends on the whole graph; a test sees the states expanded in a few examples only", "anchors": ["planner/src/algo/a_star.h: AStar::SearchPath, AStar::Expand, AStar::ProcessPossibleShortcut, AStar::GetExploredStates"]}
{"id": "C159", "title": "A* with a heuristic that overestimates", "statement": "If the heuristic falls by at most w times the cost of each transition, w at least 1 (for instance, if it is w times a consistent one), the cost of the path returned by a graph search is at most w times that of any path to the goal. In particular the grid planner with the lengths of the moves as costs and the sum of the differences of rows and columns as heuristic returns a walk at most the square root of two times as long as a shortest one.", "quantifier": "all graphs with non-negative costs, heuristics, factors, start states and goals; all maps", "why_tests_cant": "the bound compares with all paths of all graphs, and expanded states are never expanded again when a cheaper way to them is found", "anchors": ["planner/src/algo/a_star.h: AStar::SearchPath, AStar::Expand, AStar::ProcessPossibleShortcut, AStar::GetOptimalCost", "planner/src/algo/a_star_n2.h: AStarN2, AStarHeuristicFcnN2"]}
{"id": "C160", "title": "Higher limits do not change what RRT and RRT* find", "statement": "A search of RRT or RRT* that succeeds also succeeds, for the same draws, with more iterations and more nodes allowed, and returns the same path. Whatever the limits, two successful searches with the same draws return the same path.", "quantifier": "all draws, limits, validators, connections, neighbour searches, start and goal states, and all planners whatever they were used for", "why_tests_cant": "the searches compared have any limits and draws, and the loop depends on the limits in every iteration", "anchors": ["planner/src/algo/rrt.h: RRT::SearchPath, RRT::GetPath, RRTParameters", "planner/src/algo/rrt_star.h: RRTStar::SearchPath, RRTStar::GetPath, RRTStarParameters"]}
{"id": "C161", "title": "RRT* approaches the shortest path as it is allowed more iterations", "statement": "With probability one the length of the path that RRT* returns in the plane tends to the length of a shortest path as the limits of iterations and nodes grow.", "quantifier": "all spaces, validators, parameters, and all streams of independent numbers uniform on [0, 1]", "why_tests_cant": "it is a statement about a limit and about the probability of sets of infinite streams", "anchors": ["planner/src/algo/rrt_star.h: RRTStar::SearchPath, RRTStar::GetPath, RRTStarParameters", "planner/src/state_space/state_space_r2.cpp: StateSpaceR2::SampleUniform"]}
{"id": "C162", "title": "RRT and RRT* need a finite number of iterations in the mean", "statement": "Under the conditions of C113 (a curve with clearance from the start to the goal), there is a random number with a finite mean, the same for all limits, that the number of iterations of a search of RRT or RRT* exceeds by at most one, and the search succeeds whenever it is allowed that many iterations and nodes. Hence raising the limits does not raise the mean number of iterations beyond a fixed bound.", "quantifier": "all spaces, validators, curves, clearances, states of the planner, limits with at least as many nodes as iterations, and all streams of independent numbers uniform on [0, 1]", "why_tests_cant": "a mean over all infinite streams of random numbers, with a bound for all limits at once", "anchors": ["planner/src/algo/rrt.h: RRT::SearchPath, RRTParameters", "planner/src/algo/rrt_star.h: RRTStar::SearchPath, RRTStarParameters", "planner/src/state_space/state_space_r2.cpp: StateSpaceR2::SampleUniform"]}
{"id": "C163", "title": "Grid planner: the reported costs are a distance, and grow with the obstacles", "statement": "On a grid, with a consistent heuristic: adding obstacles never makes the planner succeed where it failed, or report a smaller cost; between free cells, with symmetric step costs, the planner succeeds in one direction exactly if it does in the other, with the same cost; and if it succeeds from a to b and from b to c, it succeeds from a to c at no more than the sum of the costs. With the straight-line distance computed in double as cost and heuristic, the same holds exactly for the lengths of the returned paths on maps of up to 65536 cells.", "quantifier": "all pairs of maps of the same size one of which has all obstacles of the other, all costs and consistent heuristics, start and goal cells; with doubles all maps of up to 65536 cells", "why_tests_cant": "it relates searches on different maps and between different cells, whose expansions have nothing in common, for all maps", "anchors": ["planner/src/algo/a_star_n2.h: AStarN2, AStarStatePropagatorFcnN2", "planner/src/algo/a_star.h: AStar::SearchPath, AStar::GetPath, AStar::GetOptimalCost"]}
{"id": "C164", "title": "More obstacles never make the distances greater or the validator more permissive", "statement": "When obstacles are added to an up to date distance map, no reported distance grows, no rejected state becomes accepted, and no rejected path becomes accepted. A map with more obstacles than another one reports distances that are not greater.", "quantifier": "all histories of the distance map, all obstacles added afterwards with updates anywhere in between, all states and paths", "why_tests_cant": "it compares the map before and after for all histories and all orders in which the queue is emptied, and all paths", "anchors": ["planner/src/state_validator/gvd.h: GVD::ObstacleDistanceMap", "planner/src/state_validator/gvd.cpp: GVD::ObstacleDistanceMap::Update, GVD::ObstacleDistanceMap::SetObstacle", "planner/src/state_validator/state_validator_occupancy_map.cpp: StateValidatorOccupancyMap::IsStateValid, StateValidatorOccupancyMap::IsPathValid"]}
{"id": "C165", "title": "Nothing depends on where the origin of the world is", "statement": "If the map, the obstacles and the states are all moved by the same vector, then (apart from rounding) the cells of positions and of obstacles, the validity of states, the queries of the Voronoi diagram, the heuristics of hybrid A*, the validity of paths and the states that hybrid A* takes for one node stay the same, and motions and smoothed paths are moved by the vector.", "quantifier": "all maps, shapes, poses, states, paths, distance maps, parameters and vectors", "why_tests_cant": "it relates all computations at two places for all vectors", "anchors": ["planner/src/state_validator/occupancy_map.h: OccupancyMap::WorldPositionToGridCell, OccupancyMap::SetPosition", "planner/src/state_validator/obstacle.cpp: Obstacle::GetBoundaryGridCellPosition", "planner/src/state_validator/state_validator_occupancy_map.cpp: StateValidatorOccupancyMap::IsStateValid, StateValidatorOccupancyMap::IsPathValid", "planner/src/algo/heuristics.cpp: NonHolonomicHeuristic::GetHeuristicValue, ObstaclesHeuristic::GetHeuristicValue", "planner/src/algo/smoother.cpp: Smoother::Smooth", "planner/src/algo/hybrid_a_star.h: DiscretizePose"]}
{"id": "C166", "title": "The distances depend only on the obstacles", "statement": "Two up to date distance maps of the same size with the same obstacles report the same distances, whatever the order in which obstacles were set and unset, the updates in between, and the order of the queue.", "quantifier": "all pairs of histories that end with the same obstacles, all orders of the queue, all cells", "why_tests_cant": "it compares all pairs of histories and all orders in which entries of equal priority leave the queue", "anchors": ["planner/src/state_validator/gvd.cpp: GVD::ObstacleDistanceMap::Update, GVD::ObstacleDistanceMap::SetObstacle, GVD::ObstacleDistanceMap::UnsetObstacle"]}
{"id": "C167", "title": "A stricter setting of the validator is stricter", "statement": "A state or path that the validator rejects is also rejected with a greater safe radius, and a rejected path also with a smaller interpolation step. A path all of whose states are valid is accepted with every positive interpolation step and every smaller safe radius.", "quantifier": "all maps, histories of obstacles, states, paths, safe radii and interpolation steps", "why_tests_cant": "it compares the answers for all pairs of settings, states and paths", "anchors": ["planner/src/state_validator/state_validator_occupancy_map.h: StateValidatorOccupancyMap::minSafeRadius, StateValidatorOccupancyMap::minPathInterpolationDistance", "planner/src/state_validator/state_validator_occupancy_map.cpp: StateValidatorOccupancyMap::IsStateValid, StateValidatorOccupancyMap::IsPathValid"]}
{"id": "C168", "title": "Classes derived in Python are called back, under usable names", "statement": "If a class derived in Python from a class of the module implements a virtual function of the C++ class, every call of this function from C++ is answered by this implementation with the same arguments; if not, by the C++ implementation if there is one, and else by an exception. All names of the module can be written in a Python program.", "quantifier": "all Python classes and objects, all virtual functions of the base classes, all arguments, all names", "why_tests_cant": "it ranges over all classes that users may write", "anchors": ["interfaces/python/src/pyplanning.cpp: StateValidatorSE2BaseWrapper, AStarHeuristicN2Wrapper, PathSE2BaseWrapper, OccupancyMapWrapper, ShapeWrapper"]}
{"id": "C169", "title": "The cells of an obstacle do not depend on how its shape is described", "statement": "Listing the corners of a polygon from another corner on or in the other direction, and listing the parts of a composite shape in another order, repeatedly, or grouped in further composite shapes, changes none of the cells of the obstacle, and so none of the occupancy values after it is added or removed.", "quantifier": "all shapes, nested to any depth, all poses and maps, all mathematical libraries, all histories of the map", "why_tests_cant": "it compares all descriptions of all outlines, with rounding", "anchors": ["planner/src/state_validator/obstacle.cpp: Shape::RasterizeLine, PolygonShape::GetGridCellsPosition, CompositeShape::GetGridCellsPosition", "planner/src/state_validator/obstacle_list_occupancy_map.cpp: ObstacleListOccupancyMap::AddObstacle, ObstacleListOccupancyMap::RemoveObstacle"]}
{"id": "C170", "title": "On a turned or mirrored map the grid planners give equally good answers", "statement": "If the map, the start and the goal are turned by a multiple of a quarter turn or mirrored, the grid planner succeeds exactly if it did before, at the same cost; with doubles on maps of up to 65536 cells the two paths have exactly the same length. The bidirectional planner succeeds exactly if it did before.", "quantifier": "all maps, all starts and goals, all eight symmetries of the grid, all consistent heuristics", "why_tests_cant": "it compares the answers for all maps and their images", "anchors": ["planner/src/algo/a_star_n2.h: AStarN2, AStarStatePropagatorFcnN2", "planner/src/algo/a_star.h: AStar::SearchPath, AStar::GetPath, AStar::GetOptimalCost", "planner/src/algo/bidirectional_a_star.h: BidirectionalAStar::SearchPath"]}
{"id": "C171", "title": "Sums and differences of poses undo each other with double arithmetic", "statement": "For poses lhs and rhs, rhs + (lhs - rhs) is lhs, and (lhs + rhs) - lhs is rhs, up to rounding errors below 2^-46 of the distance plus 2^-51 of the coordinates, and 2^-48 rad plus full turns in the heading; the operations always end, with a heading in [-pi, pi].", "quantifier": "all pairs of poses with finite double coordinates and wrapped headings, all mathematical libraries that are accurate to one unit in the last place", "why_tests_cant": "continuum of poses and all rounding errors", "anchors": ["planner/src/geometry/2dplane.h: operator+, operator-, Pose2::WrapTheta"]}
{"id": "C172", "title": "The obstacle heuristic grows with the obstacles and is the same in both directions", "statement": "With more obstacles the obstacle heuristic has no new reachable cells, and no lower value in any cell. Its value from one free cell to another is the value back.", "quantifier": "all maps, sets of further obstacles, goals and cells", "why_tests_cant": "it compares the tables of all pairs of maps and all pairs of cells", "anchors": ["planner/src/algo/heuristics.cpp: ObstaclesHeuristic::Update, ObstaclesHeuristic::GetHeuristicValue"]}
{"id": "C173", "title": "Neither the unit of costs nor the names of states and actions matter to the searches", "statement": "If the states and the actions of a search problem are given other names and all its costs another unit (a positive factor, with doubles a power of two), then A* and bidirectional A* stop after as many iterations, with the same status, path, actions and cost in the new words, and ask the propagators for the same states in the same order.", "quantifier": "all problems with any propagator (also randomised), heuristic and goal test, all renamings, all changes of unit, tree and graph search", "why_tests_cant": "it compares the runs on all problems and all their renamings", "anchors": ["planner/src/algo/a_star.h: AStar::SearchPath, AStar::GetPath, AStar::GetActions, AStar::GetOptimalCost", "planner/src/algo/bidirectional_a_star.h: BidirectionalAStar::SearchPath", "planner/src/utils/frontier.h: Frontier"]}
{"id": "C174", "title": "RRT and RRT* do not depend on the unit of lengths, the origin or the names of states", "statement": "If the states are given other names and all lengths are multiplied by a positive factor, then RRT and RRT* have the same status after as many samples and return the same path in the new words, and the costs of RRT* are multiplied by the factor. In the plane, with the map, the states, the bounds and the connection distance in another unit and from another origin, the same random numbers give the same path.", "quantifier": "all state spaces, steering functions, validators, random numbers, parameters and histories of the tree, all factors and origins", "why_tests_cant": "it compares all runs, for all random numbers, with their images", "anchors": ["planner/src/algo/rrt.h: RRT::SearchPath, RRT::GetPath, RRT::SteerTowards", "planner/src/algo/rrt_star.h: RRTStar::SearchPath, RRTStar::GetPath", "planner/src/state_space/state_space_r2.cpp: StateSpaceR2::SampleUniform", "planner/src/utils/tree.h: Tree"]}
{"id": "C175", "title": "The unit of length does not matter", "statement": "If all lengths are given in another unit (positions, sizes of shapes, bounds, resolutions, radii, distances and the cost of switching), then cells, the cells of obstacles, the validity of states and paths, the last valid ratio, the words of Reeds-Shepp paths, the steering angles and the nodes of hybrid A* are the same, and the distances, costs, values of the heuristics and poses after a motion are the same in the new unit.", "quantifier": "all factors, maps, shapes, poses, states, paths, validators and parameters", "why_tests_cant": "it compares the answers for all inputs in all units", "anchors": ["planner/src/state_validator/occupancy_map.h: OccupancyMap", "planner/src/state_validator/obstacle.cpp: Obstacle::GetBoundaryGridCellPosition, Obstacle::GetBoundaryWorldPosition", "planner/src/state_validator/state_validator_occupancy_map.cpp: StateValidatorOccupancyMap::IsStateValid, StateValidatorOccupancyMap::IsPathValid", "planner/src/algo/heuristics.cpp: NonHolonomicHeuristic::Build, NonHolonomicHeuristic::GetHeuristicValue, ObstaclesHeuristic::GetHeuristicValue", "planner/src/state_validator/gvd.cpp: GVD::PathCostMap::Update, GVD::GetDistanceToNearestObstacle", "planner/src/models/kinematic_bicycle_model.cpp: KinematicBicycleModel::ConstantSteer"]}
{"id": "C176", "title": "Updating again changes nothing", "statement": "Once an occupancy map has been updated, further calls of Update without a change of the obstacles, however many, change neither the obstacles nor the occupancy, the distances, the nearest obstacles or the Voronoi edges; the same for the generalized Voronoi diagram and its path costs. The further calls end at once.", "quantifier": "all states of the map, all histories that lead to them, all orders of equally near cells in the queue, any number of further updates", "why_tests_cant": "it concerns every state the map can be in and any number of calls", "anchors": ["planner/src/state_validator/occupancy_map.cpp: OccupancyMap::Update", "planner/src/state_validator/gvd.cpp: GVD::Update, GVD::ObstacleDistanceMap::Update, GVD::VoronoiDistanceMap::Update, GVD::PathCostMap::Update"]}
{"id": "C177", "title": "What the vehicle does, does not depend on the direction of the axes", "statement": "If the plane is turned and moved, headings being given up to full turns: the motions with a constant steering angle, the poses, lengths, directions and cusps of Reeds-Shepp paths, the words found by the Reeds-Shepp solver, the straight lines between poses, the values of the non-holonomic heuristic and the goal test of hybrid A* are the turned ones, or the same.", "quantifier": "all angles and translations, poses, vehicles, steering angles, distances, radii, costs and ratios", "why_tests_cant": "it compares the answers for a continuum of poses in a continuum of frames", "anchors": ["planner/src/models/kinematic_bicycle_model.cpp: KinematicBicycleModel::ConstantSteer", "planner/src/paths/path_reeds_shepp.cpp: PathReedsShepp::Interpolate, PathConnectionReedsShepp::Connect", "planner/src/geometry/reeds_shepp.cpp: ReedsSheppSolver::GetShortestDistance, ReedsSheppSolver::GetOptimalPath", "planner/src/algo/heuristics.cpp: NonHolonomicHeuristic::GetHeuristicValue", "planner/src/algo/hybrid_a_star.h: IdenticalPoses", "planner/src/geometry/2dplane.h: Pose2"]}
{"id": "C178", "title": "The part of a path that is reported as valid is itself accepted", "statement": "If IsPathValid accepts a path, it accepts every first part of it. If it rejects a path, there is a first bad ratio, at or after the reported last valid ratio: the parts up to it are accepted, in particular the one that ends at the reported ratio, and the longer ones are rejected with the same last valid state. So a motion that hybrid A* has truncated to the reported ratio and uses without a check would be accepted.", "quantifier": "all paths, ratios, maps, obstacle distances and settings of the validator", "why_tests_cant": "it relates the checks of a continuum of parts of all paths", "anchors": ["planner/src/state_validator/state_validator_occupancy_map.cpp: StateValidatorOccupancyMap::IsPathValid", "planner/src/paths/path_constant_steer.cpp: PathConstantSteer::Truncate, PathConstantSteer::Interpolate", "planner/src/paths/path_se2.cpp: PathSE2::Truncate", "planner/src/algo/hybrid_a_star.cpp: IsPathValid, Truncate"]}
{"id": "C179", "title": "The two grid planners agree", "statement": "AStarN2 and BidirectionalAStarN2 on the same map, from the same start to the same goal, with the same costs and consistent heuristics, have the same status and report the same cost.", "quantifier": "all maps, cells, costs that are the same in both directions, and heuristics", "why_tests_cant": "it relates two searches on every map; agreement on sample maps says nothing about the others", "anchors": ["planner/src/algo/a_star_n2.h: AStarN2, BidirectionalAStarN2, AStarStatePropagatorFcnN2", "planner/src/algo/a_star.h: AStar::SearchPath, AStar::GetOptimalCost", "planner/src/algo/bidirectional_a_star.h: BidirectionalAStar::SearchPath, BidirectionalAStar::GetOptimalCost"]}
{"id": "C180", "title": "How long a Reeds-Shepp connection is", "statement": "The shortest Reeds-Shepp connection of two poses is at least as long as the straight line and as the arc with the minimal turning radius that turns by the difference of the headings; it is at most five half circles longer than the straight line. The cost of the connection lies between the lower multiplier times these lengths and the higher multiplier times this bound plus one change of direction. The value of the non-holonomic heuristic is at most this bound plus one cell of the table.", "quantifier": "all pairs of poses, turning radii, non-negative multipliers and switching costs, tables", "why_tests_cant": "it is a bound for a continuum of poses, over 48 formulas that hold on different parts of it", "anchors": ["planner/src/geometry/reeds_shepp.cpp: ReedsSheppSolver::GetShortestPath, ReedsSheppSolver::GetOptimalPath", "planner/src/paths/path_reeds_shepp.cpp: PathConnectionReedsShepp::Connect, PathReedsShepp::ComputeCost", "planner/src/algo/heuristics.cpp: NonHolonomicHeuristic::GetHeuristicValue"]}
{"id": "C181", "title": "The cost that hybrid A* reports fits the plan and the distance to the goal", "statement": "After a successful SearchPath, the reported motions together are at least as long as the straight line from the start to the goal (up to the 1 mm tolerance of the goal test). GetGraphSearchOptimalCost is at least the lower direction multiplier times this length, so no plan costs less than the straight line; and it is at most the higher multiplier times the length plus, for each motion, two direction switches and the Voronoi cost of one cell diagonal.", "quantifier": "all maps, obstacles, histories of calls, parameters with non-negative costs, random draws and successful searches", "why_tests_cant": "it relates all the plans that any search on any map can return to their reported costs", "anchors": ["planner/src/algo/hybrid_a_star.h: HybridAStar::GetGraphSearchOptimalCost, HybridAStar::GetGraphSearchPath", "planner/src/algo/hybrid_a_star.cpp: HybridAStar::SearchPath", "planner/src/paths/path_reeds_shepp.cpp: PathReedsShepp::ComputeCost", "planner/src/algo/heuristics.cpp"]}
{"id": "C182", "title": "Octile distance", "statement": "With steps of length 1 and diagonal steps of length between 1 and 2, the grid planners never report less than the octile distance between the start and the goal (diagonal steps for the smaller of the two differences, straight ones for the rest), and no entry of the obstacle table is below it. If all the cells of the rectangle between the start and the goal are free, AStarN2 succeeds and with a consistent heuristic reports exactly the octile distance; BidirectionalAStarN2 succeeds and reports at most twice as much, and exactly as much with octile heuristics; the obstacle table holds at most the diagonal length times as much.", "quantifier": "all grid maps, start and goal cells, consistent heuristics and diagonal lengths between 1 and 2", "why_tests_cant": "it is a closed form for the result of a search, for maps of every size and every layout of the obstacles", "anchors": ["planner/src/algo/a_star_n2.h: AStarN2, BidirectionalAStarN2", "planner/src/algo/a_star.h: AStar::SearchPath, GetOptimalCost", "planner/src/algo/bidirectional_a_star.h: BidirectionalAStar::SearchPath, GetOptimalCost", "planner/src/algo/heuristics.cpp: ObstaclesHeuristic::Update"]}
{"id": "C183", "title": "Where the vehicle can drive there is a walk over free cells", "statement": "When SearchPath of hybrid A* succeeds after an update of the map, from a start that the validator accepts to a goal in the map, with a safe radius for which the path check guarantees a clearance (as in C93) and cells larger than 1 mm, the cells of the start and of the goal are free and joined by a walk over free cells with the moves of the grid planner. So AStarN2 succeeds between these cells for any costs and any heuristic, and the obstacle heuristic updated for this goal has a finite entry for the start. Conversely a failure of the grid planner shows that hybrid A* cannot succeed. The value of the obstacle heuristic is at most the lower direction multiplier times twice the length of any checked drive to the goal, plus two cells for each motion and two more, or the straight-line distance.", "quantifier": "all maps, obstacles, histories of calls, parameters, random draws and successful searches; all costs and heuristics of the grid planner", "why_tests_cant": "it relates every plan in a continuum of poses to the walks on a grid of any size", "anchors": ["planner/src/algo/hybrid_a_star.cpp: HybridAStar::SearchPath", "planner/src/algo/a_star_n2.h: AStarN2", "planner/src/algo/heuristics.cpp: ObstaclesHeuristic::Update", "planner/src/state_validator/state_validator_occupancy_map.cpp: StateValidatorOccupancyMap::IsPathValid"]}
{"id": "C184", "title": "RRT and RRT* over poses keep clear of the obstacles", "statement": "When RRT over poses with straight connections succeeds, with paths checked by the occupancy-map validator after an update of the map, the straight lines that join the states of GetPath keep the guaranteed clearance of the path check (as in C93) from the outline of every registered obstacle. When this clearance is positive they never enter a registered convex polygon that does not contain the initial state, and the cells of the initial and of the last state, when in the map, are joined by a walk over free cells, so that AStarN2 succeeds between them for any costs and any heuristic. For RRT* the same clearance and the same walk hold when the neighbours looked up for a new state include the node it was steered from.", "quantifier": "all samples, maps, obstacles, histories of calls, parameters, trees left by earlier calls and successful searches", "why_tests_cant": "it is about every point of every path that a randomised planner can return, among obstacles of any shape", "anchors": ["planner/src/algo/rrt.h: RRT::SearchPath, GetPath", "planner/src/algo/rrt_star.h: RRTStar::SearchPath, GetPath", "planner/src/paths/path_se2.cpp: PathSE2", "planner/src/state_validator/state_validator_occupancy_map.cpp: StateValidatorOccupancyMap::IsPathValid"]}
