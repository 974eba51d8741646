import Mathlib.Order.Basic

/-!
# Model of the Python interface (interfaces/python/src/pyplanning.cpp)

How C++ calls reach methods of classes that are derived in Python, and the names the module offers. The conversion of
arguments and results between the languages is not modelled: a method is a function of the arguments.
-/

namespace PathPlanning

/-- The virtual functions of the base classes from which Python classes can be derived. -/
inductive PyVirtual
  | planSE2Search | planSE2Path | planN2Search | planN2Path | heuristicValue | heuristicGoal | neighbors | interpolate
  | truncate | direction | cusps | connect | mapUpdate | isOccupied | shapeCells | shapeVertices | isStateValid
  | isPathValid
  deriving DecidableEq

/-- An object of a class derived in Python: its methods by name, each a function of the arguments. -/
structure PyObject (V R : Type) where
  methods : String → Option (List V → R)

/-- What a call returns: the result of a Python method (which may be that it raised an exception, as when it is called with
the wrong number of arguments), the result of the C++ base class, or the exception "Tried to call pure virtual function". -/
inductive PyOutcome (R : Type)
  | python (r : R)
  | base
  | pureVirtual

/-- `PYBIND11_OVERRIDE_PURE` (pybind11.h): the method of that name of the Python object, otherwise an exception. -/
def overridePure {V R : Type} (o : PyObject V R) (name : String) (args : List V) : PyOutcome R :=
  match o.methods name with
  | some f => .python (f args)
  | none => .pureVirtual

/-- `PYBIND11_OVERRIDE` (pybind11.h): the method of that name of the Python object, otherwise the base class. -/
def overrideOrBase {V R : Type} (o : PyObject V R) (name : String) (args : List V) : PyOutcome R :=
  match o.methods name with
  | some f => .python (f args)
  | none => .base

/-- The wrapper classes of interfaces/python/src/pyplanning.cpp: what a C++ call of a virtual function of a Python object
does. -/
def pyCall {V R : Type} (o : PyObject V R) (args : List V) : PyVirtual → PyOutcome R
  | .planSE2Search => overridePure o "SearchPath" args -- pyplanning.cpp:62
  | .planSE2Path => overridePure o "GetPath" args -- pyplanning.cpp:63
  | .planN2Search => overridePure o "SearchPath" args -- pyplanning.cpp:126
  | .planN2Path => overridePure o "GetPath" args -- pyplanning.cpp:127
  | .heuristicValue => overridePure o "GetHeuristicValue" args -- pyplanning.cpp:133
  | .heuristicGoal => overridePure o "SetGoal" args -- pyplanning.cpp:134
  | .neighbors => overridePure o "GetNeighborStates" args -- pyplanning.cpp:147
  | .interpolate => overridePure o "Interpolate" args -- pyplanning.cpp:259
  | .truncate => overridePure o "Truncate" args -- pyplanning.cpp:260
  | .direction => overridePure o "GetDirection" args -- pyplanning.cpp:277
  | .cusps => overrideOrBase o "GetCuspPointRatios" args -- pyplanning.cpp:278
  | .connect => overridePure o "Connect" args -- pyplanning.cpp:298
  | .mapUpdate => overrideOrBase o "Update" args -- pyplanning.cpp:339
  | .isOccupied => overridePure o "IsOccupied" args -- pyplanning.cpp:340
  | .shapeCells => overridePure o "GetGridCellsPosition" args -- pyplanning.cpp:381
  | .shapeVertices => overridePure o "GetVerticesPosition" args -- pyplanning.cpp:385
  | .isStateValid => overridePure o "IsStateValid" args -- pyplanning.cpp:404
  | .isPathValid => overridePure o "IsStateValid" args -- pyplanning.cpp:405

/-- interfaces/python/src/pyplanning.cpp:45-435: the names given to the functions, classes and values of the module, each
with its class (empty for the names of the module itself). -/
def pyNames : List (String × String) :=
  [("", "initialize"), ("", "Status"), ("Status", "SUCCESS"), ("Status", "FAILURE"), ("", "PathPlannerSE2Base"),
    ("PathPlannerSE2Base", "search_path"), ("PathPlannerSE2Base", "get_path"),
    ("PathPlannerSE2Base", "set_init_state"), ("PathPlannerSE2Base", "set_goal_state"),
    ("", "HybridAStarSearchParameters"), ("HybridAStarSearchParameters", "wheelbase"),
    ("HybridAStarSearchParameters", "min_turning_radius"),
    ("HybridAStarSearchParameters", "direction_switching_cost"),
    ("HybridAStarSearchParameters", "reverse_cost_multiplier"),
    ("HybridAStarSearchParameters", "forward_cost_multiplier"),
    ("HybridAStarSearchParameters", "voronoi_cost_multiplier"),
    ("HybridAStarSearchParameters", "num_generated_motion"), ("HybridAStarSearchParameters", "spatial_resolution"),
    ("HybridAStarSearchParameters", "angular_resolution"), ("", "HybridAStarSmootherParameters"),
    ("HybridAStarSmootherParameters", "step_tolerance"), ("HybridAStarSmootherParameters", "max_iterations"),
    ("HybridAStarSmootherParameters", "learning_rate"), ("HybridAStarSmootherParameters", "path_weight"),
    ("HybridAStarSmootherParameters", "smooth_weight"), ("HybridAStarSmootherParameters", "voronoi_weight"),
    ("HybridAStarSmootherParameters", "collision_weight"), ("HybridAStarSmootherParameters", "curvature_weight"),
    ("HybridAStarSmootherParameters", "collision_ratio"), ("HybridAStarSmootherParameters", "max_curvature"),
    ("", "HybridAStarStats"), ("HybridAStarStats", "graph_search_status"), ("HybridAStarStats", "smoothing_status"),
    ("", "SmoothingStatus"), ("SmoothingStatus", "MAX_ITERATION"), ("SmoothingStatus", "STEP_TOLERANCE"),
    ("SmoothingStatus", "PATH_SIZE"), ("SmoothingStatus", "FAILURE"), ("SmoothingStatus", "COLLISION"),
    ("", "HybridAStar"), ("HybridAStar", "initialize"), ("HybridAStar", "path_interpolation"),
    ("HybridAStar", "get_stats"), ("HybridAStar", "get_graph_search_explored_path_set"),
    ("HybridAStar", "get_graph_search_path"), ("HybridAStar", "get_graph_search_optimal_cost"),
    ("HybridAStar", "get_smoothed_path"), ("HybridAStar", "get_search_parameters"),
    ("HybridAStar", "smoother_parameters"), ("HybridAStar", "visualize_obstacle_heuristic"),
    ("", "AStarHeuristicN2"), ("", "AStarHeuristicFcnN2"), ("", "AStarStatePropagatorN2"),
    ("", "AStarStatePropagatorFcnN2"), ("", "PathPlannerN2Base"), ("PathPlannerN2Base", "search_path"),
    ("PathPlannerN2Base", "get_path"), ("PathPlannerN2Base", "set_init_state"),
    ("PathPlannerN2Base", "set_goal_state"), ("", "AStarN2"), ("AStarN2", "initialize"),
    ("AStarN2", "get_explored_states"), ("AStarN2", "get_optimal_cost"), ("", "BidirectionalAStarN2"),
    ("BidirectionalAStarN2", "get_average_heuristic_pair"), ("BidirectionalAStarN2", "initialize"),
    ("BidirectionalAStarN2", "get_explored_states"), ("BidirectionalAStarN2", "get_optimal_cost"), ("", "Point2d"),
    ("Point2d", "x"), ("Point2d", "y"), ("", "Pose2d"), ("Pose2d", "position"), ("Pose2d", "theta"), ("Pose2d", "x"),
    ("Pose2d", "y"), ("", "GridCellPosition"), ("GridCellPosition", "row"), ("GridCellPosition", "col"),
    ("GridCellPosition", "__repr__"), ("", "Steer"), ("Steer", "LEFT"), ("Steer", "STRAIGHT"), ("Steer", "RIGHT"),
    ("", "Direction"), ("Direction", "FORWARD"), ("Direction", "BACKWARD"), ("Direction", "NO_MOTION"),
    ("", "PathSE2Base"), ("PathSE2Base", "get_initial_state"), ("PathSE2Base", "get_final_state"),
    ("PathSE2Base", "interpolate"), ("PathSE2Base", "interpolate"), ("PathSE2Base", "truncate"),
    ("PathSE2Base", "get_length"), ("", "PathSE2"), ("", "PathNonHolonomicSE2Base"),
    ("PathNonHolonomicSE2Base", "get_direction"), ("PathNonHolonomicSE2Base", "get_cusp_point_ratios"),
    ("", "PathReedsShepp"), ("PathReedsShepp", "min_turning_radius"), ("", "PathConstantSteer"),
    ("PathConstantSteer", "steering"), ("", "KinematicBicycleModel"), ("", "PathConnectionSE2Base"),
    ("PathConnectionSE2Base", "connect"), ("", "PathConnectionSE2"), ("", "PathConnectionReedsShepp"),
    ("", "StateSpaceSE2"), ("StateSpaceSE2", "enforce_bounds"), ("StateSpaceSE2", "validate_bounds"),
    ("StateSpaceSE2", "sample_uniform"), ("StateSpaceSE2", "sample_gaussian"), ("StateSpaceSE2", "bounds"),
    ("", "OccupancyMap"), ("OccupancyMap", "initialize_size"), ("OccupancyMap", "rows"), ("OccupancyMap", "columns"),
    ("OccupancyMap", "update"), ("OccupancyMap", "set_position"), ("OccupancyMap", "get_position"),
    ("OccupancyMap", "is_occupied)"), ("OccupancyMap", "get_occupancy_value"),
    ("OccupancyMap", "get_occupancy_value"), ("OccupancyMap", "get_obstacle_map"),
    ("OccupancyMap", "grid_cell_to_local_position"), ("OccupancyMap", "grid_cell_to_world_position"),
    ("OccupancyMap", "local_position_to_grid_cell"), ("OccupancyMap", "local_position_to_world_position"),
    ("OccupancyMap", "world_position_to_grid_cell"), ("OccupancyMap", "world_position_to_local_position"),
    ("OccupancyMap", "is_inside_map"), ("OccupancyMap", "is_inside_map"), ("", "ObstacleListOccupancyMap"),
    ("ObstacleListOccupancyMap", "add_obstacle"), ("ObstacleListOccupancyMap", "remove_obstacle"),
    ("ObstacleListOccupancyMap", "get_num_obstacles"), ("", "Obstacle"), ("Obstacle", "set_shape"),
    ("Obstacle", "set_pose"), ("Obstacle", "get_boundary_grid_cell_position"),
    ("Obstacle", "get_boundary_world_position"), ("", "Shape"), ("", "CompositeShape"), ("CompositeShape", "add"),
    ("", "PolygonShape"), ("", "RegularPolygonShape"), ("", "RectangleShape"), ("", "CircleShape"),
    ("", "StateValidatorSE2Base"), ("StateValidatorSE2Base", "is_state_valid"),
    ("StateValidatorSE2Base", "is_path_valid"), ("StateValidatorSE2Base", "state_space"),
    ("", "StateValidatorSE2Free"), ("", "StateValidatorOccupancyMap"),
    ("StateValidatorOccupancyMap", "get_occupancy_map"),
    ("StateValidatorOccupancyMap", "min_path_interpolation_distance"),
    ("StateValidatorOccupancyMap", "min_safe_radius"), ("", "GVD"), ("GVD", "update"),
    ("GVD", "get_distance_to_nearest_obstacle"), ("GVD", "get_distance_to_nearest_obstacle"),
    ("GVD", "get_distance_to_nearest_obstacle"), ("GVD", "get_distance_to_nearest_voronoi_edge"),
    ("GVD", "get_distance_to_nearest_voronoi_edge"), ("GVD", "get_distance_to_nearest_voronoi_edge"),
    ("GVD", "get_path_cost"), ("GVD", "get_path_cost"), ("GVD", "get_path_cost"), ("GVD", "visualize")]

end PathPlanning
