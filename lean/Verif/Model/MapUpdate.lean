import Verif.Model.DistMap
import Verif.Model.ObstacleMap

/-!
# Model of the occupancy map with its distance map
(planner/src/state_validator/obstacle_list_occupancy_map.cpp, occupancy_map.cpp, gvd.cpp)

`AddObstacle` and `RemoveObstacle` write the occupancy matrix and call the distance map; `Update` lets the
distances spread.
-/

namespace PathPlanning

/-- occupancy_map.h:129-132 and obstacle_list_occupancy_map.h:25-27: the obstacles with the occupancy matrix, and
the distance map with its linked Voronoi map. -/
structure MapState where
  obs : ObsMap
  dist : ObstDistMap

namespace MapState

/-- occupancy_map.cpp:6-14, the map after `InitializeSize`, before any obstacle. -/
def new (rows columns : Int) : MapState := ⟨ObsMap.new.initializeSize, .new rows columns⟩

/-- A public call: on the list of obstacles (or on an obstacle), `GetVoronoiDistanceMap`, `Update` of the map,
`Update` of the Voronoi map. -/
inductive Op where
  | obstacle (o : ObsMap.Op)
  | link
  | update
  | updateEdges

/-- A call on the distance map (obstacle_list_occupancy_map.cpp:39, 57). -/
def distOp : DistCall → ObstDistMap.Op
  | .set c => .set c
  | .unset c => .unset c

/-- The possible effects of a call. An obstacle call makes the calls on the distance map that it adds to
`distCalls`; `Update` reads the current matrix (occupancy_map.cpp:13, 16-19). -/
inductive Call : MapState → Op → MapState → Prop
  | obstacle {s o m d calls} : s.obs.call o = some m → m.distCalls = s.obs.distCalls ++ calls →
      ObstDistMap.Run s.dist (calls.map distOp) d → Call s (.obstacle o) ⟨m, d⟩
  | link {s d} : ObstDistMap.Call s.dist .link d → Call s .link { s with dist := d }
  | update {s d f} : s.obs.matrix = some f → ObstDistMap.Call s.dist (.update f) d →
      Call s .update { s with dist := d }
  | updateEdges {s d} : ObstDistMap.Call s.dist .updateEdges d → Call s .updateEdges { s with dist := d }

/-- The possible effects of a history of calls. -/
inductive Run : MapState → List Op → MapState → Prop
  | nil {s} : Run s [] s
  | snoc {s s' s'' os o} : Run s os s' → Call s' o s'' → Run s (os ++ [o]) s''

end MapState
end PathPlanning
