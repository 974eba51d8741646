import Verif.Model.MapUpdate
import Verif.Model.OccMap

/-!
# Model of a map whose size is set again
(planner/src/state_validator/occupancy_map.cpp:6-14, gvd.cpp:285-301, state_validator_occupancy_map.cpp:6-13)

Every `StateValidatorOccupancyMap` that is constructed calls `InitializeSize` of its map. The call replaces the
occupancy matrix and the distance map; diagrams (`GVD`) that exist keep the ones they were created with.
-/

namespace PathPlanning

/-- occupancy_map.h:125-137, with the distance maps that diagrams still refer to. -/
structure SizedMap where
  map : OccMap
  /-- The obstacles, the occupancy matrix and the distance map of the map. -/
  cur : MapState
  /-- The matrices and distance maps that were replaced, oldest first. -/
  old : List ((Cell → Int) × ObstDistMap)
  /-- gvd.cpp:290-291: for each diagram, the number of the distance map it refers to (in the order of creation). -/
  diagrams : List Nat

namespace SizedMap

/-- A map after its first `InitializeSize`; `m` is its frame. -/
def start (m : OccMap) : SizedMap := ⟨m, .new m.rows m.columns, [], []⟩

/-- A public call. `InitializeSize` moves the frame of the map, so that the obstacles get other cells, which `cells`
gives (obstacle.cpp:124-129). -/
inductive Op where
  | size (width height : ℝ) (cells : Nat → List Cell)
  | on (op : MapState.Op)
  | diagram
  | updateDiagram (i : Nat)

/-- The possible effects of a call. -/
inductive Call : SizedMap → Op → SizedMap → Prop
  /-- occupancy_map.cpp:6-14 -/
  | size {s w h cells m f} : s.map.initializeSize w h = some m → s.cur.obs.matrix = some f →
      Call s (.size w h cells)
        ⟨m, ⟨{ s.cur.obs.initializeSize with boundary := cells }, .new m.rows m.columns⟩,
          s.old ++ [(f, s.cur.dist)], s.diagrams⟩
  /-- The calls of `MapState`. -/
  | on {s op c} : MapState.Call s.cur op c → Call s (.on op) { s with cur := c }
  /-- gvd.cpp:285-292, the constructor of `GVD`. -/
  | diagram {s c} : MapState.Call s.cur .link c →
      Call s .diagram { s with cur := c, diagrams := s.diagrams ++ [s.old.length] }
  /-- gvd.cpp:294-301, `GVD::Update`, for a diagram of the distance map in use. -/
  | updateCurrent {s i c c'} : s.diagrams[i]? = some s.old.length → MapState.Call s.cur .update c →
      MapState.Call c .updateEdges c' → Call s (.updateDiagram i) { s with cur := c' }
  /-- gvd.cpp:294-301, `GVD::Update`, for a diagram of a distance map that was replaced; this map reads the matrix
  that was replaced with it (gvd.cpp:19-28). -/
  | updateOld {s i k f d d1 d2} : s.diagrams[i]? = some k → s.old[k]? = some (f, d) →
      ObstDistMap.Call d (.update f) d1 → ObstDistMap.Call d1 .updateEdges d2 →
      Call s (.updateDiagram i) { s with old := s.old.set k (f, d2) }

/-- The possible effects of a history of calls. -/
inductive Run : SizedMap → List Op → SizedMap → Prop
  | nil {s} : Run s [] s
  | snoc {s s' s'' os o} : Run s os s' → Call s' o s'' → Run s (os ++ [o]) s''

/-- The distance map a diagram refers to. -/
def diagramMap (s : SizedMap) (i : Nat) : Option ObstDistMap :=
  match s.diagrams[i]? with
  | none => none
  | some k => if k = s.old.length then some s.cur.dist else (s.old[k]?).map (·.2)

/-- gvd.cpp:321-328, `GetDistanceToNearestObstacle` of a position (squared, in cells): the frame is that of the map,
the distance that of the diagram's map. `none` is an access outside the matrix, or a diagram that does not exist. -/
noncomputable def diagramDistance (s : SizedMap) (i : Nat) (p : Pt) (out : WithTop Nat) : Option (Bool × WithTop Nat) :=
  let cell := s.map.worldPositionToGridCell p false
  match s.diagramMap i with
  | none => none
  | some d => if s.map.isInsideCell cell then (d.core.read d.core.dist cell).map fun v => (true, v) else some (false, out)

end SizedMap
end PathPlanning
