import Verif.Model.GVD

/-!
# Model of the queries for Voronoi edges by world position (planner/src/state_validator/gvd.cpp)
-/

namespace PathPlanning.GVD

/-- gvd.cpp:312-319, gvd.h:127-130, `GetNearestVoronoiEdgePosition`; `none` without the map of the edges. -/
noncomputable def nearestEdgePosition (g : GVD) (p out : Pt) : Option (Bool × Pt) :=
  g.maps.edges.map fun e => g.query (fun c => g.map.gridCellToWorldPosition (e.obst c)) p out

/-- gvd.cpp:330-337, gvd.h:139-142, `GetDistanceToNearestVoronoiEdge`; `none` without the map of the edges. -/
noncomputable def distanceToEdge (g : GVD) (p : Pt) (out : ℝ) : Option (Bool × ℝ) :=
  g.maps.edges.map fun e => g.query (fun c => worldDistance g.map.resolution (e.dist c)) p out

end PathPlanning.GVD
