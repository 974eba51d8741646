import Verif.Model.DistMap
import Verif.Model.OccMap
import Mathlib.Analysis.SpecialFunctions.Sqrt

/-!
# Model of the Voronoi potential (planner/src/state_validator/gvd.h, gvd.cpp: `GVD`, `PathCostMap`)

Distances and costs are real numbers. `std::sqrt(INT_MAX)` is finite, so the test
`voroDist == infinity` (gvd.cpp:274) is never true; it is left out.
-/

namespace PathPlanning

/-- gvd.h:38, 78: a squared distance in cells as a distance in the world. -/
noncomputable def worldDistance (resolution : ℝ) (d : WithTop Nat) : ℝ :=
  √((ObstDistMap.toInt d : Int) : ℝ) * resolution

/-- gvd.cpp:272-280, the value of a cell of the path cost map. -/
noncomputable def voronoiCost (alpha dMax obstDist voroDist : ℝ) : ℝ :=
  if obstDist ≥ dMax then 0
  else (alpha / (alpha + obstDist)) * (voroDist / (obstDist + voroDist)) * ((obstDist - dMax) ^ 2 / dMax ^ 2)

/-- gvd.h:178-187. `maps` are the obstacle map of the occupancy map and its Voronoi map (gvd.cpp:290-291). -/
structure GVD where
  map : OccMap
  maps : ObstDistMap
  cost : Cell → ℝ

namespace GVD

/-- gvd.h:181 -/
def alpha : ℝ := 20
/-- gvd.h:181 -/
def dMax : ℝ := 30

/-- gvd.cpp:266-283, `PathCostMap::Update`. -/
noncomputable def updateCost (g : GVD) (e : DistMap) : Cell → ℝ := fun c =>
  if g.maps.core.inside c then
    voronoiCost alpha dMax (worldDistance g.map.resolution (g.maps.core.dist c))
      (worldDistance g.map.resolution (e.dist c))
  else g.cost c

/-- gvd.cpp:294-301, `Update`: the possible results. -/
def Update (occ : Cell → Int) (g g' : GVD) : Prop :=
  ∃ m1 e1 e2, ObstDistMap.Update occ g.maps m1 ∧ m1.edges = some e1 ∧ DistMap.Update e1 e2 ∧
    g' = { g with
      maps := { m1 with edges := some e2 }
      cost := updateCost { g with maps := m1 } e2 }

/-- gvd.cpp:303-345, the five queries by world position, which differ only in the value `f` of the cell:
the returned Boolean and the value of the output argument, `out` before the call. -/
noncomputable def query {α : Type} (g : GVD) (f : Cell → α) (p : Pt) (out : α) : Bool × α :=
  let cell := g.map.worldPositionToGridCell p false
  if g.map.isInsideCell cell then (true, f cell) else (false, out)

/-- gvd.cpp:303-310 -/
noncomputable def nearestObstaclePosition (g : GVD) (p out : Pt) : Bool × Pt :=
  g.query (fun c => g.map.gridCellToWorldPosition (g.maps.core.obst c)) p out

/-- gvd.cpp:321-328 -/
noncomputable def distanceToObstacle (g : GVD) (p : Pt) (out : ℝ) : Bool × ℝ :=
  g.query (fun c => worldDistance g.map.resolution (g.maps.core.dist c)) p out

/-- gvd.cpp:339-346 -/
noncomputable def pathCost (g : GVD) (p : Pt) (out : ℝ) : Bool × ℝ := g.query g.cost p out

end GVD
end PathPlanning
