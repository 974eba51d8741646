import Verif.Model.FloatValidator
import Verif.Model.GVD

/-!
# Model of the Voronoi potential with the arithmetic of the program
(planner/src/state_validator/gvd.h, gvd.cpp)

Same functions as in `Verif.Model.GVD`, with each operation rounded to the type in which C++ computes it. Distances, `alpha`
and `dMax` are `float`; `std::pow` of a `float` and an `int` is a `double`. The square of a `float` is a `double`, so
`std::pow` is supposed to return it. Division by zero gives 0 here; `C133_potential_map` shows that none is performed.
-/

namespace PathPlanning
open Flt

/-- gvd.cpp:272-280, the value of a cell of the path cost map. -/
noncomputable def voronoiCostF (alpha dMax obstDist voroDist : ℝ) : ℝ :=
  if obstDist ≥ dMax then 0
  else
    let far := fl32 (alpha / fl32 (alpha + obstDist))
    let edge := fl32 (voroDist / fl32 (obstDist + voroDist))
    let near := fl64 (fl64 (fl32 (obstDist - dMax) ^ 2) / fl64 (dMax ^ 2))
    fl32 (fl64 (fl32 (far * edge) * near))

namespace GVD

/-- gvd.cpp:266-283, `PathCostMap::Update`. -/
noncomputable def updateCostF (g : GVD) (e : DistMap) : Cell → ℝ := fun c =>
  if g.maps.core.inside c then
    voronoiCostF alpha dMax (worldDistanceF g.map.resolution (g.maps.core.dist c))
      (worldDistanceF g.map.resolution (e.dist c))
  else g.cost c

/-- gvd.cpp:294-301, `Update`: the possible results. -/
def UpdateF (occ : Cell → Int) (g g' : GVD) : Prop :=
  ∃ m1 e1 e2, ObstDistMap.Update occ g.maps m1 ∧ m1.edges = some e1 ∧ DistMap.Update e1 e2 ∧
    g' = { g with
      maps := { m1 with edges := some e2 }
      cost := updateCostF { g with maps := m1 } e2 }

end GVD
end PathPlanning
