import Verif.Model.FloatRRT

/-!
# Model of the straight paths of poses with the arithmetic of the program (planner/src/paths/path_se2.cpp)

Same functions as in `Verif.Model.Path`, with each operation rounded to a `double`.
-/

namespace PathPlanning
open Flt

namespace PathSE2

/-- path_se2.cpp:5-9 -/
noncomputable def connectF (a b : PoseR) : PathSE2 := ⟨a, b, ObstHeuristic.euclideanF b.position a.position⟩

/-- path_se2.cpp:11-17, `Interpolate`. -/
noncomputable def interpolateF (p : PathSE2) (ratio : ℝ) : PoseR :=
  ⟨⟨fl64 (fl64 (fl64 (1 - ratio) * p.init.position.x) + fl64 (ratio * p.final.position.x)),
    fl64 (fl64 (fl64 (1 - ratio) * p.init.position.y) + fl64 (ratio * p.final.position.y))⟩,
    fl64 (fl64 (fl64 (1 - ratio) * p.init.theta) + fl64 (ratio * p.final.theta))⟩

/-- path_se2.cpp:19-23, `Truncate`. -/
noncomputable def truncateF (p : PathSE2) (ratio : ℝ) : PathSE2 :=
  { p with final := p.interpolateF ratio, length := fl64 (p.length * ratio) }

end PathSE2
end PathPlanning
