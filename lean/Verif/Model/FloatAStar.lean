import Verif.Model.Grid
import Verif.Lemmas.Float
import Mathlib.Analysis.Real.Sqrt

/-!
# Costs of A* with the arithmetic of the program (planner/src/algo/a_star.h), and the distances of the example of the grid
planner
-/

namespace PathPlanning
open Flt

/-- The `double`s (without overflow, see `Verif.Model.Float`), the cost type of the planners (a_star.h:26, 44). -/
abbrev Double : Type := { x : ℝ // IsFlt 53 x }

/-- Addition of `double`s. -/
noncomputable instance : Add Double := ⟨fun a b => ⟨fl64 (a.1 + b.1), isFlt_fl 53 (by norm_num) _⟩⟩

/-- The `double` 0. -/
noncomputable instance : Zero Double := ⟨⟨0, fl_zero 53⟩⟩

/-- The straight-line distance of two cells as computed in `double`: the integer sum of squares is converted to `double` and
its square root is rounded. (The cost and the heuristic of the example of the grid planner,
interfaces/python/scripts/example_a_star_grid.py:47-53.) -/
noncomputable def N2.distanceF (a b : Cell) : Double :=
  ⟨fl64 (√(fl64 (((a.row - b.row) ^ 2 + (a.col - b.col) ^ 2 : ℤ) : ℝ))), isFlt_fl 53 (by norm_num) _⟩

end PathPlanning
