import Verif.Spec.Grid
import Mathlib.Analysis.SpecialFunctions.Pow.Real

/-!
# Specification of lengths on a grid
-/

namespace PathPlanning.Spec

/-- The straight-line distance of the centres of two cells, in cells. -/
noncomputable def cellDistance (a b : Cell) : ℝ :=
  Real.sqrt (((a.row - b.row : ℤ) : ℝ) ^ 2 + ((a.col - b.col : ℤ) : ℝ) ^ 2)

/-- The length of the way through the centres of the cells. -/
noncomputable def walkLength (cells : List Cell) : ℝ := walkCost cellDistance cells

end PathPlanning.Spec
