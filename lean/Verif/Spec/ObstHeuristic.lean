import Verif.Spec.Grid

/-! # Specification of grid distances -/

namespace PathPlanning.Spec

/-- The length of a move: `diag` for a diagonal move, 1 for another one. -/
def moveLength {K : Type} [One K] (diag : K) (a b : Cell) : K :=
  if a.row ≠ b.row ∧ a.col ≠ b.col then diag else 1

end PathPlanning.Spec
