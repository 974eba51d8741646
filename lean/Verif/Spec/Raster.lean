import Verif.Spec.Grid
import Mathlib.Data.List.Chain

/-!
# Specification of a digital line
-/

namespace PathPlanning.Spec

/-- Twice the signed area spanned by `a b c`: zero iff `c` is on the straight line `ab`. -/
def cross (a b c : Cell) : Int :=
  (b.row - a.row) * (c.col - a.col) - (b.col - a.col) * (c.row - a.row)

/-- `L` is a digital straight line from `a` to `b`: it has one cell per step along the dominant axis,
starts in `a`, ends in `b`, advances by king moves, and no cell is more than half a cell (measured
along the minor axis) away from the ideal line. -/
structure DigitalLine (a b : Cell) (L : List Cell) : Prop where
  first : L.head? = some a
  last : L.getLast? = some b
  length : (L.length : Int) = chebyshev a b + 1
  step : L.IsChain (fun u v => chebyshev u v = 1)
  near : ∀ c ∈ L, 2 * |cross a b c| ≤ chebyshev a b
  between : ∀ c ∈ L, min a.row b.row ≤ c.row ∧ c.row ≤ max a.row b.row ∧
    min a.col b.col ≤ c.col ∧ c.col ≤ max a.col b.col

end PathPlanning.Spec
