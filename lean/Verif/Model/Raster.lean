import Verif.Model.Grid
import Mathlib.Algebra.Order.Group.Int
import Mathlib.Algebra.Order.Group.Abs

/-!
# Model of line rasterisation (planner/src/state_validator/obstacle.cpp:7-61)

The integer part of `RasterizeLine`, after the end points have been converted to cells.
-/

namespace PathPlanning.Raster

/-- obstacle.cpp:49-60, the loop `for (x = x0; x <= x1; x++)`; the first argument is the number of
iterations left, `x1 - x + 1`. -/
def lineLoop (rows columns : Int) (steep : Bool) (dx dy ystep : Int) :
    Nat → (x y err : Int) → List Cell
  | 0, _, _, _ => []
  | k + 1, x, y, err =>
    let c : Cell := if steep then ⟨y, x⟩ else ⟨x, y⟩
    let err := err - dy
    let rest :=
      if err < 0 then lineLoop rows columns steep dx dy ystep k (x + 1) (y + ystep) (err + dx)
      else lineLoop rows columns steep dx dy ystep k (x + 1) y err
    if c.row ≥ 0 && c.row < rows && c.col ≥ 0 && c.col < columns then c :: rest else rest

/-- obstacle.cpp:42-60: the line once the end points are ordered along the dominant axis. -/
def line (rows columns : Int) (steep : Bool) (x0 y0 x1 y1 : Int) : List Cell :=
  let dx := x1 - x0
  let dy := |y1 - y0|
  let ystep : Int := if y0 < y1 then 1 else -1
  lineLoop rows columns steep dx dy ystep (x1 - x0 + 1).toNat x0 y0 (dx.tdiv 2)

/-- obstacle.cpp:31-40: swap the end points if needed. -/
def orderEnds (rows columns : Int) (steep : Bool) (x0 y0 x1 y1 : Int) : List Cell :=
  if x0 > x1 then line rows columns steep x1 y1 x0 y0
  else line rows columns steep x0 y0 x1 y1

/-- obstacle.cpp:9-61: the cells appended by `RasterizeLine` for end points in the cells `p0`, `p1`
(19-29: swap the coordinates if the line is steep). -/
def rasterCells (rows columns : Int) (p0 p1 : Cell) : List Cell :=
  let steep := decide (|p1.col - p0.col| > |p1.row - p0.row|)
  if steep then orderEnds rows columns steep p0.col p0.row p1.col p1.row
  else orderEnds rows columns steep p0.row p0.col p1.row p1.col

end PathPlanning.Raster
