import Verif.Model.OccMap
import Verif.Model.DistMapInt

/-!
# Model of rasterisation with 32 bit integers (planner/src/state_validator/obstacle.cpp:7-61, 77-85)

The same functions as `Verif.Model.Raster` and `Verif.Model.OccMap`, with the types of the code: an operation on `int` whose
result is not an `int`, and the conversion to `int` of a number out of range, are undefined (`none`). Positions are real
numbers, as in `Verif.Model.OccMap`. The memory of the list of cells is not bounded.
-/

namespace PathPlanning.Raster

/-- obstacle.cpp:49-60, the loop `for (int x = x0; x <= x1; x++)`; the first argument is the number of iterations left. -/
def lineLoopI (rows columns : Int) (steep : Bool) (dx dy ystep : Int) :
    Nat → (x y err : Int) → Option (List Cell)
  | 0, _, _, _ => some []
  | k + 1, x, y, err => do
    let c : Cell := if steep then ⟨y, x⟩ else ⟨x, y⟩
    let err ← ckInt (err - dy)
    let next : Option (List Cell) :=
      if err < 0 then do
        let y ← ckInt (y + ystep)
        let err ← ckInt (err + dx)
        let x ← ckInt (x + 1)
        lineLoopI rows columns steep dx dy ystep k x y err
      else do
        let x ← ckInt (x + 1)
        lineLoopI rows columns steep dx dy ystep k x y err
    next.map fun rest => if c.row ≥ 0 && c.row < rows && c.col ≥ 0 && c.col < columns then c :: rest else rest

/-- `abs` of an `int`; that of the least `int` is undefined. -/
def absI (x : Int) : Option Int := ckInt |x|

/-- obstacle.cpp:42-60. -/
def lineI (rows columns : Int) (steep : Bool) (x0 y0 x1 y1 : Int) : Option (List Cell) := do
  let dx ← ckInt (x1 - x0)
  let dy ← absI (← ckInt (y1 - y0))
  let err ← ckInt (dx.tdiv 2)
  let ystep : Int := if y0 < y1 then 1 else -1
  lineLoopI rows columns steep dx dy ystep (x1 - x0 + 1).toNat x0 y0 err

/-- obstacle.cpp:31-40. -/
def orderEndsI (rows columns : Int) (steep : Bool) (x0 y0 x1 y1 : Int) : Option (List Cell) :=
  if x0 > x1 then lineI rows columns steep x1 y1 x0 y0
  else lineI rows columns steep x0 y0 x1 y1

/-- obstacle.cpp:13-60 (19: the differences of both coordinates are computed). -/
def rasterCellsI (rows columns : Int) (p0 p1 : Cell) : Option (List Cell) := do
  let a ← absI (← ckInt (p1.col - p0.col))
  let b ← absI (← ckInt (p1.row - p0.row))
  let steep := decide (a > b)
  if steep then orderEndsI rows columns steep p0.col p0.row p1.col p1.row
  else orderEndsI rows columns steep p0.row p0.col p1.row p1.col

end PathPlanning.Raster

namespace PathPlanning.Shape

/-- occupancy_map.h:106-117, 175-183, for an unbounded cell: the conversions to `int`. -/
noncomputable def cellI (m : OccMap) (p : Pt) : Option Cell := do
  let c := m.worldPositionToGridCell p false
  let row ← ckInt c.row
  let col ← ckInt c.col
  return ⟨row, col⟩

/-- obstacle.cpp:7-61, `RasterizeLine`. -/
noncomputable def rasterizeLineI (m : OccMap) (p0 p1 : Pt) : Option (List Cell) := do
  let c0 ← cellI m p0
  let c1 ← cellI m p1
  Raster.rasterCellsI m.rows m.columns c0 c1

/-- obstacle.cpp:83-84, the loop over the edges. -/
noncomputable def edgeLoopI (m : OccMap) (vs : List Pt) : List Nat → Option (List Cell)
  | [] => some []
  | i :: is => do
    let a ← vs[i % vs.length]?
    let b ← vs[(i + 1) % vs.length]?
    let cells ← rasterizeLineI m a b
    let rest ← edgeLoopI m vs is
    return cells ++ rest

mutual
/-- obstacle.cpp:63-68, 77-85, `GetGridCellsPosition`. -/
noncomputable def gridCellsI (m : OccMap) (pose : PoseR) : Shape → Option (List Cell)
  | polygon vertices =>
    let vs := vertices.map (place pose)
    edgeLoopI m vs (List.range vertices.length)
  | composite children => gridCellsListI m pose children
/-- The loop of `CompositeShape::GetGridCellsPosition` (obstacle.cpp:65-67). -/
noncomputable def gridCellsListI (m : OccMap) (pose : PoseR) : List Shape → Option (List Cell)
  | [] => some []
  | c :: cs => do
    let a ← gridCellsI m pose c
    let b ← gridCellsListI m pose cs
    return a ++ b
end

end PathPlanning.Shape
