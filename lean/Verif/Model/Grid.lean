import Verif.Model.AStar

/-!
# Model of grid cells and of the planar grid propagator
(planner/src/utils/grid.h, utils/grid.cpp, algo/a_star_n2.h, algo/a_star_n2.cpp)

`int` is modelled by unbounded integers.
-/

namespace PathPlanning

/-- utils/grid.h:8-21, `GridCellPosition`; equality is grid.cpp:6-9. -/
@[ext] structure Cell where
  row : Int
  col : Int
  deriving DecidableEq, Repr

namespace Cell

/-- utils/grid.h:13-14: the default constructed (invalid) position. -/
def invalid : Cell := ⟨-1, -1⟩

/-- utils/grid.h:16. -/
def isValid (c : Cell) : Bool := decide (c.row ≥ 0) && decide (c.col ≥ 0)

/-- utils/grid.cpp:16-50, `GetNeighbors`. -/
def getNeighbors (c : Cell) (rows columns : Int) : List Cell :=
  if !c.isValid then []
  else
    let left := decide (c.col - 1 ≥ 0)
    let right := decide (c.col + 1 < columns)
    let bottom := decide (c.row - 1 ≥ 0)
    let top := decide (c.row + 1 < rows)
    (if left then
      [⟨c.row, c.col - 1⟩] ++ (if bottom then [⟨c.row - 1, c.col - 1⟩] else []) ++
        (if top then [⟨c.row + 1, c.col - 1⟩] else [])
     else []) ++
    (if right then
      [⟨c.row, c.col + 1⟩] ++ (if bottom then [⟨c.row - 1, c.col + 1⟩] else []) ++
        (if top then [⟨c.row + 1, c.col + 1⟩] else [])
     else []) ++
    (if bottom then [⟨c.row - 1, c.col⟩] else []) ++
    (if top then [⟨c.row + 1, c.col⟩] else [])

/-- utils/grid.cpp:52-62, `IsAdjacentTo` (the debug assertion on validity is a precondition). -/
def isAdjacentTo (c d : Cell) : Bool :=
  if c = d then false
  else
    let deltaRow := c.row - d.row
    let deltaCol := c.col - d.col
    (decide (deltaRow ≥ -1) && decide (deltaRow ≤ 1)) &&
      (decide (deltaCol ≥ -1) && decide (deltaCol ≤ 1))

/-- utils/grid.cpp:64-69, `IsDiagonalTo` (the debug assertion on validity is a precondition). -/
def isDiagonalTo (c d : Cell) : Bool := decide (c.row ≠ d.row) && decide (c.col ≠ d.col)

end Cell

/-- What the grid planner sees of an `OccupancyMap` (state_validator/occupancy_map.h:32-46): its
size and the answer of `IsOccupied` for each cell of the matrix. -/
structure GridMap where
  rows : Int
  columns : Int
  occ : Cell → Bool

namespace GridMap

/-- occupancy_map.cpp:27-30, `IsInsideMap(cell)`. -/
def isInsideMap (m : GridMap) (c : Cell) : Bool :=
  decide (c.row ≥ 0) && decide (c.row < m.rows) && decide (c.col ≥ 0) && decide (c.col < m.columns)

/-- obstacle_list_occupancy_map.cpp:63-69, `IsOccupied`: an unchecked matrix access; `none` is an
access outside the matrix. -/
def isOccupied (m : GridMap) (c : Cell) : Option Bool :=
  if m.isInsideMap c then some (m.occ c) else none

end GridMap

namespace N2
variable {C : Type}

/-- algo/a_star_n2.cpp:19-23: is the neighbour `n` of `cell` skipped? `&&` is short circuiting. -/
def skipped (m : GridMap) (cell n : Cell) : Option Bool := do
  if ← m.isOccupied n then return true
  if n.isDiagonalTo cell then
    if ← m.isOccupied ⟨n.row, cell.col⟩ then
      if ← m.isOccupied ⟨cell.row, n.col⟩ then return true
  return false

/-- algo/a_star_n2.cpp:18-27, the loop over the neighbours. -/
def neighborLoop (m : GridMap) (pathCost : Cell → Cell → C) (cell : Cell) :
    List Cell → Option (List (Cell × Unit × C))
  | [] => some []
  | n :: ns => do
    let s ← skipped m cell n
    let rest ← neighborLoop m pathCost cell ns
    return if s then rest else (n, (), pathCost cell n) :: rest

/-- algo/a_star_n2.cpp:12-28, `GetNeighborStates`; `none` is an access outside the matrix. -/
def getNeighborStates (m : GridMap) (pathCost : Cell → Cell → C) (cell : Cell) :
    Option (List (Cell × Unit × C)) :=
  neighborLoop m pathCost cell (cell.getNeighbors m.rows m.columns)

/-- algo/a_star_n2.h:26-34 with a_star.h:65-79: the search problem of `AStarN2`. Simplification:
from a cell outside the map, where the code may access the matrix out of bounds, the propagator is
given the value `[]`; C19 shows that no such access happens from a cell inside the map, and C20
that only such cells are expanded. -/
def problem [LinearOrder C] [Add C] [Zero C] (m : GridMap) (pathCost heur : Cell → Cell → C)
    (goal : Cell) : Problem Cell Unit C :=
  { eqS := fun a b => decide (a = b)
    nbrs := fun _ c =>
      if m.isInsideMap c then (getNeighborStates m pathCost c).getD [] else []
    h := fun c => heur c goal
    isSol := fun c => decide (c = goal) }

end N2
end PathPlanning
