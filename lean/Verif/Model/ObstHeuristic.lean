import Verif.Model.Grid
import Verif.Model.Pose
import Mathlib.Algebra.Order.Monoid.Unbundled.WithTop

/-!
# Model of `ObstaclesHeuristic` (planner/src/algo/heuristics.h:50-98, heuristics.cpp:92-166)

`K` is the type of the finite costs (`float`, `diag` the constant `sqrt(2.0f)`); `⊤` is infinity.
-/

namespace PathPlanning

/-- heuristics.h:94-96, the tables. -/
structure HeurTables (K : Type) where
  cost : Cell → WithTop K
  explored : Cell → Bool

/-- utils/grid.h:41-49, `GridCell<float>`. -/
abbrev ValuedCell (K : Type) := Cell × WithTop K

namespace ObstHeuristic
variable {K : Type} [LinearOrder K] [Add K] [Zero K] [One K]

/-- heuristics.h:52-57, `CompareCell` (utils/grid.h:57-61). -/
def compareCell (lhs rhs : ValuedCell K) : Bool := decide (lhs.2 > rhs.2)

/-- heuristics.h:66-71, `EqualCell`. -/
def equalCell (lhs rhs : ValuedCell K) : Bool := decide (lhs.1 = rhs.1)

/-- The variables of `Update`. -/
structure State (K : Type) where
  frontier : Frontier (ValuedCell K)
  tables : HeurTables K

/-- Assignment to an element of a grid. -/
def setCell {V : Type} (f : Cell → V) (c : Cell) (v : V) : Cell → V := fun d => if d = c then v else f d

/-- heuristics.cpp:124-128: is the neighbour skipped? `none` is an access outside the matrix. -/
def skipped (m : GridMap) (cell n : Cell) : Option Bool := do
  if ← m.isOccupied n then return true
  if n.isDiagonalTo cell then
    if ← m.isOccupied ⟨n.row, cell.col⟩ then
      if ← m.isOccupied ⟨cell.row, n.col⟩ then return true
  return false

/-- Read an element of a matrix of the size of the map; `none` is an access outside the matrix. -/
def read {V : Type} (m : GridMap) (f : Cell → V) (c : Cell) : Option V :=
  if m.isInsideMap c then some (f c) else none

/-- heuristics.cpp:130. -/
def transitionCost (diag : K) (cell n : Cell) : K :=
  if cell.row = n.row ∨ cell.col = n.col then 1 else diag

/-- heuristics.cpp:123-148, the body of the loop over the neighbours. -/
def relax (m : GridMap) (diag : K) (cell : Cell) (s : State K) (n : Cell) : Option (State K) := do
  if ← skipped m cell n then return s
  let pathCost := ((transitionCost diag cell n : K) : WithTop K) + (← read m s.tables.cost cell)
  let inFrontier := s.frontier.find equalCell (n, 0)
  let inExplored ← read m s.tables.explored n
  match inFrontier with
  | none =>
    if inExplored then return s
    else return ⟨(s.frontier.push compareCell equalCell (n, pathCost)).1,
      { s.tables with cost := setCell s.tables.cost n pathCost }⟩
  | some e =>
    if e.2 > s.tables.cost n then
      return ⟨(((s.frontier.remove compareCell equalCell (n, 0)).1).push compareCell equalCell (n, pathCost)).1,
        { s.tables with cost := setCell s.tables.cost n pathCost }⟩
    else return s

/-- heuristics.cpp:123-149, the loop over the neighbours. -/
def relaxAll (m : GridMap) (diag : K) (cell : Cell) : State K → List Cell → Option (State K)
  | s, [] => some s
  | s, n :: ns => do relaxAll m diag cell (← relax m diag cell s n) ns

/-- heuristics.cpp:120-149, one turn of the main loop (`Pop` of an empty frontier is undefined). -/
def turn (m : GridMap) (diag : K) (s : State K) : Option (State K) := do
  let (frontier, e) ← s.frontier.pop equalCell
  let cell := e.1
  let _ ← read m s.tables.explored cell
  relaxAll m diag cell ⟨frontier, { s.tables with explored := setCell s.tables.explored cell true }⟩
    (cell.getNeighbors m.rows m.columns)

/-- heuristics.cpp:119-150, the main loop; `none` is an access outside a matrix or a loop that does
not end. -/
def loop (m : GridMap) (diag : K) (s : State K) : Option (State K) :=
  if s.frontier.isEmpty then some s
  else do loop m diag (← turn m diag s)
partial_fixpoint

/-- heuristics.cpp:104-109, the tables after the first loops (a matrix has no element outside the
map). -/
def cleared : HeurTables K := ⟨fun _ => ⊤, fun _ => false⟩

/-- heuristics.cpp:115-117, before the main loop. -/
def start (cell : Cell) : State K :=
  ⟨(Frontier.empty.push compareCell equalCell (cell, 0)).1,
    { (cleared : HeurTables K) with cost := setCell (cleared : HeurTables K).cost cell 0 }⟩

/-- heuristics.cpp:102-151, `Update`, for the cell of the goal. The accesses to the start cell on
line 117 are checked by the first turn of the loop. -/
def update (m : GridMap) (diag : K) (cell : Cell) : Option (HeurTables K) :=
  if !cell.isValid then some cleared
  else (loop m diag (start cell)).map State.tables

end ObstHeuristic

/-- heuristics.cpp:102-151, `Update`, for a goal in the world. -/
noncomputable def ObstHeuristic.updatePose (frame : OccMap) (occ : Cell → Bool) (diag : ℝ) (goal : PoseR) :
    Option (HeurTables ℝ) :=
  ObstHeuristic.update ⟨frame.rows, frame.columns, occ⟩ diag (frame.worldPositionToGridCell goal.position true)

/-- heuristics.cpp:92-94, 153-163, `GetHeuristicValue`; `none` is an access outside a matrix, or an
infinite value. -/
noncomputable def ObstHeuristic.getHeuristicValue (frame : OccMap) (reverseCost forwardCost : ℝ)
    (t : HeurTables ℝ) (goal state : PoseR) : Option ℝ :=
  let diagonalResolution := √2 * frame.resolution
  let costMultiplier := min reverseCost forwardCost * frame.resolution
  let d := goal.position - state.position
  let euclidean := √(d.x ^ 2 + d.y ^ 2)
  let cell := frame.worldPositionToGridCell state.position true
  if !cell.isValid then some euclidean
  else if !frame.isInsideCell cell then none
  else if !t.explored cell then some euclidean
  else match t.cost cell with
    | ⊤ => none
    | (c : ℝ) => some (max (c * costMultiplier - diagonalResolution) euclidean)

end PathPlanning
