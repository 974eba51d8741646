import Verif.Model.Grid

/-!
# Model of `ObstacleListOccupancyMap`
(planner/src/state_validator/obstacle_list_occupancy_map.h/.cpp)

An obstacle object is identified by a number (the `Ref` used as key of the map). What matters of an
obstacle is the list of cells returned by `GetBoundaryGridCellPosition` (obstacle.cpp:124-129), which
the owner of the object can change at any time through `SetShape` / `SetPose` (obstacle.h:93-94).
These cells are always inside the matrix (C32, C33), so matrix accesses are in range.
-/

namespace PathPlanning

/-- A call made on the obstacle distance map. -/
inductive DistCall where
  | set (c : Cell)
  | unset (c : Cell)
  deriving DecidableEq, Repr

/-- obstacle_list_occupancy_map.h:25-27 and occupancy_map.h:129-132. -/
structure ObsMap where
  /-- `m_occupancyMatrix`; `none` is the null pointer before `InitializeSize`. -/
  matrix : Option (Cell → Int)
  /-- `m_obstacles` -/
  obstacles : List (Nat × Nat)
  /-- `m_obstacleIDs`, a sorted set. -/
  ids : List Nat
  /-- The boundary cells of each obstacle object, now. -/
  boundary : Nat → List Cell
  /-- The calls made on `m_obstacleDistanceMap`, oldest first. -/
  distCalls : List DistCall

namespace ObsMap

/-- The map after construction. -/
def new : ObsMap := ⟨none, [], [], fun _ => [], []⟩

/-- occupancy_map.cpp:12, `InitializeSize` fills a new matrix with -1 (obstacles are kept). -/
def initializeSize (m : ObsMap) : ObsMap := { m with matrix := some fun _ => -1, distCalls := [] }

/-- `std::adjacent_find` with the predicate `a + 1 != b`. -/
def adjacentFind : List Nat → Option Nat
  | a :: b :: l => if a + 1 ≠ b then some a else adjacentFind (b :: l)
  | _ => none

/-- obstacle_list_occupancy_map.cpp:13-27, `FindSmallestIDAvailable`. -/
def findSmallestIDAvailable (ids : List Nat) : Nat :=
  match ids with
  | [] => 0
  | a :: l =>
    if a > 0 then 0
    else
      match adjacentFind (a :: l) with
      | none => (a :: l).getLast (by simp) + 1
      | some r => r + 1

/-- `std::set::insert`. -/
def setInsert (x : Nat) : List Nat → List Nat
  | [] => [x]
  | a :: l => if x < a then x :: a :: l else if x = a then a :: l else a :: setInsert x l

/-- Assignment of a value to one cell of the matrix. -/
def write (f : Cell → Int) (c : Cell) (v : Int) : Cell → Int := fun d => if d = c then v else f d

/-- obstacle_list_occupancy_map.cpp:29-44, `AddObstacle`; `none` is the exception. -/
def addObstacle (m : ObsMap) (o : Nat) : Option (ObsMap × Bool) :=
  match m.matrix with
  | none => none
  | some f =>
    let id := findSmallestIDAvailable m.ids
    if m.obstacles.any (fun e => e.1 == o) then some (m, false)
    else
      some ({ m with
        obstacles := (o, id) :: m.obstacles
        ids := setInsert id m.ids
        matrix := some ((m.boundary o).foldl (fun f c => write f c id) f)
        distCalls := m.distCalls ++ (m.boundary o).map .set }, true)

/-- obstacle_list_occupancy_map.cpp:46-61, `RemoveObstacle`; `none` is the exception. -/
def removeObstacle (m : ObsMap) (o : Nat) : Option (ObsMap × Bool) :=
  match m.matrix with
  | none => none
  | some f =>
    match m.obstacles.find? (fun e => e.1 == o) with
    | none => some (m, false)
    | some e =>
      some ({ m with
        ids := m.ids.erase e.2
        obstacles := m.obstacles.filter (fun e => e.1 != o)
        matrix := some ((m.boundary o).foldl (fun f c => write f c (-1)) f)
        distCalls := m.distCalls ++ (m.boundary o).map .unset }, true)

/-- obstacle_list_occupancy_map.cpp:63-69, `IsOccupied` for a cell of the matrix. -/
def isOccupied (m : ObsMap) (c : Cell) : Option Bool := m.matrix.map fun f => decide (f c ≥ 0)

/-- occupancy_map.h:48, `GetOccupancyValue` for a cell of the matrix. -/
def getOccupancyValue (m : ObsMap) (c : Cell) : Option Int := m.matrix.map fun f => f c

/-- obstacle_list_occupancy_map.h:20. -/
def getNumObstacles (m : ObsMap) : Nat := m.obstacles.length

/-- obstacle.h:93-94: the owner of obstacle `o` changes its shape or pose. -/
def moveObstacle (m : ObsMap) (o : Nat) (cells : List Cell) : ObsMap :=
  { m with boundary := fun x => if x = o then cells else m.boundary x }

/-- A public call. -/
inductive Op where
  | add (o : Nat)
  | remove (o : Nat)
  | move (o : Nat) (cells : List Cell)
  deriving DecidableEq

/-- Effect of a call. -/
def call (m : ObsMap) : Op → Option ObsMap
  | .add o => (m.addObstacle o).map Prod.fst
  | .remove o => (m.removeObstacle o).map Prod.fst
  | .move o cells => some (m.moveObstacle o cells)

/-- Effect of a history of calls on a map whose size has been initialised. -/
def run (m : ObsMap) : List Op → Option ObsMap
  | [] => some m
  | o :: os => (m.call o).bind fun m' => run m' os

end ObsMap
end PathPlanning
