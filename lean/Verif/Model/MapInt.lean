import Verif.Model.DistMapInt
import Verif.Model.FloatValidator
import Verif.Model.GridStore
import Verif.Model.HybridAStar

/-!
# Model of grids and of the cells of positions with 32 bit integers
(planner/src/utils/grid.h, planner/src/state_validator/occupancy_map.h, planner/src/state_validator/occupancy_map.cpp,
planner/src/state_validator/state_validator_occupancy_map.cpp, planner/src/algo/hybrid_a_star.h)

Same functions as in `Verif.Model.GridStore`, `Verif.Model.FloatMap` and `Verif.Model.FloatValidator`, with every `int`
operation and every conversion to `int` checked: the outer `none` is undefined behaviour.
-/

namespace PathPlanning
open Flt

namespace GridStore
variable {T : Type}

/-- grid.h:66-77, the constructor; `some none` is the exception. -/
def newI (rows columns : Int) (val : T) : Option (Option (GridStore T)) :=
  if !(decide (rows > 0) && decide (columns > 0)) then some none
  else do
    let n ← ckInt (rows * columns)
    some (some ⟨rows, columns, List.replicate n.toNat val⟩)

/-- grid.h:87, the pointer `grid[i]`, as an offset; a pointer outside the array (other than to its end) is undefined. -/
def rowI (g : GridStore T) (i : Int) : Option Int := do
  let o ← ckInt (i * g.columns)
  if 0 ≤ o ∧ o ≤ g.data.length then some o else none

/-- Reading `grid[i][j]`. -/
def getI (g : GridStore T) (i j : Int) : Option T := do
  let o ← g.rowI i
  if o + j < 0 then none else g.data[(o + j).toNat]?

/-- `grid[i][j] = v`. -/
def setI (g : GridStore T) (i j : Int) (v : T) : Option (GridStore T) := do
  let o ← g.rowI i
  if o + j < 0 ∨ g.data.length ≤ (o + j).toNat then none
  else some { g with data := g.data.set (o + j).toNat v }

/-- A sequence of writes. -/
def writesI (g : GridStore T) (l : List (Int × Int × T)) : Option (GridStore T) :=
  l.foldlM (fun g w => g.setI w.1 w.2.1 w.2.2) g

end GridStore

namespace OccMap

/-- occupancy_map.cpp:6-14, `InitializeSize`: the new map and its matrix; `some none` is the exception thrown by the `Grid`
constructor. -/
noncomputable def initializeSizeI (m : OccMap) (width height : ℝ) : Option (Option (OccMap × GridStore Int)) := do
  let lgo : Pt := ⟨fl64 (-width / 2), fl64 (-height / 2)⟩
  let rows ← ckInt ⌈fl32 (width / m.resolution)⌉
  let columns ← ckInt ⌈fl32 (height / m.resolution)⌉
  let matrix ← GridStore.newI rows columns (-1)
  some (matrix.map fun g => ({ m with
      localGridOrigin := lgo
      worldGridOrigin := ⟨fl64 (m.localOrigin.x + lgo.x), fl64 (m.localOrigin.y + lgo.y)⟩
      rows := rows
      columns := columns }, g))

/-- occupancy_map.h:101-117. -/
noncomputable def gridPositionToGridCellI (m : OccMap) (p : Pt) (bounded : Bool) : Option Cell := do
  let row ← ckInt (truncInt (fl64 (p.x / m.resolution)))
  let col ← ckInt (truncInt (fl64 (p.y / m.resolution)))
  if !bounded then some ⟨row, col⟩
  else if m.isInsideCell ⟨row, col⟩ then some ⟨row, col⟩
  else some ⟨-1, -1⟩

/-- occupancy_map.h:175-183. -/
noncomputable def worldPositionToGridCellI (m : OccMap) (p : Pt) (bounded : Bool) : Option Cell :=
  m.gridPositionToGridCellI ⟨fl64 (p.x - m.worldGridOrigin.x), fl64 (p.y - m.worldGridOrigin.y)⟩ bounded

/-- occupancy_map.cpp:21-25, `IsInsideMap` of a position. -/
noncomputable def isInsidePosI (m : OccMap) (p : Pt) : Option Bool := do
  let cell ← m.worldPositionToGridCellI p true
  some (m.isInsideCell cell)

end OccMap

/-- state_validator_occupancy_map.cpp:15-26, `IsStateValid`. The cell is computed before the bounds are looked at. -/
noncomputable def Validator.isStateValidI (v : Validator) (state : PoseR) : Option Bool := do
  let theta ← wrapThetaF state.theta
  let localState : PoseR := ⟨⟨fl64 (state.position.x - v.map.localOrigin.x),
    fl64 (state.position.y - v.map.localOrigin.y)⟩, theta⟩
  let cell ← v.map.worldPositionToGridCellI state.position true
  if !v.space.validateBounds localState || !v.map.isInsideCell cell then some false
  else (v.obstacleDistanceF cell).map fun d => decide (d ≥ v.minSafe)

/-- hybrid_a_star.h:104-111, the position of `DiscretizePose`. -/
noncomputable def HybridAStar.discretizePositionI (spatialResolution : ℝ) (p : Pt) : Option (Int × Int) := do
  let x ← ckInt (truncInt (fl64 (p.x / spatialResolution)))
  let y ← ckInt (truncInt (fl64 (p.y / spatialResolution)))
  some (x, y)

end PathPlanning
