import Verif.Model.Float
import Verif.Model.OccMap

/-!
# Model of the frames of `OccupancyMap` with the arithmetic of the program
(planner/src/state_validator/occupancy_map.h/.cpp)

Same functions as in `Verif.Model.OccMap`, with each operation rounded to the type in which C++ computes it: `resolution`,
`width` and `height` are `float`, an `int` times a `float` is a `float`, positions and origins are `double`. Overflow of
`int` is not modelled.
-/

namespace PathPlanning.OccMap
open Flt

/-- occupancy_map.cpp:6-14, `InitializeSize`: the origins are computed in `double`, the sizes in `float`; `none` is the
exception thrown by the `Grid` constructor (utils/grid.h:69-72). -/
noncomputable def initializeSizeF (m : OccMap) (width height : ℝ) : Option OccMap :=
  let lgo : Pt := ⟨fl64 (-width / 2), fl64 (-height / 2)⟩
  let rows := ⌈fl32 (width / m.resolution)⌉
  let columns := ⌈fl32 (height / m.resolution)⌉
  if rows > 0 ∧ columns > 0 then
    some { m with
      localGridOrigin := lgo
      worldGridOrigin := ⟨fl64 (m.localOrigin.x + lgo.x), fl64 (m.localOrigin.y + lgo.y)⟩
      rows := rows
      columns := columns }
  else none

/-- occupancy_map.h:91-99: the `int` is converted to `float` and the product is a `float`. -/
noncomputable def gridCellToGridPositionF (m : OccMap) (c : Cell) : Pt :=
  ⟨fl32 (fl32 c.row * m.resolution), fl32 (fl32 c.col * m.resolution)⟩

/-- occupancy_map.h:101-117: the quotient is a `double`. -/
noncomputable def gridPositionToGridCellF (m : OccMap) (p : Pt) (bounded : Bool) : Cell :=
  let row := truncInt (fl64 (p.x / m.resolution))
  let col := truncInt (fl64 (p.y / m.resolution))
  if !bounded then ⟨row, col⟩
  else if m.isInsideCell ⟨row, col⟩ then ⟨row, col⟩
  else ⟨-1, -1⟩

/-- occupancy_map.h:135-143. -/
noncomputable def gridCellToLocalPositionF (m : OccMap) (c : Cell) : Pt :=
  let g := m.gridCellToGridPositionF c
  ⟨fl64 (m.localGridOrigin.x + g.x), fl64 (m.localGridOrigin.y + g.y)⟩

/-- occupancy_map.h:145-153. -/
noncomputable def gridCellToWorldPositionF (m : OccMap) (c : Cell) : Pt :=
  let g := m.gridCellToGridPositionF c
  ⟨fl64 (m.worldGridOrigin.x + g.x), fl64 (m.worldGridOrigin.y + g.y)⟩

/-- occupancy_map.h:155-163. -/
noncomputable def localPositionToGridCellF (m : OccMap) (p : Pt) (bounded : Bool) : Cell :=
  m.gridPositionToGridCellF ⟨fl64 (p.x - m.localGridOrigin.x), fl64 (p.y - m.localGridOrigin.y)⟩ bounded

/-- occupancy_map.h:175-183. -/
noncomputable def worldPositionToGridCellF (m : OccMap) (p : Pt) (bounded : Bool) : Cell :=
  m.gridPositionToGridCellF ⟨fl64 (p.x - m.worldGridOrigin.x), fl64 (p.y - m.worldGridOrigin.y)⟩ bounded

end PathPlanning.OccMap
