import Verif.Model.Raster
import Mathlib.Analysis.SpecialFunctions.Trigonometric.Basic
import Mathlib.Algebra.Order.Floor.Ring

/-!
# Model of `OccupancyMap` frames, obstacles and shapes
(planner/src/state_validator/occupancy_map.h/.cpp, obstacle.h/.cpp)

Coordinates are real numbers; the same functions with the rounding of `float` and `double` are in `Verif.Model.FloatMap`.
-/

namespace PathPlanning

/-- geometry/2dplane.h: `Point2d`. -/
@[ext] structure Pt where
  x : ℝ
  y : ℝ

namespace Pt
noncomputable instance : Add Pt := ⟨fun a b => ⟨a.x + b.x, a.y + b.y⟩⟩
noncomputable instance : Sub Pt := ⟨fun a b => ⟨a.x - b.x, a.y - b.y⟩⟩
@[simp] theorem add_x (a b : Pt) : (a + b).x = a.x + b.x := rfl
@[simp] theorem add_y (a b : Pt) : (a + b).y = a.y + b.y := rfl
@[simp] theorem sub_x (a b : Pt) : (a - b).x = a.x - b.x := rfl
@[simp] theorem sub_y (a b : Pt) : (a - b).y = a.y - b.y := rfl
end Pt

/-- `static_cast<int>` of a double: truncation towards zero. -/
noncomputable def truncInt (x : ℝ) : ℤ := if 0 ≤ x then ⌊x⌋ else ⌈x⌉

/-- occupancy_map.h:119-128, the members that define the frames. -/
structure OccMap where
  resolution : ℝ
  rows : ℤ
  columns : ℤ
  localOrigin : Pt
  localGridOrigin : Pt
  worldGridOrigin : Pt

namespace OccMap

/-- occupancy_map.h:25-26, 124-128. The two grid origins are uninitialised until `InitializeSize`;
they are arbitrary here. -/
def new (resolution : ℝ) (junk junk' : Pt) : OccMap := ⟨resolution, -1, -1, ⟨0, 0⟩, junk, junk'⟩

/-- occupancy_map.cpp:6-14, `InitializeSize`; `none` is the exception thrown by the `Grid`
constructor (utils/grid.h:69-72). -/
noncomputable def initializeSize (m : OccMap) (width height : ℝ) : Option OccMap :=
  let lgo : Pt := ⟨-width / 2, -height / 2⟩
  let rows := ⌈width / m.resolution⌉
  let columns := ⌈height / m.resolution⌉
  if rows > 0 ∧ columns > 0 then
    some { m with
      localGridOrigin := lgo, worldGridOrigin := m.localOrigin + lgo, rows := rows, columns := columns }
  else none

/-- occupancy_map.h:40, `SetPosition`. -/
def setPosition (m : OccMap) (p : Pt) : OccMap := { m with localOrigin := p }

/-- occupancy_map.cpp:27-30, `IsInsideMap(cell)`. -/
def isInsideCell (m : OccMap) (c : Cell) : Bool :=
  decide (c.row ≥ 0) && decide (c.row < m.rows) && decide (c.col ≥ 0) && decide (c.col < m.columns)

/-- occupancy_map.h:91-99. -/
noncomputable def gridCellToGridPosition (m : OccMap) (c : Cell) : Pt :=
  ⟨c.row * m.resolution, c.col * m.resolution⟩

/-- occupancy_map.h:101-117. -/
noncomputable def gridPositionToGridCell (m : OccMap) (p : Pt) (bounded : Bool) : Cell :=
  let row := truncInt (p.x / m.resolution)
  let col := truncInt (p.y / m.resolution)
  if !bounded then ⟨row, col⟩
  else if m.isInsideCell ⟨row, col⟩ then ⟨row, col⟩
  else ⟨-1, -1⟩

/-- occupancy_map.h:135-143. -/
noncomputable def gridCellToLocalPosition (m : OccMap) (c : Cell) : Pt :=
  m.localGridOrigin + m.gridCellToGridPosition c
/-- occupancy_map.h:145-153. -/
noncomputable def gridCellToWorldPosition (m : OccMap) (c : Cell) : Pt :=
  m.worldGridOrigin + m.gridCellToGridPosition c
/-- occupancy_map.h:155-163. -/
noncomputable def localPositionToGridCell (m : OccMap) (p : Pt) (bounded : Bool) : Cell :=
  m.gridPositionToGridCell (p - m.localGridOrigin) bounded
/-- occupancy_map.h:165-173. -/
noncomputable def localPositionToWorldPosition (m : OccMap) (p : Pt) : Pt := m.localOrigin + p
/-- occupancy_map.h:175-183. -/
noncomputable def worldPositionToGridCell (m : OccMap) (p : Pt) (bounded : Bool) : Cell :=
  m.gridPositionToGridCell ⟨p.x - m.worldGridOrigin.x, p.y - m.worldGridOrigin.y⟩ bounded
/-- occupancy_map.h:185-193. -/
noncomputable def worldPositionToLocalPosition (m : OccMap) (p : Pt) : Pt := p - m.localOrigin
/-- occupancy_map.cpp:21-25, `IsInsideMap(position)`. -/
noncomputable def isInsidePos (m : OccMap) (p : Pt) : Bool :=
  m.isInsideCell (m.worldPositionToGridCell p true)

end OccMap

/-! ## Shapes -/

/-- geometry/2dplane.h: `Pose2d`, position and heading. -/
structure PoseR where
  position : Pt
  theta : ℝ

/-- obstacle.h:12-86, the shapes. Children of a composite shape are shapes again. -/
inductive Shape where
  | polygon (vertices : List Pt)
  | composite (children : List Shape)

namespace Shape

/-- obstacle.cpp:92, `Eigen::Rotation2D(theta) * vertex + position`. -/
noncomputable def place (pose : PoseR) (v : Pt) : Pt :=
  ⟨Real.cos pose.theta * v.x - Real.sin pose.theta * v.y + pose.position.x,
   Real.sin pose.theta * v.x + Real.cos pose.theta * v.y + pose.position.y⟩

/-- obstacle.cpp:7-61, `RasterizeLine`: the cells appended for two world positions. -/
noncomputable def rasterizeLine (m : OccMap) (p0 p1 : Pt) : List Cell :=
  Raster.rasterCells m.rows m.columns (m.worldPositionToGridCell p0 false)
    (m.worldPositionToGridCell p1 false)

/-- obstacle.cpp:83-84, the loop over the edges; `none` is an out-of-range vertex access. -/
noncomputable def edgeLoop (m : OccMap) (vs : List Pt) : List Nat → Option (List Cell)
  | [] => some []
  | i :: is => do
    let a ← vs[i % vs.length]?
    let b ← vs[(i + 1) % vs.length]?
    let rest ← edgeLoop m vs is
    return rasterizeLine m a b ++ rest

mutual
/-- obstacle.cpp:63-68, 77-85, `GetGridCellsPosition`: the cells appended. -/
noncomputable def gridCells (m : OccMap) (pose : PoseR) : Shape → Option (List Cell)
  | polygon vertices =>
    let vs := vertices.map (place pose)
    edgeLoop m vs (List.range vertices.length)
  | composite children => gridCellsList m pose children
/-- The loop of `CompositeShape::GetGridCellsPosition` (obstacle.cpp:65-67). -/
noncomputable def gridCellsList (m : OccMap) (pose : PoseR) : List Shape → Option (List Cell)
  | [] => some []
  | c :: cs => do
    let a ← gridCells m pose c
    let b ← gridCellsList m pose cs
    return a ++ b
end

/-- obstacle.cpp:96-103, `RegularPolygonShape`. -/
noncomputable def regularPolygon (radius : ℝ) (count : Nat) : Shape :=
  .polygon ((List.range count).map fun (i : Nat) =>
    ⟨radius * Real.cos (2 * Real.pi * (i : ℝ) / (count : ℝ)),
     radius * Real.sin (2 * Real.pi * (i : ℝ) / (count : ℝ))⟩)

/-- obstacle.cpp:105-110, `RectangleShape`. -/
noncomputable def rectangle (dx dy : ℝ) : Shape :=
  .polygon [⟨dx / 2, dy / 2⟩, ⟨-(dx / 2), dy / 2⟩, ⟨-(dx / 2), -(dy / 2)⟩, ⟨dx / 2, -(dy / 2)⟩]

/-- obstacle.cpp:112-122, `CircleShape`. -/
noncomputable def circle (radius : ℝ) (count : Nat) : Shape :=
  regularPolygon (radius * (1 / Real.cos (Real.pi / count))) count

end Shape
end PathPlanning
