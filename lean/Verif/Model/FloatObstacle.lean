import Verif.Model.Obstacle
import Verif.Model.FloatMap
import Verif.Model.FloatDrive

/-!
# Model of shapes and obstacles with the arithmetic of the program (planner/src/state_validator/obstacle.cpp)

Same functions as in `Verif.Model.OccMap` and `Verif.Model.Obstacle`, with each operation rounded to the type in which C++
computes it. The mathematical library is an argument. Overflow of `int` is not modelled here (see `Verif.Model.RasterInt`).
-/

namespace PathPlanning
open Flt

namespace Shape

/-- obstacle.cpp:92, `Eigen::Rotation2D(theta) * vertex + position`. -/
noncomputable def placeF (lm : Libm) (pose : PoseR) (v : Pt) : Pt :=
  let r := PoseR.rotateF lm pose.theta v
  ⟨fl64 (r.x + pose.position.x), fl64 (r.y + pose.position.y)⟩

/-- obstacle.cpp:7-61, `RasterizeLine`: the cells appended for two world positions. -/
noncomputable def rasterizeLineF (m : OccMap) (p0 p1 : Pt) : List Cell :=
  Raster.rasterCells m.rows m.columns (m.worldPositionToGridCellF p0 false)
    (m.worldPositionToGridCellF p1 false)

/-- obstacle.cpp:83-84, the loop over the edges; `none` is an out-of-range vertex access. -/
noncomputable def edgeLoopF (m : OccMap) (vs : List Pt) : List Nat → Option (List Cell)
  | [] => some []
  | i :: is => do
    let a ← vs[i % vs.length]?
    let b ← vs[(i + 1) % vs.length]?
    let rest ← edgeLoopF m vs is
    return rasterizeLineF m a b ++ rest

mutual
/-- obstacle.cpp:63-68, 77-85, `GetGridCellsPosition`: the cells appended. -/
noncomputable def gridCellsF (lm : Libm) (m : OccMap) (pose : PoseR) : Shape → Option (List Cell)
  | polygon vertices =>
    let vs := vertices.map (placeF lm pose)
    edgeLoopF m vs (List.range vertices.length)
  | composite children => gridCellsListF lm m pose children
/-- obstacle.cpp:65-67, the loop of `CompositeShape::GetGridCellsPosition`. -/
noncomputable def gridCellsListF (lm : Libm) (m : OccMap) (pose : PoseR) : List Shape → Option (List Cell)
  | [] => some []
  | c :: cs => do
    let a ← gridCellsF lm m pose c
    let b ← gridCellsListF lm m pose cs
    return a ++ b
end

mutual
/-- obstacle.cpp:70-75, 87-94, `GetVerticesPosition`: the points appended. -/
noncomputable def verticesPositionF (lm : Libm) (pose : PoseR) : Shape → List Pt
  | .polygon vertices => vertices.map (placeF lm pose)
  | .composite children => verticesPositionListF lm pose children
/-- obstacle.cpp:72-74, the loop over the children. -/
noncomputable def verticesPositionListF (lm : Libm) (pose : PoseR) : List Shape → List Pt
  | [] => []
  | c :: cs => verticesPositionF lm pose c ++ verticesPositionListF lm pose cs
end

/-- obstacle.cpp:100, 119, `2 * M_PI * i / (float)count`. -/
noncomputable def cornerAngleF (count i : Nat) : ℝ := fl64 (fl64 (fl64 (2 * mPi) * i) / fl32 count)

/-- obstacle.cpp:96-103, `RegularPolygonShape`. -/
noncomputable def regularPolygonF (lm : Libm) (radius : ℝ) (count : Nat) : Shape :=
  .polygon ((List.range count).map fun (i : Nat) =>
    ⟨fl64 (radius * lm.cos (cornerAngleF count i)), fl64 (radius * lm.sin (cornerAngleF count i))⟩)

/-- obstacle.cpp:105-110, `RectangleShape`. -/
noncomputable def rectangleF (dx dy : ℝ) : Shape :=
  let dx2 := fl64 (dx / 2)
  let dy2 := fl64 (dy / 2)
  .polygon [⟨dx2, dy2⟩, ⟨-dx2, dy2⟩, ⟨-dx2, -dy2⟩, ⟨dx2, -dy2⟩]

/-- obstacle.cpp:112-122, `CircleShape`: `radius *= 1.0 / cos(M_PI / count)`. -/
noncomputable def circleF (lm : Libm) (radius : ℝ) (count : Nat) : Shape :=
  regularPolygonF lm (fl64 (radius * fl64 (1 / lm.cos (fl64 (mPi / count))))) count

end Shape

namespace Obstacle

/-- obstacle.cpp:124-129, `GetBoundaryGridCellPosition`; `none` is the dereference of the null pointer. -/
noncomputable def getBoundaryGridCellPositionF (lm : Libm) (o : Obstacle) (m : OccMap) : Option (List Cell) :=
  o.shape.bind fun s => s.gridCellsF lm m o.pose

/-- obstacle.cpp:131-136, `GetBoundaryWorldPosition`; `none` is the dereference of the null pointer. -/
noncomputable def getBoundaryWorldPositionF (lm : Libm) (o : Obstacle) : Option (List Pt) :=
  o.shape.map fun s => s.verticesPositionF lm o.pose

end Obstacle
end PathPlanning
