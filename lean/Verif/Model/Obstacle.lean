import Verif.Model.OccMap

/-!
# Model of an `Obstacle` object (planner/src/state_validator/obstacle.h:88-102, obstacle.cpp:70-75, 87-94, 124-136)

The shape is held by value: a composite shape is not extended (`Add`, obstacle.h:36) after it was given to the obstacle.
-/

namespace PathPlanning

mutual
/-- obstacle.cpp:70-75, 87-94, `GetVerticesPosition`: the points appended. -/
noncomputable def Shape.verticesPosition (pose : PoseR) : Shape → List Pt
  | .polygon vertices => vertices.map (Shape.place pose)
  | .composite children => Shape.verticesPositionList pose children
/-- obstacle.cpp:72-74, the loop over the children. -/
noncomputable def Shape.verticesPositionList (pose : PoseR) : List Shape → List Pt
  | [] => []
  | c :: cs => Shape.verticesPosition pose c ++ Shape.verticesPositionList pose cs
end

/-- obstacle.h:99-101, the members; `none` is the null pointer. -/
structure Obstacle where
  shape : Option Shape
  pose : PoseR

namespace Obstacle

/-- obstacle.h:90 and 2dplane.h:24-25: no shape, and a pose whose position `junk` is not initialised (the default
constructor of an Eigen vector leaves its coefficients unset). -/
def new (junk : Pt) : Obstacle := ⟨none, ⟨junk, 0⟩⟩

/-- obstacle.h:93 -/
def setShape (o : Obstacle) (s : Option Shape) : Obstacle := { o with shape := s }

/-- obstacle.h:94 -/
def setPose (o : Obstacle) (p : PoseR) : Obstacle := { o with pose := p }

/-- obstacle.cpp:124-129, `GetBoundaryGridCellPosition`; `none` is the dereference of the null pointer. -/
noncomputable def getBoundaryGridCellPosition (o : Obstacle) (m : OccMap) : Option (List Cell) :=
  o.shape.bind fun s => s.gridCells m o.pose

/-- obstacle.cpp:131-136, `GetBoundaryWorldPosition`; `none` is the dereference of the null pointer. -/
noncomputable def getBoundaryWorldPosition (o : Obstacle) : Option (List Pt) :=
  o.shape.map fun s => s.verticesPosition o.pose

/-- A call that modifies the obstacle. -/
inductive Op where
  | setShape (s : Option Shape)
  | setPose (p : PoseR)

/-- The obstacle after a call. -/
def call (o : Obstacle) : Op → Obstacle
  | .setShape s => o.setShape s
  | .setPose p => o.setPose p

/-- The obstacle after a history of calls. -/
def after (o : Obstacle) (ops : List Op) : Obstacle := ops.foldl call o

end Obstacle
end PathPlanning
