import Verif.Model.DistMap

/-!
# Specification of distance maps
-/

namespace PathPlanning.Spec

/-- The cells that are obstacles after a history: set and not removed since. -/
def obstacles (ops : List DistMap.Op) : Set Cell :=
  ops.foldl (fun S o => match o with
    | .set s => fun c => S c ∨ c = s
    | .unset s => fun c => S c ∧ c ≠ s
    | .update => S) (fun _ => False)

/-- The cell lies in the `rows` × `columns` rectangle. -/
def InRect (rows columns : Int) (c : Cell) : Prop :=
  0 ≤ c.row ∧ c.row < rows ∧ 0 ≤ c.col ∧ c.col < columns

/-- Squared Euclidean distance. -/
def sqDist (a b : Cell) : Int := (a.row - b.row) ^ 2 + (a.col - b.col) ^ 2

/-- The cell a history call is about lies in the grid. -/
def OpIn (rows columns : Int) : DistMap.Op → Prop
  | .set s => InRect rows columns s
  | .unset s => InRect rows columns s
  | .update => True

/-- No removal. -/
def NoUnset (ops : List DistMap.Op) : Prop := ∀ s, DistMap.Op.unset s ∉ ops

/-- What a call on the linked maps means for the obstacle map. -/
def obstacleCall : ObstDistMap.Op → Option DistMap.Op
  | .set s => some (.set s)
  | .unset s => some (.unset s)
  | .update _ => some .update
  | .link => none
  | .updateEdges => none

/-- The calls of a history that concern the obstacle map. -/
def obstacleCalls (ops : List ObstDistMap.Op) : List DistMap.Op := ops.filterMap obstacleCall

end PathPlanning.Spec
