import Verif.Model.Validator

/-!
# Specification of state validation
-/

namespace PathPlanning.Spec

/-- The distance to the nearest obstacle that the distance map reports at a position. -/
noncomputable def reportedDistance (v : Validator) (p : Pt) : ℝ :=
  worldDistance v.map.resolution (v.dist.dist (v.map.worldPositionToGridCell p true))

/-- A state is acceptable: its position relative to the map and its heading are in the bounds, it is
inside the map, and no reported obstacle is nearer than the safe radius. -/
structure Acceptable (v : Validator) (s : PoseR) : Prop where
  x_ge : v.space.lb.position.x ≤ s.position.x - v.map.localOrigin.x
  x_le : s.position.x - v.map.localOrigin.x ≤ v.space.ub.position.x
  y_ge : v.space.lb.position.y ≤ s.position.y - v.map.localOrigin.y
  y_le : s.position.y - v.map.localOrigin.y ≤ v.space.ub.position.y
  theta_ge : v.space.lb.theta ≤ wrapTheta s.theta
  theta_le : wrapTheta s.theta ≤ v.space.ub.theta
  inside : v.map.isInsidePos s.position = true
  clear : v.minSafe ≤ reportedDistance v s.position

/-- The free distance around a state: up to the safe radius of the reported obstacle and up to the
bounds. -/
noncomputable def freeDistance (v : Validator) (s : PoseR) : ℝ :=
  min (reportedDistance v s.position - v.minSafe)
    (min (min (s.position.x - v.space.lb.position.x) (v.space.ub.position.x - s.position.x))
      (min (s.position.y - v.space.lb.position.y) (v.space.ub.position.y - s.position.y)))

/-- The distance map has the size of the occupancy map. -/
def SameSize (v : Validator) : Prop := v.dist.rows = v.map.rows ∧ v.dist.columns = v.map.columns

/-- Euclidean distance. -/
noncomputable def euclid (p q : Pt) : ℝ := √((p.x - q.x) ^ 2 + (p.y - q.y) ^ 2)

end PathPlanning.Spec
