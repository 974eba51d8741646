import Verif.Model.FloatValidator

/-!
# Specification of state validation with rounding
-/

namespace PathPlanning.Spec
open Flt

/-- The distance to the nearest obstacle that is reported at a position. -/
noncomputable def reportedDistanceF (v : Validator) (p : Pt) : ℝ :=
  worldDistanceF v.map.resolution (v.dist.dist (v.map.worldPositionToGridCellF p true))

/-- A state is acceptable: its (rounded) position relative to the map and its wrapped heading are in the bounds, its cell is
one of the map, and no reported obstacle is nearer than the safe radius. -/
structure AcceptableF (v : Validator) (s : PoseR) : Prop where
  x_ge : v.space.lb.position.x ≤ fl64 (s.position.x - v.map.localOrigin.x)
  x_le : fl64 (s.position.x - v.map.localOrigin.x) ≤ v.space.ub.position.x
  y_ge : v.space.lb.position.y ≤ fl64 (s.position.y - v.map.localOrigin.y)
  y_le : fl64 (s.position.y - v.map.localOrigin.y) ≤ v.space.ub.position.y
  theta : ∃ t, wrapThetaF s.theta = some t ∧ v.space.lb.theta ≤ t ∧ t ≤ v.space.ub.theta
  inside : v.map.isInsideCell (v.map.worldPositionToGridCellF s.position true) = true
  clear : v.minSafe ≤ reportedDistanceF v s.position

/-- How far the next checked state is: the reported free distance, at most the distance to the bounds, at least the
interpolation step. -/
noncomputable def stepF (v : Validator) (s : PoseR) : ℝ :=
  max (min (fl32 (reportedDistanceF v s.position - v.minSafe)) (v.distToMapBorderF s)) v.minStep

/-- The headings of a path are doubles that can be wrapped (C121). -/
def Headings (q : AnyPath) : Prop :=
  (IsFlt 53 q.init.theta ∧ |q.init.theta| ≤ 2 ^ 56) ∧
  ∀ t, 0 ≤ t → t ≤ 1 → IsFlt 53 (q.interpolate t).theta ∧ |(q.interpolate t).theta| ≤ 2 ^ 56

end PathPlanning.Spec
