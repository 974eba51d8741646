import Verif.Model.FloatObstacle
import Verif.Model.FloatValidator

/-!
# Specification of obstacles with rounding
-/

namespace PathPlanning.Spec

/-- A corner of a shape, in the frame of the shape. -/
inductive IsVertex : Shape → Pt → Prop
  | corner {vs : List Pt} {u : Pt} : u ∈ vs → IsVertex (.polygon vs) u
  | part {children : List Shape} {s : Shape} {u : Pt} : s ∈ children → IsVertex s u → IsVertex (.composite children) u

/-- The coordinates of all corners of the shape, in its own frame, are at most `W`. -/
def FitsIn (W : ℝ) (shape : Shape) : Prop := ∀ u, IsVertex shape u → |u.x| ≤ W ∧ |u.y| ≤ W

/-- The point is at most 2^32 cells away from the corner of the map, in each direction. -/
def NearMap (m : OccMap) (p : Pt) : Prop :=
  |(p.x - m.worldGridOrigin.x) / m.resolution| ≤ 2 ^ 32 ∧ |(p.y - m.worldGridOrigin.y) / m.resolution| ≤ 2 ^ 32

/-- The points differ by at most `E` in each coordinate. -/
def Within (E : ℝ) (p q : Pt) : Prop := |p.x - q.x| ≤ E ∧ |p.y - q.y| ≤ E

/-- What rounding changes in a coordinate of a placed corner. -/
noncomputable def cornerError (W : ℝ) (pose : PoseR) : ℝ :=
  (2 ^ 49)⁻¹ * W + (2 ^ 53)⁻¹ * max |pose.position.x| |pose.position.y|

/-- What rounding changes in a coordinate of a placed corner of a circle. -/
noncomputable def circleError (radius : ℝ) (pose : PoseR) : ℝ :=
  (2 ^ 44)⁻¹ * radius + (2 ^ 53)⁻¹ * max |pose.position.x| |pose.position.y|

/-- The state is inside the bounds of the state space and on the map, as computed by the program. -/
structure WithinBoundsF (v : Validator) (s : PoseR) : Prop where
  x_ge : v.space.lb.position.x ≤ Flt.fl64 (s.position.x - v.map.localOrigin.x)
  x_le : Flt.fl64 (s.position.x - v.map.localOrigin.x) ≤ v.space.ub.position.x
  y_ge : v.space.lb.position.y ≤ Flt.fl64 (s.position.y - v.map.localOrigin.y)
  y_le : Flt.fl64 (s.position.y - v.map.localOrigin.y) ≤ v.space.ub.position.y
  theta : ∃ t, Flt.wrapThetaF s.theta = some t ∧ v.space.lb.theta ≤ t ∧ t ≤ v.space.ub.theta
  inside : v.map.isInsideCell (v.map.worldPositionToGridCellF s.position true) = true

end PathPlanning.Spec
