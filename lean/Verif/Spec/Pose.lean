import Verif.Model.OccMap

/-!
# Specification of poses
-/

namespace PathPlanning.Spec
open Real

/-- Two angles are the same heading: they differ by a multiple of `2π`. -/
def SameAngle (a b : ℝ) : Prop := ∃ k : ℤ, a = b + k * (2 * π)

/-- Two poses are the same: same position and same heading. -/
def SamePose (a b : PoseR) : Prop := a.position = b.position ∧ SameAngle a.theta b.theta

end PathPlanning.Spec
