import Verif.Spec.FloatObstacle
import Verif.Spec.FloatValidator
import Verif.Spec.Validator

/-!
# Specification: what a path computed with rounding keeps from an obstacle
-/

namespace PathPlanning.Spec

/-- The computed path `q` follows the curve `ideal`, which is no longer than it says, up to `η`. -/
structure Follows (η : ℝ) (q ideal : AnyPath) : Prop where
  speed : ∀ a b, 0 ≤ a → a ≤ b → b ≤ 1 →
    euclid (ideal.interpolate a).position (ideal.interpolate b).position ≤ (b - a) * ideal.length
  near : ∀ t, 0 ≤ t → t ≤ 1 → euclid (q.interpolate t).position (ideal.interpolate t).position ≤ η
  length : |q.length - ideal.length| ≤ η

/-- What the distance map may report too much: 8.2 % and three roundings. -/
noncomputable def overestimate : ℝ := (1 + (2 ^ 23)⁻¹) * √(4 - 2 * √2)

/-- What is guaranteed of the safe radius when the map reports no distance above `D`: 7.7 % of `D` (or of the safe radius)
and the interpolation step are lost by the path check, four cells by the grid, the rest by rounding. -/
noncomputable def pathClearance (v : Validator) (D cornerErr length η : ℝ) : ℝ :=
  min (v.minSafe - (1 - 1 / overestimate) * D - (2 ^ 23)⁻¹ * (D - v.minSafe))
      (v.minSafe / overestimate - (1 + (2 ^ 53)⁻¹) * v.minStep)
    - (√2 + 5 / 2 + (2 ^ 17)⁻¹) * v.map.resolution - √2 * cornerErr - (2 ^ 52)⁻¹ * length - 4 * η

end PathPlanning.Spec
