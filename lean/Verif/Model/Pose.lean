import Verif.Model.OccMap
import Mathlib.Algebra.Order.Floor.Semiring
import Mathlib.Tactic.FieldSimp
import Mathlib.Tactic.Linarith

/-!
# Model of poses (planner/src/geometry/2dplane.h)

Angles are real numbers: rounding of `double` is modelled in `Verif.Model.FloatPose` (for a finite double so large that
`t - 2 * M_PI == t` the loops of `WrapTheta` do not end).
-/

namespace PathPlanning
open Real

private theorem ceil_dec {x : ℝ} (h : 0 < x) : ⌈x - 1⌉₊ < ⌈x⌉₊ := by
  rw [Nat.ceil_sub_one]
  have : 0 < ⌈x⌉₊ := Nat.ceil_pos.mpr h
  omega

/-- 2dplane.h:40-41, the first loop of `WrapTheta`. -/
noncomputable def wrapDown (t : ℝ) : ℝ := if t > π then wrapDown (t - 2 * π) else t
termination_by ⌈(t - π) / (2 * π)⌉₊
decreasing_by
  rename_i h
  have hp := Real.pi_pos
  have h1 : (t - 2 * π - π) / (2 * π) = (t - π) / (2 * π) - 1 := by field_simp; ring
  rw [h1]
  exact ceil_dec (div_pos (by linarith) (by linarith))

/-- 2dplane.h:42-43, the second loop of `WrapTheta`. -/
noncomputable def wrapUp (t : ℝ) : ℝ := if t < -π then wrapUp (t + 2 * π) else t
termination_by ⌈(-π - t) / (2 * π)⌉₊
decreasing_by
  rename_i h
  have hp := Real.pi_pos
  have h1 : (-π - (t + 2 * π)) / (2 * π) = (-π - t) / (2 * π) - 1 := by field_simp; ring
  rw [h1]
  exact ceil_dec (div_pos (by linarith) (by linarith))

/-- 2dplane.h:36-45, `WrapTheta`. -/
noncomputable def wrapTheta (t : ℝ) : ℝ := wrapUp (wrapDown t)

namespace PoseR

/-- 2dplane.h:19-22, the constructors with arguments. -/
noncomputable def mk' (p : Pt) (theta : ℝ) : PoseR := ⟨p, wrapTheta theta⟩

/-- `Eigen::Rotation2D(theta) * v` -/
noncomputable def rotate (theta : ℝ) (v : Pt) : Pt :=
  ⟨cos theta * v.x - sin theta * v.y, sin theta * v.x + cos theta * v.y⟩

/-- 2dplane.h:49-62, `operator+`. -/
noncomputable def add (lhs rhs : PoseR) : PoseR :=
  let out := mk' (rotate lhs.theta rhs.position) (lhs.theta + rhs.theta)
  let out : PoseR := { out with position := out.position + lhs.position }
  { out with theta := wrapTheta out.theta }

/-- 2dplane.h:64-78, `operator-`. -/
noncomputable def sub (lhs rhs : PoseR) : PoseR :=
  let delta := lhs.position - rhs.position
  let out := mk' (rotate (-rhs.theta) delta) (lhs.theta - rhs.theta)
  { out with theta := wrapTheta out.theta }

/-- 2dplane.h:127-133, `std::equal_to<Pose2>`. -/
def equalTo (lhs rhs : PoseR) : Prop :=
  lhs.position = rhs.position ∧ wrapTheta lhs.theta = wrapTheta rhs.theta

/-- 2dplane.h:116-125, `std::hash<Pose2>`, for arbitrary hash functions of points and angles and an
arbitrary `HashCombine`. -/
noncomputable def hash {H : Type} (seed : H) (combinePt : H → Pt → H) (combineAngle : H → ℝ → H)
    (p : PoseR) : H :=
  combineAngle (combinePt seed p.position) (wrapTheta p.theta)

end PoseR
end PathPlanning
