import Verif.Model.Pose
import Verif.Model.FloatPose
import Verif.Model.FloatReedsShepp

/-!
# Model of poses and of driving with the arithmetic of the program (planner/src/geometry/2dplane.h,
planner/src/paths/path_reeds_shepp.cpp)

Each operation is rounded to a `double`. The mathematical library is an argument: any functions `sin` and `cos`. A pose is
`none` when `WrapTheta` does not end.
-/

namespace PathPlanning
open Flt

/-- `sin` and `cos` of `<cmath>` (used in path_reeds_shepp.cpp:129-130 and 140-141 and by `Eigen::Rotation2D`). -/
structure Libm where
  sin : ℝ → ℝ
  cos : ℝ → ℝ

namespace PoseR

/-- 2dplane.h:19-22, the constructors with arguments. -/
noncomputable def mkF (p : Pt) (theta : ℝ) : Option PoseR := do
  let t ← wrapThetaF theta
  return ⟨p, t⟩

/-- `Eigen::Rotation2D(theta) * v` (2dplane.h:54 and 73): the product with the matrix `[[cos, -sin], [sin, cos]]`. -/
noncomputable def rotateF (lm : Libm) (theta : ℝ) (v : Pt) : Pt :=
  ⟨fl64 (fl64 (lm.cos theta * v.x) + fl64 (-lm.sin theta * v.y)),
    fl64 (fl64 (lm.sin theta * v.x) + fl64 (lm.cos theta * v.y))⟩

/-- 2dplane.h:49-62, `operator+`. -/
noncomputable def addF (lm : Libm) (lhs rhs : PoseR) : Option PoseR := do
  let out ← mkF (rotateF lm lhs.theta rhs.position) (fl64 (lhs.theta + rhs.theta))
  let t ← wrapThetaF out.theta
  return ⟨⟨fl64 (out.position.x + lhs.position.x), fl64 (out.position.y + lhs.position.y)⟩, t⟩

/-- 2dplane.h:64-78, `operator-`. -/
noncomputable def subF (lm : Libm) (lhs rhs : PoseR) : Option PoseR := do
  let out ← mkF (rotateF lm (-rhs.theta)
    ⟨fl64 (lhs.position.x - rhs.position.x), fl64 (lhs.position.y - rhs.position.y)⟩) (fl64 (lhs.theta - rhs.theta))
  let t ← wrapThetaF out.theta
  return ⟨out.position, t⟩

end PoseR

namespace PathRS
open RS

/-- path_reeds_shepp.cpp:121-133 -/
noncomputable def straightF (lm : Libm) (R : ℝ) (start : PoseR) (dir : Direction) (length : ℝ) : Option PoseR :=
  let length := if dir = .backward then -length else length
  let length := fl64 (length * R)
  PoseR.mkF ⟨fl64 (start.position.x + fl64 (length * lm.cos start.theta)),
    fl64 (start.position.y + fl64 (length * lm.sin start.theta))⟩ start.theta

/-- path_reeds_shepp.cpp:135-151 -/
noncomputable def turnF (lm : Libm) (R : ℝ) (start : PoseR) (dir : Direction) (steer : Steer) (turnAngle : ℝ) :
    Option PoseR := do
  let turnAngle := if dir = .backward then -turnAngle else turnAngle
  let phi := fl64 (turnAngle / 2)
  let L := fl64 (fl64 (2 * lm.sin phi) * R)
  let x := fl64 (L * lm.cos phi)
  let y := fl64 (L * lm.sin phi)
  let y := if steer = .right then fl64 (y * -1) else y
  let turnAngle := if steer = .right then fl64 (turnAngle * -1) else turnAngle
  let rhs ← PoseR.mkF ⟨x, y⟩ turnAngle
  start.addF lm rhs

/-- path_reeds_shepp.cpp:34-38, one motion driven for the (normalised) length `l`. -/
noncomputable def moveF (lm : Libm) (R : ℝ) (p : Option PoseR) (m : Motion) (l : ℝ) : Option PoseR := do
  let p ← p
  match m.steer with
  | .straight => straightF lm R p m.direction l
  | s => turnF lm R p m.direction s l

/-- path_reeds_shepp.cpp:12-47, `Interpolate` of the path `PathReedsShepp(init, s, R)` (lines 5-10). -/
noncomputable def poseF (lm : Libm) (init : PoseR) (s : Segment) (R ratio : ℝ) : Option PoseR :=
  interpolateF (moveF lm R) (some init) s R (s.getLengthF R) ratio

end PathRS
end PathPlanning
