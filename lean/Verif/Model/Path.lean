import Verif.Model.OccMap
import Mathlib.Analysis.SpecialFunctions.Trigonometric.Arctan
import Mathlib.Analysis.SpecialFunctions.Sqrt

/-!
# Model of the elementary paths and of the kinematic bicycle
(planner/src/paths/path_r2.cpp, path_se2.cpp, path_constant_steer.cpp,
planner/src/models/kinematic_bicycle_model.cpp)

Numbers are reals: rounding is not modelled.
-/

namespace PathPlanning
open Real

/-- `(1 - ratio) * a + ratio * b` for points. -/
noncomputable def Pt.lerp (a b : Pt) (ratio : ℝ) : Pt :=
  ⟨(1 - ratio) * a.x + ratio * b.x, (1 - ratio) * a.y + ratio * b.y⟩

/-- `Eigen::Vector2d::norm` -/
noncomputable def Pt.norm (a : Pt) : ℝ := √(a.x ^ 2 + a.y ^ 2)

/-- paths/path.h:54-57, the members of a path. -/
structure PathR2 where
  init : Pt
  final : Pt
  length : ℝ

namespace PathR2
/-- path_r2.cpp:5-9 -/
noncomputable def connect (a b : Pt) : PathR2 := ⟨a, b, (b - a).norm⟩
/-- path_r2.cpp:11-16 -/
noncomputable def interpolate (p : PathR2) (ratio : ℝ) : Pt := Pt.lerp p.init p.final ratio
/-- path_r2.cpp:18-22 -/
noncomputable def truncate (p : PathR2) (ratio : ℝ) : PathR2 :=
  { p with final := p.interpolate ratio, length := p.length * ratio }
end PathR2

/-- paths/path.h:54-57 -/
structure PathSE2 where
  init : PoseR
  final : PoseR
  length : ℝ

namespace PathSE2
/-- path_se2.cpp:5-9 -/
noncomputable def connect (a b : PoseR) : PathSE2 := ⟨a, b, (b.position - a.position).norm⟩
/-- path_se2.cpp:11-17; the heading is interpolated linearly. -/
noncomputable def interpolate (p : PathSE2) (ratio : ℝ) : PoseR :=
  ⟨Pt.lerp p.init.position p.final.position ratio,
    (1 - ratio) * p.init.theta + ratio * p.final.theta⟩
/-- path_se2.cpp:19-23 -/
noncomputable def truncate (p : PathSE2) (ratio : ℝ) : PathSE2 :=
  { p with final := p.interpolate ratio, length := p.length * ratio }
end PathSE2

/-- paths/path.h:15-19 -/
inductive Direction where
  | forward
  | backward
  | noMotion
deriving DecidableEq

/-- kinematic_bicycle_model.h:12, 27-29 -/
structure Bicycle where
  wheelbase : ℝ
  rearToCenter : ℝ

namespace Bicycle

/-- kinematic_bicycle_model.cpp:14-15, `beta`. -/
noncomputable def beta (m : Bicycle) (steering : ℝ) : ℝ :=
  arctan (m.rearToCenter * tan steering / m.wheelbase)

/-- kinematic_bicycle_model.cpp:16-18, `DthetaDdist`. -/
noncomputable def dThetaDdist (m : Bicycle) (steering : ℝ) : ℝ :=
  cos (m.beta steering) * tan steering / m.wheelbase

/-- kinematic_bicycle_model.cpp:5-32, `ConstantSteer`. `abs` is taken to be the floating-point one
(line 22). The heading is not wrapped. -/
noncomputable def constantSteer (m : Bicycle) (start : PoseR) (steering dist : ℝ) (direction : Direction) :
    PoseR :=
  let dist := if direction = .backward then -dist else dist
  let beta := m.beta steering
  let d := m.dThetaDdist steering
  let dist := dist / cos beta
  if |d| > 1e-9 then
    let theta := start.theta + dist * d
    ⟨⟨start.position.x + 1 / d * (sin (beta + theta) - sin (beta + start.theta)),
      start.position.y + 1 / d * (-cos (beta + theta) + cos (beta + start.theta))⟩, theta⟩
  else
    ⟨⟨start.position.x + dist * cos start.theta, start.position.y + dist * sin start.theta⟩,
      start.theta⟩

/-- kinematic_bicycle_model.cpp:34-41, `GetSteeringAngleFromTurningRadius`. A division of a positive
number by zero is infinite, and its arc tangent is `π / 2`. -/
noncomputable def steeringFromRadius (m : Bicycle) (radius : ℝ) : ℝ :=
  if radius < m.rearToCenter then π / 2
  else
    let s := √(radius ^ 2 - m.rearToCenter ^ 2)
    if s = 0 then π / 2 else arctan (m.wheelbase / s)

end Bicycle

/-- path_constant_steer.h:27-30 -/
structure PathSteer where
  model : Bicycle
  init : PoseR
  final : PoseR
  length : ℝ
  steering : ℝ
  direction : Direction

namespace PathSteer
/-- path_constant_steer.cpp:11-14 -/
noncomputable def interpolate (p : PathSteer) (ratio : ℝ) : PoseR :=
  p.model.constantSteer p.init p.steering (p.length * ratio) p.direction
/-- path_constant_steer.cpp:5-9 -/
noncomputable def new (model : Bicycle) (init : PoseR) (steering length : ℝ) (direction : Direction) :
    PathSteer :=
  let p : PathSteer := ⟨model, init, init, length, steering, direction⟩
  { p with final := p.interpolate 1 }
/-- path_constant_steer.cpp:16-20 -/
noncomputable def truncate (p : PathSteer) (ratio : ℝ) : PathSteer :=
  { p with final := p.interpolate ratio, length := p.length * ratio }
/-- path_constant_steer.cpp:22-25 -/
def getDirection (p : PathSteer) (_ : ℝ) : Direction := p.direction
end PathSteer

end PathPlanning
