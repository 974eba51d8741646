import Verif.Model.FloatDrive
import Verif.Model.HybridAStar

/-!
# Model of constant-steer motions with the arithmetic of the program (planner/src/models/kinematic_bicycle_model.cpp,
planner/src/paths/path_constant_steer.cpp, planner/src/algo/hybrid_a_star.cpp)

Same functions as in `Verif.Model.Path`, with each operation rounded to a `double`. The mathematical library is an argument.
-/

namespace PathPlanning
open Flt

/-- The functions of `<cmath>` that kinematic_bicycle_model.cpp:14-40 calls; `sq x` is `std::pow(x, 2)`. -/
structure LibmSteer extends Libm where
  tan : ℝ → ℝ
  atan : ℝ → ℝ
  sq : ℝ → ℝ

namespace Bicycle

/-- kinematic_bicycle_model.cpp:14-15, `beta`. -/
noncomputable def betaF (lm : LibmSteer) (m : Bicycle) (steering : ℝ) : ℝ :=
  lm.atan (fl64 (fl64 (m.rearToCenter * lm.tan steering) / m.wheelbase))

/-- kinematic_bicycle_model.cpp:16-18, `DthetaDdist`. -/
noncomputable def dThetaDdistF (lm : LibmSteer) (m : Bicycle) (steering : ℝ) : ℝ :=
  fl64 (fl64 (lm.cos (m.betaF lm steering) * lm.tan steering) / m.wheelbase)

/-- kinematic_bicycle_model.cpp:5-32, `ConstantSteer`. `abs` is taken to be the floating-point one (line 22), as in
`Bicycle.constantSteer`. -/
noncomputable def constantSteerF (lm : LibmSteer) (m : Bicycle) (start : PoseR) (steering dist : ℝ)
    (direction : Direction) : PoseR :=
  let dist := if direction = .backward then -dist else dist
  let beta := m.betaF lm steering
  let d := m.dThetaDdistF lm steering
  let dist := fl64 (dist / lm.cos beta)
  if |d| > fl64 1e-9 then
    let theta := fl64 (start.theta + fl64 (dist * d))
    ⟨⟨fl64 (start.position.x +
        fl64 (fl64 (1 / d) * fl64 (lm.sin (fl64 (beta + theta)) - lm.sin (fl64 (beta + start.theta))))),
      fl64 (start.position.y +
        fl64 (fl64 (1 / d) * fl64 (-lm.cos (fl64 (beta + theta)) + lm.cos (fl64 (beta + start.theta)))))⟩, theta⟩
  else
    ⟨⟨fl64 (start.position.x + fl64 (dist * lm.cos start.theta)),
      fl64 (start.position.y + fl64 (dist * lm.sin start.theta))⟩, start.theta⟩

/-- kinematic_bicycle_model.cpp:34-41, `GetSteeringAngleFromTurningRadius`; `none`: not a number, the root of a negative
number. `M_PI_2` is `fl64 (π / 2)`, which is also the arc tangent of infinity. -/
noncomputable def steeringFromRadiusF (lm : LibmSteer) (m : Bicycle) (radius : ℝ) : Option ℝ :=
  if radius < m.rearToCenter then some (fl64 (Real.pi / 2))
  else
    let x := fl64 (lm.sq radius - lm.sq m.rearToCenter)
    if x < 0 then none
    else
      let s := fl64 √x
      if s = 0 then some (fl64 (Real.pi / 2)) else some (lm.atan (fl64 (m.wheelbase / s)))

end Bicycle

namespace PathSteer

/-- path_constant_steer.cpp:11-14 -/
noncomputable def interpolateF (lm : LibmSteer) (p : PathSteer) (ratio : ℝ) : PoseR :=
  p.model.constantSteerF lm p.init p.steering (fl64 (p.length * ratio)) p.direction

/-- path_constant_steer.cpp:5-9 -/
noncomputable def newF (lm : LibmSteer) (model : Bicycle) (init : PoseR) (steering length : ℝ) (direction : Direction) :
    PathSteer :=
  let p : PathSteer := ⟨model, init, init, length, steering, direction⟩
  { p with final := p.interpolateF lm 1 }

/-- path_constant_steer.cpp:16-20 -/
noncomputable def truncateF (lm : LibmSteer) (p : PathSteer) (ratio : ℝ) : PathSteer :=
  { p with final := p.interpolateF lm ratio, length := fl64 (p.length * ratio) }

end PathSteer

namespace HybridAStar

/-- hybrid_a_star.cpp:22, `deltaMax`. -/
noncomputable def deltaMaxF (lm : LibmSteer) (p : HybridParam) : Option ℝ :=
  (model p).steeringFromRadiusF lm p.minTurningRadius

/-- hybrid_a_star.cpp:21-28, `m_deltas`. -/
noncomputable def deltasF (lm : LibmSteer) (p : HybridParam) : Option (List ℝ) := do
  let dm ← deltaMaxF lm p
  return 0 :: (List.range (p.numGeneratedMotion / 2)).flatMap fun i =>
    let delta := fl64 (fl64 (((i + 1 : Nat) : ℝ) / 2) * dm)
    [delta, -delta]

/-- hybrid_a_star.cpp:115, the path of `GetConstantSteerChild` before it is validated. -/
noncomputable def steerMotionF (lm : LibmSteer) (p : HybridParam) (from_ : PoseR) (delta : ℝ) (direction : Direction) :
    PathSteer :=
  PathSteer.newF lm (model p) from_ delta (fl64 (p.spatialResolution * 1.5)) direction

end HybridAStar
end PathPlanning
