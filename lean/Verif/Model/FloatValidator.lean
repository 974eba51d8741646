import Verif.Model.FloatMap
import Verif.Model.FloatPose
import Verif.Model.Validator

/-!
# Model of `StateValidatorOccupancyMap` with the arithmetic of the program
(planner/src/state_validator/state_validator_occupancy_map.cpp)

Same functions as in `Verif.Model.Validator`, with each operation rounded to the type in which C++ computes it: positions,
lengths and ratios are `double`, distances, the interpolation step, the safe radius and `*last` are `float`. The states that
`Interpolate` returns are those of the program (`AnyPath.interpolate` may round in any way).
-/

namespace PathPlanning
open Flt

/-- gvd.h:38: `std::sqrt` of an `int` is a `double`, and so is its product with the `float` resolution; the result is
converted to `float`. -/
noncomputable def worldDistanceF (resolution : ℝ) (d : WithTop Nat) : ℝ :=
  fl32 (fl64 (fl64 √((ObstDistMap.toInt d : Int) : ℝ) * resolution))

namespace Validator

/-- state_validator_occupancy_map.cpp:24, 62 (gvd.h:38); `none` is an access outside the matrix. -/
noncomputable def obstacleDistanceF (v : Validator) (cell : Cell) : Option ℝ :=
  (v.dist.read v.dist.dist cell).map (worldDistanceF v.map.resolution)

/-- state_validator_occupancy_map.cpp:15-26, `IsStateValid`; the constructor of the local pose wraps the heading
(`none`: the loop does not end). -/
noncomputable def isStateValidF (v : Validator) (state : PoseR) : Option Bool :=
  (wrapThetaF state.theta).bind fun theta =>
    let localState : PoseR := ⟨⟨fl64 (state.position.x - v.map.localOrigin.x),
      fl64 (state.position.y - v.map.localOrigin.y)⟩, theta⟩
    let cell := v.map.worldPositionToGridCellF state.position true
    if !v.space.validateBounds localState || !v.map.isInsideCell cell then some false
    else (v.obstacleDistanceF cell).map fun d => decide (d ≥ v.minSafe)

/-- state_validator_occupancy_map.cpp:54-59: the least of four `double`s, converted to `float`. -/
noncomputable def distToMapBorderF (v : Validator) (state : PoseR) : ℝ :=
  fl32 (min (min (fl64 (state.position.x - v.space.lb.position.x)) (fl64 (v.space.ub.position.x - state.position.x)))
    (min (fl64 (state.position.y - v.space.lb.position.y)) (fl64 (v.space.ub.position.y - state.position.y))))

/-- state_validator_occupancy_map.cpp:61-65: how far the next state to check is. -/
noncomputable def incrementF (v : Validator) (state : PoseR) : Option ℝ :=
  (v.obstacleDistanceF (v.map.worldPositionToGridCellF state.position true)).map fun distance =>
    max (min (fl32 (distance - v.minSafe)) (v.distToMapBorderF state)) v.minStep

/-- state_validator_occupancy_map.cpp:40-70, the loop of `IsPathValid`: the returned Boolean and `*last`. `none` is an
access outside the matrix, or a loop that does not end. -/
noncomputable def pathLoopF (v : Validator) (path : AnyPath) (length lastValidLength : ℝ) : Option (Bool × ℝ) :=
  if length < path.length then do
    let state := path.interpolate (fl64 (length / path.length))
    let valid ← v.isStateValidF state
    if valid then
      let delta ← v.incrementF state
      pathLoopF v path (fl64 (length + delta)) length
    else some (false, fl32 (fl64 (lastValidLength / path.length)))
  else some (true, 1)
partial_fixpoint

/-- state_validator_occupancy_map.cpp:28-71, `IsPathValid`. -/
noncomputable def isPathValidF (v : Validator) (path : AnyPath) : Option (Bool × ℝ) :=
  if path.length = 0 then (v.isStateValidF path.init).map fun b => (b, 1)
  else v.pathLoopF path 0 0

end Validator
end PathPlanning
