import Verif.Model.GVD
import Verif.Model.Pose
import Verif.Model.StateSpace

/-!
# Model of the state validators
(planner/src/state_validator/state_validator_occupancy_map.h/.cpp, state_validator_free.h)

Numbers are reals: rounding of `float` and `double` is not modelled.
-/

namespace PathPlanning

/-- paths/path.h: what the validator uses of a path. -/
structure AnyPath where
  init : PoseR
  length : ℝ
  interpolate : ℝ → PoseR

/-- state_validator_occupancy_map.h:29-34. `dist` is the obstacle distance map of the occupancy map. -/
structure Validator where
  space : SpaceSE2
  map : OccMap
  dist : DistMap
  /-- `minPathInterpolationDistance` -/
  minStep : ℝ
  /-- `minSafeRadius` -/
  minSafe : ℝ

namespace Validator

/-- state_validator_occupancy_map.cpp:6-13, the constructor gives the map the size of the bounds (and
a new distance map, occupancy_map.cpp:13); `none` is the exception. -/
noncomputable def new (space : SpaceSE2) (map : OccMap) (minStep minSafe : ℝ) : Option Validator :=
  (map.initializeSize (space.ub.position.x - space.lb.position.x)
    (space.ub.position.y - space.lb.position.y)).map fun m =>
      ⟨space, m, .new m.rows m.columns, minStep, minSafe⟩

/-- state_validator_occupancy_map.cpp:24 (gvd.h:38): the distance to the nearest obstacle of a cell;
`none` is an access outside the matrix. -/
noncomputable def obstacleDistance (v : Validator) (cell : Cell) : Option ℝ :=
  (v.dist.read v.dist.dist cell).map (worldDistance v.map.resolution)

/-- state_validator_occupancy_map.cpp:15-26, `IsStateValid`. -/
noncomputable def isStateValid (v : Validator) (state : PoseR) : Option Bool :=
  let localState := PoseR.mk' (v.map.worldPositionToLocalPosition state.position) state.theta
  let cell := v.map.worldPositionToGridCell state.position true
  if !v.space.validateBounds localState || !v.map.isInsideCell cell then some false
  else (v.obstacleDistance cell).map fun d => decide (d ≥ v.minSafe)

/-- state_validator_occupancy_map.cpp:53-58 -/
noncomputable def distToMapBorder (v : Validator) (state : PoseR) : ℝ :=
  min (min (state.position.x - v.space.lb.position.x) (v.space.ub.position.x - state.position.x))
    (min (state.position.y - v.space.lb.position.y) (v.space.ub.position.y - state.position.y))

/-- state_validator_occupancy_map.cpp:60-63: how far the next state to check is. -/
noncomputable def increment (v : Validator) (state : PoseR) : Option ℝ :=
  (v.obstacleDistance (v.map.worldPositionToGridCell state.position true)).map fun distance =>
    max (min (distance - v.minSafe) (v.distToMapBorder state)) v.minStep

/-- state_validator_occupancy_map.cpp:42-69, the loop of `IsPathValid`: the returned Boolean and
`*last`. `none` is an access outside the matrix, or a loop that does not end. -/
noncomputable def pathLoop (v : Validator) (path : AnyPath) (length lastValidLength : ℝ) :
    Option (Bool × ℝ) :=
  if length < path.length then do
    let state := path.interpolate (length / path.length)
    let valid ← v.isStateValid state
    if valid then
      let delta ← v.increment state
      pathLoop v path (length + delta) length
    else some (false, lastValidLength / path.length)
  else some (true, 1)
partial_fixpoint

/-- state_validator_occupancy_map.cpp:28-70, `IsPathValid`. -/
noncomputable def isPathValid (v : Validator) (path : AnyPath) : Option (Bool × ℝ) :=
  if path.length = 0 then (v.isStateValid path.init).map fun b => (b, 1)
  else v.pathLoop path 0 0

end Validator

/-- state_validator_free.h:15-22, `StateValidatorFree::IsStateValid`, for the test of the bounds of the state space. -/
def freeIsStateValid {S : Type} (validateBounds : S → Bool) (state : S) : Bool :=
  if !validateBounds state then false else true

/-- state_validator_free.h:25-30, `StateValidatorFree::IsPathValid`: the returned Boolean and `*last`. -/
def freeIsPathValid {P : Type} (_ : P) : Bool × ℝ := (true, 1)

end PathPlanning
