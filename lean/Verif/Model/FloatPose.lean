import Verif.Model.Float
import Mathlib.Analysis.Real.Pi.Bounds

/-!
# Model of `WrapTheta` with `double` (planner/src/geometry/2dplane.h)
-/

namespace PathPlanning.Flt
open Classical

/-- The macro `M_PI` (used in 2dplane.h:40-43): the `double` nearest to π. -/
noncomputable def mPi : ℝ := fl64 Real.pi

/-- 2dplane.h:40-41, the first loop of `WrapTheta`; `none` is a loop that does not end. -/
noncomputable def wrapDownF (t : ℝ) : Option ℝ :=
  if t > mPi then wrapDownF (fl64 (t - fl64 (2 * mPi))) else some t
partial_fixpoint

/-- 2dplane.h:42-43, the second loop of `WrapTheta`; `none` is a loop that does not end. -/
noncomputable def wrapUpF (t : ℝ) : Option ℝ :=
  if t < -mPi then wrapUpF (fl64 (t + fl64 (2 * mPi))) else some t
partial_fixpoint

/-- 2dplane.h:36-45, `WrapTheta` of a `Pose2d`. -/
noncomputable def wrapThetaF (t : ℝ) : Option ℝ := (wrapDownF t).bind wrapUpF

end PathPlanning.Flt
