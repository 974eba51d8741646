import Verif.Model.Float
import Verif.Model.StateSpace

/-!
# Model of sampling with `double` (planner/src/utils/random.h, planner/src/state_space/*)

Same functions as in `Verif.Model.StateSpace`, with each operation rounded to `double`.
-/

namespace PathPlanning
open Flt

/-- utils/random.h:15, `s_uniformDistribution` from 0 to the `double` after 1, as libstdc++ computes it
(`std::uniform_real_distribution`: `c * (b - a) + a`) from a `double` `c` of the engine in [0, 1). -/
noncomputable def uniformF (c : ℝ) : ℝ := fl64 (fl64 (c * fl64 (fl64 (1 + 2 ^ (-52 : ℤ)) - 0)) + 0)

/-- utils/random.h:22-26, `SampleUniform`; `u` is the number of the distribution. -/
noncomputable def sampleUniformF (lb ub u : ℝ) : ℝ := fl64 (lb + fl64 (fl64 (ub - lb) * u))

/-- utils/random.h:30-33, `SampleGaussian`; `g` is the number of the distribution. -/
noncomputable def sampleGaussianF (mean stdDev g : ℝ) : ℝ := fl64 (mean + fl64 (stdDev * g))

namespace SpaceR2
/-- state_space_r2.cpp:25-35 -/
noncomputable def sampleUniformF (s : SpaceR2) (ux uy : ℝ) : Pt :=
  ⟨PathPlanning.sampleUniformF s.lb.x s.ub.x ux, PathPlanning.sampleUniformF s.lb.y s.ub.y uy⟩
/-- state_space_r2.cpp:37-48; `EnforceBounds` rounds nothing. -/
noncomputable def sampleGaussianF (s : SpaceR2) (mean stdDev : Pt) (gx gy : ℝ) : Pt :=
  s.enforceBounds ⟨PathPlanning.sampleGaussianF mean.x stdDev.x gx,
    PathPlanning.sampleGaussianF mean.y stdDev.y gy⟩
end SpaceR2

namespace SpaceSE2
/-- state_space_se2.cpp:27-38 -/
noncomputable def sampleUniformF (s : SpaceSE2) (ux uy ut : ℝ) : PoseR :=
  ⟨⟨PathPlanning.sampleUniformF s.lb.position.x s.ub.position.x ux,
    PathPlanning.sampleUniformF s.lb.position.y s.ub.position.y uy⟩,
    PathPlanning.sampleUniformF s.lb.theta s.ub.theta ut⟩
/-- state_space_se2.cpp:40-52 -/
noncomputable def sampleGaussianF (s : SpaceSE2) (mean stdDev : PoseR) (gx gy gt : ℝ) : PoseR :=
  s.enforceBounds
    ⟨⟨PathPlanning.sampleGaussianF mean.position.x stdDev.position.x gx,
      PathPlanning.sampleGaussianF mean.position.y stdDev.position.y gy⟩,
      PathPlanning.sampleGaussianF mean.theta stdDev.theta gt⟩
end SpaceSE2

end PathPlanning
