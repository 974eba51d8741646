import Verif.Model.OccMap

/-!
# Model of the state spaces (planner/src/state_space/*, planner/src/utils/random.h)

The random numbers drawn are parameters: `u` in [0, 1] for the uniform distribution, `g` arbitrary
for the Gaussian one. Numbers are reals.
-/

namespace PathPlanning

/-- `std::clamp` (its precondition is `lo ≤ hi`). -/
noncomputable def clampR (v lo hi : ℝ) : ℝ := if v < lo then lo else if hi < v then hi else v

/-- utils/random.h:22-26, `SampleUniform`. -/
noncomputable def sampleUniform (lb ub u : ℝ) : ℝ := lb + (ub - lb) * u

/-- utils/random.h:30-33, `SampleGaussian`. -/
noncomputable def sampleGaussian (mean stdDev g : ℝ) : ℝ := mean + stdDev * g

/-- state_space.h:61, the bounds of `StateSpaceR2`. -/
structure SpaceR2 where
  lb : Pt
  ub : Pt

namespace SpaceR2
/-- state_space_r2.cpp:4-12 -/
noncomputable def enforceBounds (s : SpaceR2) (p : Pt) : Pt :=
  ⟨clampR p.x s.lb.x s.ub.x, clampR p.y s.lb.y s.ub.y⟩
/-- state_space_r2.cpp:14-23 -/
noncomputable def validateBounds (s : SpaceR2) (p : Pt) : Bool :=
  if p.x < s.lb.x ∨ p.x > s.ub.x then false
  else if p.y < s.lb.y ∨ p.y > s.ub.y then false
  else true
/-- state_space_r2.cpp:25-35 -/
noncomputable def sampleUniform (s : SpaceR2) (ux uy : ℝ) : Pt :=
  ⟨PathPlanning.sampleUniform s.lb.x s.ub.x ux, PathPlanning.sampleUniform s.lb.y s.ub.y uy⟩
/-- state_space_r2.cpp:37-48 -/
noncomputable def sampleGaussian (s : SpaceR2) (mean stdDev : Pt) (gx gy : ℝ) : Pt :=
  s.enforceBounds ⟨PathPlanning.sampleGaussian mean.x stdDev.x gx,
    PathPlanning.sampleGaussian mean.y stdDev.y gy⟩
end SpaceR2

/-- state_space.h:61, the bounds of `StateSpaceSE2`. -/
structure SpaceSE2 where
  lb : PoseR
  ub : PoseR

namespace SpaceSE2
/-- state_space_se2.cpp:4-13 -/
noncomputable def enforceBounds (s : SpaceSE2) (p : PoseR) : PoseR :=
  ⟨⟨clampR p.position.x s.lb.position.x s.ub.position.x,
    clampR p.position.y s.lb.position.y s.ub.position.y⟩, clampR p.theta s.lb.theta s.ub.theta⟩
/-- state_space_se2.cpp:15-25 -/
noncomputable def validateBounds (s : SpaceSE2) (p : PoseR) : Bool :=
  if p.position.x < s.lb.position.x ∨ p.position.x > s.ub.position.x then false
  else if p.position.y < s.lb.position.y ∨ p.position.y > s.ub.position.y then false
  else if p.theta < s.lb.theta ∨ p.theta > s.ub.theta then false
  else true
/-- state_space_se2.cpp:27-38; the heading is assigned, not wrapped. -/
noncomputable def sampleUniform (s : SpaceSE2) (ux uy ut : ℝ) : PoseR :=
  ⟨⟨PathPlanning.sampleUniform s.lb.position.x s.ub.position.x ux,
    PathPlanning.sampleUniform s.lb.position.y s.ub.position.y uy⟩,
    PathPlanning.sampleUniform s.lb.theta s.ub.theta ut⟩
/-- state_space_se2.cpp:40-52 -/
noncomputable def sampleGaussian (s : SpaceSE2) (mean stdDev : PoseR) (gx gy gt : ℝ) : PoseR :=
  s.enforceBounds
    ⟨⟨PathPlanning.sampleGaussian mean.position.x stdDev.position.x gx,
      PathPlanning.sampleGaussian mean.position.y stdDev.position.y gy⟩,
      PathPlanning.sampleGaussian mean.theta stdDev.theta gt⟩
end SpaceSE2

/-- `states[i] = v` on a `std::vector`; `none` is undefined behaviour. -/
def vecAssign {V : Type} (states : List V) (i : Nat) (v : V) : Option (List V) :=
  if i < states.length then some (states.set i v) else none

/-- state_space.h:36-44, `SampleUniform(numSamples)`: `reserve` does not change the size of the
vector. `sample i` is the `i`-th sample. The overload of `SampleGaussian` (lines 49-57) has the same
body (and does not compile when instantiated: it calls `SampleGuassian`). -/
def sampleBatch {V : Type} (sample : Nat → V) (numSamples : Nat) : Option (List V) :=
  (List.range numSamples).foldlM (fun states i => vecAssign states i (sample i)) []

end PathPlanning
