import Verif.Model.RRTPlanner
import Verif.Model.StateSpace
import Verif.Model.Path

/-!
# Model of the random numbers of RRT and RRT* in the plane (rrt.h, rrt_star.h, state_space_r2.cpp, random.h)

All draws of a search take their numbers, one after another, from one stream `u` of numbers in [0, 1]
(`s_uniformDistribution`, random.h:17, 25). How many numbers an iteration takes depends on the first of them.
-/

namespace PathPlanning.RRTPlanner

/-- rrt.h:72, rrt_star.h:70: where in the stream the iteration `i` begins. An iteration takes one number, and two more for a
uniform sample (state_space_r2.cpp:25-35) if the first is not below the goal bias. -/
noncomputable def drawPos (goalBias : ℝ) (u : Nat → ℝ) : Nat → Nat
  | 0 => 0
  | i + 1 =>
    drawPos goalBias u i + if sampleUniform 0 1 (u (drawPos goalBias u i)) < goalBias then 1 else 3

/-- rrt.h:72, rrt_star.h:70: the number compared with the goal bias in iteration `i`. -/
noncomputable def streamCoin (goalBias : ℝ) (u : Nat → ℝ) (i : Nat) : ℝ := sampleUniform 0 1 (u (drawPos goalBias u i))

/-- rrt.h:72, rrt_star.h:70: the uniform sample of iteration `i`, if it makes one. -/
noncomputable def streamUniform (space : SpaceR2) (goalBias : ℝ) (u : Nat → ℝ) (i : Nat) : Pt :=
  space.sampleUniform (u (drawPos goalBias u i + 1)) (u (drawPos goalBias u i + 2))

/-- rrt.h:55-95, `SearchPath` of RRT over `StateSpaceR2`, for a stream of random numbers. -/
noncomputable def searchR2 [DecidableEq Pt] (w : RRTWorld Pt PathR2 ℝ) (space : SpaceR2) (s : RRTPlanner Pt ℝ) (u : Nat → ℝ) :
    Option (Bool × RRTPlanner Pt ℝ) :=
  s.search w (streamCoin s.params.goalBias u) (streamUniform space s.params.goalBias u)

/-- rrt_star.h:53-112, `SearchPath` of RRT* over `StateSpaceR2`, for a stream of random numbers. -/
noncomputable def searchStarR2 [DecidableEq Pt] (w : RRTWorld Pt PathR2 ℝ) (nn : Nat → Nat) (space : SpaceR2)
    (s : RRTPlanner Pt ℝ) (u : Nat → ℝ) : Option (Bool × RRTPlanner Pt ℝ) :=
  s.searchStar w nn (streamCoin s.params.goalBias u) (streamUniform space s.params.goalBias u)

end PathPlanning.RRTPlanner
