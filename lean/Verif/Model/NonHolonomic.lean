import Verif.Model.ReedsShepp
import Mathlib.Order.WithBot

/-!
# Model of `NonHolonomicHeuristic` (planner/src/algo/heuristics.cpp:7-90)

Numbers are reals. An access outside the table, and the conversion to `int` of a number that does not
fit, are undefined: `none`.
-/

namespace PathPlanning
open Real

/-- C `round`: to the nearest integer, halves away from zero. -/
noncomputable def roundR (x : ℝ) : ℤ := if 0 ≤ x then ⌊x + 1 / 2⌋ else ⌈x - 1 / 2⌉

/-- The conversion of an integral `double` to `int`. -/
def toInt32 (n : ℤ) : Option ℤ := if -2147483648 ≤ n ∧ n ≤ 2147483647 then some n else none

/-- heuristics.h:27-30, the parameters. -/
structure NonHolo where
  spatialResolution : ℝ
  angularResolution : ℝ
  minTurningRadius : ℝ
  rev : ℝ
  fwd : ℝ
  sw : ℝ
  numSpatialX : Nat
  numSpatialY : Nat

namespace NonHolo

/-- heuristics.cpp:44-49, the number of cells along an axis: at least the size, and odd. -/
noncomputable def numSpatial (size resolution : ℝ) : Nat :=
  let guess := ⌈size / resolution⌉₊
  if guess % 2 = 0 then guess + 1 else guess

/-- heuristics.cpp:35-54, the parameters set by `Build`. -/
noncomputable def build (lb ub : PoseR) (res ang R rev fwd sw : ℝ) : NonHolo :=
  ⟨res, ang, R, rev, fwd, sw, numSpatial (ub.position.x - lb.position.x) res,
    numSpatial (ub.position.y - lb.position.y) res⟩

/-- heuristics.cpp:13 -/
noncomputable def numAngular (h : NonHolo) : Nat := ⌈2 * π / h.angularResolution⌉₊

/-- heuristics.cpp:14 -/
noncomputable def offsetX (h : NonHolo) : ℝ := ⌊(h.numSpatialX : ℝ) / 2⌋ * h.spatialResolution

/-- heuristics.cpp:14 -/
noncomputable def offsetY (h : NonHolo) : ℝ := ⌊(h.numSpatialY : ℝ) / 2⌋ * h.spatialResolution

/-- heuristics.cpp:65, the pose of an entry of the table. -/
noncomputable def entryPose (h : NonHolo) (i j k : ℤ) : PoseR :=
  PoseR.mk' ⟨i * h.spatialResolution - h.offsetX, j * h.spatialResolution - h.offsetY⟩
    (k * h.angularResolution)

/-- heuristics.cpp:61-70, an entry of the table; `none` is the infinite cost. -/
noncomputable def entry (h : NonHolo) (i j k : ℤ) : Option ℝ :=
  (RS.optimalPath (h.entryPose i j k) ⟨⟨0, 0⟩, 0⟩ h.minTurningRadius h.rev h.fwd h.sw).computeCost
    h.minTurningRadius h.rev h.fwd h.sw

/-- heuristics.cpp:89, the access to the table. -/
noncomputable def read (h : NonHolo) (i j k : ℤ) : Option (Option ℝ) :=
  if 0 ≤ i ∧ i < h.numSpatialX ∧ 0 ≤ j ∧ j < h.numSpatialY ∧ 0 ≤ k ∧ k < h.numAngular then
    some (h.entry i j k)
  else none

/-- heuristics.cpp:76-90, `GetHeuristicValue`. -/
noncomputable def getHeuristicValue (h : NonHolo) (goal state : PoseR) : Option (Option ℝ) := do
  let delta := goal.sub state
  let i ← toInt32 (roundR ((delta.position.x + h.offsetX) / h.spatialResolution))
  let j ← toInt32 (roundR ((delta.position.y + h.offsetY) / h.spatialResolution))
  let k ← toInt32 (roundR (delta.theta / h.angularResolution))
  let k := if k = h.numAngular then 0 else k
  if i < 0 ∨ i ≥ h.numSpatialX ∨ j < 0 ∨ j ≥ h.numSpatialY then
    return some (min h.rev h.fwd * √(delta.position.x ^ 2 + delta.position.y ^ 2))
  else h.read i j k

end NonHolo
end PathPlanning
