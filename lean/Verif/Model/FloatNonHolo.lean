import Verif.Model.NonHolonomic
import Verif.Model.FloatDrive

/-!
# Model of `NonHolonomicHeuristic` with the arithmetic of the program (planner/src/algo/heuristics.cpp:7-90)

Same functions as in `Verif.Model.NonHolonomic`, with each operation rounded to a `double`. The values stored in the table
are an argument: the rounding of the Reeds-Shepp solver is not modelled. An access outside the table, the conversion to
`int` of a number that does not fit, and a call of `WrapTheta` that does not end are `none`. The numbers of cells are taken
to fit in an `unsigned int`.
-/

namespace PathPlanning
open Flt

namespace NonHolo

/-- heuristics.cpp:41-49, the number of cells along an axis. -/
noncomputable def numSpatialF (lower upper resolution : ℝ) : Nat :=
  let guess := ⌈fl64 (fl64 (upper - lower) / resolution)⌉₊
  if guess % 2 = 0 then guess + 1 else guess

/-- heuristics.cpp:35-54, the parameters set by `Build`. -/
noncomputable def buildF (lb ub : PoseR) (res ang R rev fwd sw : ℝ) : NonHolo :=
  ⟨res, ang, R, rev, fwd, sw, numSpatialF lb.position.x ub.position.x res, numSpatialF lb.position.y ub.position.y res⟩

/-- heuristics.cpp:13 -/
noncomputable def numAngularF (h : NonHolo) : Nat := ⌈fl64 (fl64 (2 * mPi) / h.angularResolution)⌉₊

/-- heuristics.cpp:14 -/
noncomputable def offsetXF (h : NonHolo) : ℝ := fl64 (⌊(h.numSpatialX : ℝ) / 2⌋ * h.spatialResolution)

/-- heuristics.cpp:14 -/
noncomputable def offsetYF (h : NonHolo) : ℝ := fl64 (⌊(h.numSpatialY : ℝ) / 2⌋ * h.spatialResolution)

/-- heuristics.cpp:65, the pose of an entry of the table. -/
noncomputable def entryPoseF (h : NonHolo) (i j k : ℤ) : Option PoseR :=
  PoseR.mkF ⟨fl64 (fl64 (i * h.spatialResolution) - h.offsetXF), fl64 (fl64 (j * h.spatialResolution) - h.offsetYF)⟩
    (fl64 (k * h.angularResolution))

/-- heuristics.cpp:84, `delta.position.norm()`. -/
noncomputable def normF (p : Pt) : ℝ := fl64 √(fl64 (fl64 (p.x * p.x) + fl64 (p.y * p.y)))

/-- heuristics.cpp:89, the access to the table. -/
noncomputable def readF {V : Type} (h : NonHolo) (table : ℤ → ℤ → ℤ → V) (i j k : ℤ) : Option V :=
  if 0 ≤ i ∧ i < h.numSpatialX ∧ 0 ≤ j ∧ j < h.numSpatialY ∧ 0 ≤ k ∧ k < h.numAngularF then some (table i j k) else none

/-- heuristics.cpp:78-82, the three indices. -/
noncomputable def indicesF (h : NonHolo) (delta : PoseR) : ℤ × ℤ × ℤ :=
  (roundR (fl64 (fl64 (delta.position.x + h.offsetXF) / h.spatialResolution)),
    roundR (fl64 (fl64 (delta.position.y + h.offsetYF) / h.spatialResolution)),
    roundR (fl64 (delta.theta / h.angularResolution)))

/-- heuristics.cpp:76-90, `GetHeuristicValue`. -/
noncomputable def getHeuristicValueF (lm : Libm) (h : NonHolo) (table : ℤ → ℤ → ℤ → ℝ) (goal state : PoseR) : Option ℝ := do
  let delta ← goal.subF lm state
  let i ← toInt32 (h.indicesF delta).1
  let j ← toInt32 (h.indicesF delta).2.1
  let k ← toInt32 (h.indicesF delta).2.2
  let k := if k = h.numAngularF then 0 else k
  if i < 0 ∨ i ≥ h.numSpatialX ∨ j < 0 ∨ j ≥ h.numSpatialY then return fl64 (min h.rev h.fwd * normF delta.position)
  else h.readF table i j k

end NonHolo
end PathPlanning
