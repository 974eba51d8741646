import Verif.Model.FloatMap
import Verif.Model.ObstHeuristic
import Verif.Lemmas.Float

/-!
# Model of `ObstaclesHeuristic` with the arithmetic of the program (planner/src/algo/heuristics.h:50-98,
heuristics.cpp:92-166)

`Update` is the function of `Verif.Model.ObstHeuristic`, on `float`s.
-/

namespace PathPlanning
open Flt

/-- The type `float`: finite numbers (24 bits of significand; the range of exponents is not bounded). -/
def F32 : Type := {x : ℝ // IsFlt 24 x}

namespace F32

noncomputable instance : LinearOrder F32 := inferInstanceAs (LinearOrder {x : ℝ // IsFlt 24 x})

instance : Zero F32 := ⟨⟨0, fl_zero 24⟩⟩

instance : One F32 := ⟨⟨1, by have := fl_int (p := 24) (by norm_num) (n := 1) (by norm_num); simpa [IsFlt] using this⟩⟩

/-- The sum of two `float`s is a `float` (heuristics.cpp:131). -/
noncomputable instance : Add F32 := ⟨fun a b => ⟨fl32 (a.val + b.val), isFlt_fl 24 (by norm_num) _⟩⟩

/-- `std::sqrt(2.0f)` (heuristics.cpp:130). -/
noncomputable def sqrtTwo : F32 := ⟨fl32 √2, isFlt_fl 24 (by norm_num) _⟩

end F32

/-- heuristics.cpp:102-151, `Update`, for the cell of the goal. -/
noncomputable def ObstHeuristic.updateF (m : GridMap) (cell : Cell) : Option (HeurTables F32) :=
  ObstHeuristic.update m F32.sqrtTwo cell

/-- heuristics.cpp:155, the norm of the difference of two positions, in `double`. -/
noncomputable def ObstHeuristic.euclideanF (a b : Pt) : ℝ :=
  let dx := fl64 (a.x - b.x)
  let dy := fl64 (a.y - b.y)
  fl64 √(fl64 (fl64 (dx * dx) + fl64 (dy * dy)))

/-- heuristics.cpp:93, `diagonalResolution`: a product in `double`, converted to `float`. -/
noncomputable def ObstHeuristic.diagonalResolutionF (resolution : ℝ) : ℝ := fl32 (fl64 (fl64 √2 * resolution))

/-- heuristics.cpp:94, `costMultiplier`: a product in `double`, converted to `float`. -/
noncomputable def ObstHeuristic.costMultiplierF (reverseCost forwardCost resolution : ℝ) : ℝ :=
  fl32 (fl64 (min reverseCost forwardCost * resolution))

/-- heuristics.cpp:153-163, `GetHeuristicValue`: the product and the difference are `float`s, the greater of the two values is
a `double`. `none` is an access outside a matrix, or an infinite value. -/
noncomputable def ObstHeuristic.getHeuristicValueF (frame : OccMap) (reverseCost forwardCost : ℝ)
    (t : HeurTables F32) (goal state : PoseR) : Option ℝ :=
  let euclidean := euclideanF goal.position state.position
  let cell := frame.worldPositionToGridCellF state.position true
  if !cell.isValid then some euclidean
  else if !frame.isInsideCell cell then none
  else if !t.explored cell then some euclidean
  else match t.cost cell with
    | ⊤ => none
    | (c : F32) =>
      let heuristic := fl32 (fl32 (c.val * costMultiplierF reverseCost forwardCost frame.resolution) -
        diagonalResolutionF frame.resolution)
      some (max heuristic euclidean)

/-- heuristics.cpp:102-151, `Update`, for a goal in the world. -/
noncomputable def ObstHeuristic.updatePoseF (frame : OccMap) (occ : Cell → Bool) (goal : PoseR) :
    Option (HeurTables F32) :=
  ObstHeuristic.updateF ⟨frame.rows, frame.columns, occ⟩ (frame.worldPositionToGridCellF goal.position true)

end PathPlanning
