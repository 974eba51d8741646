import Verif.Model.FloatHeuristic
import Verif.Model.RRTPlanner
import Verif.Model.Path

/-!
# Model of RRT and RRT* in the plane with the arithmetic of the program (planner/src/paths/path_r2.cpp,
planner/src/algo/rrt.h, planner/src/algo/rrt_star.h, planner/src/utils/tree.h)

Same functions as in `Verif.Model.Path` and `Verif.Model.RRT`, with each operation rounded to a `double`.
-/

namespace PathPlanning
open Flt

namespace PathR2

/-- path_r2.cpp:5-9; the length is the norm of the difference of the points. -/
noncomputable def connectF (a b : Pt) : PathR2 := ⟨a, b, ObstHeuristic.euclideanF b a⟩

/-- path_r2.cpp:11-16, `Interpolate`. -/
noncomputable def interpolateF (p : PathR2) (ratio : ℝ) : Pt :=
  ⟨fl64 (fl64 (fl64 (1 - ratio) * p.init.x) + fl64 (ratio * p.final.x)),
    fl64 (fl64 (fl64 (1 - ratio) * p.init.y) + fl64 (ratio * p.final.y))⟩

/-- path_r2.cpp:18-22, `Truncate`. -/
noncomputable def truncateF (p : PathR2) (ratio : ℝ) : PathR2 :=
  { p with final := p.interpolateF ratio, length := fl64 (p.length * ratio) }

/-- rrt.h:132-140, rrt_star.h:142-150, `SteerTowards`. -/
noncomputable def steerTowardsF (start target : Pt) (distance : ℝ) : PathR2 :=
  let path := connectF start target
  if 0 < path.length then path.truncateF (clampK (fl64 (distance / path.length)) 0 1) else path

end PathR2

/-- The operations on paths that the planners use, in the plane. The ratio that `Truncate` is given is a clamped quotient
(rrt.h:136): the quotient is rounded here, as rounding it before or after clamping it is the same
(`PathR2.steerTowardsF`, `steerTowards_r2F`). -/
noncomputable def r2SteeringF : Steering Pt PathR2 ℝ where
  connect := PathR2.connectF
  length := PathR2.length
  truncate p ratio := p.truncateF (fl64 ratio)
  final := PathR2.final

/-- `flann::L2_Simple<double>` (tree.h:174), the square of the distance by which the k-d tree orders its points. -/
noncomputable def sqDistF (v p : Pt) : ℝ :=
  let dx := fl64 (v.x - p.x)
  let dy := fl64 (v.y - p.y)
  fl64 (fl64 (dx * dx) + fl64 (dy * dy))

section
variable {V P : Type} [DecidableEq V]

/-- `best.costFromGoal + path->GetLength()` (rrt_star.h:91), where `none` is infinity. -/
noncomputable def addInfF (a : Option ℝ) (b : ℝ) : Option ℝ := a.map fun x => fl64 (x + b)

/-- rrt_star.h:88-97, the choice of the best parent among the near nodes. -/
noncomputable def bestParentF (s : RRTSetup V P ℝ) (st : RRTStarState V ℝ) (newState : V) (near : List Nat) :
    Option Nat × Option ℝ :=
  near.foldl (fun best node =>
    let path := s.steering.connect (st.tree.state node) newState
    let cost := addInfF (st.cost node) (s.steering.length path)
    if ltInf cost best.2 && s.valid path then (some node, cost) else best) (none, none)

/-- rrt_star.h:69-102, one iteration, as `rrtStarStep`. -/
noncomputable def rrtStarStepF (s : RRTSetup V P ℝ) (nn : Nat → Nat) (target : V) (st : RRTStarState V ℝ) :
    Option (RRTStarState V ℝ × Option (Nat × V)) :=
  match st.tree.getNearestNode s.knn target with
  | none => some (st, none)
  | some nearest =>
    let path := s.steering.steerTowards (st.tree.state nearest) target s.maxConnectionDistance
    if !s.valid path then some (st, none)
    else
      let newState := s.steering.final path
      let near := st.tree.getNearestNodes s.knn newState (nn st.tree.size)
      let best := bestParentF s st newState near
      match st.tree.extend s.knn newState best.1 with
      | (_, none) => none
      | (t', some newNode) => some (⟨t', upd st.cost newNode best.2⟩, some (newNode, newState))

/-- rrt_star.h:59-109, the loop of `SearchPath`, as `rrtStarLoop`. -/
noncomputable def rrtStarLoopF (s : RRTSetup V P ℝ) (nn : Nat → Nat) (count : Nat) (st : RRTStarState V ℝ) :
    Option (RRTStarResult V ℝ) :=
  if count > s.maxIteration then some ⟨false, st, none, count⟩
  else if st.tree.size > s.maxNumberTreeNode then some ⟨false, st, none, count⟩
  else
    match rrtStarStepF s nn (s.sample count) st with
    | none => none
    | some (st', none) => rrtStarLoopF s nn (count + 1) st'
    | some (st', some (newNode, newState)) =>
      if s.isSolution newState then some ⟨true, st', some newNode, count + 1⟩
      else rrtStarLoopF s nn (count + 1) st'
termination_by s.maxIteration + 1 - count

/-- rrt_star.h:53-112, `SearchPath`, as `rrtStarSearchPath`. -/
noncomputable def rrtStarSearchPathF (s : RRTSetup V P ℝ) (nn : Nat → Nat) (t : Tree V) (init : V) :
    Option (RRTStarResult V ℝ) :=
  let r := t.clear.createRootNode init
  rrtStarLoopF s nn 0 ⟨r.1, fun _ => some 0⟩

end
end PathPlanning
