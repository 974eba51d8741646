import Verif.Model.RRTPlanner

/-!
# What a history of calls of an RRT planner leaves in force: C103
-/

namespace PathPlanning.Spec
open RRTPlanner
variable {V K : Type}

/-- The state of the last `SetInitState`. -/
def lastInit (l : List (Call V K)) : Option V :=
  l.reverse.findSome? fun
    | .setInitState v => some v
    | _ => none

/-- The state of the last `SetGoalState`. -/
def lastGoal (l : List (Call V K)) : Option V :=
  l.reverse.findSome? fun
    | .setGoalState v => some v
    | _ => none

/-- The argument of the last `SetParameters`. -/
def lastParams (l : List (Call V K)) : Option (RRTParams K) :=
  l.reverse.findSome? fun
    | .setParameters p => some p
    | _ => none

/-- The calls do not search. -/
def NoSearch (l : List (Call V K)) : Prop := ∀ c u, .searchPath c u ∉ l

end PathPlanning.Spec
