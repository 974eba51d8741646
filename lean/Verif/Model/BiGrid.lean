import Verif.Model.Grid
import Verif.Model.Bidirectional

/-!
# Model of the bidirectional grid planner (planner/src/algo/a_star_n2.h:36-42)
-/

namespace PathPlanning

/-- algo/a_star_n2.h:36-42: `BidirectionalAStarN2` with a forward and a reverse propagator over the same map, their cost
functions, and the heuristics as functions of the state (which goals they have is the subject of `Model/BiPlanner`). The same
simplification outside the map as in `N2.problem`. -/
def N2.biProblem {C : Type} [LinearOrder C] [Add C] [Zero C] (m : GridMap) (pathCost pathCostR : Cell → Cell → C)
    (hf hr : Cell → C) : BiProblem Cell Unit C :=
  { fwd :=
      { eqS := fun a b => decide (a = b)
        nbrs := fun _ c => if m.isInsideMap c then (N2.getNeighborStates m pathCost c).getD [] else []
        h := hf
        isSol := fun _ => false }
    rev :=
      { eqS := fun a b => decide (a = b)
        nbrs := fun _ c => if m.isInsideMap c then (N2.getNeighborStates m pathCostR c).getD [] else []
        h := hr
        isSol := fun _ => false } }

end PathPlanning
