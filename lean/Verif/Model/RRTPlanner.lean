import Verif.Model.RRT
import Mathlib.Algebra.Order.Field.Rat

/-!
# Model of the planner objects `RRT` and `RRTStar` (algo/rrt.h, algo/rrt_star.h)

A planner keeps its parameters, its two states, its tree and its solution node between calls. Each search draws its random
numbers from two streams: the number compared with `goalBias` in each iteration, and the uniform samples of the state space.
The types have an arbitrary member for what the constructors leave uninitialised (path_planner.h:42-43).
-/

namespace PathPlanning
variable {V P K : Type} [DecidableEq V] [LinearOrder K] [Field K]

/-- rrt.h:12-21, rrt_star.h:12-21 -/
structure RRTParams (K : Type) where
  maxIteration : Nat
  maxNumberTreeNode : Nat
  maxConnectionDistance : K
  goalBias : K

/-- The default parameters of RRT (rrt.h:12-21). -/
def RRTParams.default : RRTParams K := ⟨100, 10000, 1 / 10, 1 / 20⟩

/-- The default parameters of RRT* (rrt_star.h:12-21). -/
def RRTParams.defaultStar : RRTParams K := ⟨10000, 10000, 1 / 10, 1 / 20⟩

/-- What the constructors are given (rrt.h:39-48, rrt_star.h:42-48), the nearest-neighbour searches of the tree, and the
test `IsSolution` of a state for a goal (rrt.h:125-128, rrt_star.h:134-137; virtual). -/
structure RRTWorld (V P K : Type) where
  steering : Steering V P K
  valid : P → Bool
  knn : KNN V
  reached : V → V → Bool

/-- The members of the planner (rrt.h:142-150, rrt_star.h:169-178, path_planner.h:42-43). -/
structure RRTPlanner (V K : Type) where
  params : RRTParams K
  init : V
  goal : V
  tree : Tree V
  solution : Option Nat

namespace RRTPlanner

/-- rrt.h:39-48: a new RRT planner. -/
def new [Inhabited V] : RRTPlanner V K := ⟨.default, Inhabited.default, Inhabited.default, Tree.new, none⟩

/-- rrt_star.h:42-48: a new RRT* planner. -/
def newStar [Inhabited V] : RRTPlanner V K := ⟨.defaultStar, Inhabited.default, Inhabited.default, Tree.new, none⟩

/-- rrt.h:72, rrt_star.h:70: the state drawn in iteration `i`. -/
def draw (s : RRTPlanner V K) (coin : Nat → K) (uniform : Nat → V) (i : Nat) : V :=
  if coin i < s.params.goalBias then s.goal else uniform i

/-- The search problem that `SearchPath` solves (rrt.h:55-95, rrt_star.h:53-112). -/
def setup (w : RRTWorld V P K) (s : RRTPlanner V K) (coin : Nat → K) (uniform : Nat → V) : RRTSetup V P K where
  steering := w.steering
  valid := w.valid
  knn := w.knn
  isSolution v := w.reached v s.goal
  sample := s.draw coin uniform
  maxIteration := s.params.maxIteration
  maxNumberTreeNode := s.params.maxNumberTreeNode
  maxConnectionDistance := s.params.maxConnectionDistance

/-- rrt.h:55-95, `SearchPath` of RRT: the status (`true` is `Success`) and the planner left behind. -/
def search (w : RRTWorld V P K) (s : RRTPlanner V K) (coin : Nat → K) (uniform : Nat → V) :
    Option (Bool × RRTPlanner V K) :=
  (rrtSearchPath (s.setup w coin uniform) s.tree s.init).map fun r =>
    (r.success, { s with tree := r.tree, solution := r.solution })

/-- rrt_star.h:53-112, `SearchPath` of RRT*. -/
def searchStar (w : RRTWorld V P K) (nn : Nat → Nat) (s : RRTPlanner V K) (coin : Nat → K) (uniform : Nat → V) :
    Option (Bool × RRTPlanner V K) :=
  (rrtStarSearchPath (s.setup w coin uniform) nn s.tree s.init).map fun r =>
    (r.success, { s with tree := r.state.tree, solution := r.solution })

/-- rrt.h:97-114, rrt_star.h:114-131 -/
def getPath (s : RRTPlanner V K) : Option (List V) := treeGetPath s.tree s.solution

/-- The public calls that change a planner (path_planner.h:33-34, rrt.h:53, 55, rrt_star.h:51, 53). -/
inductive Call (V K : Type) where
  | setInitState (v : V)
  | setGoalState (v : V)
  | setParameters (p : RRTParams K)
  | searchPath (coin : Nat → K) (uniform : Nat → V)

/-- Effect of a call, for the `SearchPath` of the planner. -/
def call (search : RRTPlanner V K → (Nat → K) → (Nat → V) → Option (Bool × RRTPlanner V K)) (s : RRTPlanner V K) :
    Call V K → Option (RRTPlanner V K)
  | .setInitState v => some { s with init := v }
  | .setGoalState v => some { s with goal := v }
  | .setParameters p => some { s with params := p }
  | .searchPath c u => (search s c u).map Prod.snd

/-- Effect of a sequence of calls. -/
def calls (search : RRTPlanner V K → (Nat → K) → (Nat → V) → Option (Bool × RRTPlanner V K)) (s : RRTPlanner V K) :
    List (Call V K) → Option (RRTPlanner V K)
  | [] => some s
  | c :: l => (call search s c).bind fun s' => calls search s' l

end RRTPlanner
end PathPlanning
