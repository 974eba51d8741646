import Verif.Model.Tree
import Mathlib.Algebra.Order.Field.Basic

/-!
# Model of RRT and RRT* (planner/src/algo/rrt.h, planner/src/algo/rrt_star.h)

The random numbers are an arbitrary sequence of sampled states (`sample i` is the state drawn in
iteration `i`, the goal or a uniform sample, rrt.h:72). Paths, their connection, truncation and
validation are parameters. `none` is a null pointer access.
-/

namespace PathPlanning

/-- paths/path.h:22-68, the operations on paths that the planners use. -/
structure Steering (V P K : Type) where
  connect : V → V → P
  length : P → K
  truncate : P → K → P
  final : P → V

section
variable {V P K : Type} [DecidableEq V] [LinearOrder K] [Field K]

/-- `std::clamp` -/
def clampK (v lo hi : K) : K := if v < lo then lo else if hi < v then hi else v

/-- rrt.h:132-140, rrt_star.h:142-150, `SteerTowards`. -/
def Steering.steerTowards (S : Steering V P K) (start target : V) (distance : K) : P :=
  let path := S.connect start target
  if 0 < S.length path then S.truncate path (clampK (distance / S.length path) 0 1) else path

/-- rrt.h:12-21 (the goal bias only affects the samples), rrt.h:143-146. -/
structure RRTSetup (V P K : Type) where
  steering : Steering V P K
  valid : P → Bool
  knn : KNN V
  isSolution : V → Bool
  sample : Nat → V
  maxIteration : Nat
  maxNumberTreeNode : Nat
  maxConnectionDistance : K

/-- The state of the planner when `SearchPath` returns. -/
structure RRTResult (V : Type) where
  success : Bool
  tree : Tree V
  solution : Option Nat
  samples : Nat

/-- rrt.h:61-92, the loop of `SearchPath`. -/
def rrtLoop (s : RRTSetup V P K) (count : Nat) (t : Tree V) : Option (RRTResult V) :=
  if count > s.maxIteration then some ⟨false, t, none, count⟩
  else if t.size > s.maxNumberTreeNode then some ⟨false, t, none, count⟩
  else
    match t.getNearestNode s.knn (s.sample count) with
    | none => rrtLoop s (count + 1) t
    | some nearest =>
      let path := s.steering.steerTowards (t.state nearest) (s.sample count) s.maxConnectionDistance
      if !s.valid path then rrtLoop s (count + 1) t
      else
        let newState := s.steering.final path
        match t.extend s.knn newState (some nearest) with
        | (_, none) => none
        | (t', some newNode) =>
          if s.isSolution newState then some ⟨true, t', some newNode, count + 1⟩
          else rrtLoop s (count + 1) t'
termination_by s.maxIteration + 1 - count

/-- rrt.h:55-95, `SearchPath`, on the tree left by earlier calls. -/
def rrtSearchPath (s : RRTSetup V P K) (t : Tree V) (init : V) : Option (RRTResult V) :=
  rrtLoop s 0 (t.clear.createRootNode init).1

/-- rrt.h:109-112, the loop of `GetPath` over the entries of the path, from the back. -/
def pathUp (t : Tree V) : Nat → Option Nat → List V → Option (List V)
  | 0, _, acc => some acc
  | _ + 1, none, _ => none
  | k + 1, some n, acc => pathUp t k (t.heap.parent n) (t.state n :: acc)

/-- rrt.h:97-114, rrt_star.h:114-131, `GetPath`. -/
def treeGetPath (t : Tree V) (solution : Option Nat) : Option (List V) :=
  match solution with
  | none => some []
  | some n => (t.heap.getDepth n).bind fun depth => pathUp t (depth + 1) (some n) []

/-- The state of the RRT* planner: the tree and `costFromGoal` of each node (`none` is infinity). -/
structure RRTStarState (V K : Type) where
  tree : Tree V
  cost : Nat → Option K

/-- Sum and comparison of doubles where `none` is infinity. -/
def addInf (a : Option K) (b : K) : Option K := a.map (· + b)
def ltInf : Option K → Option K → Bool
  | none, _ => false
  | some _, none => true
  | some a, some b => decide (a < b)

/-- rrt_star.h:88-97, the choice of the best parent among the near nodes. -/
def bestParent (s : RRTSetup V P K) (st : RRTStarState V K) (newState : V) (near : List Nat) :
    Option Nat × Option K :=
  near.foldl (fun best node =>
    let path := s.steering.connect (st.tree.state node) newState
    let cost := addInf (st.cost node) (s.steering.length path)
    if ltInf cost best.2 && s.valid path then (some node, cost) else best) (none, none)

/-- The result of RRT*. -/
structure RRTStarResult (V K : Type) where
  success : Bool
  state : RRTStarState V K
  solution : Option Nat
  samples : Nat

/-- rrt_star.h:69-102, one iteration for the random state `target`: the new state of the planner and, if there is one, the
new node with its state. `nn` is the number of neighbours as a function of the size of the tree (line 84). A new node has
`costFromGoal = 0` (line 36) until line 101; if the new state is in the tree already, `Extend` returns its node, whose cost
is overwritten all the same. -/
def rrtStarStep (s : RRTSetup V P K) (nn : Nat → Nat) (target : V) (st : RRTStarState V K) :
    Option (RRTStarState V K × Option (Nat × V)) :=
  match st.tree.getNearestNode s.knn target with
  | none => some (st, none)
  | some nearest =>
    let path := s.steering.steerTowards (st.tree.state nearest) target s.maxConnectionDistance
    if !s.valid path then some (st, none)
    else
      let newState := s.steering.final path
      let near := st.tree.getNearestNodes s.knn newState (nn st.tree.size)
      let best := bestParent s st newState near
      match st.tree.extend s.knn newState best.1 with
      | (_, none) => none
      | (t', some newNode) => some (⟨t', upd st.cost newNode best.2⟩, some (newNode, newState))

/-- rrt_star.h:59-109, the loop of `SearchPath`. -/
def rrtStarLoop (s : RRTSetup V P K) (nn : Nat → Nat) (count : Nat) (st : RRTStarState V K) :
    Option (RRTStarResult V K) :=
  if count > s.maxIteration then some ⟨false, st, none, count⟩
  else if st.tree.size > s.maxNumberTreeNode then some ⟨false, st, none, count⟩
  else
    match rrtStarStep s nn (s.sample count) st with
    | none => none
    | some (st', none) => rrtStarLoop s nn (count + 1) st'
    | some (st', some (newNode, newState)) =>
      if s.isSolution newState then some ⟨true, st', some newNode, count + 1⟩
      else rrtStarLoop s nn (count + 1) st'
termination_by s.maxIteration + 1 - count

/-- rrt_star.h:53-112, `SearchPath`. -/
def rrtStarSearchPath (s : RRTSetup V P K) (nn : Nat → Nat) (t : Tree V) (init : V) :
    Option (RRTStarResult V K) :=
  let r := t.clear.createRootNode init
  rrtStarLoop s nn 0 ⟨r.1, fun _ => some 0⟩

end
end PathPlanning
