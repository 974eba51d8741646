import Verif.Model.RRTPlanner

/-!
# RRT and RRT* left by an exception (planner/src/algo/rrt.h, planner/src/algo/rrt_star.h)

The state space, the connections of states, the validator and `IsSolution` belong to the user and may throw, and nothing in
a search catches the exception: it ends `SearchPath` where it is raised, and the planner keeps what had been written by then.
Within an iteration only the moment relative to `Extend` matters. Exceptions of the containers, of flann and of the copies
of states are left out.
-/

namespace PathPlanning
variable {V P K : Type} [DecidableEq V] [LinearOrder K] [Field K]

/-- Where an iteration throws: nowhere, in a call made before `Extend` (rrt.h:72-82, rrt_star.h:70-97: sampling, connecting,
truncating, validating), or in `IsSolution`, which is called after it (rrt.h:88, rrt_star.h:105). Every iteration samples; an
iteration that stops before `Extend` does not reach `IsSolution`. -/
inductive Fault where
  | no
  | early
  | late
deriving DecidableEq

/-- What `SearchPath` of RRT leaves: the status it returns, or `none` if an exception left it, and the members of the
planner. -/
structure RRTLeft (V : Type) where
  status : Option Bool
  tree : Tree V
  solution : Option Nat
  samples : Nat

/-- rrt.h:61-92, the loop of `SearchPath`. -/
def rrtLoopX (s : RRTSetup V P K) (fault : Nat → Fault) (count : Nat) (t : Tree V) : Option (RRTLeft V) :=
  if count > s.maxIteration then some ⟨some false, t, none, count⟩
  else if t.size > s.maxNumberTreeNode then some ⟨some false, t, none, count⟩
  else if fault count = .early then some ⟨none, t, none, count + 1⟩
  else
    match t.getNearestNode s.knn (s.sample count) with
    | none => rrtLoopX s fault (count + 1) t
    | some nearest =>
      let path := s.steering.steerTowards (t.state nearest) (s.sample count) s.maxConnectionDistance
      if !s.valid path then rrtLoopX s fault (count + 1) t
      else
        let newState := s.steering.final path
        match t.extend s.knn newState (some nearest) with
        | (_, none) => none
        | (t', some newNode) =>
          if fault count = .late then some ⟨none, t', none, count + 1⟩
          else if s.isSolution newState then some ⟨some true, t', some newNode, count + 1⟩
          else rrtLoopX s fault (count + 1) t'
termination_by s.maxIteration + 1 - count

/-- rrt.h:55-95, `SearchPath`: the tree is cleared and the solution forgotten (57, 118-122) before the first call that may
throw. -/
def rrtSearchPathX (s : RRTSetup V P K) (fault : Nat → Fault) (t : Tree V) (init : V) : Option (RRTLeft V) :=
  rrtLoopX s fault 0 (t.clear.createRootNode init).1

/-- What `SearchPath` of RRT* leaves. -/
structure RRTStarLeft (V K : Type) where
  status : Option Bool
  state : RRTStarState V K
  solution : Option Nat
  samples : Nat

/-- rrt_star.h:59-109, the loop of `SearchPath`. -/
def rrtStarLoopX (s : RRTSetup V P K) (nn : Nat → Nat) (fault : Nat → Fault) (count : Nat) (st : RRTStarState V K) :
    Option (RRTStarLeft V K) :=
  if count > s.maxIteration then some ⟨some false, st, none, count⟩
  else if st.tree.size > s.maxNumberTreeNode then some ⟨some false, st, none, count⟩
  else if fault count = .early then some ⟨none, st, none, count + 1⟩
  else
    match rrtStarStep s nn (s.sample count) st with
    | none => none
    | some (st', none) => rrtStarLoopX s nn fault (count + 1) st'
    | some (st', some (newNode, newState)) =>
      if fault count = .late then some ⟨none, st', none, count + 1⟩
      else if s.isSolution newState then some ⟨some true, st', some newNode, count + 1⟩
      else rrtStarLoopX s nn fault (count + 1) st'
termination_by s.maxIteration + 1 - count

/-- rrt_star.h:53-112, `SearchPath`. -/
def rrtStarSearchPathX (s : RRTSetup V P K) (nn : Nat → Nat) (fault : Nat → Fault) (t : Tree V) (init : V) :
    Option (RRTStarLeft V K) :=
  rrtStarLoopX s nn fault 0 ⟨(t.clear.createRootNode init).1, fun _ => some 0⟩

namespace RRTPlanner

/-- rrt.h:55-95: `SearchPath` of a planner, some of whose calls throw. -/
def searchX (w : RRTWorld V P K) (fault : Nat → Fault) (s : RRTPlanner V K) (coin : Nat → K) (uniform : Nat → V) :
    Option (Option Bool × RRTPlanner V K) :=
  (rrtSearchPathX (s.setup w coin uniform) fault s.tree s.init).map fun r =>
    (r.status, { s with tree := r.tree, solution := r.solution })

/-- rrt_star.h:53-112 -/
def searchStarX (w : RRTWorld V P K) (nn : Nat → Nat) (fault : Nat → Fault) (s : RRTPlanner V K) (coin : Nat → K)
    (uniform : Nat → V) : Option (Option Bool × RRTPlanner V K) :=
  (rrtStarSearchPathX (s.setup w coin uniform) nn fault s.tree s.init).map fun r =>
    (r.status, { s with tree := r.state.tree, solution := r.solution })

/-- Effect of a sequence of public calls (path_planner.h:33-34, rrt.h:53, 55), each with the exceptions thrown in it, which
the caller catches. -/
def callsX (search : (Nat → Fault) → RRTPlanner V K → (Nat → K) → (Nat → V) → Option (Option Bool × RRTPlanner V K))
    (s : RRTPlanner V K) : List (Call V K × (Nat → Fault)) → Option (RRTPlanner V K)
  | [] => some s
  | (.setInitState v, _) :: l => callsX search { s with init := v } l
  | (.setGoalState v, _) :: l => callsX search { s with goal := v } l
  | (.setParameters p, _) :: l => callsX search { s with params := p } l
  | (.searchPath c u, fault) :: l => (search fault s c u).bind fun r => callsX search r.2 l

end RRTPlanner
end PathPlanning
