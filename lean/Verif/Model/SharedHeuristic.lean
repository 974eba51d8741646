import Verif.Model.AStarPlanner

/-!
# Searches of several planners with shared heuristics (planner/src/algo/a_star.h)

A planner holds a `Ref` to its heuristic (a_star.h:431), so several planners may use one object, whose goal each of them
writes when its search starts (363). Their searches may overlap: they run in different threads, or a propagator starts the
search of another planner. A search advances in small steps, of which the scheduler chooses the order; between any two
evaluations of a heuristic other searches may take steps. Memory is sequentially consistent.
-/

namespace PathPlanning.Shared
variable {S A C : Type} [LinearOrder C] [Add C] [Zero C]

/-- What the planners were initialised with (a_star.h:315-323): the propagator of each planner and the number of its
heuristic object, and the function of each heuristic object (a_star.h:65-79). -/
structure Config (S A C : Type) where
  eqS : S → S → Bool
  graph : Bool
  nbrs : Nat → S → List (S × A × C)
  ref : Nat → Nat
  heur : Nat → S → S → C

/-- Where a planner is in `SearchPath`: in no search, before the test of the frontier (a_star.h:337), among the neighbours of
a node, of which some are left (383), or returned. -/
inductive Pc (S A C : Type) where
  | idle
  | atLoop
  | expanding (n : ANode S A C) (left : List (S × A × C))
  | done (st : Status)

/-- A planner (path_planner.h:44-46, a_star.h:433-437) and where it is. -/
structure Thread (S A C : Type) where
  pc : Pc S A C
  init : S
  goal : S
  search : Search S A C

/-- All planners, and the goals stored in the heuristic objects (a_star.h:60). -/
structure Sys (S A C : Type) where
  thread : Nat → Thread S A C
  heurGoal : Nat → S

/-- New planners and heuristics; `s₀` stands for the default constructed states. -/
def Sys.new (s₀ : S) : Sys S A C :=
  ⟨fun _ => ⟨.idle, s₀, s₀, ⟨Frontier.empty, [], none, []⟩⟩, fun _ => s₀⟩

/-- The search problem that planner `i` sees while its heuristic holds the goal `hg` (a_star.h:368-373, 388). -/
def problem (cfg : Config S A C) (i : Nat) (hg goal : S) : Problem S A C :=
  APlanner.problem cfg.eqS (cfg.nbrs i) (cfg.heur (cfg.ref i)) hg goal

/-- What the scheduler chooses: planner `i` gets its states and starts a search, or takes a step of the one it is in. -/
inductive Event (S : Type) where
  | start (i : Nat) (init goal : S)
  | step (i : Nat)

/-- Planner `i` is in `SearchPath`. -/
def Pc.running : Pc S A C → Bool
  | .idle => false
  | .atLoop => true
  | .expanding _ _ => true
  | .done _ => false

/-- One step of a search: the test of the frontier, the end or the beginning of an expansion (a_star.h:337-345, 377-383), or
one neighbour (383-408) with the goal `hg` that the heuristic holds at this moment. -/
def Thread.next (cfg : Config S A C) (i : Nat) (hg : S) (p : Thread S A C) : Thread S A C :=
  let P := problem cfg i hg p.goal
  match p.pc with
  | .atLoop =>
    match p.search.frontier.pop (AStar.eqNode P) with
    | none => { p with pc := .done .failure }
    | some (f, n) =>
      if P.isSol n.state then { p with pc := .done .success, search := { p.search with frontier := f, solution := some n } }
      else
        { p with
          pc := .expanding n (cfg.nbrs i n.state)
          search := { p.search with
            frontier := f
            explored := AStar.exploredInsert P p.search.explored n
            calls := n.state :: p.search.calls } }
  | .expanding n (t :: ts) =>
    { p with
      pc := .expanding n ts
      search := { p.search with frontier := AStar.expandOne P cfg.graph n p.search.explored p.search.frontier t } }
  | .expanding _ [] => { p with pc := .atLoop }
  | _ => p

/-- Effect of an event: `InitializeSearch` (a_star.h:350-364) also writes the goal of the heuristic (363). A planner that is
in a search does not start another one. -/
def Sys.event (cfg : Config S A C) (σ : Sys S A C) : Event S → Sys S A C
  | .start i a g =>
    if (σ.thread i).pc.running then σ
    else
      { thread := fun j => if j = i then ⟨.atLoop, a, g, AStar.initSearch (problem cfg i g g) a⟩ else σ.thread j
        heurGoal := fun r => if r = cfg.ref i then g else σ.heurGoal r }
  | .step i =>
    { σ with thread := fun j => if j = i then (σ.thread i).next cfg i (σ.heurGoal (cfg.ref i)) else σ.thread j }

/-- Effect of a schedule. -/
def Sys.exec (cfg : Config S A C) (σ : Sys S A C) (l : List (Event S)) : Sys S A C := l.foldl (Sys.event cfg) σ

end PathPlanning.Shared
