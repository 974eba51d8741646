import Verif.Model.AStar

/-!
# Model of `BidirectionalAStar` (planner/src/algo/bidirectional_a_star.h)

Each direction is an A* search (`UnidirectionalAStar`, lines 44-50) whose explored container is an
`ExploredMap`; `IsSolution` is never called, so `Problem.isSol` is irrelevant here.
-/

namespace PathPlanning

/-- The two directions (bidirectional_a_star.h:115-127) and the common state equality. -/
structure BiProblem (S A C : Type) where
  fwd : Problem S A C
  rev : Problem S A C

/-- State of `SearchPath` (bidirectional_a_star.h:152, 199); `best = none` is infinity. -/
structure BiSearch (S A C : Type) where
  f : Search S A C
  r : Search S A C
  best : Option C

namespace Bi
open AStar
variable {S A C : Type} [LinearOrder C] [Add C] [Zero C]

/-- `ExploredMap::find` (bidirectional_a_star.h:183): the node stored for a state. -/
def exploredFind (P : Problem S A C) (e : List (ANode S A C)) (s : S) : Option (ANode S A C) :=
  e.find? (fun n => P.eqS n.state s)

/-- `candidate < best` with `best = none` being infinity. -/
def improves (candidate : C) : Option C → Bool
  | none => true
  | some b => decide (candidate < b)

/-- bidirectional_a_star.h:181-196, `FindIntersection`: new solution nodes and best cost. -/
def findIntersection (PB : Problem S A C) (nodeA : ANode S A C) (a b : Search S A C)
    (best : Option C) : Search S A C × Search S A C × Option C :=
  match exploredFind PB b.explored nodeA.state with
  | none => (a, b, best)
  | some nodeB =>
    let candidate := nodeA.pathCost + nodeB.pathCost
    if improves candidate best then
      ({ a with solution := some nodeA }, { b with solution := some nodeB }, some candidate)
    else (a, b, best)

/-- bidirectional_a_star.h:150. -/
def costOffset (B : BiProblem S A C) (goal : S) : C := B.fwd.h goal + B.rev.h goal

/-- bidirectional_a_star.h:165-175: the test at the end of an iteration. -/
def finished (off : C) (s : BiSearch S A C) : Bool :=
  match s.f.solution, s.r.solution, s.best with
  | some _, some _, some b =>
    match s.f.frontier.top, s.r.frontier.top with
    | some ft, some rt => decide (ft.pathCost + rt.pathCost ≥ b + off)
    | _, _ => true
  | _, _, _ => false

/-- bidirectional_a_star.h:154-157: one forward half iteration with the popped node `n`. -/
def forward (B : BiProblem S A C) (graph : Bool) (s : BiSearch S A C)
    (f' : Frontier (ANode S A C)) (n : ANode S A C) : BiSearch S A C :=
  let e := AStar.expand B.fwd graph { s.f with frontier := f' } n
  let q := findIntersection B.rev n e s.r s.best
  { f := q.1, r := q.2.1, best := q.2.2 }

/-- bidirectional_a_star.h:159-162: one reverse half iteration with the popped node `n`. -/
def reverse (B : BiProblem S A C) (graph : Bool) (s : BiSearch S A C)
    (r' : Frontier (ANode S A C)) (n : ANode S A C) : BiSearch S A C :=
  let e := AStar.expand B.rev graph { s.r with frontier := r' } n
  let q := findIntersection B.fwd n e s.f s.best
  { f := q.2.1, r := q.1, best := q.2.2 }

/-- bidirectional_a_star.h:153-177, the loop. Both frontiers are tested before either is popped;
the forward half iteration does not touch the reverse frontier. -/
def loop (B : BiProblem S A C) (graph : Bool) (off : C) :
    Nat → BiSearch S A C → Option (Status × BiSearch S A C)
  | 0, _ => none
  | fuel + 1, s =>
    match s.f.frontier.pop (eqNode B.fwd), s.r.frontier.pop (eqNode B.rev) with
    | some (f', n), some (r', m) =>
      let s2 := reverse B graph (forward B graph s f' n) r' m
      if finished off s2 then some (.success, s2) else loop B graph off fuel s2
    | _, _ => some (.failure, s)

/-- bidirectional_a_star.h:142-148. -/
def initSearch (B : BiProblem S A C) (init goal : S) : BiSearch S A C :=
  { f := AStar.initSearch B.fwd init, r := AStar.initSearch B.rev goal, best := none }

/-- bidirectional_a_star.h:130-178, `SearchPath` of an initialised planner. -/
def searchPath (B : BiProblem S A C) (graph : Bool) (fuel : Nat) (init goal : S) :
    Option (Status × BiSearch S A C) :=
  loop B graph (costOffset B goal) fuel (initSearch B init goal)

/-- bidirectional_a_star.h:66-72, `GetPath`. -/
def getPath (s : BiSearch S A C) : Option (List S) :=
  match AStar.getPath s.f, AStar.getPath s.r with
  | some fp, some rp => some (fp ++ rp.reverse)
  | _, _ => none

/-- bidirectional_a_star.h:81-84, `GetOptimalCost`; `none` is infinity. -/
def getOptimalCost (s : BiSearch S A C) : Option C :=
  match AStar.getOptimalCost s.f, AStar.getOptimalCost s.r with
  | some a, some b => some (a + b)
  | _, _ => none

end Bi

/-! ### Average heuristics (bidirectional_a_star.h:10-39, 58-63) -/

/-- A concrete heuristic object: a function of state and stored goal (a_star.h:65-79). -/
structure HPart (S K : Type) where
  fn : S → S → K
  goal : S

/-- a_star.h:71-74. -/
def HPart.value {S K : Type} (p : HPart S K) (s : S) : K := p.fn s p.goal

/-- a_star.h:58 `SetGoal`. -/
def HPart.setGoal {S K : Type} (p : HPart S K) (g : S) : HPart S K := { p with goal := g }

/-- Members of `AverageHeuristic` (bidirectional_a_star.h:36-38 and `m_goal`). -/
structure AvgHeur (S K : Type) where
  toGoal : HPart S K
  toInit : HPart S K
  mGoal : S
  mInit : S
  const : K

namespace AvgHeur
variable {S K : Type} [Add K] [Sub K] [Div K] [OfNat K 2]

/-- bidirectional_a_star.h:19-22. -/
def value (h : AvgHeur S K) (s : S) : K := h.const + (h.toGoal.value s - h.toInit.value s) / 2

/-- bidirectional_a_star.h:28-33, `Update`: the goals of the two parts are not touched. -/
def update (h : AvgHeur S K) (init goal : S) : AvgHeur S K :=
  { h with mInit := init, mGoal := goal, const := h.toInit.value goal / 2 }

/-- a_star.h:58, inherited `SetGoal`. -/
def setGoal (h : AvgHeur S K) (g : S) : AvgHeur S K := { h with mGoal := g }

/-- bidirectional_a_star.h:58-63, `GetAverageHeuristicPair` (initial constants are uninitialised
in the code; `c₀`, `s₀` stand for them). -/
def pair (hf hr : HPart S K) (s₀ : S) (c₀ : K) : AvgHeur S K × AvgHeur S K :=
  (⟨hf, hr, s₀, s₀, c₀⟩, ⟨hr, hf, s₀, s₀, c₀⟩)

/-- The pair as used by `SearchPath` (bidirectional_a_star.h:137-148, and `SetGoal` in
`InitializeSearch`, a_star.h:363). -/
def prepare (p : AvgHeur S K × AvgHeur S K) (init goal : S) : AvgHeur S K × AvgHeur S K :=
  ((p.1.update init goal).setGoal goal, (p.2.update goal init).setGoal init)

end AvgHeur
end PathPlanning
