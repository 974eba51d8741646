import Verif.Model.Frontier
import Mathlib.Order.Defs.LinearOrder

/-!
# Model of `Planner::AStar` (planner/src/algo/a_star.h)

* `S` state, `A` action, `C` cost.  `C` only carries a linear order, an addition and a zero: no
  algebraic law is assumed here, so the model also covers rounded arithmetic without NaN.
* A node (`AStarNode`, a_star.h:148-161 and utils/node.h) is never modified after it has been
  linked below its parent, so a node pointer is modelled by the chain of its ancestors.
* `Explored` (166-178) and `ExploredMap` (183-193) are both modelled by the list of inserted nodes,
  searched with the state equality; the set is the projection of that list to states.
* A propagator may be randomised (hybrid A*): `nbrs k s` is the answer to the `k`-th call.
-/

namespace PathPlanning

/-- a_star.h:148-161: search node = state, action, path cost, total cost and parent pointer.
The action stored in a root node is never observable and is dropped. -/
inductive ANode (S A C : Type) where
  | root (state : S) (pathCost totalCost : C)
  | child (parent : ANode S A C) (state : S) (action : A) (pathCost totalCost : C)

namespace ANode
variable {S A C : Type}

/-- a_star.h:149. -/
def state : ANode S A C → S
  | root s _ _ => s
  | child _ s _ _ _ => s

/-- a_star.h:151. -/
def pathCost : ANode S A C → C
  | root _ p _ => p
  | child _ _ _ p _ => p

/-- a_star.h:152. -/
def totalCost : ANode S A C → C
  | root _ _ t => t
  | child _ _ _ _ t => t

/-- utils/node.h `GetParent`; `none` is the null pointer. -/
def parent : ANode S A C → Option (ANode S A C)
  | root _ _ _ => none
  | child p _ _ _ _ => some p

/-- a_star.h:150; `none` for the default constructed action of a root. -/
def action : ANode S A C → Option A
  | root _ _ _ => none
  | child _ _ a _ _ => some a

/-- utils/node.h:50-57, `GetDepth`. -/
def depth : ANode S A C → Nat
  | root _ _ _ => 0
  | child p _ _ _ _ => p.depth + 1

end ANode

/-- What a concrete search is built from (a_star.h:18-27, 31-49, 368-373, 417-427). -/
structure Problem (S A C : Type) where
  /-- `EqualState`. -/
  eqS : S → S → Bool
  /-- `GetNeighborStates`, indexed by the number of earlier calls. -/
  nbrs : Nat → S → List (S × A × C)
  /-- The heuristic after `SetGoal`. -/
  h : S → C
  /-- `IsSolution` (virtual; a_star.h:368-373 compares with the goal). -/
  isSol : S → Bool
  /-- Extra guard of an overridden `ProcessPossibleShortcut` (hybrid_a_star.h:199-205); the base
  class has none. Arguments: state of the frontier node, state of the child. -/
  mayReplace : S → S → Bool := fun _ _ => true

/-- Return value of `SearchPath` (algo/path_planner.h, `Status`). -/
inductive Status
  | success
  | failure
  deriving DecidableEq, Repr

/-- Data members used by the search (a_star.h:433-437). `calls` records the arguments of the calls
of `GetNeighborStates` made so far, most recent first (observable by the propagator). -/
structure Search (S A C : Type) where
  frontier : Frontier (ANode S A C)
  explored : List (ANode S A C)
  solution : Option (ANode S A C)
  calls : List S

namespace AStar
variable {S A C : Type} [LinearOrder C] [Add C] [Zero C]

/-- a_star.h:226-231, `CompareNode`. -/
def cmpNode (a b : ANode S A C) : Bool := decide (b.totalCost < a.totalCost)

/-- a_star.h:240-245, `EqualNode`. -/
def eqNode (P : Problem S A C) (a b : ANode S A C) : Bool := P.eqS a.state b.state

/-- a_star.h:177 / 192, `Contains`. -/
def exploredContains (P : Problem S A C) (e : List (ANode S A C)) (s : S) : Bool :=
  e.any (fun n => P.eqS n.state s)

/-- a_star.h:174 / 190, `Insert`: no effect if an equal state is present. -/
def exploredInsert (P : Problem S A C) (e : List (ANode S A C)) (n : ANode S A C) :
    List (ANode S A C) :=
  if exploredContains P e n.state then e else n :: e

/-- a_star.h:359: the root node, with both costs 0 (151-152). -/
def rootNode (init : S) : ANode S A C := .root init 0 0

/-- a_star.h:350-364, `InitializeSearch` (the heuristic's `SetGoal` is part of `Problem`). -/
def initSearch (P : Problem S A C) (init : S) : Search S A C :=
  { frontier := (Frontier.empty.push cmpNode (eqNode P) (rootNode init)).1
    explored := exploredInsert P [] (rootNode init)
    solution := none
    calls := [] }

/-- a_star.h:385-388: the child node for a neighbour triple. -/
def childNode (P : Problem S A C) (n : ANode S A C) (t : S × A × C) : ANode S A C :=
  .child n t.1 t.2.1 (n.pathCost + t.2.2) (n.pathCost + t.2.2 + P.h t.1)

/-- a_star.h:417-427, `ProcessPossibleShortcut`. -/
def processShortcut (P : Problem S A C) (f : Frontier (ANode S A C)) (fn c : ANode S A C) :
    Frontier (ANode S A C) :=
  if P.mayReplace fn.state c.state && decide (fn.totalCost > c.totalCost) then
    ((f.remove cmpNode (eqNode P) fn).1.push cmpNode (eqNode P) c).1
  else f

/-- a_star.h:383-408, the body of the loop of `Expand` for one neighbour; `graph` is the template
parameter `GraphSearch`. -/
def expandOne (P : Problem S A C) (graph : Bool) (n : ANode S A C) (explored : List (ANode S A C))
    (f : Frontier (ANode S A C)) (t : S × A × C) : Frontier (ANode S A C) :=
  let c := childNode P n t
  if graph then
    match f.find (eqNode P) c with
    | none => if exploredContains P explored c.state then f
              else (f.push cmpNode (eqNode P) c).1
    | some fn => processShortcut P f fn c
  else (f.push cmpNode (eqNode P) c).1

/-- a_star.h:377-409, `Expand`. -/
def expand (P : Problem S A C) (graph : Bool) (s : Search S A C) (n : ANode S A C) :
    Search S A C :=
  let explored := exploredInsert P s.explored n
  { s with
    explored := explored
    frontier := (P.nbrs s.calls.length n.state).foldl (expandOne P graph n explored) s.frontier
    calls := n.state :: s.calls }

/-- a_star.h:337-345, the main loop, with `fuel` iterations allowed; `none` = not finished yet. -/
def loop (P : Problem S A C) (graph : Bool) : Nat → Search S A C → Option (Status × Search S A C)
  | 0, _ => none
  | fuel + 1, s =>
    match s.frontier.pop (eqNode P) with
    | none => some (.failure, s)
    | some (f', n) =>
      if P.isSol n.state then some (.success, { s with frontier := f', solution := some n })
      else loop P graph fuel (expand P graph { s with frontier := f' } n)

/-- a_star.h:326-346, `SearchPath` of an initialised planner, limited to `fuel` iterations. -/
def searchPath (P : Problem S A C) (graph : Bool) (fuel : Nat) (init : S) :
    Option (Status × Search S A C) :=
  loop P graph fuel (initSearch P init)

/-- a_star.h:264-267: fill the path from the back; `none` is a null pointer dereference. -/
def fillStates : Nat → Option (ANode S A C) → List S → Option (List S)
  | 0, _, acc => some acc
  | _ + 1, none, _ => none
  | k + 1, some n, acc => fillStates k n.parent (n.state :: acc)

/-- a_star.h:254-269, `GetPath`. -/
def getPath (s : Search S A C) : Option (List S) :=
  match s.solution with
  | none => some []
  | some n => fillStates (n.depth + 1) (some n) []

/-- a_star.h:282-285: fill the actions from the back. -/
def fillActions : Nat → Option (ANode S A C) → List (Option A) → Option (List (Option A))
  | 0, _, acc => some acc
  | _ + 1, none, _ => none
  | k + 1, some n, acc => fillActions k n.parent (n.action :: acc)

/-- a_star.h:272-288, `GetActions` (an entry `none` would be a default constructed action). -/
def getActions (s : Search S A C) : Option (List (Option A)) :=
  match s.solution with
  | none => some []
  | some n => fillActions n.depth (some n) []

/-- a_star.h:294-299, `GetOptimalCost`; `none` is infinity. -/
def getOptimalCost (s : Search S A C) : Option C := s.solution.map (·.pathCost)

end AStar
end PathPlanning

namespace PathPlanning

/-- A transition of the state propagator (a_star.h:21-26): the triple `(v, a, c)` is returned by
some call of `GetNeighborStates(u)`. -/
def Problem.tr {S A C : Type} (P : Problem S A C) (u : S) (a : A) (c : C) (v : S) : Prop :=
  ∃ k, (v, a, c) ∈ P.nbrs k u

/-- The propagator is a function of the state (the usual, non randomised case). -/
def Problem.Deterministic {S A C : Type} (P : Problem S A C) : Prop :=
  ∀ k s, P.nbrs k s = P.nbrs 0 s

end PathPlanning
