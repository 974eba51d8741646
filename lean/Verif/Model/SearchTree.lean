import Verif.Model.HybridAStar

/-!
# The tree of nodes kept by the search (planner/src/algo/a_star.h:436, hybrid_a_star.cpp:185-197)

The nodes below the root are listed in the order in which they were attached (`AddChild`, utils/node.h:131-137); no node
is ever detached, and the node to which another one is attached is the root or was itself attached before, so the nodes
met by `PreOrderTraversal` (utils/node.h:27-33) are the root and the listed ones. The rest of the search is as in `AStar`.
-/

namespace PathPlanning
namespace AStar
variable {S A C : Type} [LinearOrder C] [Add C] [Zero C]

/-- a_star.h:383-408 and 417-427: one neighbour, with the attached nodes. -/
def treeOne (P : Problem S A C) (graph : Bool) (n : ANode S A C) (explored : List (ANode S A C))
    (s : Frontier (ANode S A C) × List (ANode S A C)) (t : S × A × C) :
    Frontier (ANode S A C) × List (ANode S A C) :=
  let c := childNode P n t
  if graph then
    match s.1.find (eqNode P) c with
    | none => if exploredContains P explored c.state then s
              else ((s.1.push cmpNode (eqNode P) c).1, s.2 ++ [c])
    | some fn =>
      if P.mayReplace fn.state c.state && decide (fn.totalCost > c.totalCost) then
        (((s.1.remove cmpNode (eqNode P) fn).1.push cmpNode (eqNode P) c).1, s.2 ++ [c])
      else s
  else ((s.1.push cmpNode (eqNode P) c).1, s.2 ++ [c])

/-- a_star.h:377-409, `Expand`, with the attached nodes. -/
def treeExpand (P : Problem S A C) (graph : Bool) (s : Search S A C) (tree : List (ANode S A C)) (n : ANode S A C) :
    Search S A C × List (ANode S A C) :=
  let explored := exploredInsert P s.explored n
  let r := (P.nbrs s.calls.length n.state).foldl (treeOne P graph n explored) (s.frontier, tree)
  ({ s with explored := explored, frontier := r.1, calls := n.state :: s.calls }, r.2)

/-- a_star.h:337-345, the main loop, with the attached nodes. -/
def treeLoop (P : Problem S A C) (graph : Bool) :
    Nat → Search S A C → List (ANode S A C) → Option (Status × Search S A C × List (ANode S A C))
  | 0, _, _ => none
  | fuel + 1, s, tree =>
    match s.frontier.pop (eqNode P) with
    | none => some (.failure, s, tree)
    | some (f', n) =>
      if P.isSol n.state then some (.success, { s with frontier := f', solution := some n }, tree)
      else
        let r := treeExpand P graph { s with frontier := f' } tree n
        treeLoop P graph fuel r.1 r.2

/-- a_star.h:326-346, `SearchPath`, with the attached nodes: none below the new root (357-359). -/
def treeSearch (P : Problem S A C) (graph : Bool) (fuel : Nat) (init : S) :
    Option (Status × Search S A C × List (ANode S A C)) :=
  treeLoop P graph fuel (initSearch P init) []

end AStar

namespace HybridAStar

/-- hybrid_a_star.cpp:185-197, `GetExploredPathSet`, and 311-314: the actions of the nodes below the root (the root has
no path). The argument is `none` before the first search: there is no root (190-191). -/
def exploredPathSet (tree : Option (List (ANode State Action (WithTop ℝ)))) : Set Action :=
  match tree with
  | none => ∅
  | some nodes => { a | ∃ n ∈ nodes, n.action = some a }

end HybridAStar
end PathPlanning
