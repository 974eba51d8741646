import Verif.Model.SearchTree
import Verif.Model.AStarPlanner
import Verif.Model.BiPlanner

/-!
# Searches left by an exception (planner/src/algo/a_star.h, planner/src/algo/bidirectional_a_star.h)

The propagator and the heuristics belong to the user and may throw, and nothing in a search catches the exception: it ends
`SearchPath` where it is raised, and the planner keeps what had been written by then. `k` is the number of these calls that
still return; the next one throws. A call that throws has no effect of its own, except that `SetGoal` may or may not have
stored the goal. Exceptions of the containers, of the comparison of states and of the copies of states and actions are left
out.
-/

namespace PathPlanning

/-- How a call of `SearchPath` ended. -/
inductive Ended where
  | returned (st : Status)
  | thrown
deriving DecidableEq

namespace AStar
variable {S A C : Type} [LinearOrder C] [Add C] [Zero C]

/-- a_star.h:383-408, the neighbours `ts` of `n`: the heuristic is asked about each of them (388) before the child, which
its scope owns (385), is put in the frontier and attached (396-397, 402, 406-407). First component: the number of calls
that still return, or `none` if one has thrown. -/
def childrenX (P : Problem S A C) (graph : Bool) (n : ANode S A C) (explored : List (ANode S A C)) :
    Nat → List (S × A × C) → Frontier (ANode S A C) × List (ANode S A C) →
    Option Nat × Frontier (ANode S A C) × List (ANode S A C)
  | k, [], r => (some k, r)
  | 0, _ :: _, r => (none, r)
  | k + 1, t :: ts, r => childrenX P graph n explored k ts (treeOne P graph n explored r t)

/-- a_star.h:377-409, `Expand`: the node is inserted (381) before the propagator is asked (383). -/
def expandX (P : Problem S A C) (graph : Bool) (k : Nat) (s : Search S A C) (tree : List (ANode S A C)) (n : ANode S A C) :
    Option Nat × Search S A C × List (ANode S A C) :=
  let explored := exploredInsert P s.explored n
  let s' := { s with explored := explored, calls := n.state :: s.calls }
  match k with
  | 0 => (none, s', tree)
  | k + 1 =>
    let r := childrenX P graph n explored k (P.nbrs s.calls.length n.state) (s.frontier, tree)
    (r.1, { s' with frontier := r.2.1 }, r.2.2)

/-- a_star.h:337-345, the main loop. -/
def loopX (P : Problem S A C) (graph : Bool) :
    Nat → Nat → Search S A C → List (ANode S A C) → Option (Ended × Search S A C × List (ANode S A C))
  | 0, _, _, _ => none
  | fuel + 1, k, s, tree =>
    match s.frontier.pop (eqNode P) with
    | none => some (.returned .failure, s, tree)
    | some (f', n) =>
      if P.isSol n.state then some (.returned .success, { s with frontier := f', solution := some n }, tree)
      else
        match expandX P graph k { s with frontier := f' } tree n with
        | (none, s', tree') => some (.thrown, s', tree')
        | (some k', s', tree') => loopX P graph fuel k' s' tree'

/-- a_star.h:326-346 and 349-364: the first call is `SetGoal`, once everything else has been reset. -/
def searchX (P : Problem S A C) (graph : Bool) (fuel k : Nat) (init : S) :
    Option (Ended × Search S A C × List (ANode S A C)) :=
  match k with
  | 0 => some (.thrown, initSearch P init, [])
  | k + 1 => loopX P graph fuel k (initSearch P init) []

end AStar

namespace APlanner
variable {S A C : Type} [LinearOrder C] [Add C] [Zero C]

/-- a_star.h:326-346, `SearchPath` when only `k` calls of the propagator and of the heuristic return; `g` is the goal found
in the heuristic if its `SetGoal` has thrown. -/
def searchPathX (eqS : S → S → Bool) (graph : Bool) (fuel k : Nat) (g : S) (p : APlanner S A C) :
    Option (Ended × APlanner S A C) :=
  if p.isInitialized then
    match p.propagator, p.heuristic with
    | some N, some H =>
      match AStar.searchX (problem eqS N H p.goal p.goal) graph fuel k p.init with
      | some (e, s, _) => some (e, { p with heurGoal := if k = 0 then g else p.goal, search := s })
      | none => none
    | _, _ => none
  else some (.returned .failure, p)

/-- A call on the object, or a search cut short. -/
inductive OpX (S A C : Type) where
  | op (o : Op S A C)
  | cut (fuel k : Nat) (g : S)

/-- Effect of a history of calls, some of which are searches that throw; the caller catches the exceptions. -/
def runX (eqS : S → S → Bool) (graph : Bool) : APlanner S A C → List (OpX S A C) → Option (APlanner S A C)
  | p, [] => some p
  | p, .op o :: os => match p.call eqS graph o with
    | some p' => runX eqS graph p' os
    | none => none
  | p, .cut fuel k g :: os => match p.searchPathX eqS graph fuel k g with
    | some (_, p') => runX eqS graph p' os
    | none => none

end APlanner

namespace Bi
open AStar
variable {S A C : Type} [LinearOrder C] [Add C] [Zero C]

/-- bidirectional_a_star.h:154-157: the meeting point is looked for only if `Expand` has returned. -/
def forwardX (B : BiProblem S A C) (graph : Bool) (k : Nat) (s : BiSearch S A C) (f' : Frontier (ANode S A C))
    (n : ANode S A C) : Option Nat × BiSearch S A C :=
  match expandX B.fwd graph k { s.f with frontier := f' } [] n with
  | (none, e, _) => (none, { s with f := e })
  | (some k', e, _) =>
    let q := findIntersection B.rev n e s.r s.best
    (some k', { f := q.1, r := q.2.1, best := q.2.2 })

/-- bidirectional_a_star.h:159-162, likewise. -/
def reverseX (B : BiProblem S A C) (graph : Bool) (k : Nat) (s : BiSearch S A C) (r' : Frontier (ANode S A C))
    (n : ANode S A C) : Option Nat × BiSearch S A C :=
  match expandX B.rev graph k { s.r with frontier := r' } [] n with
  | (none, e, _) => (none, { s with r := e })
  | (some k', e, _) =>
    let q := findIntersection B.fwd n e s.f s.best
    (some k', { f := q.2.1, r := q.1, best := q.2.2 })

/-- bidirectional_a_star.h:153-177, the loop. The reverse node is popped (160) after the forward half iteration: if that
one throws the node stays in its frontier. -/
def loopX (B : BiProblem S A C) (graph : Bool) (off : C) :
    Nat → Nat → BiSearch S A C → Option (Ended × BiSearch S A C)
  | 0, _, _ => none
  | fuel + 1, k, s =>
    match s.f.frontier.pop (eqNode B.fwd), s.r.frontier.pop (eqNode B.rev) with
    | some (f', n), some (r', m) =>
      match forwardX B graph k s f' n with
      | (none, s1) => some (.thrown, s1)
      | (some k1, s1) =>
        match reverseX B graph k1 s1 r' m with
        | (none, s2) => some (.thrown, s2)
        | (some k2, s2) => if finished off s2 then some (.returned .success, s2) else loopX B graph off fuel k2 s2
    | _, _ => some (.returned .failure, s)

end Bi

namespace BiPlanner
variable {S A K : Type} [LinearOrder K] [Add K] [Zero K] [Sub K] [Div K] [OfNat K 2]

/-- The search problem of the loop (bidirectional_a_star.h:115-127), for the heuristics as they are in `st`. -/
def problem (eqS : S → S → Bool) (st : HeurStore S K) (N Nr : S → List (S × A × K)) (H Hr : HRef) : BiProblem S A K :=
  { fwd := { eqS := eqS, nbrs := fun _ => N, h := st.value H, isSol := fun _ => false }
    rev := { eqS := eqS, nbrs := fun _ => Nr, h := st.value Hr, isSol := fun _ => false } }

/-- What an exception raised before the loop leaves behind (bidirectional_a_star.h:137-150), one entry for each call in the
order of the calls: `Update` of the two averaged heuristics (138-139), `SetGoal` of the forward heuristic in the first
`InitializeSearch` (147) and of the reverse heuristic in the second (148), when the half of the search has been reset
(a_star.h:353-363), and the two heuristic values at the goal (150). A heuristic whose `SetGoal` throws keeps its goal. -/
def beforeLoop (eqS : S → S → Bool) (st : HeurStore S K) (p : BiPlanner S A K) (N Nr : S → List (S × A × K)) (H Hr : HRef) :
    List (HeurStore S K × BiPlanner S A K) :=
  let st1 := p.updateAverages st
  let st2 := st1.setGoal H p.goal
  let st3 := st2.setGoal Hr p.init
  let B := problem eqS st3 N Nr H Hr
  let p1 := { p with search := { p.search with f := AStar.initSearch B.fwd p.init } }
  let p2 := { p with search := Bi.initSearch B p.init p.goal }
  (match p.fAvg, p.rAvg with
   | some i, some _ => [(st, p), (st.update i p.goal, p)]
   | _, _ => []) ++ [(st1, p1), (st2, p2), (st3, p2), (st3, p2)]

/-- bidirectional_a_star.h:130-178, `SearchPath` when only `k` calls of the propagators and of the heuristics return. -/
def searchPathX (eqS : S → S → Bool) (graph : Bool) (fuel k : Nat) (st : HeurStore S K) (p : BiPlanner S A K) :
    Option (Ended × HeurStore S K × BiPlanner S A K) :=
  if p.isInitialized then
    match p.fProp, p.rProp, p.fHeur, p.rHeur with
    | some N, some Nr, some H, some Hr =>
      match (p.beforeLoop eqS st N Nr H Hr)[k]? with
      | some left => some (.thrown, left)
      | none =>
        let st := ((p.updateAverages st).setGoal H p.goal).setGoal Hr p.init
        let B := problem eqS st N Nr H Hr
        match Bi.loopX B graph (Bi.costOffset B p.goal) fuel (k - (p.beforeLoop eqS st N Nr H Hr).length)
            (Bi.initSearch B p.init p.goal) with
        | some (e, s) => some (e, st, { p with search := s })
        | none => none
    | _, _, _, _ => none
  else some (.returned .failure, st, p)

/-- Searches cut short, one after the other: for each the fuel and the number of calls that return. -/
def cuts (eqS : S → S → Bool) (graph : Bool) : HeurStore S K × BiPlanner S A K → List (Nat × Nat) →
    Option (HeurStore S K × BiPlanner S A K)
  | s, [] => some s
  | s, (fuel, k) :: l => match s.2.searchPathX eqS graph fuel k s.1 with
    | some (_, s') => cuts eqS graph s' l
    | none => none

end BiPlanner
end PathPlanning
