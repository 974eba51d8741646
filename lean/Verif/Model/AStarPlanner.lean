import Verif.Model.AStar

/-!
# Model of an `AStar` object and its public interface (a_star.h:195-346, path_planner.h:20-48)

The propagator is a function of the state; a heuristic is a function of its stored goal and of the
state (`AStarConcreteHeuristicFcn`, a_star.h:65-79), whose stored goal is written by `SetGoal`.
-/

namespace PathPlanning

/-- Data members (a_star.h:430-441, path_planner.h:44-46). `heurGoal` is the goal stored inside the
heuristic object; `none` is a null `Ref`. -/
structure APlanner (S A C : Type) where
  propagator : Option (S → List (S × A × C))
  heuristic : Option (S → S → C)
  heurGoal : S
  init : S
  goal : S
  search : Search S A C
  isInitialized : Bool

namespace APlanner
variable {S A C : Type} [LinearOrder C] [Add C] [Zero C]

/-- a_star.h:251 and the default member initialisers 430-441; `s₀` stands for the default
constructed states. -/
def new (s₀ : S) : APlanner S A C :=
  { propagator := none, heuristic := none, heurGoal := s₀, init := s₀, goal := s₀
    search := { frontier := Frontier.empty, explored := [], solution := none, calls := [] }
    isInitialized := false }

/-- a_star.h:315-323, `Initialize`. -/
def configure (p : APlanner S A C) (N : Option (S → List (S × A × C)))
    (H : Option (S → S → C)) : APlanner S A C × Bool :=
  if N.isNone || H.isNone then ({ p with isInitialized := false }, false)
  else ({ p with propagator := N, heuristic := H, isInitialized := true }, true)

/-- path_planner.h:36-37. -/
def setInit (p : APlanner S A C) (s : S) : APlanner S A C := { p with init := s }
/-- path_planner.h:36-37. -/
def setGoal (p : APlanner S A C) (s : S) : APlanner S A C := { p with goal := s }

/-- The search problem seen by the loop once `InitializeSearch` has run (a_star.h:363, 368-373). -/
def problem (eqS : S → S → Bool) (N : S → List (S × A × C)) (H : S → S → C) (heurGoal goal : S) :
    Problem S A C :=
  { eqS := eqS, nbrs := fun _ => N, h := fun s => H s heurGoal, isSol := fun s => eqS s goal }

/-- a_star.h:326-346, `SearchPath`. `none`: not finished within `fuel` iterations (or, for
an initialised planner with a null propagator, which never happens, a null dereference). -/
def searchPath (eqS : S → S → Bool) (graph : Bool) (fuel : Nat) (p : APlanner S A C) :
    Option (Status × APlanner S A C) :=
  if p.isInitialized then
    match p.propagator, p.heuristic with
    | some N, some H =>
      let p := { p with heurGoal := p.goal }
      match AStar.searchPath (problem eqS N H p.heurGoal p.goal) graph fuel p.init with
      | some (st, s) => some (st, { p with search := s })
      | none => none
    | _, _ => none
  else some (.failure, p)

/-- A public call on the object. -/
inductive Op (S A C : Type) where
  | configure (N : Option (S → List (S × A × C))) (H : Option (S → S → C))
  | setInit (s : S)
  | setGoal (s : S)
  | search (fuel : Nat)

/-- Effect of a call; `none` when the call has not returned. -/
def call (eqS : S → S → Bool) (graph : Bool) (p : APlanner S A C) :
    Op S A C → Option (APlanner S A C)
  | .configure N H => some (p.configure N H).1
  | .setInit s => some (p.setInit s)
  | .setGoal s => some (p.setGoal s)
  | .search fuel => (p.searchPath eqS graph fuel).map Prod.snd

/-- Effect of a history of calls. -/
def run (eqS : S → S → Bool) (graph : Bool) : APlanner S A C → List (Op S A C) →
    Option (APlanner S A C)
  | p, [] => some p
  | p, o :: os => match p.call eqS graph o with
    | some p' => run eqS graph p' os
    | none => none

end APlanner
end PathPlanning
