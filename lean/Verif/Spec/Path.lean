import Mathlib.Algebra.Group.Defs

/-!
# Specification of paths in a labelled transition system

A transition `tr u a c v` goes from `u` to `v` with action `a` at cost `c`.
-/

namespace PathPlanning.Spec

variable {S A C : Type}

/-- `Route tr s l t`: the list `l` of (action, cost, reached state) leads from `s` to `t`. -/
inductive Route (tr : S → A → C → S → Prop) (s : S) : List (A × C × S) → S → Prop
  | nil : Route tr s [] s
  | snoc {l u a c v} : Route tr s l u → tr u a c v → Route tr s (l ++ [(a, c, v)]) v

/-- Cost of a route: left-to-right sum starting from 0. -/
def routeCost [Add C] [Zero C] (l : List (A × C × S)) : C := l.foldl (fun x e => x + e.2.1) 0

/-- The states visited by a route starting in `s`. -/
def routeStates (s : S) (l : List (A × C × S)) : List S := s :: l.map (fun e => e.2.2)

/-- The actions of a route. -/
def routeActions (l : List (A × C × S)) : List A := l.map (fun e => e.1)

/-- `t` can be reached from `s`. -/
def Reachable (tr : S → A → C → S → Prop) (s t : S) : Prop := ∃ l, Route tr s l t

end PathPlanning.Spec
