import Mathlib.Order.WithBot
import Mathlib.Algebra.Order.Monoid.WithTop

/-!
# Model of the heuristic combinators (planner/src/algo/a_star.h:31-145)

The values are `WithBot C`: `⊥` is minus infinity, the value of an empty combination.
-/

namespace PathPlanning

/-- The heuristic classes: a function with a stored goal (a_star.h:65-79), a combination to which
parts are added one by one (83-118; `comb0` is the empty vector, `combAdd` is `Add`), and an adapter
(123-145). -/
inductive Heur (C : Type) : Type → Type 1
  | fcn {S : Type} (f : S → S → C) (goal : S) : Heur C S
  | comb0 {S : Type} : Heur C S
  | combAdd {S : Type} (hs h : Heur C S) : Heur C S
  | adapter {S1 S2 : Type} (h : Heur C S2) (f : S1 → S2) : Heur C S1

namespace Heur
variable {C : Type}

/-- `GetHeuristicValue` (a_star.h:71-74, 99-106, 130-133): the loop of the combination keeps the
running `std::max`, starting from minus infinity. -/
def value [LinearOrder C] : {S : Type} → Heur C S → S → WithBot C
  | _, fcn f g, s => (f s g : C)
  | _, comb0, _ => ⊥
  | _, combAdd hs h, s => max (value hs s) (value h s)
  | _, adapter h f, s => value h (f s)

/-- `SetGoal` (a_star.h:58, 109-113, 136-139). -/
def setGoal : {S : Type} → Heur C S → S → Heur C S
  | _, fcn f _, g => fcn f g
  | _, comb0, _ => comb0
  | _, combAdd hs h, g => combAdd (setGoal hs g) (setGoal h g)
  | _, adapter h f, g => adapter (setGoal h (f g)) f

/-- A combined heuristic built by adding the parts of a list in order (a_star.h:87-97). -/
def combined {S : Type} (parts : List (Heur C S)) : Heur C S := parts.foldl combAdd comb0

end Heur
end PathPlanning
