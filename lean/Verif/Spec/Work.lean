import Verif.Spec.Search

/-!
# Vocabulary for the amount of work of a search
-/

namespace PathPlanning
open Spec
variable {S A C : Type}

/-- `g` is the cost of a cheapest chain of transitions from `init` to `x` (or to a state equal to it). -/
def Problem.LeastCost [LE C] [Add C] [Zero C] (P : Problem S A C) (init x : S) (g : C) : Prop :=
  (∃ l, Route P.tr init l x ∧ routeCost l = g) ∧
    ∀ l x', Route P.tr init l x' → P.eqS x x' = true → g ≤ routeCost l

end PathPlanning
