import Verif.Spec.Path
import Mathlib.Data.Real.Basic
import Mathlib.Algebra.BigOperators.Group.List.Basic

/-!
# Specification of rounded cost arithmetic
-/

namespace PathPlanning.Spec

/-- Numbers of type `C` stand for reals, through `val`; the sum of two non-negative numbers is off by a relative error of at
most `ε`. (With `double` and no overflow: `ε = 2⁻⁵³`.) No law of addition is assumed: it need not be associative. -/
structure Rounded {C : Type} [LinearOrder C] [Add C] [Zero C] (val : C → ℝ) (ε : ℝ) : Prop where
  mono : StrictMono val
  zero : val 0 = 0
  add : ∀ a b : C, 0 ≤ a → 0 ≤ b → |val (a + b) - (val a + val b)| ≤ ε * (val a + val b)

/-- The exact cost of a route: the sum of the reals its transition costs stand for. -/
def exactCost {S A C : Type} (val : C → ℝ) (l : List (A × C × S)) : ℝ := (l.map (fun e => val e.2.1)).sum

end PathPlanning.Spec
