import Verif.Model.OccMap
import Mathlib.Analysis.SpecialFunctions.Trigonometric.Inverse
import Mathlib.Analysis.Calculus.Deriv.Basic
import Mathlib.Algebra.BigOperators.Group.Finset.Basic

/-!
# Specification: the costs that the smoother descends

Written without the code of the smoother: plane geometry, and what a gradient is.
-/

namespace PathPlanning.Spec
open Real

/-- Distance of two points. -/
noncomputable def dist2 (p q : Pt) : ℝ := √((p.x - q.x) ^ 2 + (p.y - q.y) ^ 2)

/-- `g` is the gradient of `f` at `p`: along every line through `p` the derivative of `f` is the scalar
product of `g` and the direction. -/
def IsGradient (f : Pt → ℝ) (p g : Pt) : Prop :=
  ∀ vx vy : ℝ, HasDerivAt (fun t : ℝ => f ⟨p.x + t * vx, p.y + t * vy⟩) (g.x * vx + g.y * vy) 0

/-- Squared length of the second difference of three consecutive points. -/
noncomputable def bend (a b c : Pt) : ℝ := (a.x - 2 * b.x + c.x) ^ 2 + (a.y - 2 * b.y + c.y) ^ 2

/-- The angle between the steps `a → b` and `b → c`. -/
noncomputable def turn (a b c : Pt) : ℝ :=
  arccos (((b.x - a.x) * (c.x - b.x) + (b.y - a.y) * (c.y - b.y)) / (dist2 a b * dist2 b c))

/-- The discrete curvature at the middle one of three points: turning angle per length. -/
noncomputable def curvature (a b c : Pt) : ℝ := turn a b c / dist2 a b

/-- The point number `k` of a path. -/
noncomputable def pointOf (l : List Pt) (k : Nat) : Pt := l.getD k ⟨0, 0⟩

/-- The cost of a path for the smoother: the bends, the excess of the curvature over `maxCurvature` at the points `I`,
and a cost `place i` of the place of each of these points. -/
noncomputable def pathCost (smoothWeight curvatureWeight maxCurvature : ℝ) (I : Finset Nat) (place : Nat → Pt → ℝ)
    (l : List Pt) : ℝ :=
  smoothWeight / 2 * ∑ k ∈ Finset.range l.length,
      (if 0 < k ∧ k + 1 < l.length then bend (pointOf l (k - 1)) (pointOf l k) (pointOf l (k + 1)) else 0) +
    curvatureWeight / 2 * ∑ i ∈ I,
      (max 0 (curvature (pointOf l (i - 1)) (pointOf l i) (pointOf l (i + 1)) - maxCurvature)) ^ 2 +
    ∑ i ∈ I, place i (pointOf l i)

end PathPlanning.Spec
