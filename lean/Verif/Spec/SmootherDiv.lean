import Verif.Model.Smoother
import Verif.Spec.Smoother

/-!
# Specification: the points where the smoother can compute its step
-/

namespace PathPlanning.Spec

/-- The path does not stop at its point `b` (after `a`), and does not bend too much at `b` while going straight on or
straight back. -/
def BendDefined (maxCurvature : ℝ) (a b c : Pt) : Prop :=
  a ≠ b ∧ (curvature a b c ≤ maxCurvature ∨ (b.x - a.x) * (c.y - b.y) - (b.y - a.y) * (c.x - b.x) ≠ 0)

/-- A point is not exactly at the position of the obstacle it has to be pushed away from. -/
def PlaceDefined (q : SmoothParam) (map : OccMap) (obstacle edge : Cell → Cell) (b : Pt) : Prop :=
  let cell := map.worldPositionToGridCell b true
  let o := dist2 b (map.gridCellToWorldPosition (obstacle cell))
  let v := dist2 b (map.gridCellToWorldPosition (edge cell))
  map.isInsidePos b = true → (o < q.minSafeRadius * (1 + q.collisionRatio) ∨ (o < q.dMax ∧ 0 < q.voronoiWeight ∧ 0 < v)) →
    0 < o

/-- Both hold at the point number `i` of a path. -/
def StepDefined (q : SmoothParam) (map : OccMap) (obstacle edge : Cell → Cell) (l : List Pt) (i : Nat) : Prop :=
  BendDefined q.maxCurvature (pointOf l (i - 1)) (pointOf l i) (pointOf l (i + 1)) ∧
    PlaceDefined q map obstacle edge (pointOf l i)

end PathPlanning.Spec
