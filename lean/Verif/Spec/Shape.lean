import Verif.Model.OccMap

/-!
# Specification of the geometry of the shapes
-/

namespace PathPlanning.Spec

/-- The (Euclidean) distance of two points of the plane. -/
noncomputable def ptDist (a b : Pt) : ℝ := √((a.x - b.x) ^ 2 + (a.y - b.y) ^ 2)

/-- Twice the signed area of the triangle `a b p`: positive when `p` is to the left of the line from
`a` to `b`. -/
def leftOf (a b p : Pt) : ℝ := (b.x - a.x) * (p.y - a.y) - (b.y - a.y) * (p.x - a.x)

/-- `a` and `b` are consecutive corners of the closed polygon `vs`. -/
def IsEdge (vs : List Pt) (a b : Pt) : Prop :=
  ∃ i, vs[i]? = some a ∧ vs[(i + 1) % vs.length]? = some b

/-- The point is inside (or on the boundary of) the counterclockwise convex polygon. -/
def InsideConvex (vs : List Pt) (p : Pt) : Prop := ∀ a b, IsEdge vs a b → 0 ≤ leftOf a b p

/-- The point half way. -/
noncomputable def halfWay (a b : Pt) : Pt := ⟨(a.x + b.x) / 2, (a.y + b.y) / 2⟩

end PathPlanning.Spec
