import Verif.Model.Grid
import Mathlib.Algebra.Order.Group.Int
import Mathlib.Algebra.Order.Group.Abs

/-!
# Specification of moves on a grid with blocked cells
-/

namespace PathPlanning.Spec

/-- The cell lies in the `rows` × `columns` rectangle. -/
def Inside (m : GridMap) (c : Cell) : Prop :=
  0 ≤ c.row ∧ c.row < m.rows ∧ 0 ≤ c.col ∧ c.col < m.columns

/-- Chebyshev (king move) distance of two cells. -/
def chebyshev (a b : Cell) : Int := max |a.row - b.row| |a.col - b.col|

/-- The cell is inside the map and not blocked. -/
def Free (m : GridMap) (c : Cell) : Prop := Inside m c ∧ m.occ c = false

/-- A legal move: a king move to a free cell; a diagonal move may not squeeze between two blocked
cells. -/
def Move (m : GridMap) (u v : Cell) : Prop :=
  Free m v ∧ chebyshev u v = 1 ∧
    (u.row ≠ v.row → u.col ≠ v.col →
      ¬ (m.occ ⟨v.row, u.col⟩ = true ∧ m.occ ⟨u.row, v.col⟩ = true))

/-- `cells` is a list of legal moves from `a` to `b`, both included. -/
inductive Walk (m : GridMap) : Cell → List Cell → Cell → Prop
  | stop (a) : Walk m a [a] a
  | move {a b c l} : Move m a b → Walk m b l c → Walk m a (a :: l) c

/-- Sum of the costs of consecutive pairs of cells. -/
def walkCost {C : Type} [Add C] [Zero C] (f : Cell → Cell → C) : List Cell → C
  | a :: b :: l => f a b + walkCost f (b :: l)
  | _ => 0

end PathPlanning.Spec
