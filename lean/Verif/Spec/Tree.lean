import Verif.Model.Tree
import Verif.Spec.Node

/-!
# Specification of the search tree
-/

namespace PathPlanning.Spec
open Tree
variable {V : Type} [DecidableEq V]

/-- The answers of the k-d tree are nearest points for the distance `dist`. -/
structure NearestLaws {K : Type} [LE K] (o : KNN V) (dist : V → V → K) : Prop where
  some_of_ne : ∀ pts v, pts ≠ [] → ∃ p, o.nearest pts v = some p
  mem : ∀ pts v p, o.nearest pts v = some p → p ∈ pts
  min : ∀ pts v p, o.nearest pts v = some p → ∀ q ∈ pts, dist v p ≤ dist v q
  knn_mem : ∀ pts v k p, p ∈ o.knn pts v k → p ∈ pts

/-- What the caller must respect: `CreateRootNode` on an empty tree, `source` in the tree,
`Reparent` on two distinct nodes of the tree. -/
def AllowedTree (t : Tree V) : Op V → Prop
  | .createRoot _ => t.root = none
  | .extend _ s => ∀ n, s = some n → t.heap.alive n
  | .reparent c n => t.heap.alive c ∧ t.heap.alive n ∧ n ≠ c
  | .clear => True

/-- The trees a caller can produce. -/
inductive TreeReachable [Inhabited V] (o : KNN V) : Tree V → Prop
  | start : TreeReachable o Tree.new
  | call {t t' : Tree V} {op : Op V} : TreeReachable o t → AllowedTree t op →
      t.call o op = some t' → TreeReachable o t'

end PathPlanning.Spec
