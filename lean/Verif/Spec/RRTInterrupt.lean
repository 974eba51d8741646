import Verif.Model.RRT

/-!
# The first iterations of a search of RRT or RRT*: C152
-/

namespace PathPlanning.Spec
variable {V P K : Type}

/-- The same search without a goal, limited to the first `n` iterations (for `n = 0` no iteration is made, because the tree
that holds the root is too large). -/
def firstIterations (s : RRTSetup V P K) (n : Nat) : RRTSetup V P K :=
  { s with
    isSolution := fun _ => false
    maxIteration := n - 1
    maxNumberTreeNode := if n = 0 then 0 else s.maxNumberTreeNode }

end PathPlanning.Spec
