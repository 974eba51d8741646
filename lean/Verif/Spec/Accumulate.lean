import Verif.Spec.Grid

/-! # Specification of costs accumulated along a walk -/

namespace PathPlanning.Spec

/-- The cost accumulated along a list of cells, when the moves are added one after the other, in the order of the list, to
`acc`. The order matters if additions are rounded. -/
def accumulated {K : Type} [Add K] (f : Cell → Cell → K) : K → List Cell → K
  | acc, a :: b :: l => accumulated f (f a b + acc) (b :: l)
  | acc, _ => acc

end PathPlanning.Spec
