import Verif.Model.AStar
import Verif.Spec.Path

/-!
# Vocabulary for the search properties
-/

namespace PathPlanning
open Spec
variable {S A C : Type}

/-- The state equality does not distinguish states that behave differently. (It holds trivially
when `EqualState` is equality of states.) -/
structure Problem.Respects (P : Problem S A C) : Prop where
  isSol : ∀ u u', P.eqS u u' = true → P.isSol u = P.isSol u'
  h : ∀ u u', P.eqS u u' = true → P.h u = P.h u'
  nbrs : ∀ u u', P.eqS u u' = true → ∀ v a c, (v, a, c) ∈ P.nbrs 0 u →
    ∃ v' a', (v', a', c) ∈ P.nbrs 0 u' ∧ P.eqS v v' = true

/-- The heuristic is consistent: `h(u) ≤ c(u,v) + h(v)` for every transition. -/
def Problem.Consistent [LE C] [Add C] (P : Problem S A C) : Prop :=
  ∀ u a c v, P.tr u a c v → P.h u ≤ c + P.h v

/-- `R` contains, up to state equality, every state reachable from `init`. -/
def Problem.Covers (P : Problem S A C) (init : S) (R : List S) : Prop :=
  ∀ x, Reachable P.tr init x → ∃ r ∈ R, P.eqS r x = true

end PathPlanning
