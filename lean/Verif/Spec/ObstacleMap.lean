import Verif.Model.ObstacleMap

/-!
# Specification: which obstacles are registered and what they cover, from the history alone
-/

namespace PathPlanning.Spec
open ObsMap

/-- The last `add` or `remove` of obstacle `o` in the history is an `add`. -/
def registered (ops : List Op) (o : Nat) : Bool :=
  ops.foldl (fun b op => match op with
    | .add o' => if o' = o then true else b
    | .remove o' => if o' = o then false else b
    | .move _ _ => b) false

/-- The cells that obstacle `o` covers after the history. -/
def covers (ops : List Op) (o : Nat) : List Cell :=
  ops.foldl (fun l op => match op with
    | .move o' cells => if o' = o then cells else l
    | _ => l) []

/-- No obstacle is moved while it is registered. -/
def NoMoveWhileRegistered (ops : List Op) : Prop :=
  ∀ pre o cells post, ops = pre ++ Op.move o cells :: post → registered pre o = false

/-- No obstacle is added while its cells overlap those of another registered obstacle. -/
def NoOverlap (ops : List Op) : Prop :=
  ∀ pre o post, ops = pre ++ Op.add o :: post →
    ∀ o', o' ≠ o → registered pre o' = true → ∀ c, c ∈ covers pre o → c ∉ covers pre o'

end PathPlanning.Spec
