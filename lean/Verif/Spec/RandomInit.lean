import Verif.Model.RandomInit
import Mathlib.Logic.Function.Iterate

/-!
# C154: what is expected of the random generators
-/

namespace PathPlanning.Spec
open Rng

/-- The first `k` numbers of an engine in state `e`. -/
def stream {E N : Type} (next : E → N × E) (e : E) (k : Nat) : List N :=
  (List.range k).map fun j => (next ((fun e => (next e).2)^[j] e)).1

/-- The numbers of type `t` that were drawn, in the order in which they were drawn. -/
def numbers {E N : Type} (t : Ty) (σ : Sys E N) : List N :=
  σ.log.reverse.filterMap fun x => if x.1 = t then some x.2 else none

/-- The objects that an action needs have been constructed by the actions `before` it. -/
def Act.possible (before : List Act) : Act → Prop
  | .newSpace _ => True
  | .newRRT t => .newSpace t ∈ before
  | .newRRTStar t => .newSpace t ∈ before
  | .sampleSpace t => .newSpace t ∈ before
  | .iterateRRT t => .newSpace t ∈ before ∧ .newRRT t ∈ before
  | .iterateRRTStar t => .newSpace t ∈ before ∧ .newRRTStar t ∈ before

/-- The user constructs objects before they use them. -/
def PossibleActs (l : List Act) : Prop :=
  ∀ before a after, l = before ++ a :: after → Act.possible before a

end PathPlanning.Spec
