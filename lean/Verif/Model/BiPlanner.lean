import Verif.Model.Bidirectional

/-!
# Model of a `BidirectionalAStar` object and its public interface (bidirectional_a_star.h:52-178)

Heuristics are shared objects: a planner holds references, and the same object may be used more than once. The parts of an
averaged heuristic are plain heuristics (`AStarConcreteHeuristicFcn`, a_star.h:65-79); averages of averages are left out.
Propagators are functions of the state.
-/

namespace PathPlanning

/-- An `AverageHeuristic` object (bidirectional_a_star.h:36-38): references to the parts, and the constant. -/
structure AvgObj (K : Type) where
  toGoal : Nat
  toInit : Nat
  const : K

/-- The heuristic objects in memory. -/
structure HeurStore (S K : Type) where
  plain : Nat → HPart S K
  avg : Nat → AvgObj K

/-- A reference to a heuristic object. -/
inductive HRef where
  | plain (i : Nat)
  | avg (i : Nat)
deriving DecidableEq

namespace HeurStore
variable {S K : Type}

/-- a_star.h:71-74 and bidirectional_a_star.h:19-22, `GetHeuristicValue`. -/
def value [Add K] [Sub K] [Div K] [OfNat K 2] (st : HeurStore S K) : HRef → S → K
  | .plain i, s => (st.plain i).value s
  | .avg i, s => (st.avg i).const + ((st.plain (st.avg i).toGoal).value s - (st.plain (st.avg i).toInit).value s) / 2

/-- a_star.h:58, `SetGoal`: of an averaged heuristic it only sets a member that is never read. -/
def setGoal (st : HeurStore S K) : HRef → S → HeurStore S K
  | .plain i, g => { st with plain := fun j => if j = i then (st.plain i).setGoal g else st.plain j }
  | .avg _, _ => st

/-- bidirectional_a_star.h:28-33, `Update(init, goal)`; `m_init` is never read. -/
def update [Div K] [OfNat K 2] (st : HeurStore S K) (i : Nat) (goal : S) : HeurStore S K :=
  { st with avg := fun j =>
      if j = i then { st.avg i with const := (st.plain (st.avg i).toInit).value goal / 2 } else st.avg j }

end HeurStore

/-- Data members (bidirectional_a_star.h:199-201, path_planner.h:44-46); `none` is a null `Ref` or pointer. -/
structure BiPlanner (S A K : Type) where
  fProp : Option (S → List (S × A × K))
  rProp : Option (S → List (S × A × K))
  fHeur : Option HRef
  rHeur : Option HRef
  fAvg : Option Nat
  rAvg : Option Nat
  init : S
  goal : S
  search : BiSearch S A K
  isInitialized : Bool

namespace BiPlanner
variable {S A K : Type} [LinearOrder K] [Add K] [Zero K] [Sub K] [Div K] [OfNat K 2]

/-- bidirectional_a_star.h:53 and the default member initialisers; `s₀` stands for the default constructed states. -/
def new (s₀ : S) : BiPlanner S A K :=
  { fProp := none, rProp := none, fHeur := none, rHeur := none, fAvg := none, rAvg := none, init := s₀, goal := s₀
    search := { f := { frontier := Frontier.empty, explored := [], solution := none, calls := [] }
                r := { frontier := Frontier.empty, explored := [], solution := none, calls := [] }, best := none }
    isInitialized := false }

/-- `dynamic_cast<AverageHeuristic*>` (bidirectional_a_star.h:123-124). -/
def averaged : HRef → Option Nat
  | .plain _ => none
  | .avg i => some i

/-- bidirectional_a_star.h:115-127, `Initialize`: the forward search takes its arguments even if those of the reverse search
are rejected. -/
def configure (p : BiPlanner S A K) (N Nr : Option (S → List (S × A × K))) (H Hr : Option HRef) : BiPlanner S A K × Bool :=
  match N, H with
  | some N, some H =>
    let p := { p with fProp := some N, fHeur := some H }
    match Nr, Hr with
    | some Nr, some Hr =>
      ({ p with rProp := some Nr, rHeur := some Hr, fAvg := averaged H, rAvg := averaged Hr, isInitialized := true }, true)
    | _, _ => ({ p with isInitialized := false }, false)
  | _, _ => ({ p with isInitialized := false }, false)

/-- path_planner.h:36-37. -/
def setInit (p : BiPlanner S A K) (s : S) : BiPlanner S A K := { p with init := s }
/-- path_planner.h:36-37. -/
def setGoal (p : BiPlanner S A K) (s : S) : BiPlanner S A K := { p with goal := s }

/-- bidirectional_a_star.h:137-140. -/
def updateAverages (p : BiPlanner S A K) (st : HeurStore S K) : HeurStore S K :=
  match p.fAvg, p.rAvg with
  | some i, some j => (st.update i p.goal).update j p.init
  | _, _ => st

/-- bidirectional_a_star.h:130-178, `SearchPath`, and what becomes of the heuristics. `none`: not finished within `fuel`
iterations (or a null dereference, which never happens). -/
def searchPath (eqS : S → S → Bool) (graph : Bool) (fuel : Nat) (st : HeurStore S K) (p : BiPlanner S A K) :
    Option (Status × HeurStore S K × BiPlanner S A K) :=
  if p.isInitialized then
    match p.fProp, p.rProp, p.fHeur, p.rHeur with
    | some N, some Nr, some H, some Hr =>
      let st := p.updateAverages st
      let st := (st.setGoal H p.goal).setGoal Hr p.init
      let B : BiProblem S A K :=
        { fwd := { eqS := eqS, nbrs := fun _ => N, h := st.value H, isSol := fun _ => false }
          rev := { eqS := eqS, nbrs := fun _ => Nr, h := st.value Hr, isSol := fun _ => false } }
      match Bi.searchPath B graph fuel p.init p.goal with
      | some (status, s) => some (status, st, { p with search := s })
      | none => none
    | _, _, _, _ => none
  else some (.failure, st, p)

/-- A public call on the object. -/
inductive Op (S A K : Type) where
  | configure (N Nr : Option (S → List (S × A × K))) (H Hr : Option HRef)
  | setInit (s : S)
  | setGoal (s : S)
  | search (fuel : Nat)

/-- Effect of a call; `none` when the call has not returned. -/
def call (eqS : S → S → Bool) (graph : Bool) (s : HeurStore S K × BiPlanner S A K) :
    Op S A K → Option (HeurStore S K × BiPlanner S A K)
  | .configure N Nr H Hr => some (s.1, (s.2.configure N Nr H Hr).1)
  | .setInit x => some (s.1, s.2.setInit x)
  | .setGoal x => some (s.1, s.2.setGoal x)
  | .search fuel => (s.2.searchPath eqS graph fuel s.1).map Prod.snd

/-- Effect of a history of calls. -/
def run (eqS : S → S → Bool) (graph : Bool) : HeurStore S K × BiPlanner S A K → List (Op S A K) →
    Option (HeurStore S K × BiPlanner S A K)
  | s, [] => some s
  | s, o :: os => match call eqS graph s o with
    | some s' => run eqS graph s' os
    | none => none

end BiPlanner
end PathPlanning
