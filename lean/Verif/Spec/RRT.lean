import Verif.Model.RRT

/-!
# Specification of the length of a path: C104
-/

namespace PathPlanning.Spec
variable {V P K : Type} [LinearOrder K] [Field K]

/-- Length of a path through the given states, along the connections. -/
def routeLength (S : Steering V P K) : List V → K
  | a :: b :: l => S.length (S.connect a b) + routeLength S (b :: l)
  | _ => 0

variable [DecidableEq V]

/-- The states of RRT* before each iteration (iterations go on after a solution has been found). -/
def starState (s : RRTSetup V P K) (nn : Nat → Nat) (init : RRTStarState V K) : Nat → Option (RRTStarState V K)
  | 0 => some init
  | k + 1 => (starState s nn init k).bind fun st => (rrtStarStep s nn (s.sample k) st).map Prod.fst

/-- The first `N` iterations never end in a state that is in the tree already. -/
def NoRepeats (s : RRTSetup V P K) (nn : Nat → Nat) (init : RRTStarState V K) (N : Nat) : Prop :=
  ∀ k < N, ∀ st st' n v, starState s nn init k = some st → rrtStarStep s nn (s.sample k) st = some (st', some (n, v)) →
    st.tree.find v = none

/-- The number of the first `m` iterations that draw the goal. -/
def goalDraws (sample : Nat → V) (goal : V) (m : Nat) : Nat := (List.range m).countP fun i => sample i = goal

end PathPlanning.Spec
