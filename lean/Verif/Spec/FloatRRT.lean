import Verif.Model.FloatRRT

/-!
# Specification of lengths of paths in the plane and of the states of RRT* with rounding: C139
-/

namespace PathPlanning.Spec

/-- Exact length of the path of straight segments through the given points. -/
noncomputable def segmentsLength : List Pt → ℝ
  | a :: b :: l => √((b.x - a.x) ^ 2 + (b.y - a.y) ^ 2) + segmentsLength (b :: l)
  | _ => 0

variable {V P : Type} [DecidableEq V]

/-- The states of RRT* before each iteration, as `starState`. -/
noncomputable def starStateF (s : RRTSetup V P ℝ) (nn : Nat → Nat) (init : RRTStarState V ℝ) :
    Nat → Option (RRTStarState V ℝ)
  | 0 => some init
  | k + 1 => (starStateF s nn init k).bind fun st => (rrtStarStepF s nn (s.sample k) st).map Prod.fst

/-- The first `N` iterations never end in a state that is in the tree already. -/
def NoRepeatsF (s : RRTSetup V P ℝ) (nn : Nat → Nat) (init : RRTStarState V ℝ) (N : Nat) : Prop :=
  ∀ k < N, ∀ st st' n v, starStateF s nn init k = some st → rrtStarStepF s nn (s.sample k) st = some (st', some (n, v)) →
    st.tree.find v = none

end PathPlanning.Spec
