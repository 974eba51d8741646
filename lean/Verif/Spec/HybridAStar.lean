import Verif.Model.HybridAStar
import Verif.Spec.Validator
import Verif.Spec.Pose

/-!
# Specification of a path made of motions
-/

namespace PathPlanning.Spec
open HybridAStar

/-- The motions lead from the first pose to the last, each one starting where the one before ends. -/
def Joined : PoseR → List Action → PoseR → Prop
  | p, [], q => p = q
  | p, a :: l, q => a.init = p ∧ Joined a.final l q

/-- The motion was checked for collisions: each of its states follows an acceptable one at less than the
distance that is known to be free there (or the interpolation step). -/
def Checked (v : Validator) (a : Action) : Prop :=
  ∀ s, 0 ≤ s → s < a.length → ∃ t, 0 ≤ t ∧ t ≤ s ∧ Acceptable v (a.interpolate (t / a.length)) ∧
    s - t < max (freeDistance v (a.interpolate (t / a.length))) v.minStep

/-- A motion of the vehicle: forward or backward with one of the given steering angles for at most the
given distance, or the Reeds-Shepp path of least cost to the goal. -/
def Motion (p : HybridParam) (goal : PoseR) (a : Action) : Prop :=
  (∃ δ ∈ deltas p, ∃ dir : Direction, (dir = .forward ∨ dir = .backward) ∧
    ∃ len : ℝ, 0 ≤ len ∧ len ≤ 1.5 * p.spatialResolution ∧
      a = .steer (PathSteer.new (model p) a.init δ len dir)) ∨
  a = .reedsShepp (PathRS.connect a.init goal p.minTurningRadius p.reverseCostMultiplier
    p.forwardCostMultiplier p.directionSwitchingCost)

/-- The length of a list of motions. -/
noncomputable def motionsLength (l : List Action) : ℝ := (l.map Action.length).sum

/-- `p` is the pose at the distance `x` along the motions: at the fraction `r` of one of them, the motions
before which have the length `x - r * length`. -/
def OnPath (l : List Action) (x : ℝ) (p : PoseR) : Prop :=
  ∃ pre a post r, l = pre ++ a :: post ∧ 0 ≤ r ∧ r ≤ 1 ∧ x = motionsLength pre + r * a.length ∧
    p = a.interpolate r

/-- The states are samples of the motions from `p` to `q` about every `d`: the first one is `p`, the one number
`k` is on the path at a distance from the start of `k * d` up to `d / 2`; neighbours are less than `2 * d`
apart, the last one is less than `1.5 * d` away from `q`, and there are as many as multiples of `d` in the
length of the path. -/
structure SampledPath (l : List Action) (p q : PoseR) (d : ℝ) (states : List PoseR) : Prop where
  start : ∃ s, states[0]? = some s ∧ SamePose s p
  on : ∀ (k : Nat) s, states[k]? = some s → ∃ x, OnPath l x s ∧ k * d - d / 2 < x ∧ x ≤ k * d + d / 2
  near : ∀ (k : Nat) s t, states[k]? = some s → states[k + 1]? = some t → euclid s.position t.position < 2 * d
  last : ∀ s, states[states.length - 1]? = some s → euclid s.position q.position < 3 * d / 2
  count : ∀ k : Nat, k < states.length ↔ k * d ≤ motionsLength l

/-- The path `r` has as many states as `l`, with the same headings, and the same first and last state. -/
structure Reshaped (l r : List PoseR) : Prop where
  length : r.length = l.length
  headings : r.map PoseR.theta = l.map PoseR.theta
  first : r[0]? = l[0]?
  last : r[l.length - 1]? = l[l.length - 1]?

end PathPlanning.Spec
