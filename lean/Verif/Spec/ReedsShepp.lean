import Verif.Model.ReedsShepp

/-!
# Specification of driving

A car that moves with a curvature and a signed length along its heading. Only the reading of a motion
as a stretch (at the end) refers to the Reeds-Shepp code.
-/

namespace PathPlanning.Spec
open Real

/-- The pose after driving the signed distance `s` from `p` with the curvature `k` (positive: to the
left): the solution of `x' = cos θ`, `y' = sin θ`, `θ' = k`. -/
noncomputable def arc (k s : ℝ) (p : PoseR) : PoseR :=
  if k = 0 then ⟨⟨p.position.x + s * cos p.theta, p.position.y + s * sin p.theta⟩, p.theta⟩
  else ⟨⟨p.position.x + (sin (p.theta + k * s) - sin p.theta) / k,
    p.position.y - (cos (p.theta + k * s) - cos p.theta) / k⟩, p.theta + k * s⟩

/-- A stretch driven with constant curvature: a curvature, a sense of motion (`1` forward, `-1`
backward) and a length. -/
structure Stretch where
  curvature : ℝ
  sense : ℝ
  length : ℝ

/-- The pose reached by driving all the stretches. -/
noncomputable def driveAll (p : PoseR) : List Stretch → PoseR
  | [] => p
  | a :: l => driveAll (arc a.curvature (a.sense * a.length) p) l

/-- The pose reached after driving the distance `d` along the stretches. -/
noncomputable def driveDist (p : PoseR) (d : ℝ) : List Stretch → PoseR
  | [] => p
  | a :: l =>
    if d ≤ a.length then arc a.curvature (a.sense * d) p
    else driveDist (arc a.curvature (a.sense * a.length) p) (d - a.length) l

/-- The total length. -/
noncomputable def totalLength (l : List Stretch) : ℝ := (l.map (·.length)).sum

/-- A car with the minimal turning radius `R` can drive the stretches. -/
def Feasible (R : ℝ) (l : List Stretch) : Prop :=
  ∀ a ∈ l, 0 ≤ a.length ∧ (a.sense = 1 ∨ a.sense = -1) ∧ |a.curvature| ≤ 1 / R

/-- The stretch a motion stands for with the turning radius `R`: turning left or right is driving a
circle of radius `R`; lengths are normalised by `R`. -/
noncomputable def stretch (R : ℝ) (m : RS.Motion) : Stretch where
  curvature := match m.steer with | .left => 1 / R | .straight => 0 | .right => -1 / R
  sense := if m.direction = .backward then -1 else 1
  length := m.length.getD 0 * R

/-- The stretches of a segment: its motions up to the first invalid one. -/
noncomputable def stretches (R : ℝ) (ms : List RS.Motion) : List Stretch :=
  (ms.takeWhile RS.Motion.isValid).map (stretch R)

/-- A segment whose motions have non-negative lengths that add up to its length. -/
def WellFormed (s : RS.Segment) : Prop :=
  (∀ m ∈ s.motions.takeWhile RS.Motion.isValid, 0 ≤ m.length.getD 0) ∧
  s.length = totalLength (stretches 1 s.motions)

/-- The number of changes in a list of directions. -/
def switches : List Direction → Nat
  | a :: b :: l => (if a ≠ b then 1 else 0) + switches (b :: l)
  | _ => 0

/-- The cost of one motion: its length on the ground times the multiplier of its direction. -/
noncomputable def motionCost (R rev fwd : ℝ) (m : RS.Motion) : ℝ :=
  R * m.length.getD 0 * (if m.direction = .forward then fwd else rev)

/-- The cost of a list of motions: weighted lengths, plus the switching cost for every change of
direction. -/
noncomputable def weightedCost (R rev fwd sw : ℝ) (ms : List RS.Motion) : ℝ :=
  (ms.map (motionCost R rev fwd)).sum + sw * switches (ms.map (·.direction))

end PathPlanning.Spec
