import Verif.Props.Path

/-!
# C45: connections between poses
-/

namespace PathPlanning
open Real Spec

/-- C45 for SE2: a connection starts at the first pose and ends at the second, its length is the distance between
their positions, and each of its states lies on the segment at the proportional distance from the start, with the
heading in the same proportion. -/
theorem C45_se2_connect (a b : PoseR) (r : ℝ) (hr : 0 ≤ r) :
    (PathSE2.connect a b).interpolate 0 = a ∧ (PathSE2.connect a b).interpolate 1 = b ∧
    (PathSE2.connect a b).length =
      √((b.position.x - a.position.x) ^ 2 + (b.position.y - a.position.y) ^ 2) ∧
    (((PathSE2.connect a b).interpolate r).position - a.position).norm = r * (PathSE2.connect a b).length ∧
    ((PathSE2.connect a b).interpolate r).theta - a.theta = r * (b.theta - a.theta) := by
  refine ⟨(C45_se2 _).1, (C45_se2 _).2, rfl, ?_, ?_⟩
  · simp only [PathSE2.connect, PathSE2.interpolate, Pt.lerp, Pt.norm, Pt.sub_x, Pt.sub_y]
    rw [show ((1 - r) * a.position.x + r * b.position.x - a.position.x) ^ 2 +
        ((1 - r) * a.position.y + r * b.position.y - a.position.y) ^ 2 =
      r ^ 2 * ((b.position.x - a.position.x) ^ 2 + (b.position.y - a.position.y) ^ 2) by ring,
      Real.sqrt_mul (sq_nonneg r), Real.sqrt_sq hr]
  · simp only [PathSE2.connect, PathSE2.interpolate]
    ring

/-- Half way from the origin to (6, 8) heading 1, the vehicle has driven 5 of the 10 metres. -/
example : (((PathSE2.connect ⟨⟨0, 0⟩, 0⟩ ⟨⟨6, 8⟩, 1⟩).interpolate (1 / 2)).position - ⟨0, 0⟩).norm = 5 := by
  have h := (C45_se2_connect ⟨⟨0, 0⟩, 0⟩ ⟨⟨6, 8⟩, 1⟩ (1 / 2) (by norm_num)).2.2.2.1
  rw [h, (C45_se2_connect ⟨⟨0, 0⟩, 0⟩ ⟨⟨6, 8⟩, 1⟩ (1 / 2) (by norm_num)).2.2.1,
    show ((6 : ℝ) - 0) ^ 2 + (8 - 0) ^ 2 = 10 ^ 2 by norm_num, Real.sqrt_sq (by norm_num)]
  norm_num

end PathPlanning
