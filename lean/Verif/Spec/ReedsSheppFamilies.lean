import Verif.Spec.ReedsShepp

/-!
# The families of Reeds-Shepp paths

Independently of the solver: the shapes of the paths, as lists of arcs and straight lines.
-/

namespace PathPlanning.Spec
open Real

/-- A left turn of the angle `a` on the unit circle, driven in the sense `d` (`1` forward, `-1`
backward). -/
def turnLeft (d a : ℝ) : Stretch := ⟨1, d, a⟩
/-- A right turn. -/
def turnRight (d a : ℝ) : Stretch := ⟨-1, d, a⟩
/-- A straight line of the length `a`. -/
def straight (d a : ℝ) : Stretch := ⟨0, d, a⟩

/-- The twelve shapes that begin with a left turn driven forward (Reeds and Shepp's C for an arc, S
for a line, | for a change of direction), for the turning radius 1 and with their ranges. -/
inductive BaseShape : List Stretch → Prop
  /-- C S C, turning twice to the same side -/
  | csc_same (t u v : ℝ) (ht : 0 ≤ t ∧ t ≤ π) (hu : 0 ≤ u) (hv : 0 ≤ v ∧ v ≤ π) :
    BaseShape [turnLeft 1 t, straight 1 u, turnLeft 1 v]
  /-- C S C, turning to both sides -/
  | csc_other (t u v : ℝ) (ht : 0 ≤ t ∧ t ≤ π) (hu : 0 ≤ u) (hv : 0 ≤ v ∧ v ≤ π) :
    BaseShape [turnLeft 1 t, straight 1 u, turnRight 1 v]
  /-- C | C | C -/
  | c_c_c (t u v : ℝ) (ht : 0 ≤ t ∧ t ≤ π) (hu : 0 ≤ u ∧ u ≤ π) (hv : 0 ≤ v ∧ v ≤ π) :
    BaseShape [turnLeft 1 t, turnRight (-1) u, turnLeft 1 v]
  /-- C | C C -/
  | c_cc (t u v : ℝ) (ht : 0 ≤ t) (hu : 0 ≤ u ∧ u ≤ π) (hv : 0 ≤ v) :
    BaseShape [turnLeft 1 t, turnRight (-1) u, turnLeft (-1) v]
  /-- C C | C -/
  | cc_c (t u v : ℝ) (ht : 0 ≤ t) (hu : 0 ≤ u ∧ u ≤ π) (hv : 0 ≤ v) :
    BaseShape [turnLeft 1 t, turnRight 1 u, turnLeft (-1) v]
  /-- C C | C C with equal arcs in the middle -/
  | ccu_cuc (t u v : ℝ) (ht : 0 ≤ t) (hu : 0 ≤ u ∧ u ≤ 2 * π / 3) (hv : 0 ≤ v) :
    BaseShape [turnLeft 1 t, turnRight 1 u, turnLeft (-1) u, turnRight (-1) v]
  /-- C | C C | C with equal arcs in the middle -/
  | c_cucu_c (t u v : ℝ) (ht : 0 ≤ t) (hu : 0 ≤ u ∧ u ≤ π / 2) (hv : 0 ≤ v) :
    BaseShape [turnLeft 1 t, turnRight (-1) u, turnLeft (-1) u, turnRight 1 v]
  /-- C | C S C with a quarter turn, the last turn to the first side -/
  | c_csc_same (t u v : ℝ) (ht : 0 ≤ t) (hu : 0 ≤ u) (hv : 0 ≤ v) :
    BaseShape [turnLeft 1 t, turnRight (-1) (π / 2), straight (-1) u, turnLeft (-1) v]
  /-- C | C S C with a quarter turn, the last turn to the other side -/
  | c_csc_other (t u v : ℝ) (ht : 0 ≤ t) (hu : 0 ≤ u) (hv : 0 ≤ v) :
    BaseShape [turnLeft 1 t, turnRight (-1) (π / 2), straight (-1) u, turnRight (-1) v]
  /-- C S C | C with a quarter turn to the other side -/
  | csc_c_same (t u v : ℝ) (ht : 0 ≤ t) (hu : 0 ≤ u) (hv : 0 ≤ v) :
    BaseShape [turnLeft 1 t, straight 1 u, turnRight 1 (π / 2), turnLeft (-1) v]
  /-- C S C | C with a quarter turn to the first side -/
  | csc_c_other (t u v : ℝ) (ht : 0 ≤ t) (hu : 0 ≤ u) (hv : 0 ≤ v) :
    BaseShape [turnLeft 1 t, straight 1 u, turnLeft 1 (π / 2), turnRight (-1) v]
  /-- C | C S C | C with two quarter turns -/
  | c_csc_c (t u v : ℝ) (ht : 0 ≤ t) (hu : 0 ≤ u) (hv : 0 ≤ v) :
    BaseShape [turnLeft 1 t, turnRight (-1) (π / 2), straight (-1) u, turnLeft (-1) (π / 2), turnRight 1 v]

/-- The stretch for the turning radius `R`, mirrored when `k` is -1 (left and right exchanged) and
with forward and backward exchanged when `d` is -1. -/
noncomputable def variant (R k d : ℝ) (a : Stretch) : Stretch := ⟨k * a.curvature / R, d * a.sense, a.length * R⟩

/-- A path of the Reeds-Shepp families for the turning radius `R`. -/
def InFamily (R : ℝ) (l : List Stretch) : Prop :=
  ∃ k d : ℝ, (k = 1 ∨ k = -1) ∧ (d = 1 ∨ d = -1) ∧ ∃ b, BaseShape b ∧ l = b.map (variant R k d)

end PathPlanning.Spec
