import Verif.Model.ReedsShepp
import Verif.Model.Float

/-!
# Model of Reeds-Shepp paths with the arithmetic of the program (planner/src/paths/path_reeds_shepp.cpp)

Same functions as in `Verif.Model.ReedsShepp`, with each operation rounded to a `double`. What driving a motion does to a
pose (`Straight` and `Turn`, which call `sin` and `cos`) is not interpreted: it is the argument `drive`.
-/

namespace PathPlanning
open Flt

/-- reeds_shepp.cpp:437-453, `AddMotion`; see `RS.Segment.addMotion`. -/
noncomputable def RS.Segment.addMotionF (s : RS.Segment) (steer : Steer) (dir : Direction) (l : ℝ) : RS.Segment :=
  ⟨setFirstInvalid ⟨steer, dir, some l⟩ s.motions, fl64 (s.length + |l|)⟩

/-- reeds_shepp.h:89 -/
noncomputable def RS.Segment.getLengthF (s : RS.Segment) (R : ℝ) : ℝ := fl64 (s.length * R)

namespace PathRS
open RS
variable {X : Type}

/-- path_reeds_shepp.cpp:22-44, the loop of `Interpolate`; `target` is `ratio * totalLength`. -/
noncomputable def interpLoopF (drive : X → Motion → ℝ → X) (R target : ℝ) : List Motion → X → ℝ → X
  | [], p, _ => p
  | m :: l, p, len =>
    if m.isValid then
      let ml := fl64 (m.length.getD 0 * R)
      if ml = 0 then interpLoopF drive R target l p len
      else
        let ratio := min (fl64 (fl64 (target - len) / ml)) 1
        let p := drive p m (fl64 (m.length.getD 0 * ratio))
        let len := fl64 (len + ml)
        if len ≥ target then p else interpLoopF drive R target l p len
    else p

/-- path_reeds_shepp.cpp:12-47, `Interpolate` of the path with the length `total` (`m_length`). -/
noncomputable def interpolateF (drive : X → Motion → ℝ → X) (init : X) (s : Segment) (R total ratio : ℝ) : X :=
  if total = 0 then init
  else interpLoopF drive R (fl64 (ratio * total)) s.motions init 0

/-- path_reeds_shepp.cpp:104-116, the loop of `GetCuspPointRatios`. -/
noncomputable def cuspLoopF (R total : ℝ) : List Motion → Direction → ℝ → List ℝ
  | [], _, _ => []
  | m :: l, prev, len =>
    let ratio := fl64 (len / total)
    if ratio > 1 then []
    else
      let rest := cuspLoopF R total l m.direction (fl64 (len + fl64 (m.length.getD 0 * R)))
      if m.direction ≠ prev then ratio :: rest else rest

/-- path_reeds_shepp.cpp:96-119 -/
noncomputable def cuspsF (s : Segment) (R total : ℝ) : List ℝ :=
  if total = 0 then []
  else
    match s.motions.take s.numMotions with
    | [] => []
    | m :: l => cuspLoopF R total l m.direction (fl64 (m.length.getD 0 * R))

/-- path_reeds_shepp.cpp:158-165, the loop of `GetDirection`. -/
noncomputable def dirLoopF (R target : ℝ) : List Motion → ℝ → Direction
  | [], _ => .noMotion
  | m :: l, len =>
    if m.isValid then
      let len := fl64 (len + fl64 (m.length.getD 0 * R))
      if target ≤ len then m.direction else dirLoopF R target l len
    else .noMotion

/-- path_reeds_shepp.cpp:153-167 -/
noncomputable def getDirectionF (s : Segment) (R total ratio : ℝ) : Direction :=
  if total = 0 then .noMotion
  else dirLoopF R (fl64 (ratio * total)) s.motions 0

end PathRS
end PathPlanning
