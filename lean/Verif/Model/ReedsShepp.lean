import Verif.Model.Path
import Verif.Model.Pose
import Mathlib.Analysis.SpecialFunctions.Complex.Arg
import Mathlib.Analysis.SpecialFunctions.Trigonometric.Inverse

/-!
# Model of the Reeds-Shepp solver and of Reeds-Shepp paths
(planner/src/geometry/reeds_shepp.h/.cpp, planner/src/paths/path_reeds_shepp.h/.cpp,
planner/src/utils/maths.h)

Numbers are reals: rounding of `float`/`double` and signed zeros are not modelled. The infinite
lengths and the NaNs the code can produce are explicit.
-/

namespace PathPlanning
open Real

/-- C `fmod` for a positive modulus: the remainder has the sign of the first argument. -/
noncomputable def fmodR (a m : ℝ) : ℝ := a - truncInt (a / m) * m

/-- utils/maths.h:8-16, `Maths::Modulo`. -/
noncomputable def modulo (a m : ℝ) : ℝ := if fmodR a m < 0 then fmodR a m + m else fmodR a m

/-- C `atan2`. -/
noncomputable def atan2 (y x : ℝ) : ℝ := Complex.arg ⟨x, y⟩

/-- paths/path.h:9-13 -/
inductive Steer where
  | left
  | straight
  | right
deriving DecidableEq

namespace RS

/-- The outcome of a word formula: an infinite length, a NaN, or the three parameters and the
returned length. -/
inductive Lengths where
  | infinite
  | nan
  | finite (t u v len : ℝ)

/-- reeds_shepp.cpp:11-14 -/
def angleInvalid (theta : ℝ) : Prop := theta < 0 ∨ theta > π

/-- reeds_shepp.cpp:16-19 -/
noncomputable def wrapAngle (theta : ℝ) : ℝ := modulo (theta + π) (2 * π) - π

open Classical in
/-- reeds_shepp.cpp:21-35 -/
noncomputable def LfSfLf (g : PoseR) : Lengths :=
  let x := g.position.x - sin g.theta
  let y := g.position.y - 1 + cos g.theta
  let u := √(x * x + y * y)
  let t := atan2 y x
  let v := wrapAngle (g.theta - t)
  if angleInvalid t ∨ angleInvalid v then .infinite else .finite t u v (t + u + v)

open Classical in
/-- reeds_shepp.cpp:37-58. Line 47 has no effect (no `return`): below 4 the square root of a negative
number makes `u`, `t`, `v` and the result NaN (comparisons with NaN in `IsAngleInvalid` are false). -/
noncomputable def LfSfRf (g : PoseR) : Lengths :=
  let x := g.position.x + sin g.theta
  let y := g.position.y - 1 - cos g.theta
  let u1squared := x * x + y * y
  let t1 := atan2 y x
  if u1squared < 4 then .nan else
  let u := √(u1squared - 4)
  let phi := atan2 2 u
  let t := wrapAngle (t1 + phi)
  let v := wrapAngle (t - g.theta)
  if angleInvalid t ∨ angleInvalid v then .infinite else .finite t u v (t + u + v)

open Classical in
/-- reeds_shepp.cpp:60-82 -/
noncomputable def LfRbLf (g : PoseR) : Lengths :=
  let xi := g.position.x - sin g.theta
  let eta := g.position.y - 1 + cos g.theta
  let u1 := √(xi * xi + eta * eta)
  if u1 > 4 then .infinite else
  let phi := atan2 eta xi
  let alpha := arccos (u1 / 4)
  let t := modulo (π / 2 + alpha + phi) (2 * π)
  let u := modulo (π - 2 * alpha) (2 * π)
  let v := modulo (g.theta - t - u) (2 * π)
  if angleInvalid t ∨ angleInvalid u ∨ angleInvalid v then .infinite
  else .finite t u v (t + u + v)

/-- reeds_shepp.cpp:84-103 -/
noncomputable def LfRbLb (g : PoseR) : Lengths :=
  let xi := g.position.x - sin g.theta
  let eta := g.position.y - 1 + cos g.theta
  let u1 := √(xi * xi + eta * eta)
  if u1 > 4 then .infinite else
  let phi := atan2 eta xi
  let alpha := arccos (u1 / 4)
  let t := modulo (π / 2 + alpha + phi) (2 * π)
  let u := modulo (π - 2 * alpha) (2 * π)
  let v := modulo (t + u - g.theta) (2 * π)
  .finite t u v (t + u + v)

/-- reeds_shepp.cpp:105-125. When `u1` is 0, line 120 divides 0 by 0. -/
noncomputable def LfRfLb (g : PoseR) : Lengths :=
  let xi := g.position.x - sin g.theta
  let eta := g.position.y - 1 + cos g.theta
  let u1 := √(xi * xi + eta * eta)
  if u1 > 4 then .infinite else
  let phi := atan2 eta xi
  let u := arccos ((8 - u1 * u1) / 8)
  let va := sin u
  if u1 = 0 then .nan else
  let alpha := arcsin (2 * va / u1)
  let t := modulo (π / 2 - alpha + phi) (2 * π)
  let v := modulo (t - u - g.theta) (2 * π)
  .finite t u v (t + u + v)

/-- reeds_shepp.cpp:127-154 -/
noncomputable def LfRufLubRb (g : PoseR) : Lengths :=
  let xi := g.position.x + sin g.theta
  let eta := g.position.y - 1 - cos g.theta
  let u1 := √(xi * xi + eta * eta)
  if u1 > 4 then .infinite else
  let phi := atan2 eta xi
  if u1 > 2 then
    let alpha := arccos (u1 / 4 - 1 / 2)
    let t := modulo (π / 2 + phi - alpha) (2 * π)
    let u := modulo (π - alpha) (2 * π)
    let v := modulo (g.theta - t + 2 * u) (2 * π)
    .finite t u v (t + u + u + v)
  else
    let alpha := arccos (u1 / 4 + 1 / 2)
    let t := modulo (π / 2 + phi + alpha) (2 * π)
    let u := modulo alpha (2 * π)
    let v := modulo (g.theta - t + 2 * u) (2 * π)
    .finite t u v (t + u + u + v)

/-- reeds_shepp.cpp:156-180 -/
noncomputable def LfRubLubRf (g : PoseR) : Lengths :=
  let xi := g.position.x + sin g.theta
  let eta := g.position.y - 1 - cos g.theta
  let u1 := √(xi * xi + eta * eta)
  if u1 > 6 then .infinite else
  let phi := atan2 eta xi
  let va1 := 5 / 4 - u1 * u1 / 16
  if va1 < 0 ∨ va1 > 1 then .infinite else
  let u := arccos va1
  let va2 := sin u
  let alpha := arcsin (2 * va2 / u1)
  let t := modulo (π / 2 + phi + alpha) (2 * π)
  let v := modulo (t - g.theta) (2 * π)
  .finite t u v (t + u + u + v)

/-- reeds_shepp.cpp:182-205 -/
noncomputable def LfRbpi2SbLb (g : PoseR) : Lengths :=
  let xi := g.position.x - sin g.theta
  let eta := g.position.y - 1 + cos g.theta
  let u1squared := xi * xi + eta * eta
  if u1squared < 4 then .infinite else
  let phi := atan2 eta xi
  let u := √(u1squared - 4) - 2
  if u < 0 then .infinite else
  let alpha := atan2 2 (u + 2)
  let t := modulo (π / 2 + phi + alpha) (2 * π)
  let v := modulo (t + π / 2 - g.theta) (2 * π)
  .finite t u v (t + π / 2 + u + v)

/-- reeds_shepp.cpp:207-226 -/
noncomputable def LfRbpi2SbRb (g : PoseR) : Lengths :=
  let xi := g.position.x + sin g.theta
  let eta := g.position.y - 1 - cos g.theta
  let u1 := √(xi * xi + eta * eta)
  if u1 < 2 then .infinite else
  let phi := atan2 eta xi
  let t := modulo (π / 2 + phi) (2 * π)
  let u := u1 - 2
  let v := modulo (g.theta - t - π / 2) (2 * π)
  .finite t u v (t + π / 2 + u + v)

/-- reeds_shepp.cpp:228-251 -/
noncomputable def LfSfRfpi2Lb (g : PoseR) : Lengths :=
  let xi := g.position.x - sin g.theta
  let eta := g.position.y - 1 + cos g.theta
  let u1squared := xi * xi + eta * eta
  if u1squared < 4 then .infinite else
  let phi := atan2 eta xi
  let u := √(u1squared - 4) - 2
  if u < 0 then .infinite else
  let alpha := atan2 (u + 2) 2
  let t := modulo (π / 2 + phi - alpha) (2 * π)
  let v := modulo (t - π / 2 - g.theta) (2 * π)
  .finite t u v (t + u + π / 2 + v)

/-- reeds_shepp.cpp:253-272 -/
noncomputable def LfSfLfpi2Rb (g : PoseR) : Lengths :=
  let xi := g.position.x + sin g.theta
  let eta := g.position.y - 1 - cos g.theta
  let u1 := √(xi * xi + eta * eta)
  if u1 < 2 then .infinite else
  let phi := atan2 eta xi
  let t := modulo phi (2 * π)
  let u := u1 - 2
  let v := modulo (-t - π / 2 + g.theta) (2 * π)
  .finite t u v (t + u + π / 2 + v)

/-- reeds_shepp.cpp:274-297 -/
noncomputable def LfRbpi2SbLbpi2Rf (g : PoseR) : Lengths :=
  let xi := g.position.x + sin g.theta
  let eta := g.position.y - 1 - cos g.theta
  let u1squared := xi * xi + eta * eta
  if u1squared < 16 then .infinite else
  let phi := atan2 eta xi
  let u := √(u1squared - 4) - 4
  if u < 0 then .infinite else
  let alpha := atan2 2 (u + 4)
  let t := modulo (π / 2 + phi + alpha) (2 * π)
  let v := modulo (t - g.theta) (2 * π)
  .finite t u v (t + u + v + π)

/-- reeds_shepp.h:51-62. An infinite length is `none`; the steer of a default motion is uninitialised
and never read (`left` here). -/
structure Motion where
  steer : Steer := .left
  direction : Direction := .noMotion
  length : Option ℝ := none

/-- reeds_shepp.cpp:423-426 -/
def Motion.isValid (m : Motion) : Bool := m.length.isSome && decide (m.direction ≠ .noMotion)

/-- reeds_shepp.h:68-104; the array of motions is a list (of length `numMotion = 5`). -/
structure Segment where
  motions : List Motion
  length : ℝ

/-- reeds_shepp.cpp:428-435 -/
def Segment.empty : Segment := ⟨List.replicate 5 {}, 0⟩

/-- The array after writing the first invalid entry. -/
def setFirstInvalid (m : Motion) : List Motion → List Motion
  | [] => []
  | a :: l => if a.isValid then a :: setFirstInvalid m l else m :: l

/-- reeds_shepp.cpp:437-453. With no invalid entry left the assertion of line 447 fails; that case
leaves the array as it is here, and does not occur for the words below (at most five motions). -/
noncomputable def Segment.addMotion (s : Segment) (steer : Steer) (dir : Direction) (l : ℝ) : Segment :=
  ⟨setFirstInvalid ⟨steer, dir, some l⟩ s.motions, s.length + |l|⟩

/-- reeds_shepp.cpp:455-464 -/
def Segment.numMotions (s : Segment) : Nat := (s.motions.takeWhile Motion.isValid).length

/-- reeds_shepp.h:89 -/
noncomputable def Segment.getLength (s : Segment) (R : ℝ) : ℝ := s.length * R

/-- reeds_shepp.cpp:477-491, the loop of `ComputeCost`. -/
noncomputable def costLoop (R rev fwd sw : ℝ) : List Motion → Direction → ℝ → ℝ
  | [], _, cost => cost
  | m :: l, prev, cost =>
    if m.isValid then
      let c := m.length.getD 0 * R
      let c := if m.direction = .forward then c * fwd
        else if m.direction = .backward then c * rev else c
      let c := if m.direction ≠ prev then c + sw else c
      costLoop R rev fwd sw l m.direction (cost + c)
    else cost

open Classical in
/-- reeds_shepp.cpp:466-494; `none` is the infinite cost. -/
noncomputable def Segment.computeCost (s : Segment) (R rev fwd sw : ℝ) : Option ℝ :=
  match s.motions with
  | [] => none
  | m :: _ =>
    if m.isValid then
      if rev = 1 ∧ sw = 0 then some (s.length * R)
      else some (costLoop R rev fwd sw s.motions m.direction 0)
    else none

/-- reeds_shepp.cpp:496-505 -/
def Segment.timeflip (s : Segment) : Segment :=
  { s with motions := s.motions.map fun m =>
      if m.direction = .backward then { m with direction := .forward }
      else if m.direction = .forward then { m with direction := .backward } else m }

/-- reeds_shepp.cpp:507-516 -/
def Segment.reflect (s : Segment) : Segment :=
  { s with motions := s.motions.map fun m =>
      if m.steer = .left then { m with steer := .right }
      else if m.steer = .right then { m with steer := .left } else m }

/-- reeds_shepp.cpp:518-535 -/
noncomputable def goalArray (start goal : PoseR) (R : ℝ) : Nat → PoseR :=
  let d := goal.sub start
  let x := d.position.x / R
  let y := d.position.y / R
  fun i => match i with
    | 0 => PoseR.mk' ⟨x, y⟩ d.theta
    | 1 => PoseR.mk' ⟨-x, y⟩ (-d.theta)
    | 2 => PoseR.mk' ⟨x, -y⟩ (-d.theta)
    | _ => PoseR.mk' ⟨-x, -y⟩ d.theta

/-- reeds_shepp.cpp:537-564; a word is its number (reeds_shepp.h:14-45). -/
noncomputable def motionLengths (w : Nat) (goals : Nat → PoseR) : Lengths :=
  match w / 4 with
  | 0 => LfSfLf (goals (w % 4))
  | 1 => LfSfRf (goals (w % 4))
  | 2 => LfRbLf (goals (w % 4))
  | 3 => LfRbLb (goals (w % 4))
  | 4 => LfRfLb (goals (w % 4))
  | 5 => LfRufLubRb (goals (w % 4))
  | 6 => LfRubLubRf (goals (w % 4))
  | 7 => LfRbpi2SbLb (goals (w % 4))
  | 8 => LfRbpi2SbRb (goals (w % 4))
  | 9 => LfSfRfpi2Lb (goals (w % 4))
  | 10 => LfSfLfpi2Rb (goals (w % 4))
  | 11 => LfRbpi2SbLbpi2Rf (goals (w % 4))
  | _ => .infinite

/-- reeds_shepp.cpp:299-413, the path of a base word. -/
noncomputable def basePath (base : Nat) (t u v : ℝ) : Segment :=
  let e := Segment.empty
  match base with
  | 0 => ((e.addMotion .left .forward t).addMotion .straight .forward u).addMotion .left .forward v
  | 1 => ((e.addMotion .left .forward t).addMotion .straight .forward u).addMotion .right .forward v
  | 2 => ((e.addMotion .left .forward t).addMotion .right .backward u).addMotion .left .forward v
  | 3 => ((e.addMotion .left .forward t).addMotion .right .backward u).addMotion .left .backward v
  | 4 => ((e.addMotion .left .forward t).addMotion .right .forward u).addMotion .left .backward v
  | 5 => (((e.addMotion .left .forward t).addMotion .right .forward u).addMotion
      .left .backward u).addMotion .right .backward v
  | 6 => (((e.addMotion .left .forward t).addMotion .right .backward u).addMotion
      .left .backward u).addMotion .right .forward v
  | 7 => (((e.addMotion .left .forward t).addMotion .right .backward (π / 2)).addMotion
      .straight .backward u).addMotion .left .backward v
  | 8 => (((e.addMotion .left .forward t).addMotion .right .backward (π / 2)).addMotion
      .straight .backward u).addMotion .right .backward v
  | 9 => (((e.addMotion .left .forward t).addMotion .straight .forward u).addMotion
      .right .forward (π / 2)).addMotion .left .backward v
  | 10 => (((e.addMotion .left .forward t).addMotion .straight .forward u).addMotion
      .left .forward (π / 2)).addMotion .right .backward v
  | 11 => ((((e.addMotion .left .forward t).addMotion .right .backward (π / 2)).addMotion
      .straight .backward u).addMotion .left .backward (π / 2)).addMotion .right .forward v
  | _ => e

/-- reeds_shepp.cpp:566-606 -/
noncomputable def getPath (w : Nat) (t u v : ℝ) : Segment :=
  if w / 4 < 12 then
    let path := basePath (w / 4) t u v
    match w % 4 with
    | 1 => path.timeflip
    | 2 => path.reflect
    | 3 => path.timeflip.reflect
    | _ => path
  else Segment.empty

/-- The best word so far of lines 613-615: length, word and parameters (`none`: infinite, `NoPath`). -/
abbrev Best := Option (ℝ × Nat × ℝ × ℝ × ℝ)

open Classical in
/-- reeds_shepp.cpp:617-628, one iteration. A comparison with NaN is false. -/
noncomputable def shortestStep (goals : Nat → PoseR) (best : Best) (w : Nat) : Best :=
  match motionLengths w goals with
  | .finite t u v len =>
    match best with
    | none => some (len, w, t, u, v)
    | some b => if len < b.1 then some (len, w, t, u, v) else some b
  | _ => best

/-- reeds_shepp.cpp:608-637 -/
noncomputable def shortest (start goal : PoseR) (R : ℝ) : Best :=
  (List.range 48).foldl (shortestStep (goalArray start goal R)) none

/-- reeds_shepp.cpp:636, the returned distance (`none`: infinity). -/
noncomputable def shortestDistance (start goal : PoseR) (R : ℝ) : Option ℝ :=
  (shortest start goal R).map (·.1)

/-- reeds_shepp.cpp:639-652 -/
noncomputable def shortestPath (start goal : PoseR) (R : ℝ) : Segment :=
  match shortest start goal R with
  | none => Segment.empty
  | some (_, w, t, u, v) => getPath w t u v

/-- The best so far of lines 659-661: cost, word and path. -/
abbrev BestCost := Option (ℝ × Nat × Segment)

open Classical in
/-- reeds_shepp.cpp:662-676, one iteration. For a NaN length the cost is NaN and the comparison is
false, whatever the multipliers. -/
noncomputable def optimalStep (goals : Nat → PoseR) (R rev fwd sw : ℝ) (best : BestCost) (w : Nat) :
    BestCost :=
  match motionLengths w goals with
  | .finite t u v _ =>
    let path := getPath w t u v
    match path.computeCost R rev fwd sw with
    | none => best
    | some cost =>
      match best with
      | none => some (cost, w, path)
      | some b => if cost < b.1 then some (cost, w, path) else some b
  | _ => best

/-- reeds_shepp.cpp:654-683, with the word written to `*word` (`none`: `NoPath`). -/
noncomputable def optimal (start goal : PoseR) (R rev fwd sw : ℝ) : BestCost :=
  (List.range 48).foldl (optimalStep (goalArray start goal R) R rev fwd sw) none

/-- reeds_shepp.cpp:680-682 -/
noncomputable def optimalPath (start goal : PoseR) (R rev fwd sw : ℝ) : Segment :=
  match optimal start goal R rev fwd sw with
  | none => Segment.empty
  | some (_, _, path) => path

end RS

/-- path_reeds_shepp.h:38-40 and the members of paths/path.h:54-57. -/
structure PathRS where
  init : PoseR
  final : PoseR
  length : ℝ
  segment : RS.Segment
  radius : ℝ

namespace PathRS
open RS

/-- path_reeds_shepp.cpp:121-133 -/
noncomputable def straight (R : ℝ) (start : PoseR) (dir : Direction) (length : ℝ) : PoseR :=
  let length := if dir = .backward then -length else length
  let length := length * R
  PoseR.mk' ⟨start.position.x + length * cos start.theta, start.position.y + length * sin start.theta⟩
    start.theta

/-- path_reeds_shepp.cpp:135-151 -/
noncomputable def turn (R : ℝ) (start : PoseR) (dir : Direction) (steer : Steer) (turnAngle : ℝ) : PoseR :=
  let turnAngle := if dir = .backward then -turnAngle else turnAngle
  let phi := turnAngle / 2
  let L := 2 * sin phi * R
  let x := L * cos phi
  let y := L * sin phi
  let y := if steer = .right then y * -1 else y
  let turnAngle := if steer = .right then turnAngle * -1 else turnAngle
  start.add (PoseR.mk' ⟨x, y⟩ turnAngle)

/-- path_reeds_shepp.cpp:34-38, one motion driven for the (normalised) length `l`. -/
noncomputable def move (R : ℝ) (p : PoseR) (m : Motion) (l : ℝ) : PoseR :=
  match m.steer with
  | .straight => straight R p m.direction l
  | s => turn R p m.direction s l

open Classical in
/-- path_reeds_shepp.cpp:22-44, the loop of `Interpolate`; `target` is `ratio * totalLength`. -/
noncomputable def interpLoop (R target : ℝ) : List Motion → PoseR → ℝ → PoseR
  | [], p, _ => p
  | m :: l, p, len =>
    if m.isValid then
      let ml := m.length.getD 0 * R
      if ml = 0 then interpLoop R target l p len
      else
        let ratio := min ((target - len) / ml) 1
        let p := move R p m (m.length.getD 0 * ratio)
        let len := len + ml
        if len ≥ target then p else interpLoop R target l p len
    else p

open Classical in
/-- path_reeds_shepp.cpp:12-47 -/
noncomputable def interpolate (q : PathRS) (ratio : ℝ) : PoseR :=
  if q.length = 0 then q.init
  else interpLoop q.radius (ratio * q.length) q.segment.motions q.init 0

/-- path_reeds_shepp.cpp:5-10 -/
noncomputable def new (init : PoseR) (segment : Segment) (R : ℝ) : PathRS :=
  let q : PathRS := ⟨init, init, segment.getLength R, segment, R⟩
  { q with final := q.interpolate 1 }

/-- path_reeds_shepp.cpp:82-85: the motion `i` after the break. It is rescaled and then, if it is not
the last entry of the array, replaced by a default motion by the loop of lines 83-85 (which writes the
entry `i`, not `ii`). -/
noncomputable def cutMotion (m : Motion) (ratio : ℝ) (rest : List Motion) : List Motion :=
  match rest with
  | [] => [{ m with length := m.length.map (· * ratio) }]
  | _ => ({} : Motion) :: rest

open Classical in
/-- path_reeds_shepp.cpp:60-88, the loop of `Truncate`: the new motions and the final pose. -/
noncomputable def truncLoop (R target : ℝ) : List Motion → PoseR → ℝ → List Motion × PoseR
  | [], p, _ => ([], p)
  | m :: l, p, len =>
    if m.isValid then
      let ml := m.length.getD 0 * R
      if ml = 0 then
        let r := truncLoop R target l p len
        (m :: r.1, r.2)
      else
        let ratio := min ((target - len) / ml) 1
        let p := move R p m (m.length.getD 0 * ratio)
        let len := len + ml
        if len ≥ target then (cutMotion m ratio l, p)
        else
          let r := truncLoop R target l p len
          (m :: r.1, r.2)
    else (m :: l, p)

open Classical in
/-- path_reeds_shepp.cpp:49-94 -/
noncomputable def truncate (q : PathRS) (ratio : ℝ) : PathRS :=
  if q.length = 0 then { q with final := q.init, length := q.length * ratio }
  else
    let r := truncLoop q.radius (ratio * q.length) q.segment.motions q.init 0
    { q with
      final := r.2, segment := { q.segment with motions := r.1 }, length := q.length * ratio }

open Classical in
/-- path_reeds_shepp.cpp:104-116, the loop of `GetCuspPointRatios` over the valid motions: the ratios in
the order of insertion. -/
noncomputable def cuspLoop (R total : ℝ) : List Motion → Direction → ℝ → List ℝ
  | [], _, _ => []
  | m :: l, prev, len =>
    let ratio := len / total
    if ratio > 1 then []
    else
      let rest := cuspLoop R total l m.direction (len + m.length.getD 0 * R)
      if m.direction ≠ prev then ratio :: rest else rest

open Classical in
/-- path_reeds_shepp.cpp:96-119; the loop runs over the first `GetNumMotions` entries. -/
noncomputable def cusps (q : PathRS) : List ℝ :=
  if q.length = 0 then []
  else
    match q.segment.motions.take q.segment.numMotions with
    | [] => []
    | m :: l => cuspLoop q.radius q.length l m.direction (m.length.getD 0 * q.radius)

open Classical in
/-- path_reeds_shepp.cpp:158-165, the loop of `GetDirection`. -/
noncomputable def dirLoop (R target : ℝ) : List Motion → ℝ → Direction
  | [], _ => .noMotion
  | m :: l, len =>
    if m.isValid then
      let len := len + m.length.getD 0 * R
      if target ≤ len then m.direction else dirLoop R target l len
    else .noMotion

open Classical in
/-- path_reeds_shepp.cpp:153-167 -/
noncomputable def getDirection (q : PathRS) (ratio : ℝ) : Direction :=
  if q.length = 0 then .noMotion
  else dirLoop q.radius (ratio * q.length) q.segment.motions 0

/-- path_reeds_shepp.cpp:174-179, `PathConnectionReedsShepp::Connect`. -/
noncomputable def connect (start goal : PoseR) (R rev fwd sw : ℝ) : PathRS :=
  new start (optimalPath start goal R rev fwd sw) R

/-- path_reeds_shepp.cpp:169-172 -/
noncomputable def computeCost (q : PathRS) (sw rev fwd : ℝ) : Option ℝ :=
  q.segment.computeCost q.radius rev fwd sw

end PathRS
end PathPlanning
