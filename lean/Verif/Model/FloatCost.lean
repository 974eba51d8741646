import Verif.Model.FloatMap
import Verif.Model.FloatReedsShepp
import Verif.Model.HybridAStar

/-!
# Model of the costs of motions with the arithmetic of the program
(planner/src/geometry/reeds_shepp.cpp, planner/src/paths/path_reeds_shepp.cpp, planner/src/algo/hybrid_a_star.cpp)

Same functions as in `Verif.Model.ReedsShepp` and `Verif.Model.HybridAStar`, with each operation rounded to the type in which
C++ computes it. The motions that `GetMotionLengths` and `GetPath` return, and the states that `Interpolate` returns, are those
of the program: they are arguments here.
-/

namespace PathPlanning
open Flt

namespace RS

/-- reeds_shepp.cpp:477-491, the loop of `ComputeCost`. `motionCost` and `cost` are `float`s, the product with the turning
radius is a `double`. -/
noncomputable def costLoopF (R rev fwd sw : ℝ) : List Motion → Direction → ℝ → ℝ
  | [], _, cost => cost
  | m :: l, prev, cost =>
    if m.isValid then
      let c := fl32 (fl64 (m.length.getD 0 * R))
      let c := if m.direction = .forward then fl32 (c * fwd)
        else if m.direction = .backward then fl32 (c * rev) else c
      let c := if m.direction ≠ prev then fl32 (c + sw) else c
      costLoopF R rev fwd sw l m.direction (fl32 (cost + c))
    else cost

open Classical in
/-- reeds_shepp.cpp:466-494; `none` is the infinite cost. The multipliers and the switching cost are `float`s. -/
noncomputable def Segment.computeCostF (s : Segment) (R rev fwd sw : ℝ) : Option ℝ :=
  match s.motions with
  | [] => none
  | m :: _ =>
    if m.isValid then
      if rev = 1 ∧ sw = 0 then some (fl32 (fl64 (s.length * R)))
      else some (costLoopF R rev fwd sw s.motions m.direction 0)
    else none

open Classical in
/-- reeds_shepp.cpp:662-676, one iteration of `GetOptimalPath`. `paths w` is the path of the word `w`, `none` if its length
is infinite. -/
noncomputable def optimalStepF (paths : Nat → Option Segment) (R rev fwd sw : ℝ) (best : BestCost) (w : Nat) : BestCost :=
  match paths w with
  | none => best
  | some path =>
    match path.computeCostF R rev fwd sw with
    | none => best
    | some cost =>
      match best with
      | none => some (cost, w, path)
      | some b => if cost < b.1 then some (cost, w, path) else some b

/-- reeds_shepp.cpp:654-683, `GetOptimalPath`. -/
noncomputable def optimalPathF (paths : Nat → Option Segment) (R rev fwd sw : ℝ) : Segment :=
  match (List.range 48).foldl (optimalStepF paths R rev fwd sw) none with
  | none => Segment.empty
  | some (_, _, path) => path

end RS

namespace HybridAStar

/-- path_reeds_shepp.cpp:169-172, `ComputeCost`: the `double` arguments are converted to `float`s. -/
noncomputable def pathCostF (s : RS.Segment) (R sw rev fwd : ℝ) : Option ℝ := s.computeCostF R (fl32 rev) (fl32 fwd) (fl32 sw)

/-- hybrid_a_star.cpp:38, `m_voroFieldDiagResolution`: a product in `double`, converted to `float`. -/
noncomputable def interpLengthF (resolution : ℝ) : ℝ := fl32 (fl64 (resolution * fl64 √2))

/-- hybrid_a_star.cpp:101-105, the loop of `GetVoronoiCost`; `field r` is the potential of the cell of `Interpolate(r)`,
`none` outside the matrix. `none` is such an access, or a loop that does not end. -/
noncomputable def voronoiLoopF (field : ℝ → Option ℝ) (interpLength pathLength length voronoiCost : ℝ) : Option ℝ :=
  if length < pathLength then do
    let c ← field (fl64 (length / pathLength))
    voronoiLoopF field interpLength pathLength (fl64 (length + interpLength)) c
  else some voronoiCost
partial_fixpoint

/-- hybrid_a_star.cpp:93-109, `GetVoronoiCost`: the product with the `float` step is a `float`. -/
noncomputable def voronoiCostF (field : ℝ → Option ℝ) (resolution multiplier pathLength : ℝ) : Option ℝ := do
  let voronoiCost ← voronoiLoopF field (interpLengthF resolution) pathLength 0 0
  some (fl64 (multiplier * fl32 (voronoiCost * interpLengthF resolution)))

/-- hybrid_a_star.cpp:131-144, the cost of a motion with constant steering; `multiplier` is that of its direction. -/
noncomputable def steerCostF (field : ℝ → Option ℝ) (resolution voronoiMultiplier multiplier pathLength : ℝ) : Option ℝ := do
  let pathCost := fl64 (multiplier * pathLength)
  let switchingCost := 0
  let voronoiCost ← voronoiCostF field resolution voronoiMultiplier pathLength
  some (fl64 (fl64 (pathCost + switchingCost) + voronoiCost))

/-- hybrid_a_star.cpp:163-170, the cost of a Reeds-Shepp path; `none` also for an infinite one. -/
noncomputable def reedsSheppCostF (field : ℝ → Option ℝ) (resolution voronoiMultiplier : ℝ) (s : RS.Segment)
    (R sw rev fwd : ℝ) : Option ℝ := do
  let pathAndSwitchingCosts ← pathCostF s R sw rev fwd
  let voronoiCost ← voronoiCostF field resolution voronoiMultiplier (s.getLengthF R)
  some (fl64 (pathAndSwitchingCosts + voronoiCost))

end HybridAStar
end PathPlanning
