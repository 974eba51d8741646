import Verif.Model.Float
import Verif.Model.HybridAStar

/-!
# Model of the sampling of the path of hybrid A* with the arithmetic of the program
(planner/src/algo/hybrid_a_star.cpp)

Same functions as in `Verif.Model.HybridAStar`, with each operation rounded to the type in which C++ computes it:
`pathInterpolation` is a `float` (hybrid_a_star.h:249) and so is its half, lengths and ratios are `double`. The conversion of
the `double` argument of `ratios.reserve` (line 274) to an integer, and the memory that the ratios take, are not modelled.
-/

namespace PathPlanning.HybridAStar
open Flt

/-- hybrid_a_star.cpp:276-287; see `sampleLoop`. -/
noncomputable def sampleLoopF (pathInterpolation pathLength : ℝ) (it : List ℝ) (length : ℝ) (size : Nat) :
    Option (List ℝ × List Nat) :=
  if length ≤ pathLength then
    match it with
    | [] => none
    | c :: rest =>
      let cuspLength := fl64 (c * pathLength)
      if length ≥ fl64 (cuspLength - fl32 (pathInterpolation / 2)) ∧
          length < fl64 (cuspLength + fl32 (pathInterpolation / 2)) then do
        let r ← sampleLoopF pathInterpolation pathLength rest (fl64 (length + pathInterpolation)) (size + 1)
        some (c :: r.1, size :: r.2)
      else do
        let r ← sampleLoopF pathInterpolation pathLength (c :: rest) (fl64 (length + pathInterpolation)) (size + 1)
        some (fl64 (length / pathLength) :: r.1, r.2)
  else some ([], [])
partial_fixpoint

/-- hybrid_a_star.cpp:269-287: `ratios` and `cuspIndices`. -/
noncomputable def sampleRatiosF (pathInterpolation pathLength : ℝ) (cusps : List ℝ) : Option (List ℝ × List Nat) :=
  sampleLoopF pathInterpolation pathLength (cuspRatios cusps) 0 0

end PathPlanning.HybridAStar
