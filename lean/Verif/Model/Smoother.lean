import Verif.Model.Path
import Mathlib.Analysis.SpecialFunctions.Trigonometric.Inverse
import Mathlib.Analysis.Real.Sqrt

/-!
# Model of the path smoother (planner/src/algo/smoother.cpp, planner/src/algo/smoother.h)

The iteration is modelled for an arbitrary type of points and arbitrary gradient terms, which covers any
arithmetic (also floating point, with its rounding and its NaN). `SmoothParam.terms` are the terms of the
code over the reals. An access outside a vector is `none`.
-/

namespace PathPlanning

/-- smoother.h:20-26 -/
inductive SmoothStatus where
  | maxIteration
  | stepTolerance
  | pathSize
  | failure
  | collision
deriving DecidableEq

/-- smoother.h:20-26, the numerical values. -/
def SmoothStatus.toInt : SmoothStatus → Int
  | .maxIteration => 0
  | .stepTolerance => 1
  | .pathSize => 2
  | .failure => -1
  | .collision => -2

namespace Smoother

/-- smoother.cpp:51-76, the loop that lists the points to optimise; `cusp` tells the members of
`cuspIndices`. -/
def indexLoop (cusp : Nat → Bool) (num i : Nat) : List Nat :=
  if i + 4 < num then
    if cusp (i + 4) then indexLoop cusp num (i + 4)
    else if cusp (i + 3) then indexLoop cusp num (i + 3)
    else if cusp (i + 2) then indexLoop cusp num (i + 2)
    else if cusp (i + 1) then indexLoop cusp num (i + 1)
    else if cusp i then indexLoop cusp num (i + 1)
    else (i + 2) :: indexLoop cusp num (i + 1)
  else []
termination_by num - i

/-- The arithmetic of an iteration. -/
structure Terms (P : Type) where
  /-- smoother.cpp:99 -/
  zero : P
  /-- smoother.cpp:105-138, the terms of a single point: the requested point, the current points
  `i - 2` to `i + 2` and `gradients[i]` before; the result is `gradients[i]` after. -/
  point : (requested m2 m1 curr p1 p2 gradient : P) → P
  /-- smoother.cpp:141, 160-214, the curvature term: the points and gradients `i - 1`, `i`, `i + 1`; the
  result is the three gradients after. -/
  curvature : (m1 curr p1 gm1 g gp1 : P) → P × P × P
  /-- smoother.cpp:147 -/
  move : (point gradient : P) → P
  /-- smoother.cpp:145, 148, 93: is the step of these gradients below the tolerance? -/
  small : List P → Bool

variable {P H : Type}

/-- smoother.cpp:102-142, the body of the loop over the points to optimise. -/
def gradientAt (T : Terms P) (requested current gradients : List P) (i : Nat) : Option (List P) :=
  if i < 2 then none else do
    let r ← requested[i]?
    let m2 ← current[i - 2]?
    let m1 ← current[i - 1]?
    let c ← current[i]?
    let p1 ← current[i + 1]?
    let p2 ← current[i + 2]?
    let g ← gradients[i]?
    let gradients := gradients.set i (T.point r m2 m1 c p1 p2 g)
    let gm1 ← gradients[i - 1]?
    let g ← gradients[i]?
    let gp1 ← gradients[i + 1]?
    let (a, b, d) := T.curvature m1 c p1 gm1 g gp1
    return ((gradients.set (i - 1) a).set i b).set (i + 1) d

/-- smoother.cpp:98-142, the gradients of an iteration. -/
def gradients (T : Terms P) (requested current : List P) (indices : List Nat) : Option (List P) :=
  indices.foldlM (gradientAt T requested current) (List.replicate requested.length T.zero)

/-- smoother.cpp:144-149: the path after an iteration. -/
def applyGradients (T : Terms P) (path : List (P × H)) (gs : List P) : List (P × H) :=
  path.zipWith (fun p g => (T.move p.1 g, p.2)) gs

/-- smoother.cpp:83-150, the main loop. `left` is `maxIterations - count`, `small` is
`step < stepTolerance`; the result is the status, the path and the number of iterations. -/
def loop (T : Terms P) (requested : List P) (indices : List Nat) :
    (left : Nat) → (small : Bool) → (path : List (P × H)) → (done : Nat) →
    Option (SmoothStatus × List (P × H) × Nat)
  | 0, _, path, n => some (.maxIteration, path, n)
  | left + 1, small, path, n =>
    if small then some (.stepTolerance, path, n)
    else do
      let gs ← gradients T requested (path.map Prod.fst) indices
      loop T requested indices left (T.small gs) (applyGradients T path gs) (n + 1)

/-- smoother.cpp:216-225, `IsPathSafe`. -/
def isPathSafe (valid : P × H → Option Bool) : List (P × H) → Option Bool
  | [] => some true
  | p :: l => do
    if ← valid p then isPathSafe valid l else return false

/-- smoother.cpp:33-158, `Smooth` of an initialised smoother: the status, the path of `GetPath` and the
number of iterations. (Not initialised: `failure`, and the path is not changed.) -/
def smooth (T : Terms P) (maxIterations : Int) (valid : P × H → Option Bool) (cusp : Nat → Bool)
    (path : List (P × H)) : Option (SmoothStatus × List (P × H) × Nat) := do
  if path.length < 5 then
    if ← isPathSafe valid path then return (.pathSize, path, 0) else return (.failure, path, 0)
  else
    let (status, result, n) ←
      loop T (path.map Prod.fst) (indexLoop cusp path.length 0) maxIterations.toNat false path 0
    if ← isPathSafe valid result then return (status, result, n) else return (.failure, result, n)

end Smoother

namespace Pt

/-- Multiplication by a number. -/
noncomputable def scale (a : ℝ) (p : Pt) : Pt := ⟨a * p.x, a * p.y⟩
/-- `dot` -/
noncomputable def dot (p q : Pt) : ℝ := p.x * q.x + p.y * q.y
/-- `normalized` -/
noncomputable def normalized (p : Pt) : Pt := scale (1 / p.norm) p

end Pt

/-- smoother.h:30-60, and the constants of the Voronoi diagram and the validator that are used. -/
structure SmoothParam where
  stepTolerance : ℝ
  maxIterations : Int
  learningRate : ℝ
  pathWeight : ℝ
  smoothWeight : ℝ
  voronoiWeight : ℝ
  collisionWeight : ℝ
  curvatureWeight : ℝ
  collisionRatio : ℝ
  maxCurvature : ℝ
  /-- `m_validator->minSafeRadius` -/
  minSafeRadius : ℝ
  /-- `m_gvd->alpha`, `m_gvd->dMax` -/
  alpha : ℝ
  dMax : ℝ

namespace SmoothParam
open Real

/-- smoother.h:31-60, the default parameters, with those of the Voronoi map (gvd.h:181). -/
noncomputable def default (maxCurvature minSafeRadius : ℝ) : SmoothParam :=
  { stepTolerance := 1 / 1000, maxIterations := 2000, learningRate := 1 / 100, pathWeight := 0,
    smoothWeight := 4 / 10, voronoiWeight := 2 / 100, collisionWeight := 2 / 10, curvatureWeight := 4 / 10,
    collisionRatio := 2 / 10, maxCurvature := maxCurvature, minSafeRadius := minSafeRadius, alpha := 20,
    dMax := 30 }

/-- smoother.cpp:82 -/
noncomputable def unsafeRadius (q : SmoothParam) : ℝ := q.minSafeRadius * (1 + q.collisionRatio)

/-- smoother.cpp:108 -/
noncomputable def pathTerm (q : SmoothParam) (requested curr : Pt) : Pt :=
  (requested - curr).scale q.pathWeight

/-- smoother.cpp:112-115; `dir` is the vector from the nearest obstacle to the point. -/
noncomputable def collisionTerm (q : SmoothParam) (dir : Pt) : Pt :=
  if dir.norm < q.unsafeRadius then
    (dir.scale (q.collisionWeight * (dir.norm - q.unsafeRadius))).scale (1 / dir.norm)
  else ⟨0, 0⟩

/-- smoother.cpp:129 -/
noncomputable def pvdv (alpha dMax o v : ℝ) : ℝ :=
  (alpha / (alpha + o)) * ((o - dMax) * (o - dMax) / (dMax * dMax)) * (o / ((o + v) * (o + v)))

/-- smoother.cpp:130 -/
noncomputable def pvdo (alpha dMax o v : ℝ) : ℝ :=
  (alpha / (alpha + o)) * (v / (o + v)) * ((o - dMax) / (dMax * dMax)) *
    (-(o - dMax) / (alpha + o) - (o - dMax) / (o + v) + 2)

/-- smoother.cpp:117-134; `dir` and `edge` are the vectors from the nearest obstacle and the nearest
Voronoi edge to the point. -/
noncomputable def voronoiTerm (q : SmoothParam) (dir edge : Pt) : Pt :=
  if dir.norm < q.dMax ∧ q.voronoiWeight > 0 then
    if edge.norm > 0 then
      ((dir.scale (pvdo q.alpha q.dMax dir.norm edge.norm)).scale (1 / dir.norm) +
        (edge.scale (pvdv q.alpha q.dMax dir.norm edge.norm)).scale (1 / edge.norm)).scale q.voronoiWeight
    else ⟨0, 0⟩
  else ⟨0, 0⟩

/-- smoother.cpp:138 -/
noncomputable def smoothTerm (q : SmoothParam) (m2 m1 curr p1 p2 : Pt) : Pt :=
  (m2 - m1.scale 4 + curr.scale 6 - p1.scale 4 + p2).scale q.smoothWeight

/-- smoother.cpp:10-13 -/
noncomputable def orthogonalComplement (a b : Pt) : Pt := a - (b.scale (a.dot b)).scale (1 / b.dot b)

/-- smoother.cpp:162-164, the angle between two steps. -/
noncomputable def deltaPhi (d e : Pt) : ℝ := arccos (max (-1) (min (d.normalized.dot e.normalized) 1))

/-- smoother.cpp:167 -/
noncomputable def kappa (d e : Pt) : ℝ := deltaPhi d e / d.norm

/-- smoother.cpp:197-208, the partial derivatives of the curvature with respect to the three points, for
the steps `d` and `e`. -/
noncomputable def dKappa (d e : Pt) : Pt × Pt × Pt :=
  let denominator := d.norm * e.norm
  let cosD := (orthogonalComplement e d).scale (1 / denominator)
  let cosE := (orthogonalComplement d e).scale (1 / denominator)
  let coef1 := 1 / d.norm * (-1 / √(1 - cos (deltaPhi d e) ^ 2))
  let coef2 := d.normalized.scale (deltaPhi d e / d.dot d)
  (cosD.scale (-coef1) + coef2, (cosD - cosE).scale coef1 - coef2, cosE.scale coef1)

/-- smoother.cpp:160-214, `CalculateCurvatureTerm`. -/
noncomputable def curvatureTerm (q : SmoothParam) (m1 curr p1 gm1 g gp1 : Pt) : Pt × Pt × Pt :=
  let d := curr - m1
  let e := p1 - curr
  if kappa d e ≤ q.maxCurvature then (gm1, g, gp1)
  else
    let w := q.curvatureWeight * (kappa d e - q.maxCurvature)
    let k := dKappa d e
    (gm1 + k.1.scale w, g + k.2.1.scale w, gp1 + k.2.2.scale w)

/-- smoother.cpp:98-149, the terms of the code, over the reals (a division by zero gives zero here, and
an infinite number or a NaN in the code). `obstacle` and `edge` are the nearest obstacle cell and the
nearest Voronoi edge cell of a cell. -/
noncomputable def terms (q : SmoothParam) (map : OccMap) (obstacle edge : Cell → Cell) : Smoother.Terms Pt where
  zero := ⟨0, 0⟩
  point requested m2 m1 curr p1 p2 g :=
    let g := g + q.pathTerm requested curr
    let g :=
      if map.isInsidePos curr then
        let cell := map.worldPositionToGridCell curr true
        let dir := curr - map.gridCellToWorldPosition (obstacle cell)
        let e := curr - map.gridCellToWorldPosition (edge cell)
        g + q.collisionTerm dir + q.voronoiTerm dir e
      else g
    g + q.smoothTerm m2 m1 curr p1 p2
  curvature := q.curvatureTerm
  move p g := p - g.scale q.learningRate
  small gs := decide ((gs.map Pt.norm).foldl max 0 < q.stepTolerance)

end SmoothParam
end PathPlanning
