import Verif.Model.Smoother

/-!
# Model of the divisions of the path smoother (planner/src/algo/smoother.cpp)

The same computation as `Verif.Model.Smoother` over the reals, where a division by zero is `none`: in the code it gives an
infinite number or a NaN, which ends up in the path. `normalized` of a zero vector is no division: Eigen returns the zero
vector.
-/

namespace PathPlanning

/-- A division of numbers. -/
noncomputable def div? (a b : ℝ) : Option ℝ := if b = 0 then none else some (a / b)

/-- A division of a vector by a number. -/
noncomputable def Pt.div? (p : Pt) (b : ℝ) : Option Pt := if b = 0 then none else some (p.scale (1 / b))

namespace SmoothParam
open Real

/-- smoother.cpp:112-115 -/
noncomputable def collisionTerm? (q : SmoothParam) (dir : Pt) : Option Pt :=
  if dir.norm < q.unsafeRadius then
    (dir.scale (q.collisionWeight * (dir.norm - q.unsafeRadius))).div? dir.norm
  else some ⟨0, 0⟩

/-- smoother.cpp:129 -/
noncomputable def pvdv? (alpha dMax o v : ℝ) : Option ℝ := do
  let a ← div? alpha (alpha + o)
  let b ← div? ((o - dMax) * (o - dMax)) (dMax * dMax)
  let c ← div? o ((o + v) * (o + v))
  return a * b * c

/-- smoother.cpp:130 -/
noncomputable def pvdo? (alpha dMax o v : ℝ) : Option ℝ := do
  let a ← div? alpha (alpha + o)
  let b ← div? v (o + v)
  let c ← div? (o - dMax) (dMax * dMax)
  let d ← div? (-(o - dMax)) (alpha + o)
  let e ← div? (o - dMax) (o + v)
  return a * b * c * (d - e + 2)

/-- smoother.cpp:117-134 -/
noncomputable def voronoiTerm? (q : SmoothParam) (dir edge : Pt) : Option Pt :=
  if dir.norm < q.dMax ∧ q.voronoiWeight > 0 then
    if edge.norm > 0 then do
      let v ← pvdv? q.alpha q.dMax dir.norm edge.norm
      let o ← pvdo? q.alpha q.dMax dir.norm edge.norm
      let a ← (dir.scale o).div? dir.norm
      let b ← (edge.scale v).div? edge.norm
      return (a + b).scale q.voronoiWeight
    else some ⟨0, 0⟩
  else some ⟨0, 0⟩

/-- smoother.cpp:10-13 -/
noncomputable def orthogonalComplement? (a b : Pt) : Option Pt := do
  let c ← (b.scale (a.dot b)).div? (b.dot b)
  return a - c

/-- smoother.cpp:160-214, `CalculateCurvatureTerm`. -/
noncomputable def curvatureTerm? (q : SmoothParam) (m1 curr p1 gm1 g gp1 : Pt) : Option (Pt × Pt × Pt) := do
  let d := curr - m1
  let e := p1 - curr
  let kappa ← div? (deltaPhi d e) d.norm
  if kappa ≤ q.maxCurvature then return (gm1, g, gp1)
  else do
    let denominator := d.norm * e.norm
    let od ← orthogonalComplement? e d
    let cosD ← od.div? denominator
    let oe ← orthogonalComplement? d e
    let cosE ← oe.div? denominator
    let dphi ← div? (-1) (√(1 - cos (deltaPhi d e) ^ 2))
    let inv ← div? 1 d.norm
    let coef1 := inv * dphi
    let c2 ← div? (deltaPhi d e) (d.dot d)
    let coef2 := d.normalized.scale c2
    let w := q.curvatureWeight * (kappa - q.maxCurvature)
    return (gm1 + (cosD.scale (-coef1) + coef2).scale w, g + ((cosD - cosE).scale coef1 - coef2).scale w,
      gp1 + (cosE.scale coef1).scale w)

/-- smoother.cpp:104-138, the terms of a single point. -/
noncomputable def pointTerm? (q : SmoothParam) (map : OccMap) (obstacle edge : Cell → Cell)
    (requested m2 m1 curr p1 p2 g : Pt) : Option Pt := do
  let g := g + q.pathTerm requested curr
  let g ←
    (if map.isInsidePos curr then do
      let cell := map.worldPositionToGridCell curr true
      let dir := curr - map.gridCellToWorldPosition (obstacle cell)
      let e := curr - map.gridCellToWorldPosition (edge cell)
      let c ← q.collisionTerm? dir
      let v ← q.voronoiTerm? dir e
      return g + c + v
    else return g)
  return g + q.smoothTerm m2 m1 curr p1 p2

/-- smoother.cpp:102-142, the body of the loop over the points to optimise; `none` is a division by zero or an access
outside a vector. -/
noncomputable def gradientAt? (q : SmoothParam) (map : OccMap) (obstacle edge : Cell → Cell)
    (requested current gradients : List Pt) (i : Nat) : Option (List Pt) :=
  if i < 2 then none else do
    let r ← requested[i]?
    let m2 ← current[i - 2]?
    let m1 ← current[i - 1]?
    let c ← current[i]?
    let p1 ← current[i + 1]?
    let p2 ← current[i + 2]?
    let g ← gradients[i]?
    let g' ← q.pointTerm? map obstacle edge r m2 m1 c p1 p2 g
    let gradients := gradients.set i g'
    let gm1 ← gradients[i - 1]?
    let g ← gradients[i]?
    let gp1 ← gradients[i + 1]?
    let (a, b, d) ← q.curvatureTerm? m1 c p1 gm1 g gp1
    return ((gradients.set (i - 1) a).set i b).set (i + 1) d

/-- smoother.cpp:98-149, an iteration: the points of the path after it. -/
noncomputable def iterate? (q : SmoothParam) (map : OccMap) (obstacle edge : Cell → Cell) (requested current : List Pt)
    (indices : List Nat) : Option (List Pt) := do
  let gs ← indices.foldlM (gradientAt? q map obstacle edge requested current) (List.replicate requested.length ⟨0, 0⟩)
  return current.zipWith (fun p g => p - g.scale q.learningRate) gs

end SmoothParam
end PathPlanning
