import Verif.Props.ValidatorGrow
import Verif.Model.Obstacle
import Verif.Model.Smoother
import Verif.Model.NonHolonomic
import Verif.Model.ObstHeuristic
import Verif.Model.GVD
import Verif.Model.HybridAStar

/-!
# C175: the unit of length

The theorems with the suffix `_partial` say that measuring all lengths in another unit does not change anything but the
unit of the results. Missing: the places where the program has lengths of its own, for which this is false (at the end of the
file), and rounding: the positions are real numbers.
-/

namespace PathPlanning

namespace Spec

/-- The pose in a unit of length that is `r` times smaller. -/
noncomputable def inUnit (r : ℝ) (s : PoseR) : PoseR := ⟨s.position.scale r, s.theta⟩

/-- The two maps are made in the same way, but all lengths given to the second one are in a unit that is `r` times
smaller. -/
def MapInUnit (r : ℝ) (m m' : OccMap) : Prop :=
  ∃ (resolution : ℝ) (j1 j2 j3 j4 p : Pt) (width height : ℝ),
    ((OccMap.new resolution j1 j2).setPosition p).initializeSize width height = some m ∧
    ((OccMap.new (r * resolution) j3 j4).setPosition (p.scale r)).initializeSize (r * width) (r * height) = some m'

mutual
/-- The shape in a unit of length that is `r` times smaller. -/
noncomputable def shapeInUnit (r : ℝ) : Shape → Shape
  | .polygon vertices => .polygon (vertices.map (Pt.scale r))
  | .composite children => .composite (shapesInUnit r children)
/-- The shapes in a unit of length that is `r` times smaller. -/
noncomputable def shapesInUnit (r : ℝ) : List Shape → List Shape
  | [] => []
  | c :: cs => shapeInUnit r c :: shapesInUnit r cs
end

/-- The bounds in a unit of length that is `r` times smaller. -/
noncomputable def spaceInUnit (r : ℝ) (s : SpaceSE2) : SpaceSE2 := ⟨inUnit r s.lb, inUnit r s.ub⟩

/-- The path in a unit of length that is `r` times smaller: ratios are what they are. -/
noncomputable def pathInUnit (r : ℝ) (p : AnyPath) : AnyPath :=
  ⟨inUnit r p.init, r * p.length, fun ratio => inUnit r (p.interpolate ratio)⟩

end Spec
open Spec

/-- What `MapInUnit` means for the members of the maps. -/
theorem mapInUnit_eq {r : ℝ} (hr : 0 < r) {m m' : OccMap} (h : MapInUnit r m m') :
    m' = ⟨r * m.resolution, m.rows, m.columns, m.localOrigin.scale r, m.localGridOrigin.scale r,
      m.worldGridOrigin.scale r⟩ := by
  obtain ⟨res, j1, j2, j3, j4, p, w, k, h1, h2⟩ := h
  unfold OccMap.initializeSize OccMap.setPosition OccMap.new at h1 h2
  dsimp only at h1 h2
  rw [mul_div_mul_left _ _ hr.ne', mul_div_mul_left _ _ hr.ne'] at h2
  split at h1
  · rename_i hc
    rw [if_pos hc] at h2
    cases h1
    cases h2
    congr 1 <;> ext <;> simp [Pt.scale] <;> ring
  · cases h1

private theorem mul_sub_div (r a b c : ℝ) (hr : 0 < r) : (r * a - r * b) / (r * c) = (a - b) / c := by
  rw [← mul_sub, mul_div_mul_left _ _ hr.ne']

/-- C175: the cell of a position, whether it is inside, and the position of a cell. -/
theorem C175_map_partial {r : ℝ} (hr : 0 < r) {m m' : OccMap} (h : MapInUnit r m m') :
    (∀ p bounded, m'.worldPositionToGridCell (p.scale r) bounded = m.worldPositionToGridCell p bounded) ∧
    (∀ p bounded, m'.localPositionToGridCell (p.scale r) bounded = m.localPositionToGridCell p bounded) ∧
    (∀ p, m'.isInsidePos (p.scale r) = m.isInsidePos p) ∧
    (∀ c, m'.gridCellToWorldPosition c = (m.gridCellToWorldPosition c).scale r) ∧
    (∀ c, m'.gridCellToLocalPosition c = (m.gridCellToLocalPosition c).scale r) ∧
    (∀ p, m'.worldPositionToLocalPosition (p.scale r) = (m.worldPositionToLocalPosition p).scale r) := by
  rw [mapInUnit_eq hr h]
  have h1 : ∀ p bounded, OccMap.worldPositionToGridCell ⟨r * m.resolution, m.rows, m.columns, m.localOrigin.scale r,
      m.localGridOrigin.scale r, m.worldGridOrigin.scale r⟩ (p.scale r) bounded = m.worldPositionToGridCell p bounded := by
    intro p b
    unfold OccMap.worldPositionToGridCell OccMap.gridPositionToGridCell
    dsimp only [Pt.scale]
    rw [mul_sub_div _ _ _ _ hr, mul_sub_div _ _ _ _ hr]
    rfl
  refine ⟨h1, ?_, ?_, ?_, ?_, ?_⟩
  · intro p b
    unfold OccMap.localPositionToGridCell OccMap.gridPositionToGridCell
    simp only [Pt.sub_x, Pt.sub_y, Pt.scale, mul_sub_div _ _ _ _ hr]
    rfl
  · intro p
    unfold OccMap.isInsidePos
    rw [h1]
    rfl
  · intro c
    unfold OccMap.gridCellToWorldPosition OccMap.gridCellToGridPosition
    ext <;> simp [Pt.scale] <;> ring
  · intro c
    unfold OccMap.gridCellToLocalPosition OccMap.gridCellToGridPosition
    ext <;> simp [Pt.scale] <;> ring
  · intro p
    unfold OccMap.worldPositionToLocalPosition
    ext <;> simp [Pt.scale] <;> ring

private theorem place_scale (r : ℝ) (pose : PoseR) (v : Pt) :
    Shape.place (inUnit r pose) (v.scale r) = (Shape.place pose v).scale r := by
  unfold Shape.place inUnit
  ext <;> simp [Pt.scale] <;> ring

private theorem rasterizeLine_scale {r : ℝ} (hr : 0 < r) {m m' : OccMap} (h : MapInUnit r m m') (a b : Pt) :
    Shape.rasterizeLine m' (a.scale r) (b.scale r) = Shape.rasterizeLine m a b := by
  unfold Shape.rasterizeLine
  rw [(C175_map_partial hr h).1, (C175_map_partial hr h).1, mapInUnit_eq hr h]

private theorem edgeLoop_scale {r : ℝ} (hr : 0 < r) {m m' : OccMap} (h : MapInUnit r m m') (vs : List Pt) (is : List Nat) :
    Shape.edgeLoop m' (vs.map (Pt.scale r)) is = Shape.edgeLoop m vs is := by
  induction is with
  | nil => rfl
  | cons i is ih =>
    unfold Shape.edgeLoop
    rw [ih, List.length_map, List.getElem?_map, List.getElem?_map]
    cases vs[i % vs.length]? with
    | none => rfl
    | some a =>
      cases vs[(i + 1) % vs.length]? with
      | none => rfl
      | some b =>
        simp only [Option.map_some, Option.bind_eq_bind, Option.bind_some, rasterizeLine_scale hr h]

mutual
private theorem gridCells_scale {r : ℝ} (hr : 0 < r) {m m' : OccMap} (h : MapInUnit r m m') (pose : PoseR) :
    (s : Shape) → (shapeInUnit r s).gridCells m' (inUnit r pose) = s.gridCells m pose
  | .polygon vertices => by
    unfold shapeInUnit Shape.gridCells
    dsimp only
    rw [List.length_map, ← edgeLoop_scale hr h, List.map_map, List.map_map]
    congr 2
    funext v
    exact place_scale r pose v
  | .composite children => by
    unfold shapeInUnit Shape.gridCells
    exact gridCellsList_scale hr h pose children
private theorem gridCellsList_scale {r : ℝ} (hr : 0 < r) {m m' : OccMap} (h : MapInUnit r m m') (pose : PoseR) :
    (l : List Shape) → Shape.gridCellsList m' (inUnit r pose) (shapesInUnit r l) = Shape.gridCellsList m pose l
  | [] => by unfold shapesInUnit Shape.gridCellsList; rfl
  | c :: cs => by
    unfold shapesInUnit Shape.gridCellsList
    rw [gridCells_scale hr h pose c, gridCellsList_scale hr h pose cs]
end

mutual
private theorem verticesPosition_scale (r : ℝ) (pose : PoseR) :
    (s : Shape) → (shapeInUnit r s).verticesPosition (inUnit r pose) = (s.verticesPosition pose).map (Pt.scale r)
  | .polygon vertices => by
    unfold shapeInUnit Shape.verticesPosition
    rw [List.map_map, List.map_map]
    congr 1
    funext v
    exact place_scale r pose v
  | .composite children => by
    unfold shapeInUnit Shape.verticesPosition
    exact verticesPositionList_scale r pose children
private theorem verticesPositionList_scale (r : ℝ) (pose : PoseR) :
    (l : List Shape) → Shape.verticesPositionList (inUnit r pose) (shapesInUnit r l) =
      (Shape.verticesPositionList pose l).map (Pt.scale r)
  | [] => by unfold shapesInUnit Shape.verticesPositionList; rfl
  | c :: cs => by
    unfold shapesInUnit Shape.verticesPositionList
    rw [verticesPosition_scale r pose c, verticesPositionList_scale r pose cs, List.map_append]
end

/-- C175: an obstacle covers the same cells, and its vertices are the same points. -/
theorem C175_obstacle_partial {r : ℝ} (hr : 0 < r) {m m' : OccMap} (h : MapInUnit r m m') (o : Obstacle) :
    (⟨o.shape.map (shapeInUnit r), inUnit r o.pose⟩ : Obstacle).getBoundaryGridCellPosition m' =
      o.getBoundaryGridCellPosition m ∧
    (⟨o.shape.map (shapeInUnit r), inUnit r o.pose⟩ : Obstacle).getBoundaryWorldPosition =
      o.getBoundaryWorldPosition.map (List.map (Pt.scale r)) := by
  unfold Obstacle.getBoundaryGridCellPosition Obstacle.getBoundaryWorldPosition
  cases o.shape with
  | none => exact ⟨rfl, rfl⟩
  | some s => exact ⟨gridCells_scale hr h o.pose s, congrArg some (verticesPosition_scale r o.pose s)⟩

/-- C175: the shapes the library makes of lengths. -/
theorem C175_shapes (r : ℝ) :
    (∀ radius count, Shape.regularPolygon (r * radius) count = shapeInUnit r (Shape.regularPolygon radius count)) ∧
    (∀ dx dy, Shape.rectangle (r * dx) (r * dy) = shapeInUnit r (Shape.rectangle dx dy)) ∧
    (∀ radius count, Shape.circle (r * radius) count = shapeInUnit r (Shape.circle radius count)) := by
  have h1 : ∀ radius count, Shape.regularPolygon (r * radius) count = shapeInUnit r (Shape.regularPolygon radius count) := by
    intro radius count
    unfold Shape.regularPolygon shapeInUnit
    rw [List.map_map]
    congr 2
    funext i
    ext <;> simp [Pt.scale] <;> ring
  refine ⟨h1, ?_, ?_⟩
  · intro dx dy
    unfold Shape.rectangle shapeInUnit
    simp only [List.map_cons, List.map_nil, Pt.scale]
    congr 1
    simp only [List.cons.injEq, Pt.mk.injEq]
    refine ⟨⟨?_, ?_⟩, ⟨?_, ?_⟩, ⟨?_, ?_⟩, ⟨?_, ?_⟩, trivial⟩ <;> ring
  · intro radius count
    unfold Shape.circle
    rw [mul_assoc, h1]

/-! ## The validator -/

private theorem worldDistance_scale (r res : ℝ) (d : WithTop Nat) : worldDistance (r * res) d = r * worldDistance res d := by
  unfold worldDistance
  ring

/-- The two validators are made in the same way, but all lengths given to the second one are in a unit that is `r` times
smaller; the distance maps, which hold numbers of cells, are the same. -/
def Spec.ValidatorInUnit (r : ℝ) (v v' : Validator) : Prop :=
  ∃ (space : SpaceSE2) (resolution : ℝ) (j1 j2 j3 j4 p : Pt) (minStep minSafe : ℝ) (w w' : Validator),
    Validator.new space ((OccMap.new resolution j1 j2).setPosition p) minStep minSafe = some w ∧
    Validator.new (spaceInUnit r space) ((OccMap.new (r * resolution) j3 j4).setPosition (p.scale r)) (r * minStep)
      (r * minSafe) = some w' ∧
    ∃ d, v = { w with dist := d } ∧ v' = { w' with dist := d }

/-- What `ValidatorInUnit` means for the members. -/
theorem validatorInUnit_eq {r : ℝ} {v v' : Validator} (h : ValidatorInUnit r v v') :
    MapInUnit r v.map v'.map ∧ v'.space = spaceInUnit r v.space ∧ v'.dist = v.dist ∧ v'.minStep = r * v.minStep ∧
      v'.minSafe = r * v.minSafe := by
  obtain ⟨space, res, j1, j2, j3, j4, p, st, sf, w, w', h1, h2, d, rfl, rfl⟩ := h
  unfold Validator.new at h1 h2
  rw [Option.map_eq_some_iff] at h1 h2
  obtain ⟨m, hm, rfl⟩ := h1
  obtain ⟨m', hm', rfl⟩ := h2
  refine ⟨⟨res, j1, j2, j3, j4, p, _, _, hm, ?_⟩, rfl, rfl, rfl, rfl⟩
  rw [← hm']
  congr 1 <;> simp [spaceInUnit, inUnit, Pt.scale] <;> ring

private theorem obstacleDistance_scale {r : ℝ} (hr : 0 < r) {v v' : Validator} (h : ValidatorInUnit r v v') (c : Cell) :
    v'.obstacleDistance c = (v.obstacleDistance c).map (r * ·) := by
  obtain ⟨hm, -, hd, -, -⟩ := validatorInUnit_eq h
  unfold Validator.obstacleDistance
  rw [hd, mapInUnit_eq hr hm, Option.map_map]
  congr 1
  funext d
  exact worldDistance_scale r _ d

private theorem validateBounds_scale {r : ℝ} (hr : 0 < r) (s : SpaceSE2) (p : PoseR) :
    (spaceInUnit r s).validateBounds (inUnit r p) = s.validateBounds p := by
  have hlt : ∀ a b : ℝ, r * a < r * b ↔ a < b := fun a b => mul_lt_mul_iff_right₀ hr
  unfold SpaceSE2.validateBounds spaceInUnit inUnit
  simp only [Pt.scale, gt_iff_lt, hlt]

/-- C175: the same states are valid. -/
theorem C175_state_valid_partial {r : ℝ} (hr : 0 < r) {v v' : Validator} (h : ValidatorInUnit r v v') (s : PoseR) :
    v'.isStateValid (inUnit r s) = v.isStateValid s := by
  obtain ⟨hm, hs, hd, -, hsf⟩ := validatorInUnit_eq h
  have hmap := C175_map_partial hr hm
  unfold Validator.isStateValid
  dsimp only [inUnit]
  rw [hmap.1, hmap.2.2.2.2.2, hs]
  have e : PoseR.mk' ((v.map.worldPositionToLocalPosition s.position).scale r) s.theta =
      inUnit r (PoseR.mk' (v.map.worldPositionToLocalPosition s.position) s.theta) := rfl
  have hin : v'.map.isInsideCell = v.map.isInsideCell := by rw [mapInUnit_eq hr hm]; rfl
  rw [e, validateBounds_scale hr, hin, obstacleDistance_scale hr h, hsf, Option.map_map]
  have hle : ∀ a b : ℝ, r * a ≤ r * b ↔ a ≤ b := fun a b => mul_le_mul_iff_right₀ hr
  simp only [Function.comp_def, ge_iff_le, hle]

private theorem increment_scale {r : ℝ} (hr : 0 < r) {v v' : Validator} (h : ValidatorInUnit r v v') (s : PoseR) :
    v'.increment (inUnit r s) = (v.increment s).map (r * ·) := by
  obtain ⟨hm, hs, hd, hst, hsf⟩ := validatorInUnit_eq h
  have hmap := C175_map_partial hr hm
  unfold Validator.increment
  dsimp only [inUnit]
  rw [hmap.1, obstacleDistance_scale hr h, hst, hsf, Option.map_map, Option.map_map]
  congr 1
  funext d
  simp only [Function.comp_def]
  have hb : v'.distToMapBorder (inUnit r s) = r * v.distToMapBorder s := by
    unfold Validator.distToMapBorder
    rw [hs]
    dsimp only [spaceInUnit, inUnit, Pt.scale]
    simp only [← mul_sub, mul_min_of_nonneg _ _ hr.le]
  rw [show (⟨s.position.scale r, s.theta⟩ : PoseR) = inUnit r s from rfl, hb, mul_max_of_nonneg _ _ hr.le,
    mul_min_of_nonneg _ _ hr.le, mul_sub]

/-- One direction of the comparison of the loops. -/
private theorem pathLoop_scale {k : ℝ} (hk : 0 < k) {v v' : Validator} {path path' : AnyPath}
    (hl : path'.length = k * path.length)
    (hv : ∀ q, v'.isStateValid (path'.interpolate q) = v.isStateValid (path.interpolate q))
    (hi : ∀ q, v'.increment (path'.interpolate q) = (v.increment (path.interpolate q)).map (k * ·))
    (l last : ℝ) {x : Bool × ℝ} (hx : v.pathLoop path l last = some x) :
    v'.pathLoop path' (k * l) (k * last) = some x := by
  refine Validator.pathLoop.partial_correctness v path
    (fun l last x => v'.pathLoop path' (k * l) (k * last) = some x) ?_ l last x hx
  intro loop ih l last x hx
  rw [Validator.pathLoop]
  have hlt : k * l < path'.length ↔ l < path.length := by rw [hl]; exact mul_lt_mul_iff_right₀ hk
  by_cases hc : l < path.length
  · rw [if_pos hc] at hx
    rw [if_pos (hlt.2 hc), hl, mul_div_mul_left _ _ hk.ne', mul_div_mul_left _ _ hk.ne']
    dsimp only at hx ⊢
    rw [hv, hi]
    cases hs : v.isStateValid (path.interpolate (l / path.length)) with
    | none => rw [hs] at hx; cases hx
    | some b =>
      rw [hs] at hx
      cases b with
      | false => exact hx
      | true =>
        cases hd : v.increment (path.interpolate (l / path.length)) with
        | none => rw [hd] at hx; cases hx
        | some d =>
          rw [hd] at hx
          have := ih _ _ _ hx
          rw [mul_add] at this
          exact this
  · rw [if_neg hc] at hx
    rw [if_neg (fun h => hc (hlt.1 h))]
    exact hx

/-- C175: the same paths are valid, and the last valid ratio is the same. -/
theorem C175_path_valid_partial {r : ℝ} (hr : 0 < r) {v v' : Validator} (h : ValidatorInUnit r v v') (path : AnyPath) :
    v'.isPathValid (pathInUnit r path) = v.isPathValid path := by
  unfold Validator.isPathValid
  have h0 : (pathInUnit r path).length = 0 ↔ path.length = 0 := by
    show r * path.length = 0 ↔ _
    simp [hr.ne']
  have hv : ∀ q, v'.isStateValid ((pathInUnit r path).interpolate q) = v.isStateValid (path.interpolate q) :=
    fun q => C175_state_valid_partial hr h _
  have hi : ∀ q, v'.increment ((pathInUnit r path).interpolate q) = (v.increment (path.interpolate q)).map (r * ·) :=
    fun q => increment_scale hr h _
  by_cases hc : path.length = 0
  · rw [if_pos hc, if_pos (h0.2 hc)]
    exact congrArg _ (C175_state_valid_partial hr h path.init)
  · rw [if_neg hc, if_neg (fun h => hc (h0.1 h))]
    apply Option.ext
    intro x
    constructor
    · intro hx
      have := pathLoop_scale (k := r⁻¹) (inv_pos.2 hr) (v := v') (v' := v) (path := pathInUnit r path) (path' := path)
        (by show _ = r⁻¹ * (r * path.length); rw [inv_mul_cancel_left₀ hr.ne']) (fun q => (hv q).symm)
        (fun q => by
          rw [hi, Option.map_map]
          have : ((fun x => r⁻¹ * x) ∘ fun x => r * x) = id := by
            funext x
            exact inv_mul_cancel_left₀ hr.ne' x
          rw [this, Option.map_id_fun, id]) 0 0 hx
      rwa [mul_zero] at this
    · intro hx
      have := pathLoop_scale hr (path' := pathInUnit r path) rfl hv hi 0 0 hx
      rwa [mul_zero] at this

private theorem sqrt_scale {r : ℝ} (hr : 0 < r) (x y : ℝ) : √((r * x) ^ 2 + (r * y) ^ 2) = r * √(x ^ 2 + y ^ 2) := by
  rw [show (r * x) ^ 2 + (r * y) ^ 2 = r ^ 2 * (x ^ 2 + y ^ 2) by ring, Real.sqrt_mul (by positivity),
    Real.sqrt_sq hr.le]

/-- C175: the paths of the library are the same in the other unit. -/
theorem C175_paths_partial {r : ℝ} (hr : 0 < r) (a b : PoseR) :
    (PathSE2.connect (inUnit r a) (inUnit r b)).toAny = pathInUnit r (PathSE2.connect a b).toAny := by
  unfold PathSE2.connect PathSE2.toAny pathInUnit
  simp only [AnyPath.mk.injEq, true_and]
  refine ⟨?_, ?_⟩
  · unfold Pt.norm
    rw [← sqrt_scale hr]
    simp only [inUnit, Pt.sub_x, Pt.sub_y, Pt.scale, mul_sub]
  · funext q
    unfold PathSE2.interpolate Pt.lerp inUnit
    dsimp only
    congr 1
    ext <;> simp [Pt.scale] <;> ring

/-! ## The Voronoi diagram and the heuristics -/

/-- C175: the positions and distances of the Voronoi diagram. -/
theorem C175_voronoi_partial {r : ℝ} (hr : 0 < r) {m m' : OccMap} (h : MapInUnit r m m') (maps : ObstDistMap)
    (cost cost' : Cell → ℝ) (p : Pt) :
    (∀ out, GVD.nearestObstaclePosition ⟨m', maps, cost'⟩ (p.scale r) (out.scale r) =
      ((GVD.nearestObstaclePosition ⟨m, maps, cost⟩ p out).1,
        (GVD.nearestObstaclePosition ⟨m, maps, cost⟩ p out).2.scale r)) ∧
    (∀ out, GVD.distanceToObstacle ⟨m', maps, cost'⟩ (p.scale r) (r * out) =
      ((GVD.distanceToObstacle ⟨m, maps, cost⟩ p out).1, r * (GVD.distanceToObstacle ⟨m, maps, cost⟩ p out).2)) := by
  have hin : m'.isInsideCell = m.isInsideCell := by rw [mapInUnit_eq hr h]; rfl
  have hres : m'.resolution = r * m.resolution := by rw [mapInUnit_eq hr h]
  refine ⟨?_, ?_⟩ <;> intro out
  · unfold GVD.nearestObstaclePosition GVD.query
    dsimp only
    rw [(C175_map_partial hr h).1, hin, (C175_map_partial hr h).2.2.2.1]
    split <;> rfl
  · unfold GVD.distanceToObstacle GVD.query
    dsimp only
    rw [(C175_map_partial hr h).1, hin, hres]
    split
    · rw [worldDistance_scale]
    · rfl

/-- C175: the value of the obstacle heuristic is the same length. -/
theorem C175_obstacle_heuristic_partial {r : ℝ} (hr : 0 < r) {m m' : OccMap} (h : MapInUnit r m m') (occ : Cell → Bool)
    (diag rev fwd : ℝ) (goal state : PoseR) :
    ObstHeuristic.updatePose m' occ diag (inUnit r goal) = ObstHeuristic.updatePose m occ diag goal ∧
    ∀ table, ObstHeuristic.getHeuristicValue m' rev fwd table (inUnit r goal) (inUnit r state) =
      (ObstHeuristic.getHeuristicValue m rev fwd table goal state).map (r * ·) := by
  have hin : m'.isInsideCell = m.isInsideCell := by rw [mapInUnit_eq hr h]; rfl
  refine ⟨?_, ?_⟩
  · unfold ObstHeuristic.updatePose
    dsimp only [inUnit]
    rw [(C175_map_partial hr h).1, mapInUnit_eq hr h]
  · intro table
    have he : √(((inUnit r goal).position - (inUnit r state).position).x ^ 2 +
        ((inUnit r goal).position - (inUnit r state).position).y ^ 2) =
        r * √((goal.position - state.position).x ^ 2 + (goal.position - state.position).y ^ 2) := by
      rw [← sqrt_scale hr]
      simp only [inUnit, Pt.sub_x, Pt.sub_y, Pt.scale, mul_sub]
    have hcell : m'.worldPositionToGridCell (inUnit r state).position true = m.worldPositionToGridCell state.position true :=
      (C175_map_partial hr h).1 _ _
    unfold ObstHeuristic.getHeuristicValue
    dsimp only
    rw [he, hcell, hin]
    split
    · rfl
    · split
      · rfl
      · split
        · rfl
        · cases table.cost (m.worldPositionToGridCell state.position true) with
          | top => rfl
          | coe c =>
            simp only [Option.map_some]
            rw [mul_max_of_nonneg _ _ hr.le, mapInUnit_eq hr h]
            congr 2
            ring

private theorem sub_scale (r : ℝ) (a b : PoseR) : (inUnit r a).sub (inUnit r b) = inUnit r (a.sub b) := by
  unfold PoseR.sub PoseR.mk' PoseR.rotate inUnit
  dsimp only
  congr 1
  ext <;> simp [Pt.scale] <;> ring

private theorem goalArray_scale {r : ℝ} (hr : 0 < r) (start goal : PoseR) (R : ℝ) :
    RS.goalArray (inUnit r start) (inUnit r goal) (r * R) = RS.goalArray start goal R := by
  unfold RS.goalArray
  rw [sub_scale]
  dsimp only [inUnit, Pt.scale]
  rw [mul_div_mul_left _ _ hr.ne', mul_div_mul_left _ _ hr.ne']

private theorem costLoop_scale (r R rev fwd sw : ℝ) (l : List RS.Motion) (prev : Direction) (cost : ℝ) :
    RS.costLoop (r * R) rev fwd (r * sw) l prev (r * cost) = r * RS.costLoop R rev fwd sw l prev cost := by
  induction l generalizing prev cost with
  | nil => rfl
  | cons m l ih =>
    unfold RS.costLoop
    split
    · rw [← ih]
      dsimp only
      split_ifs <;> ring_nf
    · rfl

private theorem computeCost_scale {r : ℝ} (hr : 0 < r) (s : RS.Segment) (R rev fwd sw : ℝ) :
    s.computeCost (r * R) rev fwd (r * sw) = (s.computeCost R rev fwd sw).map (r * ·) := by
  unfold RS.Segment.computeCost
  cases s.motions with
  | nil => rfl
  | cons m l =>
    dsimp only
    split
    · have : (rev = 1 ∧ r * sw = 0) ↔ (rev = 1 ∧ sw = 0) := by simp [hr.ne']
      by_cases hc : rev = 1 ∧ sw = 0
      · rw [if_pos hc, if_pos (this.2 hc), Option.map_some]
        congr 1
        ring
      · rw [if_neg hc, if_neg (fun h => hc (this.1 h)), Option.map_some, ← costLoop_scale, mul_zero]
    · rfl

private theorem optimalStep_scale {r : ℝ} (hr : 0 < r) (goals : Nat → PoseR) (R rev fwd sw : ℝ) (best : RS.BestCost) (w : Nat) :
    RS.optimalStep goals (r * R) rev fwd (r * sw) (best.map fun b => (r * b.1, b.2)) w =
      (RS.optimalStep goals R rev fwd sw best w).map fun b => (r * b.1, b.2) := by
  unfold RS.optimalStep
  cases RS.motionLengths w goals with
  | finite t u v len =>
    dsimp only
    rw [computeCost_scale hr]
    cases (RS.getPath w t u v).computeCost R rev fwd sw with
    | none => rfl
    | some cost =>
      cases best with
      | none => rfl
      | some b =>
        dsimp only [Option.map_some]
        have : r * cost < r * b.1 ↔ cost < b.1 := mul_lt_mul_iff_right₀ hr
        by_cases hc : cost < b.1
        · rw [if_pos hc, if_pos (this.2 hc)]; rfl
        · rw [if_neg hc, if_neg (fun h => hc (this.1 h))]; rfl
  | _ => rfl

/-- C175: Reeds-Shepp paths are found for the same words and parameters, and their costs are the same, with the cost of
switching as a length. -/
theorem C175_reeds_shepp_partial {r : ℝ} (hr : 0 < r) (start goal : PoseR) (R rev fwd sw : ℝ) :
    RS.shortest (inUnit r start) (inUnit r goal) (r * R) = RS.shortest start goal R ∧
    RS.optimal (inUnit r start) (inUnit r goal) (r * R) rev fwd (r * sw) =
      (RS.optimal start goal R rev fwd sw).map fun b => (r * b.1, b.2) := by
  unfold RS.shortest RS.optimal
  rw [goalArray_scale hr]
  refine ⟨rfl, ?_⟩
  suffices ∀ (l : List Nat) (best : RS.BestCost),
      l.foldl (RS.optimalStep (RS.goalArray start goal R) (r * R) rev fwd (r * sw)) (best.map fun b => (r * b.1, b.2)) =
        (l.foldl (RS.optimalStep (RS.goalArray start goal R) R rev fwd sw) best).map fun b => (r * b.1, b.2) from
    this _ none
  intro l
  induction l with
  | nil => intro best; rfl
  | cons w l ih =>
    intro best
    rw [List.foldl_cons, List.foldl_cons, optimalStep_scale hr, ih]

/-- C175: the value of the non-holonomic heuristic is the same length. -/
theorem C175_nonholonomic_heuristic_partial {r : ℝ} (hr : 0 < r) (lb ub : PoseR) (res ang R rev fwd sw : ℝ)
    (goal state : PoseR) :
    (NonHolo.build (inUnit r lb) (inUnit r ub) (r * res) ang (r * R) rev fwd (r * sw)).getHeuristicValue (inUnit r goal)
      (inUnit r state) =
    ((NonHolo.build lb ub res ang R rev fwd sw).getHeuristicValue goal state).map (Option.map (r * ·)) := by
  have hnum : ∀ a b : ℝ, NonHolo.numSpatial (r * a - r * b) (r * res) = NonHolo.numSpatial (a - b) res := by
    intro a b
    unfold NonHolo.numSpatial
    rw [mul_sub_div _ _ _ _ hr]
  obtain ⟨h, hh⟩ : ∃ h, h = NonHolo.build lb ub res ang R rev fwd sw := ⟨_, rfl⟩
  have hb : NonHolo.build (inUnit r lb) (inUnit r ub) (r * res) ang (r * R) rev fwd (r * sw) =
      { h with spatialResolution := r * h.spatialResolution, minTurningRadius := r * h.minTurningRadius, sw := r * h.sw } := by
    rw [hh]
    unfold NonHolo.build
    simp only [inUnit, Pt.scale, hnum]
  rw [hb, ← hh]
  obtain ⟨h', hh'⟩ : ∃ h' : NonHolo, h' =
      { h with spatialResolution := r * h.spatialResolution, minTurningRadius := r * h.minTurningRadius, sw := r * h.sw } :=
    ⟨_, rfl⟩
  rw [← hh']
  have hX : h'.offsetX = r * h.offsetX := by rw [hh']; unfold NonHolo.offsetX; dsimp only; ring
  have hY : h'.offsetY = r * h.offsetY := by rw [hh']; unfold NonHolo.offsetY; dsimp only; ring
  have hnx : h'.numSpatialX = h.numSpatialX := by rw [hh']
  have hny : h'.numSpatialY = h.numSpatialY := by rw [hh']
  have hna : h'.numAngular = h.numAngular := by rw [hh']; rfl
  have hres : h'.spatialResolution = r * h.spatialResolution := by rw [hh']
  have hang : h'.angularResolution = h.angularResolution := by rw [hh']
  have hR : h'.minTurningRadius = r * h.minTurningRadius := by rw [hh']
  have hsw : h'.sw = r * h.sw := by rw [hh']
  have hrev : h'.rev = h.rev := by rw [hh']
  have hfwd : h'.fwd = h.fwd := by rw [hh']
  have hpose : ∀ i j k, h'.entryPose i j k = inUnit r (h.entryPose i j k) := by
    intro i j k
    unfold NonHolo.entryPose PoseR.mk' inUnit
    rw [hX, hY, hres, hang]
    congr 1
    ext <;> simp [Pt.scale] <;> ring
  have hread : ∀ i j k, h'.read i j k = (h.read i j k).map (Option.map (r * ·)) := by
    intro i j k
    unfold NonHolo.read NonHolo.entry
    rw [hnx, hny, hna, hpose, hR, hsw, hrev, hfwd]
    have hz : (⟨⟨0, 0⟩, 0⟩ : PoseR) = inUnit r ⟨⟨0, 0⟩, 0⟩ := by simp [inUnit, Pt.scale]
    split
    · rw [Option.map_some]
      congr 1
      rw [← computeCost_scale hr]
      congr 1
      conv_lhs => rw [hz]
      unfold RS.optimalPath
      rw [(C175_reeds_shepp_partial hr _ _ _ _ _ _).2]
      cases RS.optimal (h.entryPose i j k) ⟨⟨0, 0⟩, 0⟩ h.minTurningRadius h.rev h.fwd h.sw with
      | none => rfl
      | some b => rfl
    · rfl
  unfold NonHolo.getHeuristicValue
  rw [sub_scale, hX, hY, hnx, hny, hna, hres, hang, hrev, hfwd]
  dsimp only [inUnit, Pt.scale]
  rw [← mul_add, ← mul_add, mul_div_mul_left _ _ hr.ne', mul_div_mul_left _ _ hr.ne', sqrt_scale hr]
  cases toInt32 (roundR (((goal.sub state).position.x + h.offsetX) / h.spatialResolution)) with
  | none => rfl
  | some i =>
  cases toInt32 (roundR (((goal.sub state).position.y + h.offsetY) / h.spatialResolution)) with
  | none => rfl
  | some j =>
  cases toInt32 (roundR ((goal.sub state).theta / h.angularResolution)) with
  | none => rfl
  | some k =>
    simp only [Option.bind_eq_bind, Option.bind_some]
    split
    · simp only [Option.pure_def, Option.map_some]
      congr 2
      ring
    · exact hread _ _ _

/-! ## Hybrid A* -/

/-- C175: the motions of the vehicle, when the curvature is not so small that it is taken for zero in one of the units
only. -/
theorem C175_motion_partial {r : ℝ} (hr : 0 < r) (m : Bicycle) (start : PoseR) (steering dist : ℝ) (direction : Direction)
    (hd : |m.dThetaDdist steering| > 1e-9 ↔ |m.dThetaDdist steering / r| > 1e-9) :
    (⟨r * m.wheelbase, r * m.rearToCenter⟩ : Bicycle).constantSteer (inUnit r start) steering (r * dist) direction =
      inUnit r (m.constantSteer start steering dist direction) := by
  have hbeta : (⟨r * m.wheelbase, r * m.rearToCenter⟩ : Bicycle).beta steering = m.beta steering := by
    unfold Bicycle.beta
    dsimp only
    rw [mul_assoc, mul_div_mul_left _ _ hr.ne']
  have hdt : (⟨r * m.wheelbase, r * m.rearToCenter⟩ : Bicycle).dThetaDdist steering = m.dThetaDdist steering / r := by
    unfold Bicycle.dThetaDdist
    rw [hbeta]
    dsimp only
    rw [div_div, mul_comm m.wheelbase]
  unfold Bicycle.constantSteer
  rw [hbeta, hdt]
  dsimp only
  have hneg : (if direction = .backward then -(r * dist) else r * dist) = r * (if direction = .backward then -dist else dist) := by
    split <;> ring
  rw [hneg]
  obtain ⟨x, hx⟩ : ∃ x, x = (if direction = .backward then -dist else dist) := ⟨_, rfl⟩
  rw [← hx]
  have hr0 := hr.ne'
  by_cases hc : |m.dThetaDdist steering| > 1e-9
  · rw [if_pos hc, if_pos (hd.1 hc)]
    have e : r * x / Real.cos (m.beta steering) * (m.dThetaDdist steering / r) =
        x / Real.cos (m.beta steering) * m.dThetaDdist steering := by
      field_simp
    have e2 : 1 / (m.dThetaDdist steering / r) = r * (1 / m.dThetaDdist steering) := by
      rw [one_div_div, mul_one_div]
    rw [show (inUnit r start).theta = start.theta from rfl, e, e2]
    unfold inUnit
    dsimp only [Pt.scale]
    congr 1
    ext <;> simp <;> ring
  · rw [if_neg hc, if_neg (fun h => hc (hd.2 h))]
    unfold inUnit
    dsimp only [Pt.scale]
    congr 1
    ext <;> simp <;> ring

/-- C175: the steering angles and the nodes of hybrid A*. -/
theorem C175_hybrid_partial {r : ℝ} (hr : 0 < r) (p : HybridParam) (s : PoseR) :
    HybridAStar.deltas { p with wheelbase := r * p.wheelbase, minTurningRadius := r * p.minTurningRadius } =
      HybridAStar.deltas p ∧
    HybridAStar.discretizePose { p with spatialResolution := r * p.spatialResolution } (inUnit r s) =
      HybridAStar.discretizePose p s := by
  refine ⟨?_, ?_⟩
  · have : HybridAStar.deltaMax { p with wheelbase := r * p.wheelbase, minTurningRadius := r * p.minTurningRadius } =
        HybridAStar.deltaMax p := by
      unfold HybridAStar.deltaMax HybridAStar.model Bicycle.steeringFromRadius
      dsimp only
      have h1 : r * p.minTurningRadius < 0 ↔ p.minTurningRadius < 0 := by
        constructor
        · intro h; by_contra hc; push Not at hc; have := mul_nonneg hr.le hc; linarith
        · intro h; exact mul_neg_of_pos_of_neg hr h
      have h2 : √((r * p.minTurningRadius) ^ 2 - 0 ^ 2) = r * √(p.minTurningRadius ^ 2 - 0 ^ 2) := by
        have := sqrt_scale hr p.minTurningRadius 0
        simpa using this
      rw [h2]
      have h3 : r * √(p.minTurningRadius ^ 2 - 0 ^ 2) = 0 ↔ √(p.minTurningRadius ^ 2 - 0 ^ 2) = 0 := by
        simp [hr.ne']
      by_cases hc : p.minTurningRadius < 0
      · rw [if_pos hc, if_pos (h1.2 hc)]
      · rw [if_neg hc, if_neg (fun h => hc (h1.1 h))]
        by_cases hz : √(p.minTurningRadius ^ 2 - 0 ^ 2) = 0
        · rw [if_pos hz, if_pos (h3.2 hz)]
        · rw [if_neg hz, if_neg (fun h => hz (h3.1 h)), mul_div_mul_left _ _ hr.ne']
    unfold HybridAStar.deltas
    rw [this]
  · unfold HybridAStar.discretizePose
    dsimp only [inUnit, Pt.scale]
    rw [mul_div_mul_left _ _ hr.ne', mul_div_mul_left _ _ hr.ne']

/-! ## Violations -/

/-- A Voronoi diagram of one cell with an obstacle and an edge at a distance of one cell, in a given resolution. -/
private noncomputable def oneCell (resolution : ℝ) : GVD :=
  ⟨⟨resolution, 1, 1, ⟨0, 0⟩, ⟨0, 0⟩, ⟨0, 0⟩⟩, ⟨{ DistMap.new 1 1 with dist := fun _ => (1 : ℕ) }, none⟩, fun _ => 0⟩

/-- C175 is violated for the path cost of the Voronoi diagram, which has lengths of its own (20 m and 30 m): in metres a
cell at 1 m from an obstacle and from an edge has a positive cost, in centimetres it has none. -/
theorem C175_path_cost_depends_on_unit :
    ∃ (g g' : GVD) (e : DistMap) (c : Cell), g'.map.resolution = 100 * g.map.resolution ∧ g'.maps = g.maps ∧
      0 < g.updateCost e c ∧ g'.updateCost e c = 0 := by
  refine ⟨oneCell 1, oneCell 100, { DistMap.new 1 1 with dist := fun _ => (1 : ℕ) }, ⟨0, 0⟩, by simp [oneCell], rfl, ?_, ?_⟩
  · have h1 : worldDistance 1 ((1 : ℕ) : WithTop ℕ) = 1 := by
      show √(((1 : ℕ) : ℤ) : ℝ) * 1 = 1
      norm_num
    unfold GVD.updateCost
    rw [if_pos (by rfl)]
    show 0 < voronoiCost GVD.alpha GVD.dMax (worldDistance 1 ((1 : ℕ) : WithTop ℕ)) (worldDistance 1 ((1 : ℕ) : WithTop ℕ))
    rw [h1]
    norm_num [voronoiCost, GVD.alpha, GVD.dMax]
  · have h1 : worldDistance 100 ((1 : ℕ) : WithTop ℕ) = 100 := by
      show √(((1 : ℕ) : ℤ) : ℝ) * 100 = 100
      norm_num
    unfold GVD.updateCost
    rw [if_pos (by rfl)]
    show voronoiCost GVD.alpha GVD.dMax (worldDistance 100 ((1 : ℕ) : WithTop ℕ)) (worldDistance 100 ((1 : ℕ) : WithTop ℕ)) = 0
    rw [h1]
    norm_num [voronoiCost, GVD.alpha, GVD.dMax]

/-- C175 is violated for the motions of the vehicle, which have a curvature of their own (1e-9 rad/m): with a steering angle
of 2e-9 the vehicle turns if lengths are in metres, and does not if they are in decimetres. -/
theorem C175_motion_depends_on_unit :
    ∃ (m : Bicycle) (start : PoseR) (steering : ℝ), 0 < m.wheelbase ∧ 0 < steering ∧
      (m.constantSteer start steering 1 .forward).theta ≠
        ((⟨10 * m.wheelbase, 10 * m.rearToCenter⟩ : Bicycle).constantSteer (inUnit 10 start) steering (10 * 1) .forward).theta := by
  have ht : ∀ w : ℝ, (⟨w, 0⟩ : Bicycle).dThetaDdist (Real.arctan 2e-9) = 2e-9 / w := by
    intro w
    simp [Bicycle.dThetaDdist, Bicycle.beta, Real.tan_arctan]
  have hb : ∀ w : ℝ, (⟨w, 0⟩ : Bicycle).beta (Real.arctan 2e-9) = 0 := by
    intro w
    simp [Bicycle.beta]
  refine ⟨⟨1, 0⟩, ⟨⟨0, 0⟩, 0⟩, Real.arctan 2e-9, one_pos, Real.arctan_pos.2 (by norm_num), ?_⟩
  unfold Bicycle.constantSteer
  simp only [mul_one, mul_zero, ht, hb, reduceCtorEq, if_false]
  rw [if_pos (by norm_num [abs_of_pos]), if_neg (by norm_num [abs_of_pos])]
  simp [inUnit]
  norm_num

/-- C175 is violated for the test of the goal of hybrid A*, which has a length of its own (1 mm): poses at 0.5 mm are
identical if lengths are in metres, and are not if they are in centimetres. -/
theorem C175_goal_test_depends_on_unit :
    ∃ a b : PoseR, HybridAStar.identicalPoses a b = true ∧
      HybridAStar.identicalPoses (inUnit 100 a) (inUnit 100 b) = false := by
  have hn : ∀ x : ℝ, 0 ≤ x → ((⟨x, 0⟩ : Pt) - ⟨0, 0⟩).norm = x := by
    intro x hx
    unfold Pt.norm
    simp [Real.sqrt_sq hx]
  refine ⟨⟨⟨0.0005, 0⟩, 0⟩, ⟨⟨0, 0⟩, 0⟩, ?_, ?_⟩
  · unfold HybridAStar.identicalPoses
    rw [decide_eq_true_iff]
    dsimp only
    rw [hn _ (by norm_num)]
    have := Real.pi_pos
    refine ⟨by norm_num, ?_⟩
    rw [sub_zero, abs_zero]
    positivity
  · unfold HybridAStar.identicalPoses
    rw [decide_eq_false_iff_not]
    dsimp only [inUnit, Pt.scale]
    rintro ⟨h, -⟩
    rw [show (100 : ℝ) * 0 = 0 by norm_num, hn _ (by norm_num)] at h
    norm_num at h

/-! ## Non-vacuity -/

/-- A map of 10 m by 8 m with cells of 0.5 m, in metres and in centimetres. -/
example : ∃ m m' : OccMap, MapInUnit 100 m m' ∧ m.rows = 20 ∧ m.columns = 16 ∧ m'.resolution = 50 := by
  refine ⟨⟨1 / 2, 20, 16, ⟨1, 2⟩, ⟨-5, -4⟩, ⟨-4, -2⟩⟩, ⟨50, 20, 16, ⟨100, 200⟩, ⟨-500, -400⟩, ⟨-400, -200⟩⟩,
    ⟨1 / 2, ⟨0, 0⟩, ⟨0, 0⟩, ⟨0, 0⟩, ⟨0, 0⟩, ⟨1, 2⟩, 10, 8, ?_, ?_⟩, rfl, rfl, rfl⟩
  · have h1 : ⌈(10 : ℝ) / (1 / 2)⌉ = 20 := by rw [Int.ceil_eq_iff]; norm_num
    have h2 : ⌈(8 : ℝ) / (1 / 2)⌉ = 16 := by rw [Int.ceil_eq_iff]; norm_num
    unfold OccMap.initializeSize OccMap.setPosition OccMap.new
    dsimp only
    rw [h1, h2, if_pos (by norm_num)]
    simp only [Option.some.injEq, OccMap.mk.injEq, true_and]
    constructor <;> ext <;> norm_num
  · have h1 : ⌈(100 * 10 : ℝ) / (100 * (1 / 2))⌉ = 20 := by rw [Int.ceil_eq_iff]; norm_num
    have h2 : ⌈(100 * 8 : ℝ) / (100 * (1 / 2))⌉ = 16 := by rw [Int.ceil_eq_iff]; norm_num
    unfold OccMap.initializeSize OccMap.setPosition OccMap.new
    dsimp only
    rw [h1, h2, if_pos (by norm_num)]
    simp only [Option.some.injEq, OccMap.mk.injEq, true_and]
    refine ⟨by norm_num, ?_, ?_, ?_⟩ <;> ext <;> norm_num [Pt.scale]

/-- The validators of that map meet the hypothesis of the theorems on them. -/
example : ∃ v v' : Validator, ValidatorInUnit 100 v v' ∧ v.minSafe = 1 ∧ v'.minSafe = 100 := by
  obtain ⟨w, hw⟩ : ∃ w, Validator.new ⟨⟨⟨-5, -4⟩, -4⟩, ⟨⟨5, 4⟩, 4⟩⟩ ((OccMap.new (1 / 2) ⟨0, 0⟩ ⟨0, 0⟩).setPosition ⟨1, 2⟩) (1 / 10) 1 = some w := by
    unfold Validator.new OccMap.initializeSize OccMap.setPosition OccMap.new
    dsimp only
    rw [if_pos (by constructor <;> exact Int.ceil_pos.2 (by norm_num))]
    exact ⟨_, rfl⟩
  obtain ⟨w', hw'⟩ : ∃ w, Validator.new (spaceInUnit 100 ⟨⟨⟨-5, -4⟩, -4⟩, ⟨⟨5, 4⟩, 4⟩⟩)
      ((OccMap.new (100 * (1 / 2)) ⟨0, 0⟩ ⟨0, 0⟩).setPosition (Pt.scale 100 ⟨1, 2⟩)) (100 * (1 / 10)) (100 * 1) = some w := by
    unfold Validator.new OccMap.initializeSize OccMap.setPosition OccMap.new spaceInUnit inUnit Pt.scale
    dsimp only
    rw [if_pos (by constructor <;> exact Int.ceil_pos.2 (by norm_num))]
    exact ⟨_, rfl⟩
  refine ⟨w, w', ⟨_, _, _, _, _, _, _, _, _, w, w', hw, hw', w.dist, rfl, ?_⟩, ?_, ?_⟩
  · unfold Validator.new at hw hw'
    rw [Option.map_eq_some_iff] at hw hw'
    obtain ⟨m, hm, rfl⟩ := hw
    obtain ⟨m', hm', rfl⟩ := hw'
    have hmu : MapInUnit 100 m m' := by
      refine ⟨1 / 2, _, _, ⟨0, 0⟩, ⟨0, 0⟩, _, _, _, hm, ?_⟩
      rw [← hm']
      congr 1 <;> simp [spaceInUnit, inUnit, Pt.scale] <;> norm_num
    rw [mapInUnit_eq (by norm_num) hmu]
  · unfold Validator.new at hw
    rw [Option.map_eq_some_iff] at hw
    obtain ⟨m, hm, rfl⟩ := hw
    rfl
  · unfold Validator.new at hw'
    rw [Option.map_eq_some_iff] at hw'
    obtain ⟨m, hm, rfl⟩ := hw'
    norm_num

/-- A usual motion meets the hypothesis of `C175_motion_partial`: a steering angle of 45 degrees, in metres and centimetres. -/
example : |(⟨1, 0⟩ : Bicycle).dThetaDdist (Real.pi / 4)| > 1e-9 ∧ |(⟨1, 0⟩ : Bicycle).dThetaDdist (Real.pi / 4) / 100| > 1e-9 := by
  norm_num [Bicycle.dThetaDdist, Bicycle.beta, Real.tan_pi_div_four]

end PathPlanning
