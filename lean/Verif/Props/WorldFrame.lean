import Verif.Props.ValidatorGrow
import Verif.Model.Obstacle
import Verif.Model.Smoother
import Verif.Model.NonHolonomic
import Verif.Model.ObstHeuristic
import Verif.Model.GVD
import Verif.Props.HybridCells

/-!
# C165: the place of the origin of the world

The theorems with the suffix `_partial` say that moving everything by a vector does not change anything. Missing: the
validity of paths and the nodes of hybrid A*, for which this is false (at the end of the file), and rounding: the
positions are real numbers.
-/

namespace PathPlanning

namespace Spec

/-- The pose as seen from an origin of the world that is `t` further back. -/
noncomputable def shift (t : Pt) (s : PoseR) : PoseR := ⟨s.position + t, s.theta⟩

/-- The two maps are made in the same way, but the second one at a place `t` further on. -/
def MovedBy (t : Pt) (m m' : OccMap) : Prop :=
  ∃ (m0 : OccMap) (p : Pt) (width height : ℝ), (m0.setPosition p).initializeSize width height = some m ∧
    (m0.setPosition (p + t)).initializeSize width height = some m'

end Spec
open Spec

/-- What `MovedBy` means for the members of the maps. -/
theorem movedBy_eq {t : Pt} {m m' : OccMap} (h : MovedBy t m m') :
    m' = { m with localOrigin := m.localOrigin + t, worldGridOrigin := m.worldGridOrigin + t } := by
  obtain ⟨m0, p, w, k, h1, h2⟩ := h
  unfold OccMap.initializeSize OccMap.setPosition at h1 h2
  dsimp only at h1 h2
  split at h1
  · rename_i hc
    rw [if_pos hc] at h2
    cases h1
    cases h2
    have e : ∀ a b c : Pt, a + b + c = a + c + b := by
      intro a b c; ext <;> simp <;> ring
    rw [e]
  · cases h1

private theorem shift_sub (a b t : Pt) : a + t - (b + t) = a - b := by ext <;> simp

/-- C165: the cell of a position, whether it is inside, and the position of a cell. -/
theorem C165_map_partial {t : Pt} {m m' : OccMap} (h : MovedBy t m m') :
    (∀ p bounded, m'.worldPositionToGridCell (p + t) bounded = m.worldPositionToGridCell p bounded) ∧
    (∀ p, m'.isInsidePos (p + t) = m.isInsidePos p) ∧
    (∀ c, m'.gridCellToWorldPosition c = m.gridCellToWorldPosition c + t) ∧
    (∀ p, m'.worldPositionToLocalPosition (p + t) = m.worldPositionToLocalPosition p) := by
  rw [movedBy_eq h]
  have h1 : ∀ p bounded, OccMap.worldPositionToGridCell
      { m with localOrigin := m.localOrigin + t, worldGridOrigin := m.worldGridOrigin + t } (p + t) bounded =
      m.worldPositionToGridCell p bounded := by
    intro p b
    unfold OccMap.worldPositionToGridCell
    simp only [Pt.add_x, Pt.add_y, add_sub_add_right_eq_sub]
    rfl
  refine ⟨h1, ?_, ?_, ?_⟩
  · intro p
    unfold OccMap.isInsidePos
    rw [h1]
    rfl
  · intro c
    show m.worldGridOrigin + t + _ = m.worldGridOrigin + _ + t
    ext <;> simp [OccMap.gridCellToGridPosition] <;> ring
  · intro p
    exact shift_sub ..

private theorem place_shift (t : Pt) (pose : PoseR) (v : Pt) :
    Shape.place (shift t pose) v = Shape.place pose v + t := by
  unfold Shape.place shift
  ext <;> simp <;> ring

private theorem rasterizeLine_shift {t : Pt} {m m' : OccMap} (h : MovedBy t m m') (a b : Pt) :
    Shape.rasterizeLine m' (a + t) (b + t) = Shape.rasterizeLine m a b := by
  unfold Shape.rasterizeLine
  rw [(C165_map_partial h).1, (C165_map_partial h).1, movedBy_eq h]

private theorem edgeLoop_shift {t : Pt} {m m' : OccMap} (h : MovedBy t m m') (vs : List Pt) (is : List Nat) :
    Shape.edgeLoop m' (vs.map (· + t)) is = Shape.edgeLoop m vs is := by
  induction is with
  | nil => rfl
  | cons i is ih =>
    unfold Shape.edgeLoop
    rw [ih, List.length_map, List.getElem?_map, List.getElem?_map]
    cases vs[i % vs.length]? with
    | none => rfl
    | some a =>
      cases vs[(i + 1) % vs.length]? with
      | none => rfl
      | some b =>
        simp only [Option.map_some, Option.bind_eq_bind, Option.bind_some, rasterizeLine_shift h]

mutual
private theorem gridCells_shift {t : Pt} {m m' : OccMap} (h : MovedBy t m m') (pose : PoseR) :
    (s : Shape) → s.gridCells m' (shift t pose) = s.gridCells m pose
  | .polygon vertices => by
    unfold Shape.gridCells
    dsimp only
    rw [← edgeLoop_shift h, List.map_map]
    congr 2
    funext v
    exact place_shift t pose v
  | .composite children => by
    unfold Shape.gridCells
    exact gridCellsList_shift h pose children
private theorem gridCellsList_shift {t : Pt} {m m' : OccMap} (h : MovedBy t m m') (pose : PoseR) :
    (l : List Shape) → Shape.gridCellsList m' (shift t pose) l = Shape.gridCellsList m pose l
  | [] => by unfold Shape.gridCellsList; rfl
  | c :: cs => by
    unfold Shape.gridCellsList
    rw [gridCells_shift h pose c, gridCellsList_shift h pose cs]
end

/-- C165: an obstacle covers the same cells. -/
theorem C165_obstacle_partial {t : Pt} {m m' : OccMap} (h : MovedBy t m m') (o : Obstacle) :
    (o.setPose (shift t o.pose)).getBoundaryGridCellPosition m' = o.getBoundaryGridCellPosition m := by
  unfold Obstacle.getBoundaryGridCellPosition Obstacle.setPose
  cases o.shape with
  | none => rfl
  | some s => exact gridCells_shift h o.pose s

/-- C165: a state is valid for the validator of the moved map exactly if the state before the move is for that of
the map, whatever the distances. -/
theorem C165_state_valid_partial {t : Pt} {m0 : OccMap} {p : Pt} {space : SpaceSE2} {minStep minSafe : ℝ} {v v' : Validator}
    (h : Validator.new space (m0.setPosition p) minStep minSafe = some v)
    (h' : Validator.new space (m0.setPosition (p + t)) minStep minSafe = some v') (d : DistMap) (s : PoseR) :
    v'.dist = v.dist ∧ MovedBy t v.map v'.map ∧
      { v' with dist := d }.isStateValid (shift t s) = { v with dist := d }.isStateValid s := by
  unfold Validator.new at h h'
  rw [Option.map_eq_some_iff] at h h'
  obtain ⟨m, hm, rfl⟩ := h
  obtain ⟨m', hm', rfl⟩ := h'
  have hmv : MovedBy t m m' := ⟨m0, p, _, _, hm, hm'⟩
  have hm := C165_map_partial hmv
  refine ⟨?_, hmv, ?_⟩
  · rw [movedBy_eq hmv]
  · unfold Validator.isStateValid Validator.obstacleDistance
    dsimp only [shift]
    rw [hm.1, hm.2.2.2, movedBy_eq hmv]
    rfl

/-- C165: the queries of the Voronoi diagram by world position. -/
theorem C165_voronoi_partial {t : Pt} {m m' : OccMap} (h : MovedBy t m m') (maps : ObstDistMap) (cost : Cell → ℝ)
    (p : Pt) :
    (∀ out, GVD.nearestObstaclePosition ⟨m', maps, cost⟩ (p + t) (out + t) =
      ((GVD.nearestObstaclePosition ⟨m, maps, cost⟩ p out).1, (GVD.nearestObstaclePosition ⟨m, maps, cost⟩ p out).2 + t)) ∧
    (∀ out, GVD.distanceToObstacle ⟨m', maps, cost⟩ (p + t) out = GVD.distanceToObstacle ⟨m, maps, cost⟩ p out) ∧
    (∀ out, GVD.pathCost ⟨m', maps, cost⟩ (p + t) out = GVD.pathCost ⟨m, maps, cost⟩ p out) := by
  have hin : m'.isInsideCell = m.isInsideCell := by rw [movedBy_eq h]; rfl
  have hres : m'.resolution = m.resolution := by rw [movedBy_eq h]
  refine ⟨?_, ?_, ?_⟩ <;> intro out
  · unfold GVD.nearestObstaclePosition GVD.query
    dsimp only
    rw [(C165_map_partial h).1, hin, (C165_map_partial h).2.2.1]
    split <;> rfl
  · unfold GVD.distanceToObstacle GVD.query
    dsimp only
    rw [(C165_map_partial h).1, hin, hres]
  · unfold GVD.pathCost GVD.query
    dsimp only
    rw [(C165_map_partial h).1, hin]

/-- C165: the value of the obstacle heuristic. -/
theorem C165_obstacle_heuristic_partial {t : Pt} {m m' : OccMap} (h : MovedBy t m m') (occ : Cell → Bool) (diag rev fwd : ℝ)
    (goal state : PoseR) :
    ObstHeuristic.updatePose m' occ diag (shift t goal) = ObstHeuristic.updatePose m occ diag goal ∧
    ∀ table, ObstHeuristic.getHeuristicValue m' rev fwd table (shift t goal) (shift t state) =
      ObstHeuristic.getHeuristicValue m rev fwd table goal state := by
  refine ⟨?_, ?_⟩
  · unfold ObstHeuristic.updatePose
    dsimp only [shift]
    rw [(C165_map_partial h).1, movedBy_eq h]
  · intro table
    unfold ObstHeuristic.getHeuristicValue
    dsimp only [shift]
    rw [(C165_map_partial h).1, shift_sub, movedBy_eq h]
    rfl

/-- C165: the value of the non-holonomic heuristic. -/
theorem C165_nonholonomic_heuristic_partial (t : Pt) (h : NonHolo) (goal state : PoseR) :
    h.getHeuristicValue (shift t goal) (shift t state) = h.getHeuristicValue goal state := by
  have e : (shift t goal).sub (shift t state) = goal.sub state := by
    unfold PoseR.sub
    dsimp only [shift]
    rw [shift_sub]
  unfold NonHolo.getHeuristicValue
  rw [e]

/-- C165: the motions of the vehicle. -/
theorem C165_motion_partial (t : Pt) (m : Bicycle) (start : PoseR) (steering dist : ℝ) (direction : Direction) :
    m.constantSteer (shift t start) steering dist direction = shift t (m.constantSteer start steering dist direction) := by
  unfold Bicycle.constantSteer
  dsimp only [shift]
  split <;> · congr 1; ext <;> simp <;> ring

/-! ## The smoother -/

namespace Smoother

private theorem gradientAt_map {P : Type} {T T' : Terms P} {f : P → P}
    (hp : ∀ r a b c d e g, T'.point (f r) (f a) (f b) (f c) (f d) (f e) g = T.point r a b c d e g)
    (hc : ∀ a b c g g' g'', T'.curvature (f a) (f b) (f c) g g' g'' = T.curvature a b c g g' g'')
    (requested current gs : List P) (i : Nat) :
    gradientAt T' (requested.map f) (current.map f) gs i = gradientAt T requested current gs i := by
  unfold gradientAt
  split
  · rfl
  · simp only [List.getElem?_map]
    cases requested[i]? with
    | none => rfl
    | some r =>
    cases current[i - 2]? with
    | none => rfl
    | some a =>
    cases current[i - 1]? with
    | none => rfl
    | some b =>
    cases current[i]? with
    | none => rfl
    | some c =>
    cases current[i + 1]? with
    | none => rfl
    | some d =>
    cases current[i + 2]? with
    | none => rfl
    | some e => simp only [Option.map_some, Option.bind_eq_bind, Option.bind_some, hp, hc]

private theorem gradients_map {P : Type} {T T' : Terms P} {f : P → P} (hz : T'.zero = T.zero)
    (hp : ∀ r a b c d e g, T'.point (f r) (f a) (f b) (f c) (f d) (f e) g = T.point r a b c d e g)
    (hc : ∀ a b c g g' g'', T'.curvature (f a) (f b) (f c) g g' g'' = T.curvature a b c g g' g'')
    (requested current : List P) (is : List Nat) :
    gradients T' (requested.map f) (current.map f) is = gradients T requested current is := by
  unfold gradients
  rw [hz, List.length_map]
  congr 1
  funext gs i
  exact gradientAt_map hp hc requested current gs i

private theorem loop_map {P H : Type} {T T' : Terms P} {f : P → P} (hz : T'.zero = T.zero)
    (hp : ∀ r a b c d e g, T'.point (f r) (f a) (f b) (f c) (f d) (f e) g = T.point r a b c d e g)
    (hc : ∀ a b c g g' g'', T'.curvature (f a) (f b) (f c) g g' g'' = T.curvature a b c g g' g'')
    (hm : ∀ p g, T'.move (f p) g = f (T.move p g)) (hs : T'.small = T.small)
    (requested : List P) (is : List Nat) (left : Nat) (small : Bool) (path : List (P × H)) (n : Nat) :
    loop T' (requested.map f) is left small (path.map fun s => (f s.1, s.2)) n =
      (loop T requested is left small path n).map fun r => (r.1, r.2.1.map (fun s => (f s.1, s.2)), r.2.2) := by
  induction left generalizing small path n with
  | zero => rfl
  | succ left ih =>
    unfold loop
    cases small with
    | true => rfl
    | false =>
      simp only [Bool.false_eq_true, if_false, List.map_map, Function.comp_def]
      rw [show (path.map fun s => f s.1) = (path.map Prod.fst).map f by rw [List.map_map]; rfl,
        gradients_map hz hp hc]
      cases gradients T requested (path.map Prod.fst) is with
      | none => rfl
      | some gs =>
        simp only [Option.bind_eq_bind, Option.bind_some]
        have e : applyGradients T' (path.map fun s => (f s.1, s.2)) gs =
            (applyGradients T path gs).map fun s => (f s.1, s.2) := by
          unfold applyGradients
          rw [List.zipWith_map_left, List.map_zipWith]
          congr 1
          funext p g
          rw [hm]
        rw [e, hs, ih]

private theorem isPathSafe_map {P H : Type} {f : P → P} {valid valid' : P × H → Option Bool}
    (hv : ∀ s, valid' (f s.1, s.2) = valid s) (path : List (P × H)) :
    isPathSafe valid' (path.map fun s => (f s.1, s.2)) = isPathSafe valid path := by
  induction path with
  | nil => rfl
  | cons s l ih => simp only [List.map_cons, isPathSafe, hv, ih]

private theorem smooth_map {P H : Type} {T T' : Terms P} {f : P → P} (hz : T'.zero = T.zero)
    (hp : ∀ r a b c d e g, T'.point (f r) (f a) (f b) (f c) (f d) (f e) g = T.point r a b c d e g)
    (hc : ∀ a b c g g' g'', T'.curvature (f a) (f b) (f c) g g' g'' = T.curvature a b c g g' g'')
    (hm : ∀ p g, T'.move (f p) g = f (T.move p g)) (hs : T'.small = T.small)
    {valid valid' : P × H → Option Bool} (hv : ∀ s, valid' (f s.1, s.2) = valid s) (maxIterations : Int)
    (cusp : Nat → Bool) (path : List (P × H)) :
    smooth T' maxIterations valid' cusp (path.map fun s => (f s.1, s.2)) =
      (smooth T maxIterations valid cusp path).map fun r => (r.1, r.2.1.map (fun s => (f s.1, s.2)), r.2.2) := by
  unfold smooth
  rw [List.length_map, isPathSafe_map hv,
    show ((path.map fun s => (f s.1, s.2)).map Prod.fst) = (path.map Prod.fst).map f by
      rw [List.map_map, List.map_map]; rfl, loop_map hz hp hc hm hs]
  split
  · cases isPathSafe valid path with
    | none => rfl
    | some b => cases b <;> rfl
  · cases loop T (path.map Prod.fst) (indexLoop cusp path.length 0) maxIterations.toNat false path 0 with
    | none => rfl
    | some r =>
      simp only [Option.map_some, Option.bind_eq_bind, Option.bind_some, isPathSafe_map hv]
      cases isPathSafe valid r.2.1 with
      | none => rfl
      | some b => cases b <;> rfl

end Smoother

/-- C165: smoothing a moved path on the moved map gives the moved result, with the same status and the same number of
iterations. The validity of the states is that of C165_state_valid_partial, the obstacles and edges those of the distance maps
of C165_obstacle_partial. -/
theorem C165_smooth_partial {t : Pt} {m m' : OccMap} (h : MovedBy t m m') (q : SmoothParam) (obstacle edge : Cell → Cell)
    (valid valid' : Pt × ℝ → Option Bool) (hv : ∀ s : Pt × ℝ, valid' (s.1 + t, s.2) = valid s) (cusp : Nat → Bool)
    (path : List (Pt × ℝ)) :
    Smoother.smooth (q.terms m' obstacle edge) q.maxIterations valid' cusp (path.map fun s => (s.1 + t, s.2)) =
      (Smoother.smooth (q.terms m obstacle edge) q.maxIterations valid cusp path).map fun r =>
        (r.1, r.2.1.map (fun s => (s.1 + t, s.2)), r.2.2) := by
  refine Smoother.smooth_map (T := q.terms m obstacle edge) (T' := q.terms m' obstacle edge) (f := (· + t)) rfl ?_ ?_ ?_ rfl hv _ _ _
  · intro r a b c d e g
    dsimp only [SmoothParam.terms]
    rw [(C165_map_partial h).2.1, (C165_map_partial h).1, (C165_map_partial h).2.2.1, (C165_map_partial h).2.2.1, shift_sub, shift_sub]
    have e1 : q.pathTerm (r + t) (c + t) = q.pathTerm r c := by unfold SmoothParam.pathTerm; rw [shift_sub]
    have e2 : q.smoothTerm (a + t) (b + t) (c + t) (d + t) (e + t) = q.smoothTerm a b c d e := by
      unfold SmoothParam.smoothTerm
      ext <;> simp [Pt.scale] <;> left <;> ring
    rw [e1, e2]
  · intro a b c g g' g''
    dsimp only [SmoothParam.terms, SmoothParam.curvatureTerm]
    rw [shift_sub, shift_sub]
  · intro p g
    dsimp only [SmoothParam.terms]
    ext <;> simp <;> ring

/-! ## Violations -/

/-- A state space of 40 m by 40 m. -/
private noncomputable def bigSpace : SpaceSE2 := ⟨⟨⟨-20, -20⟩, -4⟩, ⟨⟨20, 20⟩, 4⟩⟩

/-- The validator at the place `x`. -/
private noncomputable def bigValidator (x : ℝ) : Validator :=
  ⟨bigSpace, ⟨1, 40, 40, ⟨x, 0⟩, ⟨-20, -20⟩, ⟨x - 20, -20⟩⟩, .new 40 40, 1 / 10, 1⟩

private theorem bigValidator_new (x : ℝ) (j j' : Pt) :
    Validator.new bigSpace ((OccMap.new 1 j j').setPosition ⟨x, 0⟩) (1 / 10) 1 = some (bigValidator x) := by
  simp [Validator.new, OccMap.initializeSize, OccMap.new, OccMap.setPosition, bigSpace, bigValidator]
  ext <;> simp
  ring

private theorem big_reported (x : ℝ) (p : Pt) : 40 ≤ reportedDistance (bigValidator x) p - 1 := by
  show 40 ≤ √(((2147483647 : Int) : ℝ)) * 1 - 1
  have : (41 : ℝ) ≤ √(((2147483647 : Int) : ℝ)) := Real.le_sqrt' (by norm_num) |>.mpr (by norm_num)
  linarith

private theorem big_acceptable (x : ℝ) {s : PoseR} (hx : x - 20 ≤ s.position.x ∧ s.position.x < x + 20)
    (hy : s.position.y = 0) : Acceptable (bigValidator x) s := by
  have hw := C41_range s.theta
  have hp := Real.pi_le_four
  have hr := big_reported x s.position
  refine ⟨?_, ?_, ?_, ?_, ?_, ?_, ?_, ?_⟩
  · show -20 ≤ s.position.x - x; linarith [hx.1]
  · show s.position.x - x ≤ 20; linarith [hx.2]
  · show -20 ≤ s.position.y - 0; rw [hy]; norm_num
  · show s.position.y - 0 ≤ 20; rw [hy]; norm_num
  · show -4 ≤ _; linarith
  · show _ ≤ (4 : ℝ); linarith
  · refine (C29_inside_exact _ (by norm_num [bigValidator]) (by simp [bigValidator]) (by simp [bigValidator]) _).mpr ?_
    rw [hy]
    norm_num [bigValidator]
    refine ⟨?_, ?_⟩ <;> linarith [hx.1, hx.2]
  · show 1 ≤ _; linarith

/-- A straight drive across the border of the bounds. -/
private noncomputable def outPath (x : ℝ) : AnyPath :=
  (PathSE2.connect (shift ⟨x, 0⟩ ⟨⟨-199 / 10, 0⟩, 0⟩) (shift ⟨x, 0⟩ ⟨⟨-297 / 10, 0⟩, 0⟩)).toAny

private theorem outPath_length (x : ℝ) : (outPath x).length = 49 / 5 := by
  show √_ = _
  rw [Real.sqrt_eq_iff_mul_self_eq (by positivity) (by norm_num)]
  simp [shift]
  norm_num

private theorem outPath_at (x l : ℝ) : (outPath x).interpolate (l / (outPath x).length) = ⟨⟨x - 199 / 10 - l, 0⟩, 0⟩ := by
  rw [outPath_length]
  show PathSE2.interpolate _ _ = _
  simp only [PathSE2.interpolate, PathSE2.connect, Pt.lerp, shift]
  congr 1
  · ext <;> simp
    ring
  · ring

/-- C165 is violated for paths: `IsPathValid` takes the distance to the bounds without regard to the place of the map,
so that a straight drive out of the bounds is rejected on a map at the origin and accepted on the same map 10 m
further on (default parameters of the validator, no obstacles). -/
theorem C165_path_depends_on_origin :
    ∃ (space : SpaceSE2) (m0 : OccMap) (v v' : Validator) (a b : PoseR),
      Validator.new space (m0.setPosition ⟨0, 0⟩) (1 / 10) 1 = some v ∧
      Validator.new space (m0.setPosition (⟨0, 0⟩ + ⟨10, 0⟩)) (1 / 10) 1 = some v' ∧
      v.isPathValid (PathSE2.connect a b).toAny = some (false, 1 / 98) ∧
      v'.isPathValid (PathSE2.connect (shift ⟨10, 0⟩ a) (shift ⟨10, 0⟩ b)).toAny = some (true, 1) ∧
      v.isStateValid b = some false := by
  have e0 : ∀ s : PoseR, shift ⟨0, 0⟩ s = s := by
    intro s
    unfold shift
    congr 1
    ext <;> simp
  have e10 : (⟨0, 0⟩ : Pt) + ⟨10, 0⟩ = ⟨10, 0⟩ := by ext <;> simp
  have hsz : ∀ x, SameSize (bigValidator x) := fun x => ⟨rfl, rfl⟩
  refine ⟨bigSpace, OccMap.new 1 ⟨0, 0⟩ ⟨0, 0⟩, bigValidator 0, bigValidator 10, ⟨⟨-199 / 10, 0⟩, 0⟩, ⟨⟨-297 / 10, 0⟩, 0⟩,
    bigValidator_new 0 _ _, by rw [e10]; exact bigValidator_new 10 _ _, ?_, ?_, ?_⟩
  · have hp : (PathSE2.connect ⟨⟨-199 / 10, 0⟩, 0⟩ ⟨⟨-297 / 10, 0⟩, 0⟩).toAny = outPath 0 := by
      unfold outPath
      rw [e0, e0]
    rw [hp]
    have hstep : ∀ l last : ℝ, 0 ≤ l → l ≤ 1 / 10 → (bigValidator 0).pathLoop (outPath 0) l last =
        (bigValidator 0).pathLoop (outPath 0) (l + 1 / 10) l := by
      intro l last h0 h1
      rw [Validator.step_path (hsz 0) (by rw [outPath_length]; linarith) (by
        rw [outPath_at]
        exact big_acceptable 0 ⟨by dsimp only; linarith, by dsimp only; linarith⟩ rfl)]
      congr 1
      rw [outPath_at]
      have hf : freeDistance (bigValidator 0) ⟨⟨0 - 199 / 10 - l, 0⟩, 0⟩ ≤ 1 / 10 := by
        unfold freeDistance
        refine (min_le_right _ _).trans ((min_le_left _ _).trans ((min_le_left _ _).trans ?_))
        show 0 - 199 / 10 - l - -20 ≤ 1 / 10
        linarith
      show l + max _ (1 / 10) = _
      rw [max_eq_right hf]
    unfold Validator.isPathValid
    rw [if_neg (by rw [outPath_length]; norm_num), hstep 0 0 le_rfl (by norm_num),
      hstep _ _ (by norm_num) (by norm_num), Validator.stop_path (hsz 0) (by rw [outPath_length]; norm_num) (by
        rw [outPath_at]
        intro ha
        have h : (-20 : ℝ) ≤ 0 - 199 / 10 - (0 + 1 / 10 + 1 / 10) - 0 := ha.x_ge
        norm_num at h), outPath_length]
    norm_num
  · show (bigValidator 10).isPathValid (outPath 10) = _
    have hacc : Acceptable (bigValidator 10) ((outPath 10).interpolate (0 / (outPath 10).length)) := by
      rw [outPath_at]
      exact big_acceptable 10 ⟨by dsimp only; linarith, by dsimp only; linarith⟩ rfl
    unfold Validator.isPathValid
    rw [if_neg (by rw [outPath_length]; norm_num), Validator.step_path (hsz 10) (by rw [outPath_length]; norm_num) hacc,
      Validator.pathLoop, if_neg]
    rw [outPath_at, outPath_length]
    have hr := big_reported 10 ⟨10 - 199 / 10 - 0, 0⟩
    have hf : 49 / 5 ≤ freeDistance (bigValidator 10) ⟨⟨10 - 199 / 10 - 0, 0⟩, 0⟩ := by
      unfold freeDistance
      refine le_min ?_ (le_min (le_min ?_ ?_) (le_min ?_ ?_))
      · show 49 / 5 ≤ reportedDistance _ _ - 1
        linarith
      · show (49 / 5 : ℝ) ≤ 10 - 199 / 10 - 0 - -20
        norm_num
      · show (49 / 5 : ℝ) ≤ 20 - (10 - 199 / 10 - 0)
        norm_num
      · show (49 / 5 : ℝ) ≤ 0 - -20
        norm_num
      · show (49 / 5 : ℝ) ≤ 20 - 0
        norm_num
    have := le_max_left (freeDistance (bigValidator 10) ⟨⟨10 - 199 / 10 - 0, 0⟩, 0⟩) (bigValidator 10).minStep
    linarith
  · obtain ⟨b, hb, hb'⟩ := Validator.C53_state_valid_iff (bigValidator 0) (hsz 0) ⟨⟨-297 / 10, 0⟩, 0⟩
    cases b with
    | false => exact hb
    | true =>
      have h : (-20 : ℝ) ≤ -297 / 10 - 0 := (hb'.mp rfl).x_ge
      norm_num at h

/-- Non-vacuity: two maps of 40 cells by 40 cells, 10 m apart. -/
example : ∃ m m' : OccMap, MovedBy ⟨10, 0⟩ m m' ∧ m.rows = 40 ∧ m.columns = 40 ∧
    m.worldPositionToGridCell ⟨1, 2⟩ true = ⟨21, 22⟩ := by
  have h := C165_state_valid_partial (p := ⟨0, 0⟩) (t := ⟨10, 0⟩) (bigValidator_new 0 ⟨0, 0⟩ ⟨0, 0⟩)
    (v' := bigValidator 10) (by
      rw [show (⟨0, 0⟩ : Pt) + ⟨10, 0⟩ = ⟨10, 0⟩ by ext <;> simp]
      exact bigValidator_new 10 _ _) (.new 40 40) ⟨⟨0, 0⟩, 0⟩
  refine ⟨_, _, h.2.1, rfl, rfl, ?_⟩
  have h1 : truncInt ((1 - (bigValidator 0).map.worldGridOrigin.x) / (bigValidator 0).map.resolution) = 21 := by
    show truncInt ((1 - (0 - 20)) / 1) = 21
    unfold truncInt
    rw [if_pos (by norm_num), Int.floor_eq_iff]; norm_num
  have h2 : truncInt ((2 - (bigValidator 0).map.worldGridOrigin.y) / (bigValidator 0).map.resolution) = 22 := by
    show truncInt ((2 - -20) / 1) = 22
    unfold truncInt
    rw [if_pos (by norm_num), Int.floor_eq_iff]; norm_num
  unfold OccMap.worldPositionToGridCell OccMap.gridPositionToGridCell
  dsimp only
  rw [h1, h2, if_neg (by simp), if_pos]
  simp [OccMap.isInsideCell, bigValidator]

/-- C165 is violated for the nodes of hybrid A*: two states are one node at one place, and not so 2 m (two cells)
further on, with the default parameters. -/
theorem C165_nodes_depend_on_origin :
    ∃ a b : PoseR, HybridAStar.equal (HybridAStar.stateFromPose {} a) (HybridAStar.stateFromPose {} b) = true ∧
      HybridAStar.equal (HybridAStar.stateFromPose {} (shift ⟨2, 2⟩ a)) (HybridAStar.stateFromPose {} (shift ⟨2, 2⟩ b))
        = false := by
  refine ⟨_, _, C79_cells_across_axes, ?_⟩
  have h1 : truncInt ((-0.9 + 2) / 1) = 1 := by
    unfold truncInt
    rw [if_pos (by norm_num), Int.floor_eq_iff]; norm_num
  have h2 : truncInt ((0.9 + 2) / 1) = 2 := by
    unfold truncInt
    rw [if_pos (by norm_num), Int.floor_eq_iff]; norm_num
  refine decide_eq_false ?_
  show ¬ HybridAStar.PoseI.mk' (truncInt ((-0.9 + 2) / 1)) (truncInt ((-0.9 + 2) / 1)) _ =
    HybridAStar.PoseI.mk' (truncInt ((0.9 + 2) / 1)) (truncInt ((0.9 + 2) / 1)) _
  rw [h1, h2]
  intro hc
  exact absurd (congrArg HybridAStar.PoseI.x hc) (by decide)

end PathPlanning
