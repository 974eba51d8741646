import Verif.Props.RRTClear
import Verif.Props.PlanOutsideExample

/-!
# C184: an RRT that keeps clear of a box
-/

namespace PathPlanning
open Real Spec HybridAStar HybridAStar.Propagator Validator

/-- Exhaustive search for the nearest position; all points are neighbours. -/
noncomputable def se2KNN : KNN PoseR where
  nearest pts v := pts.argmin fun p => (v.position.x - p.position.x) ^ 2 + (v.position.y - p.position.y) ^ 2
  knn pts _ _ := pts

theorem se2KNN_laws : NearestLaws se2KNN
    (fun v p : PoseR => (v.position.x - p.position.x) ^ 2 + (v.position.y - p.position.y) ^ 2) where
  some_of_ne pts v h := by
    apply Option.ne_none_iff_exists'.mp
    show List.argmin _ _ ≠ none
    rw [Ne, List.argmin_eq_none]; exact h
  mem pts v p h := List.argmin_mem h
  min pts v p h q hq := List.le_of_mem_argmin hq h
  knn_mem pts v k p h := h

open Classical in
/-- An RRT that draws the pose 1.5 m ahead and whose paths are checked by `v`. -/
noncomputable def se2Setup (v : Validator) : RRTSetup PoseR PathSE2 ℝ where
  steering := se2Steering
  valid p := decide (∃ r, v.isPathValid p.toAny = some (true, r))
  knn := se2KNN
  isSolution _ := true
  sample _ := ⟨⟨-3.5, 0⟩, 0⟩
  maxIteration := 5
  maxNumberTreeNode := 5
  maxConnectionDistance := 1

private theorem ex_steer : se2Steering.steerTowards exStart ⟨⟨-3.5, 0⟩, 0⟩ 1 = ⟨exStart, ⟨⟨-4, 0⟩, 0⟩, 1⟩ := by
  have hl : se2Steering.length (se2Steering.connect exStart ⟨⟨-3.5, 0⟩, 0⟩) = 1.5 := by
    show √_ = 1.5
    rw [Real.sqrt_eq_iff_mul_self_eq (by positivity) (by norm_num)]
    norm_num [exStart]
  unfold Steering.steerTowards
  dsimp only
  rw [hl, if_pos (by norm_num)]
  have hc : clampK ((1 : ℝ) / 1.5) 0 1 = 2 / 3 := by
    unfold clampK
    rw [if_neg (by norm_num), if_neg (by norm_num)]
    norm_num
  rw [hc]
  show (⟨_, _, se2Steering.length (se2Steering.connect exStart ⟨⟨-3.5, 0⟩, 0⟩) * (2 / 3)⟩ : PathSE2) = _
  rw [hl]
  congr 1
  · show (⟨Pt.lerp _ _ _, _⟩ : PoseR) = _
    congr 1
    · ext <;> simp only [Pt.lerp, se2Steering, PathSE2.connect, exStart] <;> norm_num
    · simp [se2Steering, PathSE2.connect, exStart]
  · norm_num

private theorem ex_valid (dm : DistMap) (hsz : SameSize (exSix dm)) (hrep : ClearAhead dm 6) :
    (exSix dm).isPathValid
      (⟨exStart, ⟨⟨-4, 0⟩, 0⟩, 1⟩ : PathSE2).toAny = some (true, 1) := by
  refine not_rejected hsz (by norm_num [exSix, exValidator]) one_pos fun r h0 h1 => ?_
  have e : ((⟨exStart, ⟨⟨-4, 0⟩, 0⟩, 1⟩ : PathSE2).toAny).interpolate r = ⟨⟨-5 + r, 0⟩, 0⟩ := by
    show (⟨Pt.lerp _ _ _, _⟩ : PoseR) = _
    congr 1
    · ext <;> simp only [Pt.lerp, exStart] <;> ring
    · simp [exStart]
  rw [e]
  refine ex_acceptable_safe _ _ _ ?_ ?_ ?_
  · constructor <;> dsimp only <;> linarith
  · norm_num
  · have := hrep (r / 1.5) (by positivity) (by rw [div_lt_one (by norm_num)]; linarith)
    simp only [reduceCtorEq, if_false] at this
    rwa [mul_div_cancel₀ _ (by norm_num : (1.5 : ℝ) ≠ 0)] at this

private theorem ex_root [DecidableEq PoseR] [Inhabited PoseR] (v : Validator) :
    Tree.getNearestNode (se2Setup v).knn ((Tree.new : Tree PoseR).clear.createRootNode exStart).1 ⟨⟨-3.5, 0⟩, 0⟩ = some 0 ∧
    ((Tree.new : Tree PoseR).clear.createRootNode exStart).1.state 0 = exStart := by
  have hf : Tree.find ((Tree.new : Tree PoseR).clear.createRootNode exStart).1 exStart = some 0 := by
    simp [Tree.find, Tree.createRootNode, Tree.new, Tree.clear, Tree.dropRoot, Heap.empty, Tree.insertMap]
  constructor
  · show (List.argmin (fun p : PoseR => ((-3.5 : ℝ) - p.position.x) ^ 2 + ((0 : ℝ) - p.position.y) ^ 2) [exStart]).bind _ = _
    rw [List.argmin_singleton]
    exact hf
  · simp [Tree.createRootNode, Tree.new, Tree.clear, Tree.dropRoot, Heap.empty, Tree.insertMap]

private theorem ex_finds [DecidableEq PoseR] [Inhabited PoseR] (v : Validator)
    (h : ∃ r, v.isPathValid (⟨exStart, ⟨⟨-4, 0⟩, 0⟩, 1⟩ : PathSE2).toAny = some (true, r)) :
    ∃ r, rrtSearchPath (se2Setup v) Tree.new exStart = some r ∧ r.success = true := by
  obtain ⟨r, hr, _⟩ := C26_rrt_bounded (se2Setup v) se2KNN_laws Tree.new .start exStart
  refine ⟨r, hr, ?_⟩
  obtain ⟨hn, hst⟩ := ex_root v
  have h' : rrtLoop (se2Setup v) 0 ((Tree.new : Tree PoseR).clear.createRootNode exStart).1 = some r := hr
  rw [rrtLoop, if_neg (by simp), if_neg (by
    simp [Tree.size, Tree.createRootNode, Tree.new, Tree.clear, Tree.insertMap, se2Setup])] at h'
  have hv : (se2Setup v).valid (⟨exStart, ⟨⟨-4, 0⟩, 0⟩, 1⟩ : PathSE2) = true := by
    simpa [se2Setup] using h
  rw [show (se2Setup v).sample 0 = ⟨⟨-3.5, 0⟩, 0⟩ from rfl, hn] at h'
  dsimp only at h'
  rw [hst, show (se2Setup v).steering = se2Steering from rfl, show (se2Setup v).maxConnectionDistance = 1 from rfl,
    ex_steer, hv] at h'
  simp only [show (se2Setup v).isSolution _ = true from rfl, Bool.not_true, Bool.false_eq_true, if_false, if_true] at h'
  split at h'
  · cases h'
  · cases h'; rfl

private theorem ex_finds_star [DecidableEq PoseR] [Inhabited PoseR] (v : Validator)
    (h : ∃ r, v.isPathValid (⟨exStart, ⟨⟨-4, 0⟩, 0⟩, 1⟩ : PathSE2).toAny = some (true, r)) :
    ∃ r, rrtStarSearchPath (se2Setup v) (fun _ => 1) Tree.new exStart = some r ∧ r.success = true := by
  obtain ⟨r, hr, _⟩ := C26_rrtStar_bounded (se2Setup v) se2KNN_laws (fun _ => 1) Tree.new .start exStart
  refine ⟨r, hr, ?_⟩
  obtain ⟨hn, hst⟩ := ex_root v
  have h' : rrtStarLoop (se2Setup v) (fun _ => 1) 0
    ⟨((Tree.new : Tree PoseR).clear.createRootNode exStart).1, fun _ => some 0⟩ = some r := hr
  rw [rrtStarLoop, if_neg (by simp), if_neg (by
    simp [Tree.size, Tree.createRootNode, Tree.new, Tree.clear, Tree.insertMap, se2Setup])] at h'
  have hv : (se2Setup v).valid (⟨exStart, ⟨⟨-4, 0⟩, 0⟩, 1⟩ : PathSE2) = true := by
    simpa [se2Setup] using h
  unfold rrtStarStep at h'
  rw [show (se2Setup v).sample 0 = ⟨⟨-3.5, 0⟩, 0⟩ from rfl, hn] at h'
  dsimp only at h'
  rw [hst, show (se2Setup v).steering = se2Steering from rfl, show (se2Setup v).maxConnectionDistance = 1 from rfl,
    ex_steer, hv] at h'
  simp only [Bool.not_true, Bool.false_eq_true, if_false] at h'
  split at h'
  · cases h'
  · rename_i heq
    split at heq <;> cases heq
  · simp only [show (se2Setup v).isSolution _ = true from rfl, if_true] at h'
    cases h'; rfl

/-- Non-vacuity of `C184_rrt_keeps_clear`, `C184_rrtStar_keeps_clear` and `C184_rrt_gives_walk`: with the box registered, the map updated and a safe
radius of six metres, this RRT finds a path, the guaranteed clearance is positive and the start is outside the box. -/
example [DecidableEq PoseR] [Inhabited PoseR] :
    ∃ (v : Validator) (ops : List MapState.Op) (r : RRTResult PoseR) (D : ℝ), ChecksWith (se2Setup v) v ∧
      TreeReachable (se2Setup v).knn (Tree.new : Tree PoseR) ∧
      rrtSearchPath (se2Setup v) Tree.new exStart = some r ∧ r.success = true ∧
      (∃ r', rrtStarSearchPath (se2Setup v) (fun _ => 1) Tree.new exStart = some r' ∧ r'.success = true) ∧
      (∀ pts target a k, (se2Setup v).knn.nearest pts target = some a →
        (se2Setup v).valid ((se2Setup v).steering.steerTowards a target (se2Setup v).maxConnectionDistance) = true →
        a ∈ (se2Setup v).knn.knn pts ((se2Setup v).steering.final
          ((se2Setup v).steering.steerTowards a target (se2Setup v).maxConnectionDistance)) k) ∧
      SeesMap v (ops ++ [.update]) ∧ Tidy ops ∧ registered (obstacleOps ops) 0 = true ∧ 0 < v.map.resolution ∧
      (∀ o, registered (obstacleOps ops) o = true →
        Shape.gridCells v.map exBoxPose exBox = some (covers (obstacleOps ops) o) ∧
        ∀ u, IsCorner exBoxPose exBox u → Inside v.map.size (v.map.worldPositionToGridCell u false)) ∧
      (∀ p, v.map.isInsidePos p = true → reportedDistance v p ≤ D) ∧
      0 < guaranteedClearance v D ∧ TurnsLeft (placedCorners exBoxPose exBox) ∧
      ¬ InsideConvex (placedCorners exBoxPose exBox) exStart.position ∧
      v.map.isInsidePos exStart.position = true := by
  obtain ⟨dm, ops, D, hsz, hrep, sees, htidy, hreg, hcells, hD, hclear⟩ := exBox_setting
  have hsame : SameSize (exSix dm) := (onConfigured dm 6 exPlanner.gvd exPlanner.heuristic 1 hsz).size
  obtain ⟨r, hr, hr'⟩ := ex_finds (exSix dm) ⟨1, ex_valid dm hsame hrep⟩
  refine ⟨exSix dm, ops, r, D,
    ⟨rfl, by norm_num [se2Setup], fun p hp => by simpa [se2Setup] using hp, hsame, by norm_num [exSix, exValidator]⟩, .start,
    hr, hr', ex_finds_star _ ⟨1, ex_valid dm hsame hrep⟩, fun pts _ a _ ha _ => se2KNN_laws.mem pts _ a ha, sees, htidy, hreg, by norm_num [exSix, exValidator, exMap], hcells, hD, hclear,
    (C93_library_shapes exBoxPose).1 1 1 one_pos one_pos, exBox_outside, ?_⟩
  refine (C29_inside_exact exMap (by norm_num [exMap]) (by simp [exMap]) (by simp [exMap]) _).mpr ?_
  norm_num [exMap, exStart]

end PathPlanning
