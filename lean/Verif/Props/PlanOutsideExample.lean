import Verif.Props.PlanOutside

/-!
# C93: a planner that keeps outside a box
-/

namespace PathPlanning
open Real Spec HybridAStar HybridAStar.Propagator Validator

/-- A box of one metre centred at (4, 0). -/
noncomputable def exBoxPose : PoseR := ⟨⟨4, 0⟩, 0⟩
noncomputable def exBox : Shape := Shape.rectangle 1 1

theorem exBox_corners (u : Pt) (h : IsCorner exBoxPose exBox u) :
    (3.5 ≤ u.x ∧ u.x ≤ 4.5) ∧ (-0.5 ≤ u.y ∧ u.y ≤ 0.5) := by
  unfold exBox Shape.rectangle at h
  cases h with
  | corner h =>
    simp only [List.mem_cons, List.not_mem_nil, or_false] at h
    rcases h with rfl | rfl | rfl | rfl <;> norm_num [Shape.place, exBoxPose]

theorem exBox_inside (u : Pt) (h : IsCorner exBoxPose exBox u) :
    Inside exMap.size (exMap.worldPositionToGridCell u false) := by
  obtain ⟨hx, hy⟩ := exBox_corners u h
  have key : ∀ x : ℝ, -0.5 ≤ x → x ≤ 4.5 → 0 ≤ truncInt ((x - -5) / 1) ∧ truncInt ((x - -5) / 1) < 10 := by
    intro x h1 h2
    unfold truncInt
    rw [if_pos (by norm_num; linarith)]
    constructor
    · exact Int.floor_nonneg.mpr (by norm_num; linarith)
    · rw [Int.floor_lt]; push_cast; norm_num; linarith
  obtain ⟨a1, a2⟩ := key u.x (by linarith) hx.2
  obtain ⟨b1, b2⟩ := key u.y hy.1 (by linarith)
  exact ⟨a1, a2, b1, b2⟩

/-- The cells of the box. -/
theorem exBox_cells : ∃ cells, Shape.gridCells exMap exBoxPose exBox = some cells ∧ cells ≠ [] ∧
    (∀ c ∈ cells, InRect 10 10 c) ∧ ∀ c ∈ cells, 7 ≤ c.row := by
  obtain ⟨cells, hcells, hcorner, hin, -⟩ := C33_polygon_boundary_closed exMap exBoxPose ⟨1 / 2, 1 / 2⟩
    [⟨-(1 / 2), 1 / 2⟩, ⟨-(1 / 2), -(1 / 2)⟩, ⟨1 / 2, -(1 / 2)⟩] (fun u hu => exBox_inside _ (.corner hu))
  have hout : ∀ p, OnOutline exBoxPose exBox p → 3.5 ≤ p.x := by
    intro p hp
    unfold exBox Shape.rectangle at hp
    cases hp with
    | @side _ a b t he h0 h1 =>
      obtain ⟨i, ha, hb⟩ := he
      obtain ⟨u, hu, rfl⟩ := List.mem_map.mp (List.mem_of_getElem? ha)
      obtain ⟨w, hw, rfl⟩ := List.mem_map.mp (List.mem_of_getElem? hb)
      obtain ⟨⟨x1, -⟩, -⟩ := exBox_corners _ (.corner hu)
      obtain ⟨⟨x2, -⟩, -⟩ := exBox_corners _ (.corner hw)
      dsimp only
      nlinarith
  have hs13 : √13 < 3.61 := by rw [Real.sqrt_lt' (by norm_num)]; norm_num
  refine ⟨cells, hcells, List.ne_nil_of_mem (hcorner _ (List.mem_cons_self ..)), fun c hc => hin c hc, fun c hc => ?_⟩
  obtain ⟨p, hp, hd⟩ := C91_cells_near_outline exMap (by norm_num [exMap]) exBoxPose exBox cells hcells c hc
  have px := hout p hp
  have hx := (abs_le_euclid p (exMap.gridCellToWorldPosition c)).1
  rw [show exMap.resolution = 1 from rfl] at hd
  have h1 := (abs_le.mp (hx.trans hd)).1
  simp only [OccMap.gridCellToWorldPosition, OccMap.gridCellToGridPosition, Pt.add_x, exMap] at h1
  have h2 : (6 : ℝ) < c.row := by norm_num at px hs13 h1; linarith
  have : 6 < c.row := by exact_mod_cast h2
  omega

/-- With the cells of the box covered, the motion ahead is clear by six metres. -/
theorem box_clear_ahead {ops : List MapState.Op} {st : MapState} {cells : List Cell}
    (r : MapState.Run (.new 10 10) (ops ++ [.update]) st) (ht : Tidy ops)
    (hk : ∀ o, MapState.Op.obstacle (.remove o) ∉ ops) (hcov : ∀ c, Covered ops c ↔ c ∈ cells) (hne : cells ≠ [])
    (hfar : ∀ c ∈ cells, 7 ≤ c.row) : ClearAhead st.dist.core 6 := by
  obtain ⟨c0, hc0⟩ := List.exists_mem_of_ne_nil cells hne
  intro x h0 h1
  have hx : (-5 + (if Direction.forward = .backward then -(1.5 * x) else 1.5 * x)) = -5 + 1.5 * x := by simp
  rw [hx]
  have hins : exMap.isInsidePos ⟨-5 + 1.5 * x, 0⟩ = true :=
    (C29_inside_exact exMap (by norm_num [exMap]) (by simp [exMap]) (by simp [exMap]) _).mpr (by
      simp only [exMap]
      push_cast
      refine ⟨⟨?_, ?_⟩, ?_, ?_⟩ <;> linarith)
  obtain ⟨cell, hcell⟩ : ∃ cell, cell = exMap.worldPositionToGridCell ⟨-5 + 1.5 * x, 0⟩ true := ⟨_, rfl⟩
  have hrow : cell.row ≤ 1 := by
    have h : exMap.isInsideCell cell = true := by rw [hcell]; exact hins
    obtain ⟨un, hun⟩ : ∃ un, un = exMap.worldPositionToGridCell ⟨-5 + 1.5 * x, 0⟩ false := ⟨_, rfl⟩
    have hb : cell = if exMap.isInsideCell un then un else ⟨-1, -1⟩ := by rw [hcell, hun]; rfl
    by_cases hi : exMap.isInsideCell un = true
    · rw [hb, if_pos hi, hun]
      show truncInt ((-5 + 1.5 * x - -5) / 1) ≤ 1
      unfold truncInt
      rw [if_pos (by norm_num; linarith)]
      refine Int.lt_add_one_iff.mp (Int.floor_lt.mpr ?_)
      push_cast
      norm_num
      linarith
    · rw [hb, if_neg hi] at h
      simp [OccMap.isInsideCell] at h
  have hrect : InRect 10 10 cell := by rw [hcell]; exact inRect_of_inside (m := exMap) hins
  obtain ⟨o, ho, e, he, hle⟩ := C90_exact_without_removal r ht hk ⟨c0, (hcov c0).mpr hc0⟩ cell hrect
  have hob := hfar o ((hcov o).mp ho)
  show 6 ≤ worldDistance 1 (st.dist.core.dist (exMap.worldPositionToGridCell ⟨-5 + 1.5 * x, 0⟩ true))
  unfold worldDistance
  rw [← hcell, he, mul_one]
  refine Real.le_sqrt_of_sq_le ?_
  show (6 : ℝ) ^ 2 ≤ (((e : Nat) : Int) : ℝ)
  rw [hle]
  have : (36 : Int) ≤ sqDist o cell := by
    unfold sqDist
    nlinarith [sq_nonneg (o.col - cell.col)]
  have : ((36 : Int) : ℝ) ≤ (sqDist o cell : ℝ) := by exact_mod_cast this
  norm_num at this ⊢
  exact this

/-- The validator of the example, with a safe radius of six metres. -/
noncomputable def exSix (dm : DistMap) : Validator := { exValidator dm with minSafe := 6 }

/-- The box is registered and the map is updated: the motion ahead is clear and the guaranteed clearance is positive. -/
theorem exBox_setting : ∃ (dm : DistMap) (ops : List MapState.Op) (D : ℝ), (dm.rows = 10 ∧ dm.columns = 10) ∧
    ClearAhead dm 6 ∧ SeesMap (exSix dm) (ops ++ [.update]) ∧ Tidy ops ∧ registered (obstacleOps ops) 0 = true ∧
    (∀ o, registered (obstacleOps ops) o = true →
      Shape.gridCells exMap exBoxPose exBox = some (covers (obstacleOps ops) o) ∧
      ∀ u, IsCorner exBoxPose exBox u → Inside exMap.size (exMap.worldPositionToGridCell u false)) ∧
    (∀ p, exMap.isInsidePos p = true → reportedDistance (exSix dm) p ≤ D) ∧
    0 < guaranteedClearance (exSix dm) D := by
  obtain ⟨cells, hcells, hne, hin, hfar⟩ := exBox_cells
  obtain ⟨st, r⟩ := C90_histories_execute (rows := 10) (columns := 10) (exOneObstacle cells ++ [.update]) (by
    intro o cells' hm c hc
    simp [exOneObstacle] at hm
    obtain ⟨-, rfl⟩ := hm
    exact hin c hc) (by simp [exOneObstacle])
  obtain ⟨c0, hc0⟩ := List.exists_mem_of_ne_nil cells hne
  obtain ⟨dm, hdm⟩ : ∃ dm, dm = st.dist.core := ⟨_, rfl⟩
  have hsz : dm.rows = 10 ∧ dm.columns = 10 := by
    obtain ⟨dops, inv⟩ := MapState.inv_run r
    rw [hdm]
    exact DistMap.run_size (C34_linked_maps inv.dist).1
  have hrep : ClearAhead dm 6 := by
    rw [hdm]
    exact box_clear_ahead r (exOne_tidy cells) (by simp [exOneObstacle]) (exOne_covered cells) hne hfar
  have sees : SeesMap (exSix dm) (exOneObstacle cells ++ [.update]) := ⟨st, r, hdm⟩
  refine ⟨dm, exOneObstacle cells, _, hsz, hrep, sees, exOne_tidy cells, rfl, ?_,
    fun p hp => C92_reported_distance_bounded _ _ sees (exOne_tidy cells)
      (by norm_num [exSix, exValidator, exMap]) c0 ((exOne_covered cells c0).mpr hc0) (hin c0 hc0) p hp, ?_⟩
  · intro o ho
    have : o = 0 := by
      by_contra hne
      simp [registered, obstacleOps, exOneObstacle] at ho
      omega
    subst this
    rw [exOne_covers]
    exact ⟨hcells, exBox_inside⟩
  · have s2 : √2 < 1.4143 := by rw [Real.sqrt_lt' (by norm_num)]; norm_num
    have s2' : 1.414 < √2 := by rw [Real.lt_sqrt (by norm_num)]; norm_num
    have hk : √(4 - 2 * √2) < 1.0827 := by rw [Real.sqrt_lt' (by norm_num)]; norm_num; linarith
    have hk1 : 1 < √(4 - 2 * √2) := by rw [Real.lt_sqrt (by norm_num)]; norm_num; linarith
    obtain ⟨k, hke⟩ : ∃ k, k = √(4 - 2 * √2) := ⟨_, rfl⟩
    have hrt : √((((10 - 1) ^ 2 + (10 - 1) ^ 2 : Int)) : ℝ) < 13 := by
      rw [Real.sqrt_lt' (by norm_num)]; norm_num
    have hrt0 := Real.sqrt_nonneg ((((10 - 1) ^ 2 + (10 - 1) ^ 2 : Int)) : ℝ)
    show 0 < min (6 - (1 - 1 / √(4 - 2 * √2)) * (√(4 - 2 * √2) * (√((((10 - 1) ^ 2 + (10 - 1) ^ 2 : Int)) : ℝ) * 1)))
      (6 / √(4 - 2 * √2) - 1 / 10) - (√2 + 5 / 2) * 1
    obtain ⟨w, hw⟩ : ∃ w, w = √((((10 - 1) ^ 2 + (10 - 1) ^ 2 : Int)) : ℝ) := ⟨_, rfl⟩
    rw [← hke] at hk hk1 ⊢
    rw [← hw] at hrt hrt0 ⊢
    have hkp : k ≠ 0 := by linarith
    have e1 : (1 - 1 / k) * (k * (w * 1)) = (k - 1) * w := by field_simp
    rw [e1]
    have h1 : (4.5 : ℝ) < 6 - (k - 1) * w := by nlinarith
    have h2 : 5 < 6 / k := by rw [lt_div_iff₀ (by linarith)]; nlinarith
    have : (4.5 : ℝ) < min (6 - (k - 1) * w) (6 / k - 1 / 10) := lt_min h1 (by norm_num; linarith)
    linarith

/-- The start is outside the box. -/
theorem exBox_outside : ¬ InsideConvex (placedCorners exBoxPose exBox) exStart.position := by
  intro h
  have := h _ _ ⟨1, rfl, rfl⟩
  revert this
  norm_num [leftOf, Shape.place, exBoxPose, exStart, exBox, Shape.rectangle, placedCorners]

/-- Non-vacuity of `C93_planned_path_stays_outside`: with the box registered, the map updated and a safe radius of six
metres, this planner finds a path, the guaranteed clearance is positive and the start is outside the box. The start is
accepted and the goal is in the map, as C183 asks. -/
example (random : Nat → ℝ) (hr : ∀ k, 0.001 ≤ random k) (sp : SmoothParam) (ob ed : Cell → Cell) :
    ∃ (e : Propagator) (nbrs : Nat → State → List (State × Action × WithTop ℝ)) (ops : List MapState.Op)
      (path : List PoseR) (D : ℝ), Configured e ∧ e.Answers random nbrs ∧
      searchPath e nbrs 0.1 exStart (smoothPoses (sp.terms e.validator.map ob ed) 100 e.validator.isStateValid) [] 2
        exStart = some (.success, path) ∧
      SeesMap e.validator (ops ++ [.update]) ∧ Tidy ops ∧ registered (obstacleOps ops) 0 = true ∧
      (∀ o, registered (obstacleOps ops) o = true →
        Shape.gridCells e.validator.map exBoxPose exBox = some (covers (obstacleOps ops) o) ∧
        ∀ u, IsCorner exBoxPose exBox u →
          Inside e.validator.map.size (e.validator.map.worldPositionToGridCell u false)) ∧
      (∀ p, e.validator.map.isInsidePos p = true → reportedDistance e.validator p ≤ D) ∧
      0 < guaranteedClearance e.validator D ∧ TurnsLeft (placedCorners exBoxPose exBox) ∧
      ¬ InsideConvex (placedCorners exBoxPose exBox) exStart.position ∧
      1e-3 < e.validator.map.resolution ∧ e.validator.isStateValid exStart = some true ∧
      e.validator.map.isInsidePos e.goal.position = true := by
  obtain ⟨dm, ops, D, hsz, hrep, sees, htidy, hreg, hcells, hD, hclear⟩ := exBox_setting
  obtain ⟨nbrs, h1, s, h2, -⟩ := on_search dm 6 exPlanner.gvd exPlanner.heuristic 1 hsz rfl ⟨rfl, rfl⟩ le_rfl hrep random hr
  obtain ⟨states, idx, sst, smoothed, path, -, -, h3, -⟩ := C86_smoothed_or_samples (exPlannerOn dm 6)
    (onConfigured dm 6 _ _ 1 hsz) random nbrs h1 0.1 (by norm_num) exStart sp ob ed 100 [] 2 exStart ex_diff s h2
  refine ⟨exPlannerOn dm 6, nbrs, ops, path, D, onConfigured dm 6 _ _ 1 hsz, h1, h3, sees, htidy, hreg, hcells, hD, hclear,
    (C93_library_shapes exBoxPose).1 1 1 one_pos one_pos, exBox_outside,
    by norm_num [exPlannerOn, exPlannerOf, exValidator, exMap], ?_, ?_⟩
  · obtain ⟨b, hb, hb'⟩ := C53_state_valid_iff (exPlannerOn dm 6).validator (onConfigured dm 6 _ _ 1 hsz).size exStart
    rw [hb, hb'.mpr]
    have := hrep 0 le_rfl one_pos
    refine ex_acceptable_safe dm 6 exStart (by norm_num [exStart]) (by norm_num [exStart]) ?_
    simpa [exStart] using this
  · refine (C29_inside_exact exMap (by norm_num [exMap]) (by simp [exMap]) (by simp [exMap]) _).mpr ?_
    norm_num [exMap, exPlannerOn, exPlannerOf, exPlanner]

end PathPlanning
