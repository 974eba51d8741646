import Verif.Props.PlanClear

/-!
# C92: a planner on a map with an obstacle
-/

namespace PathPlanning
open Real Spec HybridAStar HybridAStar.Propagator Validator

/-- The motion from the start is clear by `sf`. -/
def ClearAhead (dm : DistMap) (sf : ℝ) : Prop := ∀ r : ℝ, 0 ≤ r → r < 1 → sf ≤ reportedDistance (exValidator dm)
    (⟨⟨-5 + (if Direction.forward = .backward then -(1.5 * r) else 1.5 * r), 0⟩, 0⟩ : PoseR).position

/-- `exPlanner` with a distance map, a safe radius, a Voronoi diagram, a heuristic and a cost per metre. -/
noncomputable def exPlannerOf (dm : DistMap) (sf : ℝ) (g : GVD) (hh : PoseR → WithTop ℝ) (k : ℝ) : Propagator :=
  { exPlanner with
    param := { numGeneratedMotion := 0, forwardCostMultiplier := k, reverseCostMultiplier := k }
    validator := { exValidator dm with minSafe := sf }
    gvd := g
    heuristic := hh }

/-- `exPlanner` with a distance map and a safe radius. -/
noncomputable def exPlannerOn (dm : DistMap) (sf : ℝ) : Propagator :=
  exPlannerOf dm sf exPlanner.gvd exPlanner.heuristic 1

theorem ex_acceptable_safe (d : DistMap) (sf : ℝ) (s : PoseR) (hx : -5 ≤ s.position.x ∧ s.position.x < 5)
    (hy : -5 ≤ s.position.y ∧ s.position.y < 5)
    (hd : sf ≤ reportedDistance (exValidator d) s.position) :
    Acceptable { exValidator d with minSafe := sf } s := by
  have hw := C41_range s.theta
  have hp := Real.pi_le_four
  refine ⟨?_, ?_, ?_, ?_, ?_, ?_, ?_, hd⟩
  · simpa [exValidator, exSpace, exMap] using hx.1
  · simpa [exValidator, exSpace, exMap] using hx.2.le
  · simpa [exValidator, exSpace, exMap] using hy.1
  · simpa [exValidator, exSpace, exMap] using hy.2.le
  · show -4 ≤ _; linarith
  · show _ ≤ (4 : ℝ); linarith
  · refine (C29_inside_exact exMap (by norm_num [exMap]) (by simp [exMap]) (by simp [exMap]) _).mpr ?_
    norm_num [exMap]
    refine ⟨⟨?_, ?_⟩, ?_, ?_⟩ <;> linarith [hx.1, hx.2, hy.1, hy.2]

theorem onConfigured (dm : DistMap) (sf : ℝ) (g : GVD) (hh : PoseR → WithTop ℝ) (k : ℝ) (hsz : dm.rows = 10 ∧ dm.columns = 10) : Configured (exPlannerOf dm sf g hh k) :=
  ⟨hsz, by norm_num [exPlannerOf, exValidator], by norm_num [exPlannerOf, exPlanner],
    by norm_num [exPlannerOf, exPlanner]⟩

theorem on_interpolate (dm : DistMap) (sf : ℝ) (g : GVD) (hh : PoseR → WithTop ℝ) (k : ℝ) (dir : Direction) (r : ℝ) :
    ((exPlannerOf dm sf g hh k).steerPath (stateFromPose (exPlannerOf dm sf g hh k).param exStart) 0 dir).interpolate r =
      ⟨⟨-5 + (if dir = .backward then -(1.5 * r) else 1.5 * r), 0⟩, 0⟩ := by
  show Bicycle.constantSteer ⟨_, 0⟩ exStart 0 (1 * 1.5 * r) dir = _
  rw [straight_steer _ _ rfl, one_mul]
  rfl

theorem on_forward (dm : DistMap) (sf : ℝ) (g : GVD) (hh : PoseR → WithTop ℝ) (k : ℝ) (hsz : dm.rows = 10 ∧ dm.columns = 10) (hrep : ClearAhead dm sf) : (exPlannerOf dm sf g hh k).validator.isPathValid
    ((exPlannerOf dm sf g hh k).steerPath (stateFromPose (exPlannerOf dm sf g hh k).param exStart) 0 .forward).any = some (true, 1) := by
  refine not_rejected (onConfigured dm sf g hh k hsz).size (onConfigured dm sf g hh k hsz).step ?_ fun r h0 h1 => ?_
  · show (0 : ℝ) < 1 * 1.5
    norm_num
  · show Acceptable (exPlannerOf dm sf g hh k).validator
      (((exPlannerOf dm sf g hh k).steerPath (stateFromPose (exPlannerOf dm sf g hh k).param exStart) 0 .forward).interpolate r)
    rw [(on_interpolate dm sf g hh k)]
    refine ex_acceptable_safe _ _ _ ?_ ?_ (hrep r h0 h1)
    · simp only [reduceCtorEq, if_false]
      constructor <;> linarith
    · norm_num

theorem on_backward (dm : DistMap) (sf : ℝ) (g : GVD) (hh : PoseR → WithTop ℝ) (k : ℝ) (hsz : dm.rows = 10 ∧ dm.columns = 10) : (exPlannerOf dm sf g hh k).validator.isPathValid
    ((exPlannerOf dm sf g hh k).steerPath (stateFromPose (exPlannerOf dm sf g hh k).param exStart) 0 .backward).any = some (false, 0) := by
  obtain ⟨a, ha⟩ : ∃ a, a = (exPlannerOf dm sf g hh k).steerPath (stateFromPose (exPlannerOf dm sf g hh k).param exStart) 0 .backward := ⟨_, rfl⟩
  have hint : ∀ r, a.interpolate r = ⟨⟨-5 - 1.5 * r, 0⟩, 0⟩ := by
    intro r; rw [ha, (on_interpolate dm sf g hh k)]; simp only [if_true]; congr 2
  have hlen : a.any.length = 1.5 := by rw [ha]; show (1 : ℝ) * 1.5 = 1.5; norm_num
  have hpos : 0 < a.any.length := by rw [hlen]; norm_num
  have hacc : ∀ r, Acceptable (exPlannerOf dm sf g hh k).validator (a.any.interpolate r) → r ≤ 0 := by
    intro r h
    have h1 := h.x_ge
    have h2 : (a.any.interpolate r).position.x = -5 - 1.5 * r := by
      show (a.interpolate r).position.x = _
      rw [hint]
    rw [h2] at h1
    simp only [exPlannerOf, exValidator, exSpace, exMap] at h1
    norm_num at h1
    linarith
  rw [← ha]
  obtain ⟨⟨b, r⟩, hr⟩ := C53_terminates (exPlannerOf dm sf g hh k).validator (onConfigured dm sf g hh k hsz).size
    (onConfigured dm sf g hh k hsz).step a.any
  cases b with
  | true =>
    exfalso
    obtain ⟨-, -, h⟩ := C53_accepted_partial _ (onConfigured dm sf g hh k hsz).size (onConfigured dm sf g hh k hsz).step _ hpos r hr
    obtain ⟨t, h1, h2, h3, h4⟩ := h 1 zero_le_one (by rw [hlen]; norm_num)
    have h5 := hacc _ h3
    rw [hlen] at h5
    have h6 : t = 0 := le_antisymm (by
      by_contra hc
      push Not at hc
      have : 0 < t / 1.5 := by positivity
      linarith) h1
    subst h6
    rw [zero_div] at h4
    have h7 : freeDistance (exPlannerOf dm sf g hh k).validator (a.any.interpolate 0) ≤ 0 := by
      refine (min_le_right _ _).trans ((min_le_left _ _).trans ((min_le_left _ _).trans ?_))
      show (a.interpolate 0).position.x - (-5) ≤ 0
      rw [hint]
      norm_num
    have h8 : (exPlannerOf dm sf g hh k).validator.minStep = 1 / 10 := rfl
    rw [h8, max_eq_right (by linarith)] at h4
    norm_num at h4
  | false =>
    obtain ⟨bad, h0, h1, h2, h3, h4, h5⟩ :=
      C53_rejected _ (onConfigured dm sf g hh k hsz).size (onConfigured dm sf g hh k hsz).step _ hpos r hr
    rcases h4 with ⟨-, rfl⟩ | ⟨h4, -⟩
    · rw [hr]
    · rw [hr, le_antisymm (hacc r h4) h0]

theorem on_neighbors (dm : DistMap) (sf : ℝ) (g : GVD) (hh : PoseR → WithTop ℝ) (k : ℝ)
    (hsz : dm.rows = 10 ∧ dm.columns = 10) (hgm : g.map = exMap) (hz : g.maps.core.rows = 10 ∧ g.maps.core.columns = 10)
    (hh100 : ((100 : ℝ) : WithTop ℝ) ≤ hh exStart) (hrep : ClearAhead dm sf)
    (random : ℝ) (hr : 0.001 ≤ random) : ∃ c,
    (exPlannerOf dm sf g hh k).neighborStates random (stateFromPose (exPlannerOf dm sf g hh k).param exStart) =
      some [(stateFromPath (exPlannerOf dm sf g hh k).param ((exPlannerOf dm sf g hh k).steerPath (stateFromPose (exPlannerOf dm sf g hh k).param exStart) 0 .forward),
        (exPlannerOf dm sf g hh k).steerPath (stateFromPose (exPlannerOf dm sf g hh k).param exStart) 0 .forward, c)] := by
  obtain ⟨c, hc⟩ := ex_cost_of (exPlannerOf dm sf g hh k) rfl hgm hz ((exPlannerOf dm sf g hh k).steerPath (stateFromPose (exPlannerOf dm sf g hh k).param exStart) 0 .forward)
    (by show (1 : ℝ) * 1.5 ≤ 2; norm_num) (by
      intro r h0 h1
      rw [(on_interpolate dm sf g hh k)]
      have h : exMap.isInsidePos ⟨-5 + 1.5 * r, 0⟩ = true :=
        (C29_inside_exact exMap (by norm_num [exMap]) (by simp [exMap]) (by simp [exMap]) _).mpr (by
          simp only [exMap]
          push_cast
          refine ⟨⟨?_, ?_⟩, ?_, ?_⟩ <;> linarith)
      have hx : -5 + (if Direction.forward = .backward then -(1.5 * r) else 1.5 * r) = -5 + 1.5 * r := by simp
      rw [hx]
      unfold OccMap.isInsidePos at h
      obtain ⟨cell, hcell⟩ : ∃ cell, cell = exMap.worldPositionToGridCell ⟨-5 + 1.5 * r, 0⟩ false := ⟨_, rfl⟩
      have hb : exMap.worldPositionToGridCell ⟨-5 + 1.5 * r, 0⟩ true =
          if exMap.isInsideCell cell then cell else ⟨-1, -1⟩ := by rw [hcell]; rfl
      rw [hb] at h
      show exMap.isInsideCell (exMap.worldPositionToGridCell ⟨-5 + 1.5 * r, 0⟩ false) = true
      rw [← hcell]
      by_contra hc
      rw [if_neg hc] at h
      simp [OccMap.isInsideCell] at h)
  have hf : (exPlannerOf dm sf g hh k).steerChild (stateFromPose (exPlannerOf dm sf g hh k).param exStart) 0 .forward =
      some (some (stateFromPath (exPlannerOf dm sf g hh k).param
        ((exPlannerOf dm sf g hh k).steerPath (stateFromPose (exPlannerOf dm sf g hh k).param exStart) 0 .forward),
        (exPlannerOf dm sf g hh k).steerPath (stateFromPose (exPlannerOf dm sf g hh k).param exStart) 0 .forward,
        ((k * ((exPlannerOf dm sf g hh k).steerPath (stateFromPose (exPlannerOf dm sf g hh k).param exStart) 0 .forward).length + 0 + c : ℝ)
          : WithTop ℝ))) := by
    unfold Propagator.steerChild
    dsimp only
    rw [(on_forward dm sf g hh k hsz hrep)]
    simp only [Option.bind_eq_bind, Option.bind_some, if_true, Propagator.steerCost, hc]
    rfl
  have hb : (exPlannerOf dm sf g hh k).steerChild (stateFromPose (exPlannerOf dm sf g hh k).param exStart) 0 .backward = some none := by
    unfold Propagator.steerChild
    dsimp only
    rw [(on_backward dm sf g hh k hsz)]
    simp only [Option.bind_eq_bind, Option.bind_some, Bool.false_eq_true, if_false]
    rw [if_pos]
    refine decide_eq_true ?_
    show discretizePose _ exStart = discretizePose _ (Action.final _)
    congr 1
    show exStart = ((exPlannerOf dm sf g hh k).steerPath (stateFromPose (exPlannerOf dm sf g hh k).param exStart) 0 .backward).interpolate 0
    rw [(on_interpolate dm sf g hh k)]
    simp [exStart]
  refine ⟨((k * ((exPlannerOf dm sf g hh k).steerPath (stateFromPose (exPlannerOf dm sf g hh k).param exStart) 0 .forward).length + 0 + c : ℝ)
          : WithTop ℝ), ?_⟩
  unfold Propagator.neighborStates
  rw [show deltas (exPlannerOf dm sf g hh k).param = [0] from ex_deltas]
  classical
  have ht : tryReedsShepp ((exPlannerOf dm sf g hh k).heuristic (stateFromPose (exPlannerOf dm sf g hh k).param exStart).continuousPose) random
      = false := by
    show tryReedsShepp (hh exStart) random = false
    cases hx : hh exStart with
    | top =>
      show decide (random < 0) = false
      exact decide_eq_false (by norm_num at hr; linarith)
    | coe y =>
      rw [hx] at hh100
      have hy : 100 ≤ y := WithTop.coe_le_coe.mp hh100
      show (decide (y < 10) || decide (random < 10 / (y * y))) = false
      have h1 : ¬ (y < 10) := by linarith
      have h2 : ¬ (random < 10 / (y * y)) := by
        rw [not_lt, div_le_iff₀ (by positivity)]
        norm_num at hr
        nlinarith
      simp [h1, h2]
  simp only [Propagator.steerChildren, hf, hb, ht, Option.bind_eq_bind, Option.bind_some, Bool.false_eq_true,
    if_false, Option.toList, List.append_nil]

/-- Non-vacuity of `C80_success`: this planner finds the path of one motion. -/
theorem on_search (dm : DistMap) (sf : ℝ) (g : GVD) (hh : PoseR → WithTop ℝ) (k : ℝ)
    (hsz : dm.rows = 10 ∧ dm.columns = 10) (hgm : g.map = exMap) (hz : g.maps.core.rows = 10 ∧ g.maps.core.columns = 10)
    (hh100 : ((100 : ℝ) : WithTop ℝ) ≤ hh exStart) (hrep : ClearAhead dm sf)
    (random : Nat → ℝ) (hr : ∀ k, 0.001 ≤ random k) : ∃ nbrs, (exPlannerOf dm sf g hh k).Answers random nbrs ∧
    ∃ s, AStar.searchPath ((exPlannerOf dm sf g hh k).problem nbrs) true 2 (stateFromPose (exPlannerOf dm sf g hh k).param exStart) =
      some (.success, s) ∧
    AStar.getActions s = some [some ((exPlannerOf dm sf g hh k).steerPath (stateFromPose (exPlannerOf dm sf g hh k).param exStart) 0 .forward)] := by
  refine ⟨fun i s => ((exPlannerOf dm sf g hh k).neighborStates (random i) s).getD [], fun _ _ => rfl, ?_⟩
  obtain ⟨c, hc⟩ := (on_neighbors dm sf g hh k hsz hgm hz hh100 hrep) (random 0) (hr 0)
  have hfin : ((exPlannerOf dm sf g hh k).steerPath (stateFromPose (exPlannerOf dm sf g hh k).param exStart) 0 .forward).final =
      ⟨⟨-7 / 2, 0⟩, 0⟩ := by
    show ((exPlannerOf dm sf g hh k).steerPath (stateFromPose (exPlannerOf dm sf g hh k).param exStart) 0 .forward).interpolate 1 = _
    rw [(on_interpolate dm sf g hh k)]
    simp only [reduceCtorEq, if_false]
    norm_num
  refine Exists.elim (search_two
    (P := (exPlannerOf dm sf g hh k).problem fun i s => ((exPlannerOf dm sf g hh k).neighborStates (random i) s).getD [])
    (init := stateFromPose (exPlannerOf dm sf g hh k).param exStart)
    (v := stateFromPath (exPlannerOf dm sf g hh k).param
      ((exPlannerOf dm sf g hh k).steerPath (stateFromPose (exPlannerOf dm sf g hh k).param exStart) 0 .forward))
    (a := (exPlannerOf dm sf g hh k).steerPath (stateFromPose (exPlannerOf dm sf g hh k).param exStart) 0 .forward) (c := c) equal_equiv
    ?_ (by show Option.getD _ _ = _; rw [hc]; rfl) ?_ ?_) fun s h => ⟨s, h.1, h.2.1⟩
  · exact ex_diff
  · rw [← Bool.not_eq_true]
    intro h
    have h := of_decide_eq_true h
    have h : discretizePose (exPlannerOf dm sf g hh k).param exStart = discretizePose (exPlannerOf dm sf g hh k).param (Action.final _) := h
    rw [hfin] at h
    have h := congrArg PoseI.x h
    have h : truncInt ((-5 : ℝ) / 1) = truncInt ((-7 / 2 : ℝ) / 1) := h
    unfold truncInt at h
    norm_num at h
  · refine (identicalPoses_iff _ _).mpr ?_
    show ((Action.final _).position - _).norm < _ ∧ |(Action.final _).theta - _| < _
    rw [hfin]
    have := Real.pi_pos
    have h0 : (⟨-7 / 2, 0⟩ - (exPlannerOf dm sf g hh k).goal.position : Pt) = ⟨0, 0⟩ := by ext <;> simp [exPlannerOf, exPlanner]
    constructor
    · rw [h0]; unfold Pt.norm; norm_num
    · simp only [exPlannerOf, exPlanner, sub_self, abs_zero]; positivity

/-- Non-vacuity of `C92_planned_path_keeps_clear`: with the triangle registered and the map updated, this planner finds
a path. -/
example (random : Nat → ℝ) (hr : ∀ k, 0.001 ≤ random k) (sp : SmoothParam) (ob ed : Cell → Cell) :
    ∃ (e : Propagator) (nbrs : Nat → State → List (State × Action × WithTop ℝ)) (ops : List MapState.Op)
      (path : List PoseR) (D : ℝ), Configured e ∧ e.Answers random nbrs ∧
      searchPath e nbrs 0.1 exStart (smoothPoses (sp.terms e.validator.map ob ed) 100 e.validator.isStateValid) [] 2
        exStart = some (.success, path) ∧
      SeesMap e.validator (ops ++ [.update]) ∧ Tidy ops ∧ registered (obstacleOps ops) 0 = true ∧
      (∀ o, registered (obstacleOps ops) o = true →
        Shape.gridCells e.validator.map ⟨⟨0, 0⟩, 0⟩ exTriangle = some (covers (obstacleOps ops) o) ∧
        ∀ u, IsCorner ⟨⟨0, 0⟩, 0⟩ exTriangle u →
          Inside e.validator.map.size (e.validator.map.worldPositionToGridCell u false)) ∧
      ∀ p, e.validator.map.isInsidePos p = true → reportedDistance e.validator p ≤ D := by
  obtain ⟨cells, hcells, hne, hin, hfar⟩ := exTriangle_cells
  obtain ⟨st, r⟩ := C90_histories_execute (rows := 10) (columns := 10) (exOneObstacle cells ++ [.update]) (by
    intro o cells' hm c hc
    simp [exOneObstacle] at hm
    obtain ⟨-, rfl⟩ := hm
    exact hin c hc) (by simp [exOneObstacle])
  obtain ⟨c0, hc0⟩ := List.exists_mem_of_ne_nil cells hne
  obtain ⟨dm, hdm⟩ : ∃ dm, dm = st.dist.core := ⟨_, rfl⟩
  have hsz : dm.rows = 10 ∧ dm.columns = 10 := by
    obtain ⟨dops, inv⟩ := MapState.inv_run r
    rw [hdm]
    exact DistMap.run_size (C34_linked_maps inv.dist).1
  have hrep : ClearAhead dm 1 := by
    intro x h0 h1
    have hx : (-5 + (if Direction.forward = .backward then -(1.5 * x) else 1.5 * x)) = -5 + 1.5 * x := by simp
    rw [hx]
    have hins : exMap.isInsidePos ⟨-5 + 1.5 * x, 0⟩ = true :=
      (C29_inside_exact exMap (by norm_num [exMap]) (by simp [exMap]) (by simp [exMap]) _).mpr (by
        simp only [exMap]
        push_cast
        refine ⟨⟨?_, ?_⟩, ?_, ?_⟩ <;> linarith)
    obtain ⟨cell, hcell⟩ : ∃ cell, cell = exMap.worldPositionToGridCell ⟨-5 + 1.5 * x, 0⟩ true := ⟨_, rfl⟩
    have hcol : cell.col = 5 := by
      have h : exMap.isInsideCell cell = true := by rw [hcell]; exact hins
      obtain ⟨un, hun⟩ : ∃ un, un = exMap.worldPositionToGridCell ⟨-5 + 1.5 * x, 0⟩ false := ⟨_, rfl⟩
      have hb : cell = if exMap.isInsideCell un then un else ⟨-1, -1⟩ := by rw [hcell, hun]; rfl
      by_cases hi : exMap.isInsideCell un = true
      · rw [hb, if_pos hi, hun]
        show truncInt ((0 - -5) / 1) = 5
        norm_num [truncInt]
      · rw [hb, if_neg hi] at h
        simp [OccMap.isInsideCell] at h
    have hrect : InRect 10 10 cell := by rw [hcell]; exact inRect_of_inside (m := exMap) hins
    obtain ⟨o, ho, e, he, hle⟩ := C90_exact_without_removal r (exOne_tidy cells) (by simp [exOneObstacle])
      ⟨c0, (exOne_covered cells c0).mpr hc0⟩ cell hrect
    have hob := hfar o ((exOne_covered cells o).mp ho)
    show 1 ≤ worldDistance 1 (dm.dist (exMap.worldPositionToGridCell ⟨-5 + 1.5 * x, 0⟩ true))
    unfold worldDistance
    rw [← hcell, hdm, he, mul_one, Real.one_le_sqrt]
    show (1 : ℝ) ≤ (((e : Nat) : Int) : ℝ)
    rw [hle]
    have : (1 : Int) ≤ sqDist o cell := by
      unfold sqDist
      rw [hcol]
      nlinarith [sq_nonneg (o.row - cell.row)]
    exact_mod_cast this
  obtain ⟨nbrs, h1, s, h2, -⟩ := on_search dm 1 exPlanner.gvd exPlanner.heuristic 1 hsz rfl ⟨rfl, rfl⟩ le_rfl hrep random hr
  obtain ⟨states, idx, sst, smoothed, path, -, -, h3, -⟩ := C86_smoothed_or_samples (exPlannerOn dm 1)
    (onConfigured dm 1 _ _ 1 hsz) random nbrs h1 0.1 (by norm_num) exStart sp ob ed 100 [] 2 exStart ex_diff s h2
  have sees : SeesMap (exPlannerOn dm 1).validator (exOneObstacle cells ++ [.update]) := ⟨st, r, hdm⟩
  refine ⟨exPlannerOn dm 1, nbrs, exOneObstacle cells, path, _, onConfigured dm 1 _ _ 1 hsz, h1, h3, sees, exOne_tidy cells, rfl,
    ?_, fun p hp => C92_reported_distance_bounded _ _ sees (exOne_tidy cells) (by norm_num [exPlannerOn, exPlannerOf, exValidator, exMap])
      c0 ((exOne_covered cells c0).mpr hc0) (hin c0 hc0) p hp⟩
  intro o ho
  have : o = 0 := by
    by_contra hne
    simp [registered, obstacleOps, exOneObstacle] at ho
    omega
  subst this
  rw [exOne_covers]
  exact ⟨hcells, exTriangle_inside⟩

end PathPlanning
