import Verif.Props.HybridGoal

/-!
# A planner whose goal is straight ahead of the start, closer than one cell
-/

namespace PathPlanning
open Real Spec HybridAStar HybridAStar.Propagator Validator

/-- The pose at the distance `d` straight ahead. -/
noncomputable def aheadOf (p : PoseR) (d : ℝ) : PoseR :=
  ⟨⟨p.position.x + d * cos p.theta, p.position.y + d * sin p.theta⟩, p.theta⟩

theorem goalArray_ahead (p : PoseR) (d R : ℝ) : RS.goalArray p (aheadOf p d) R 0 = ⟨⟨d / R, 0⟩, 0⟩ := by
  have hw : wrapTheta 0 = 0 := C41_unchanged 0 (by linarith [pi_pos]) pi_pos.le
  have h := sin_sq_add_cos_sq p.theta
  simp only [RS.goalArray, aheadOf, PoseR.sub, PoseR.mk', PoseR.rotate, sub_self, hw, Pt.sub_x, Pt.sub_y,
    add_sub_cancel_left, cos_neg, sin_neg, PoseR.mk.injEq, Pt.mk.injEq, and_true]
  constructor
  · congr 1; linear_combination d * h
  · rw [div_eq_zero_iff]; left; ring

theorem LfSfLf_straight {u : ℝ} (hu : 0 ≤ u) : RS.LfSfLf ⟨⟨u, 0⟩, 0⟩ = .finite 0 u 0 u := by
  have h := LfSfLf_ahead hu
  have h' : RS.motionLengths 0 (RS.goalArray ⟨⟨0, 0⟩, 0⟩ ⟨⟨u, 0⟩, 0⟩ 1) = RS.LfSfLf ⟨⟨u, 0⟩, 0⟩ := by
    show RS.LfSfLf (RS.goalArray _ _ 1 0) = _
    have : (⟨⟨u, 0⟩, 0⟩ : PoseR) = aheadOf ⟨⟨0, 0⟩, 0⟩ u := by simp [aheadOf]
    rw [this, goalArray_ahead, div_one, ← this]
  rw [← h', h]

/-- With equal costs of both directions, the connection to a goal straight ahead is not longer than the
straight line. -/
theorem connect_ahead (p : PoseR) {d R : ℝ} (hd : 0 ≤ d) (hR : 0 < R) :
    (PathRS.connect p (aheadOf p d) R 1 1 0).length ≤ d := by
  obtain ⟨w, hw, t, u, v, len, c, hm, hp, hc, hmin⟩ := C50_optimal p (aheadOf p d) R 1 1 0
  obtain ⟨c', hc', hle⟩ := hmin 0 (by norm_num) 0 (d / R) 0 (d / R) (by
    show RS.LfSfLf (RS.goalArray _ _ R 0) = _
    rw [goalArray_ahead, LfSfLf_straight (by positivity)])
  have hcost : ∀ (s : RS.Segment) x, s.computeCost R 1 1 0 = some x → x = s.length * R := by
    intro s x hx
    unfold RS.Segment.computeCost at hx
    split at hx
    · cases hx
    · split at hx
      · rw [if_pos ⟨rfl, rfl⟩] at hx
        exact (Option.some.inj hx).symm
      · cases hx
  have h1 := hcost _ _ hc
  have h2 := hcost _ _ hc'
  have h3 : (RS.getPath 0 0 (d / R) 0).length = d / R := by
    simp [RS.getPath, RS.basePath, RS.Segment.addMotion, RS.Segment.empty]
    positivity
  rw [h3, div_mul_cancel₀ _ hR.ne'] at h2
  show (RS.optimalPath p (aheadOf p d) R 1 1 0).length * R ≤ d
  rw [← h1, ← h2]
  exact hle

theorem connect_length_pos (p g : PoseR) (R rev fwd sw : ℝ) (hR : 0 < R) (hne : p.position ≠ g.position) :
    0 < (PathRS.connect p g R rev fwd sw).length ∧ UnitSpeed
      (Action.reedsShepp (PathRS.connect p g R rev fwd sw)).any := by
  obtain ⟨w, hw, t, u, v, len, c, hm, hp, -, -⟩ := C50_optimal p g R rev fwd sw
  obtain ⟨hb, ht, hu, hv, _, _⟩ := word_ends hR hm
  have hwf := getPath_wellFormed hb ht hu hv
  have hus : UnitSpeed (Action.reedsShepp (PathRS.connect p g R rev fwd sw)).any := by
    unfold PathRS.connect
    rw [hp]
    exact C70_unit_speed_reeds_shepp p _ hwf R hR
  refine ⟨?_, hus⟩
  obtain ⟨-, -, h0, h1⟩ := C49_connect p g R rev fwd sw hR
  have h := hus 0 1 le_rfl zero_le_one le_rfl
  have e0 : ((Action.reedsShepp (PathRS.connect p g R rev fwd sw)).any.interpolate 0).position = p.position := h0.1
  have e1 : ((Action.reedsShepp (PathRS.connect p g R rev fwd sw)).any.interpolate 1).position = g.position := h1.1
  rw [e0, e1, sub_zero, one_mul] at h
  refine lt_of_lt_of_le ?_ h
  unfold euclid
  rw [sqrt_pos]
  by_contra hc
  refine hne ?_
  have h2 := sq_nonneg (p.position.x - g.position.x)
  have h3 := sq_nonneg (p.position.y - g.position.y)
  have h4 : (p.position.x - g.position.x) ^ 2 = 0 := by linarith
  have h5 : (p.position.y - g.position.y) ^ 2 = 0 := by linarith
  ext
  · have := pow_eq_zero_iff (two_ne_zero) |>.mp h4; linarith
  · have := pow_eq_zero_iff (two_ne_zero) |>.mp h5; linarith

/-- The start, and the planner with a goal 0.4 m straight ahead of it; the heuristic value is 1 everywhere, so
that a Reeds-Shepp connection is tried at every state. -/
noncomputable def nearStart : PoseR := ⟨⟨0.2, 0.5⟩, 0.04⟩
noncomputable def nearPlanner : Propagator :=
  { exPlanner with heuristic := fun _ => ((1 : ℝ) : WithTop ℝ), goal := aheadOf nearStart 0.4 }

theorem near_configured : Configured nearPlanner :=
  ⟨exPlanner_configured.1, exPlanner_configured.2, exPlanner_configured.3, exPlanner_configured.4⟩

/-- A motion from the start that is not longer than 2 m stays inside the map: it passes the collision check
and its cost is defined. -/
theorem near_motion (a : Action) (hu : UnitSpeed a.any) (h0 : (a.interpolate 0).position = nearStart.position)
    (hl0 : 0 < a.length) (hl : a.length ≤ 2) :
    nearPlanner.validator.isPathValid a.any = some (true, 1) ∧ ∃ c, nearPlanner.voronoiCost a = some c := by
  have hpos : ∀ r, 0 ≤ r → r < 1 → (-5 ≤ (a.interpolate r).position.x ∧ (a.interpolate r).position.x < 5) ∧
      (-5 ≤ (a.interpolate r).position.y ∧ (a.interpolate r).position.y < 5) := by
    intro r hr hr1
    have h := hu 0 r le_rfl hr hr1.le
    have e0 : (a.any.interpolate 0).position = nearStart.position := h0
    rw [e0, sub_zero] at h
    have h2 : euclid nearStart.position (a.interpolate r).position ≤ 2 := by
      refine h.trans ?_
      show r * a.length ≤ 2
      nlinarith
    obtain ⟨h3, h4⟩ := abs_le_euclid nearStart.position (a.interpolate r).position
    have h3 := abs_le.mp (h3.trans h2)
    have h4 := abs_le.mp (h4.trans h2)
    have hx : nearStart.position.x = 0.2 := rfl
    have hy : nearStart.position.y = 0.5 := rfl
    rw [hx] at h3
    rw [hy] at h4
    norm_num at h3 h4
    refine ⟨⟨?_, ?_⟩, ?_, ?_⟩ <;> linarith
  constructor
  · refine not_rejected near_configured.size near_configured.step hl0 fun r hr hr1 => ?_
    obtain ⟨h1, h2⟩ := hpos r hr hr1
    exact ex_acceptable _ _ h1 h2 (ex_reported _)
  · refine ex_cost_of nearPlanner rfl rfl ⟨rfl, rfl⟩ a hl fun r hr hr1 => ?_
    obtain ⟨h1, h2⟩ := hpos r hr hr1
    exact ex_inside _ h1 h2

theorem near_ahead : (PathRS.connect nearStart nearPlanner.goal 2 1 1 0).length ≤ 0.4 :=
  connect_ahead nearStart (by norm_num) (by norm_num)

theorem near_ne : nearStart.position ≠ nearPlanner.goal.position := by
  intro h
  have h1 := congrArg Pt.x h
  have h2 := congrArg Pt.y h
  have h1 : (0.2 : ℝ) = 0.2 + 0.4 * cos 0.04 := h1
  have h2 : (0.5 : ℝ) = 0.5 + 0.4 * sin 0.04 := h2
  have := sin_sq_add_cos_sq (0.04 : ℝ)
  have hc : cos (0.04 : ℝ) = 0 := by linarith
  have hs : sin (0.04 : ℝ) = 0 := by linarith
  rw [hc, hs] at this
  norm_num at this

/-- The Reeds-Shepp connection passes the collision check and its cost is defined. -/
theorem near_connection :
    nearPlanner.validator.isPathValid (Action.reedsShepp (PathRS.connect nearStart nearPlanner.goal 2 1 1 0)).any
      = some (true, 1) ∧
    0 < (PathRS.connect nearStart nearPlanner.goal 2 1 1 0).length ∧
    ∃ c, nearPlanner.voronoiCost (.reedsShepp (PathRS.connect nearStart nearPlanner.goal 2 1 1 0)) = some c := by
  obtain ⟨h1, h2⟩ := connect_length_pos nearStart nearPlanner.goal 2 1 1 0 (by norm_num) near_ne
  obtain ⟨h3, h4⟩ := near_motion (.reedsShepp (PathRS.connect nearStart nearPlanner.goal 2 1 1 0)) h2
    (C49_connect nearStart nearPlanner.goal 2 1 1 0 (by norm_num)).2.2.1.1 h1 (near_ahead.trans (by norm_num))
  exact ⟨h3, h1, h4⟩

/-- The steering motions pass the collision check, and their cost is defined. -/
theorem near_steer (dir : Direction) :
    ∃ c, nearPlanner.steerChild (stateFromPose nearPlanner.param nearStart) 0 dir = some (some
      (stateFromPath nearPlanner.param (nearPlanner.steerPath (stateFromPose nearPlanner.param nearStart) 0 dir),
        nearPlanner.steerPath (stateFromPose nearPlanner.param nearStart) 0 dir, c)) := by
  obtain ⟨a, ha⟩ : ∃ a, a = nearPlanner.steerPath (stateFromPose nearPlanner.param nearStart) 0 dir := ⟨_, rfl⟩
  have hlen : a.length = 1.5 := by rw [ha]; show (1 : ℝ) * 1.5 = 1.5; norm_num
  have hus : UnitSpeed a.any := by
    rw [ha]
    exact C70_unit_speed_constant_steer 2.6 nearStart 0 (1 * 1.5) (by norm_num) dir
  have h0 : a.interpolate 0 = nearStart := by
    rw [ha]
    show (⟨_, 0⟩ : Bicycle).constantSteer nearStart 0 (1 * 1.5 * 0) dir = _
    rw [mul_zero]
    simp [Bicycle.constantSteer, Bicycle.beta, Bicycle.dThetaDdist]
  obtain ⟨h1, c, h2⟩ := near_motion a hus (by rw [h0]) (by rw [hlen]; norm_num) (by rw [hlen]; norm_num)
  have h3 : ∃ x, nearPlanner.steerCost a dir = some x := by
    unfold Propagator.steerCost
    rw [h2]
    exact ⟨_, rfl⟩
  obtain ⟨x, h3⟩ := h3
  refine ⟨x, ?_⟩
  unfold Propagator.steerChild
  dsimp only
  rw [← ha, h1]
  simp only [Option.bind_eq_bind, Option.bind_some, if_true, h3]

theorem near_neighbors (random : ℝ) :
    (nearPlanner.neighborStates random (stateFromPose nearPlanner.param nearStart)).isSome = true := by
  obtain ⟨c1, h1⟩ := near_steer .forward
  obtain ⟨c2, h2⟩ := near_steer .backward
  obtain ⟨h3, -, c3, h4⟩ := near_connection
  have h5 : ∃ o, nearPlanner.reedsSheppChild (stateFromPose nearPlanner.param nearStart) = some o := by
    unfold Propagator.reedsSheppChild
    have h3 : nearPlanner.validator.isPathValid (Action.reedsShepp (PathRS.new nearStart
        (RS.optimalPath nearStart nearPlanner.goal 2 1 1 0) 2)).any = some (true, 1) := h3
    have h4 : nearPlanner.voronoiCost (Action.reedsShepp (PathRS.new nearStart
        (RS.optimalPath nearStart nearPlanner.goal 2 1 1 0) 2)) = some c3 := h4
    have e1 : (stateFromPose nearPlanner.param nearStart).continuousPose = nearStart := rfl
    have e2 : nearPlanner.param.minTurningRadius = 2 := rfl
    have e3 : nearPlanner.param.reverseCostMultiplier = 1 := rfl
    have e4 : nearPlanner.param.forwardCostMultiplier = 1 := rfl
    have e5 : nearPlanner.param.directionSwitchingCost = 0 := rfl
    dsimp only
    rw [e1, e2, e3, e4, e5, h3]
    simp only [Option.bind_eq_bind, Option.bind_some, if_true, h4]
    exact ⟨_, rfl⟩
  obtain ⟨o, h5⟩ := h5
  unfold Propagator.neighborStates
  have hd : deltas nearPlanner.param = [0] := ex_deltas
  rw [hd]
  simp only [Propagator.steerChildren, h1, h2, h5, Option.bind_eq_bind, Option.bind_some]
  split <;> rfl

/-- Non-vacuity of `C87_every_steering_angle` and `C87_reeds_shepp`. -/
example (random : ℝ) : ∃ ts,
    nearPlanner.neighborStates random (stateFromPose nearPlanner.param nearStart) = some ts ∧
    (0 : ℝ) ∈ deltas nearPlanner.param ∧
    (∃ c : ℝ, nearPlanner.heuristic nearStart = c ∧ (c < 10 ∨ random < 10 / c ^ 2)) ∧
    nearPlanner.validator.isPathValid (Action.reedsShepp (PathRS.connect nearStart nearPlanner.goal
      nearPlanner.param.minTurningRadius nearPlanner.param.reverseCostMultiplier
      nearPlanner.param.forwardCostMultiplier nearPlanner.param.directionSwitchingCost)).any = some (true, 1) := by
  obtain ⟨ts, hts⟩ := Option.isSome_iff_exists.mp (near_neighbors random)
  have hd : deltas nearPlanner.param = [0] := ex_deltas
  exact ⟨ts, hts, by rw [hd]; simp, ⟨1, rfl, .inl (by norm_num)⟩, near_connection.1⟩

/-- Non-vacuity of `C83_steer_cost_partial`, `C83_reeds_shepp_cost` and `C83_voronoi_of_last_sample`. -/
example : (∃ v a c, nearPlanner.steerChild (stateFromPose nearPlanner.param nearStart) 0 .backward =
    some (some (v, a, c))) ∧ ∃ w, nearPlanner.voronoiCost (.reedsShepp (PathRS.connect nearStart nearPlanner.goal
      2 1 1 0)) = some w ∧
    0 < (Action.reedsShepp (PathRS.connect nearStart nearPlanner.goal 2 1 1 0)).length := by
  obtain ⟨c, h⟩ := near_steer .backward
  obtain ⟨-, h1, c', h2⟩ := near_connection
  exact ⟨⟨_, _, c, h⟩, c', h2, h1⟩

/-- Non-vacuity of `C85_connection_recognised_partial`. -/
example : -π < nearPlanner.goal.theta ∧ nearPlanner.goal.theta < π ∧
    (PathRS.connect nearStart nearPlanner.goal nearPlanner.param.minTurningRadius
      nearPlanner.param.reverseCostMultiplier nearPlanner.param.forwardCostMultiplier
      nearPlanner.param.directionSwitchingCost).length ≠ 0 := by
  have hp := Real.pi_gt_three
  have ht : nearPlanner.goal.theta = 0.04 := rfl
  rw [ht]
  exact ⟨by linarith, by linarith, near_connection.2.1.ne'⟩

/-- A search that fails has expanded the start. -/
theorem init_called {S A C : Type} [LinearOrder C] [Add C] [Zero C] {P : Problem S A C} (he : KeyEquiv P.eqS)
    {init : S} {fuel : Nat} {s : Search S A C}
    (h : AStar.searchPath P true fuel init = some (.failure, s)) : init ∈ s.calls := by
  have hpop : ∀ (f f' : Frontier (ANode S A C)) n, f.pop (AStar.eqNode P) = some (f', n) → n ∈ f.vec := by
    intro f f' n h
    unfold Frontier.pop at h
    split at h
    · rename_i x hx
      simp only [Option.some.injEq, Prod.mk.injEq] at h
      rw [← h.2]
      exact List.mem_of_getLast? hx
    · cases h
  have hinit : ∀ y ∈ (AStar.initSearch P init).frontier.vec, y.state = init := by
    intro y hy
    have : (AStar.initSearch P init).frontier.vec = [AStar.rootNode init] := by
      simp [AStar.initSearch, Frontier.push, Frontier.empty]
    rw [this, List.mem_singleton] at hy
    rw [hy]; rfl
  rcases AStar.loop_spec he (graph := true) (init := init)
    (fun s => init ∈ s.calls ∨ (s.calls = [] ∧ ∀ y ∈ s.frontier.vec, y.state = init))
    (by
      intro s f' n _ hI hp _
      left
      rw [AStar.calls_expand]
      rcases hI with hI | ⟨-, hI⟩
      · exact List.mem_cons_of_mem _ hI
      · rw [hI n (hpop _ _ _ hp)]; exact List.mem_cons_self)
    fuel _ _ _ (AStar.inv_init he true init) (.inr ⟨rfl, hinit⟩) h with ⟨-, inv, hI, hf⟩ | ⟨h', -⟩
  · rcases hI with hI | ⟨hI, -⟩
    · exact hI
    · rcases inv.initIn with ⟨u, hu, -⟩ | ⟨y, hy, -⟩
      · rw [hI] at hu; cases hu
      · rw [hf] at hy; cases hy
  · cases h'

/-- C82 is violated: on a map without obstacles, a goal 0.4 m straight ahead of the start is not found,
although a Reeds-Shepp connection to the goal is tried at every state and that of the start passes the
collision check: every search ends with a failure. -/
theorem C82_goal_ahead_not_found (random : Nat → ℝ)
    (nbrs : Nat → State → List (State × Action × WithTop ℝ)) (h : nearPlanner.Answers random nbrs) :
    ∃ fuel s, AStar.searchPath (nearPlanner.problem nbrs) true fuel (stateFromPose nearPlanner.param nearStart)
        = some (.failure, s) ∧ stateFromPose nearPlanner.param nearStart ∈ s.calls := by
  have hcos : cos (0.04 : ℝ) ≤ 1 := cos_le_one _
  have hcos' : 0.99 ≤ cos (0.04 : ℝ) := by
    have := one_sub_sq_div_two_le_cos (x := (0.04 : ℝ))
    norm_num at this ⊢
    linarith
  have hsin : sin (0.04 : ℝ) ≤ 0.04 := sin_le (by norm_num)
  have hsin' : 0 ≤ sin (0.04 : ℝ) := sin_nonneg_of_nonneg_of_le_pi (by norm_num) (by
    have := Real.pi_gt_three; linarith)
  have hgx : nearPlanner.goal.position.x = 0.2 + 0.4 * cos 0.04 := rfl
  have hgy : nearPlanner.goal.position.y = 0.5 + 0.4 * sin 0.04 := rfl
  have hgt : nearPlanner.goal.theta = 0.04 := rfl
  have hgoal : discretizePose nearPlanner.param nearPlanner.goal = .mk' 0 0 0 := by
    refine ex_cell _ rfl rfl _ ?_ ?_ ?_
    · rw [hgx]; constructor <;> norm_num at * <;> linarith
    · rw [hgy]; constructor <;> norm_num at * <;> linarith
    · rw [hgt]; norm_num
  have hinit : discretizePose nearPlanner.param nearStart = .mk' 0 0 0 :=
    ex_cell _ rfl rfl _ (by norm_num [nearStart]) (by norm_num [nearStart]) (by norm_num [nearStart])
  obtain ⟨fuel, st, s, hs⟩ := C81_always_ends nearPlanner near_configured random nbrs h nearStart
  cases st with
  | failure => exact ⟨fuel, s, hs, init_called (P := nearPlanner.problem nbrs) equal_equiv hs⟩
  | success =>
    refine absurd hs (C82_goal_in_the_cell_of_the_start nearPlanner near_configured random nbrs h nearStart
      (hinit.trans hgoal.symm) ?_ ?_ fuel s)
    · rw [Bool.eq_false_iff]
      intro h
      have := (near_of_identical h).1
      rw [hgx] at this
      have hx : nearStart.position.x = 0.2 := rfl
      rw [hx, abs_lt] at this
      norm_num at this hcos'
      linarith
    · intro q hq
      rw [hgoal]
      obtain ⟨h1, h2, h3⟩ := near_of_identical hq
      rw [hgx, abs_lt] at h1
      rw [hgy, abs_lt] at h2
      rw [hgt, abs_lt] at h3
      norm_num at h1 h2 h3 hcos' hsin
      refine ex_cell _ rfl rfl _ ?_ ?_ ?_ <;> constructor <;> norm_num <;> linarith

end PathPlanning
