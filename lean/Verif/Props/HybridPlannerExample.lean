import Verif.Props.HybridPlanner
import Verif.Props.HybridCost
import Verif.Props.PlanOutsideExample
import Verif.Props.NonHolonomic

/-!
# C95-C98: a planner object on a map with an obstacle
-/

namespace PathPlanning
open Real Spec HybridAStar HybridAStar.Propagator Validator HybridPlanner

/-- The map of ten metres, with a safe radius of six metres. -/
noncomputable def exWorld : PlanWorld := ⟨exSpace, exMap, 1 / 10, 6, .new 10 10⟩

/-- Only straight motions, at a cost of 100 per metre. -/
noncomputable def exHybridParam : HybridParam :=
  { numGeneratedMotion := 0, forwardCostMultiplier := 100, reverseCostMultiplier := 100 }

theorem exWorld_setup : Setup exWorld exHybridParam :=
  ⟨rfl, by norm_num [exWorld, exMap], by norm_num [exWorld], by norm_num [exHybridParam], by norm_num [exHybridParam]⟩

/-- The planner is set up first; then the box is registered. The map is never updated. -/
noncomputable def exHistory (cells : List Cell) : List HybridPlanner.Op :=
  [.initialize true, .setInit exStart, .setGoal ⟨⟨-7 / 2, 0⟩, 0⟩, .map (.obstacle (.move 0 cells)),
    .map (.obstacle (.add 0))]

theorem map_run_inv {s s'' : MapState} {os : List MapState.Op} {o : MapState.Op} (r : MapState.Run s (os ++ [o]) s'') :
    ∃ s', MapState.Run s os s' ∧ MapState.Call s' o s'' := by
  generalize hl : os ++ [o] = l at r
  cases r with
  | nil => simp at hl
  | snoc r c =>
    obtain ⟨rfl, h⟩ := List.append_inj' hl rfl
    cases h
    exact ⟨_, r, c⟩

theorem exHistory_run (cells : List Cell) (hin : ∀ c ∈ cells, InRect 10 10 c) (p₀ : PoseR) (h₀ : NonHolo) :
    ∃ w p, HybridPlanner.Run (exWorld, .new exHybridParam p₀ h₀) (exHistory cells) (w, p) := by
  obtain ⟨st, r⟩ := C90_histories_execute (rows := 10) (columns := 10)
    ([.link] ++ [.obstacle (.move 0 cells)] ++ [.obstacle (.add 0)]) (by
      intro o cells' hm c hc
      simp at hm
      obtain ⟨-, rfl⟩ := hm
      exact hin c hc) (by simp)
  obtain ⟨s2, r, c3⟩ := map_run_inv r
  obtain ⟨s1, r, c2⟩ := map_run_inv r
  obtain ⟨s0, r, c1⟩ := map_run_inv (os := []) r
  have hs0 : s0 = .new 10 10 := by
    generalize hl : ([] : List MapState.Op) = l at r
    cases r with
    | nil => rfl
    | snoc => simp at hl
  subst hs0
  have k1 : HybridPlanner.Call (exWorld, .new exHybridParam p₀ h₀) (.initialize true)
    ({ exWorld with maps := s1 }, (HybridPlanner.new exHybridParam p₀ h₀).configure exWorld) := .initialize c1
  exact ⟨_, _, .snoc (os := [_, _, _, _]) (.snoc (os := [_, _, _]) (.snoc (os := [_, _]) (.snoc (os := [_])
    (.snoc (os := []) .nil k1) .setInit) .setGoal) (.map c2)) (.map c3)⟩

/-- The heuristic is at least 100 at the start. -/
theorem ex_nonHolo : ∃ v : ℝ, 100 ≤ v ∧
    (NonHolo.build exSpace.lb exSpace.ub 1 0.0872 2 100 100 0).getHeuristicValue ⟨⟨-7 / 2, 0⟩, 0⟩ exStart = some (some v) := by
  have hp := pi_pos
  have hn : NonHolo.numSpatial 10 1 = 11 := by
    unfold NonHolo.numSpatial
    have : ⌈(10 : ℝ) / 1⌉₊ = 10 := by rw [div_one]; exact Nat.ceil_natCast 10
    rw [this]; rfl
  have hb : NonHolo.build exSpace.lb exSpace.ub 1 0.0872 2 100 100 0 = ⟨1, 0.0872, 2, 100, 100, 0, 11, 11⟩ := by
    unfold NonHolo.build exSpace
    norm_num [hn]
  rw [hb]
  have hsub : PoseR.sub ⟨⟨-7 / 2, 0⟩, 0⟩ exStart = ⟨⟨3 / 2, 0⟩, 0⟩ := by
    simp only [exStart, PoseR.sub, PoseR.mk', PoseR.rotate, sub_zero, wrapTheta_zero, Pt.sub_x,
      Pt.sub_y, neg_zero, cos_zero, sin_zero, PoseR.mk.injEq, Pt.mk.injEq]
    norm_num
  have hfl : ⌊(11 : ℝ) / 2⌋ = 5 := by rw [Int.floor_eq_iff]; norm_num
  have hr6 : roundR (13 / 2) = 7 := by unfold roundR; rw [if_pos (by norm_num), Int.floor_eq_iff]; norm_num
  have hr5 : roundR 5 = 5 := by unfold roundR; rw [if_pos (by norm_num), Int.floor_eq_iff]; norm_num
  have hang : 0 < (⟨1, 0.0872, 2, 100, 100, 0, 11, 11⟩ : NonHolo).numAngular :=
    Nat.ceil_pos.2 (by positivity)
  have hval : (⟨1, 0.0872, 2, 100, 100, 0, 11, 11⟩ : NonHolo).getHeuristicValue ⟨⟨-7 / 2, 0⟩, 0⟩ exStart =
      some ((⟨1, 0.0872, 2, 100, 100, 0, 11, 11⟩ : NonHolo).entry 7 5 0) := by
    unfold NonHolo.getHeuristicValue
    dsimp only
    rw [hsub]
    simp only [NonHolo.offsetX, NonHolo.offsetY]
    rw [show (((11 : Nat) : ℝ)) = 11 by norm_num, hfl]
    norm_num
    rw [hr6, hr5, roundR_zero]
    simp only [toInt32]
    norm_num
    unfold NonHolo.read
    rw [if_pos (by norm_num at hang ⊢; exact hang)]
  have hpose : (⟨1, 0.0872, 2, 100, 100, 0, 11, 11⟩ : NonHolo).entryPose 7 5 0 = ⟨⟨2, 0⟩, 0⟩ := by
    unfold NonHolo.entryPose NonHolo.offsetX NonHolo.offsetY PoseR.mk'
    dsimp only
    rw [show (((11 : Nat) : ℝ)) = 11 by norm_num, hfl]
    norm_num [wrapTheta_zero]
  obtain ⟨c, hc, hle⟩ := optimal_cost_ge ⟨⟨2, 0⟩, 0⟩ ⟨⟨0, 0⟩, 0⟩ (R := 2) (rev := 100) (fwd := 100) (sw := 0)
    (by norm_num) le_rfl (by norm_num)
  refine ⟨c, ?_, ?_⟩
  · refine le_trans ?_ hle
    norm_num
  · rw [hval]
    unfold NonHolo.entry
    rw [hpose]
    exact congrArg some hc

/-- Every search of this planner finds a path, whatever the parameters of the smoother. -/
theorem ex_search_succeeds (cells : List Cell) (hne : cells ≠ []) (hfar : ∀ c ∈ cells, 7 ≤ c.row) (p₀ : PoseR)
    (h₀ : NonHolo) (w : PlanWorld) (p : HybridPlanner) (h : List HybridPlanner.Op)
    (hh : h = exHistory cells ∨ ∃ q, h = exHistory cells ++ [.setSmootherParameters q])
    (r : HybridPlanner.Run (exWorld, .new exHybridParam p₀ h₀) h (w, p)) (random : Nat → ℝ)
    (hr : ∀ k, 0.001 ≤ random k) : ∃ w' p', HybridPlanner.SearchPath w p random .success w' p' := by
  have hcall : mapCalls h = exOneObstacle cells := by rcases hh with rfl | ⟨q, rfl⟩ <;> rfl
  have hgo : goalInForce p₀ h = ⟨⟨-7 / 2, 0⟩, 0⟩ := by rcases hh with rfl | ⟨q, rfl⟩ <;> rfl
  have hst : startInForce p₀ h = exStart := by rcases hh with rfl | ⟨q, rfl⟩ <;> rfl
  have hrd : isReady h = true := by rcases hh with rfl | ⟨q, rfl⟩ <;> rfl
  clear hh
  obtain ⟨st, w', p', hs⟩ := C95_always_returns exWorld exHybridParam exWorld_setup (by norm_num [exHybridParam])
    (by norm_num [exHybridParam]) p₀ h₀ _ w p r (by rw [hgo, hst]; exact ex_diff) random
  refine ⟨w', p', ?_⟩
  cases st with
  | success => exact hs
  | failure =>
  exfalso
  obtain ⟨mops, t⟩ := run_tracked exWorld_setup.maps r
  cases hs with
  | notInitialized h1 => rw [show p.isInitialized = true from t.ready.trans hrd] at h1; cases h1
  | searched hi hocc htab hg hedges hheur hn hsearch hpath hsmooth =>
  rename_i occ tables g edges hh nbrs fuel gst s dflt path sst0 smoothed0
  have hsee := search_sees exWorld_setup t hocc hg
  have hparam : p.param = exHybridParam := t.param
  have hgoal : p.goal = ⟨⟨-7 / 2, 0⟩, 0⟩ := t.goal.trans hgo
  have hinit : p.init = exStart := t.init.trans hst
  have hframe : w.frame = exMap := t.frame
  have he : (⟨p.param, { w with maps.dist := g.maps }.validator, g, hh, p.goal⟩ : Propagator) =
      exPlannerOf g.maps.core 6 g hh 100 := by
    rw [hparam, hgoal]
    show (⟨exHybridParam, ⟨w.space, w.frame, g.maps.core, w.minStep, w.minSafe⟩, g, hh, _⟩ : Propagator) = _
    rw [show w.space = exSpace from t.space, hframe, show w.minStep = 1 / 10 from t.minStep,
      show w.minSafe = 6 from t.minSafe]
    rfl
  have hgm : g.map = exMap := by
    obtain ⟨_, _, _, _, _, _, rfl⟩ := hg
    exact hframe
  obtain ⟨m, hm, hme⟩ := hsee
  have hme : g.maps.core = m.dist.core := hme
  have hm : MapState.Run (.new 10 10) (mops ++ [.update]) m := by
    have : MapState.Run (.new w.frame.rows w.frame.columns) (mops ++ [.update]) m := hm
    rw [hframe] at this
    exact this
  have hz : g.maps.core.rows = 10 ∧ g.maps.core.columns = 10 := by
    obtain ⟨dops, inv⟩ := MapState.inv_run hm
    rw [hme]
    exact DistMap.run_size (C34_linked_maps inv.dist).1
  have hcalls : obstacleOps mops = obstacleOps (exOneObstacle cells) := t.calls.trans (congrArg obstacleOps hcall)
  have htidy := exOne_tidy cells
  have hclear : ClearAhead g.maps.core 6 := by
    rw [hme]
    refine box_clear_ahead hm ⟨by rw [hcalls]; exact htidy.still, by rw [hcalls]; exact htidy.apart⟩ ?_
      (fun c => (covered_congr hcalls c).trans (exOne_covered cells c)) hne hfar
    intro o hmem
    have : ObsMap.Op.remove o ∈ obstacleOps mops := List.mem_filterMap.mpr ⟨_, hmem, rfl⟩
    rw [hcalls] at this
    simp [obstacleOps, exOneObstacle] at this
  have h100 : ((100 : ℝ) : WithTop ℝ) ≤ hh exStart := by
    obtain ⟨v, hv, hval⟩ := ex_nonHolo
    obtain ⟨tables', b, htab', hb, -⟩ := ObstHeuristic.C71_bounds_partial w.frame (fun c => decide (occ c ≥ 0))
      p.param.reverseCostMultiplier p.param.forwardCostMultiplier (by rw [hparam]; norm_num [exHybridParam])
      (by rw [hparam]; norm_num [exHybridParam]) (by rw [hframe]; norm_num [exMap]) p.goal exStart
    rw [htab] at htab'
    cases htab'
    have hnh : p.nonHolo.getHeuristicValue p.goal exStart = some (some v) := by
      rw [show p.nonHolo = _ from t.nonHolo hrd, hgoal, ← hval]
      show (NonHolo.build _ _ _ _ _ _ _ _).getHeuristicValue _ _ = _
      rw [hparam]
      rfl
    rw [hheur exStart (some v) b hnh hb]
    exact (WithTop.coe_le_coe.mpr hv).trans (le_max_left _ _)
  obtain ⟨nbrs', k1, s', k2, -⟩ := on_search g.maps.core 6 g hh 100 hz hgm hz h100 hclear random hr
  rw [he] at hn hsearch hpath
  have hnb : nbrs = nbrs' := by
    funext k u
    rw [hn k u, k1 k u]
  subst hnb
  rw [hinit] at hsearch hpath
  rw [show p.param = (exPlannerOf g.maps.core 6 g hh 100).param from hparam] at hsearch
  obtain ⟨-, s2, k3⟩ := (C86_failure _ _ _ _ _ _ _ _ _).mp hpath
  have a := C08_astar_fuel_irrelevant (k := 2) k3
  have b := C08_astar_fuel_irrelevant (k := fuel) k2
  rw [Nat.add_comm] at a
  rw [a] at b
  cases b

/-- Non-vacuity of `C95_plans_for_current_obstacles` and `C96_reusable`: the box is registered after the planner is set
up, the map is never updated; every search of the planner succeeds. -/
example (p₀ : PoseR) (h₀ : NonHolo) (random : Nat → ℝ) (hr : ∀ k, 0.001 ≤ random k) :
    ∃ (h : List HybridPlanner.Op) (w w' : PlanWorld) (p p' : HybridPlanner) (c0 : Cell), Setup exWorld exHybridParam ∧
      HybridPlanner.Run (exWorld, .new exHybridParam p₀ h₀) h (w, p) ∧ isReady h = true ∧
      (∀ o ∈ mapCalls h, o ≠ .update) ∧ Tidy (mapCalls h) ∧
      registered (obstacleOps (mapCalls h)) 0 = true ∧
      (∀ o, registered (obstacleOps (mapCalls h)) o = true →
        Shape.gridCells exWorld.frame exBoxPose exBox = some (covers (obstacleOps (mapCalls h)) o) ∧
        ∀ u, IsCorner exBoxPose exBox u →
          Inside exWorld.frame.size (exWorld.frame.worldPositionToGridCell u false)) ∧
      Covered (mapCalls h) c0 ∧ InRect exWorld.frame.rows exWorld.frame.columns c0 ∧
      0 < motionClearance exWorld ∧ TurnsLeft (placedCorners exBoxPose exBox) ∧
      ¬ InsideConvex (placedCorners exBoxPose exBox) (startInForce p₀ h).position ∧
      HybridPlanner.SearchPath w p random .success w' p' := by
  obtain ⟨cells, hcells, hne, hin, hfar⟩ := exBox_cells
  obtain ⟨w, p, r⟩ := exHistory_run cells hin p₀ h₀
  obtain ⟨w', p', hs⟩ := ex_search_succeeds cells hne hfar p₀ h₀ w p _ (.inl rfl) r random hr
  obtain ⟨c0, hc0⟩ := List.exists_mem_of_ne_nil cells hne
  refine ⟨exHistory cells, w, w', p, p', c0, exWorld_setup, r, rfl, ?_, exOne_tidy cells, rfl, ?_,
    (exOne_covered cells c0).mpr hc0, hin c0 hc0, ?_, (C93_library_shapes exBoxPose).1 1 1 one_pos one_pos, ?_, hs⟩
  · intro o ho
    simp [mapCalls, exHistory] at ho
    rcases ho with rfl | rfl <;> simp
  · intro o ho
    have : o = 0 := by
      by_contra hne
      simp [registered, obstacleOps, mapCalls, exHistory] at ho
      omega
    subst this
    exact ⟨hcells.trans (congrArg some (exOne_covers cells).symm), exBox_inside⟩
  · have s2 : √2 < 1.4143 := by rw [Real.sqrt_lt' (by norm_num)]; norm_num
    have s2' : 1.414 < √2 := by rw [Real.lt_sqrt (by norm_num)]; norm_num
    have hk : √(4 - 2 * √2) < 1.0827 := by rw [Real.sqrt_lt' (by norm_num)]; norm_num; linarith
    have hk1 : 1 < √(4 - 2 * √2) := by rw [Real.lt_sqrt (by norm_num)]; norm_num; linarith
    obtain ⟨k, hke⟩ : ∃ k, k = √(4 - 2 * √2) := ⟨_, rfl⟩
    have hrt : √((((10 - 1) ^ 2 + (10 - 1) ^ 2 : Int)) : ℝ) < 13 := by
      rw [Real.sqrt_lt' (by norm_num)]; norm_num
    have hrt0 := Real.sqrt_nonneg ((((10 - 1) ^ 2 + (10 - 1) ^ 2 : Int)) : ℝ)
    show 0 < min (6 - (1 - 1 / √(4 - 2 * √2)) * (√(4 - 2 * √2) * (√((((10 - 1) ^ 2 + (10 - 1) ^ 2 : Int)) : ℝ) * 1)))
      (6 / √(4 - 2 * √2) - 1 / 10) - (√2 + 5 / 2) * 1
    obtain ⟨w, hw⟩ : ∃ w, w = √((((10 - 1) ^ 2 + (10 - 1) ^ 2 : Int)) : ℝ) := ⟨_, rfl⟩
    rw [← hke] at hk hk1 ⊢
    rw [← hw] at hrt hrt0 ⊢
    have hkp : k ≠ 0 := by linarith
    have e1 : (1 - 1 / k) * (k * (w * 1)) = (k - 1) * w := by field_simp
    rw [e1]
    have h1 : (4.5 : ℝ) < 6 - (k - 1) * w := by nlinarith
    have h2 : 5 < 6 / k := by rw [lt_div_iff₀ (by linarith)]; nlinarith
    have : (4.5 : ℝ) < min (6 - (k - 1) * w) (6 / k - 1 / 10) := lt_min h1 (by norm_num; linarith)
    linarith
  · intro h
    have := h _ _ ⟨1, rfl, rfl⟩
    revert this
    norm_num [leftOf, Shape.place, exBoxPose, exStart, exBox, Shape.rectangle, placedCorners, startInForce, exHistory]

/-- Non-vacuity of `C97_parameters_used_partial`, of `C98_reports_the_search` (the cost is then finite) and of
`C181_reported_cost`: parameters are set before the search. -/
example (p₀ : PoseR) (h₀ : NonHolo) (q : SmoothParam) (random : Nat → ℝ) (hr : ∀ k, 0.001 ≤ random k) :
    ∃ (h : List HybridPlanner.Op) (w w' : PlanWorld) (p p' : HybridPlanner),
      HybridPlanner.Run (exWorld, .new exHybridParam p₀ h₀) (h ++ [.setSmootherParameters q] ++ []) (w, p) ∧
      isReady h = true ∧ HybridPlanner.SearchPath w p random .success w' p' ∧
      0 ≤ exHybridParam.directionSwitchingCost ∧ 0 ≤ exHybridParam.voronoiCostMultiplier ∧
      0 ≤ min exHybridParam.reverseCostMultiplier exHybridParam.forwardCostMultiplier := by
  obtain ⟨cells, hcells, hne, hin, hfar⟩ := exBox_cells
  obtain ⟨w, p, r⟩ := exHistory_run cells hin p₀ h₀
  have r' : HybridPlanner.Run (exWorld, .new exHybridParam p₀ h₀) (exHistory cells ++ [.setSmootherParameters q] ++ [])
      (w, { p with smooth := q }) := by
    rw [List.append_nil]
    exact .snoc r .setSmootherParameters
  obtain ⟨w', p', hs⟩ := ex_search_succeeds cells hne hfar p₀ h₀ _ _ _ (.inr ⟨q, List.append_nil _⟩) r' random hr
  exact ⟨_, _, w', _, p', r', rfl, hs, by norm_num [exHybridParam], by norm_num [exHybridParam], by norm_num [exHybridParam]⟩

/-- Non-vacuity of `C82_planner_fails` and `C98_failure_reports_nothing`: the goal is 0.4 m ahead of the start, on a map
without obstacles. -/
example (p₀ : PoseR) (h₀ : NonHolo) (random : Nat → ℝ) :
    ∃ (h : List HybridPlanner.Op) (w w' : PlanWorld) (p p' : HybridPlanner),
      HybridPlanner.Run (exWorld, .new exHybridParam p₀ h₀) h (w, p) ∧ isReady h = true ∧
      HybridPlanner.SearchPath w p random .failure w' p' := by
  obtain ⟨m, r⟩ := C90_histories_execute (rows := 10) (columns := 10) ([] ++ [.link]) (by simp) (by simp)
  obtain ⟨s0, r, c1⟩ := map_run_inv r
  have hs0 : s0 = .new 10 10 := by
    generalize hl : ([] : List MapState.Op) = l at r
    cases r with
    | nil => rfl
    | snoc => simp at hl
  subst hs0
  have k1 : HybridPlanner.Call (exWorld, .new exHybridParam p₀ h₀) (.initialize true)
    ({ exWorld with maps := m }, (HybridPlanner.new exHybridParam p₀ h₀).configure exWorld) := .initialize c1
  have r' := HybridPlanner.Run.snoc (os := [_, _]) (.snoc (os := [_]) (.snoc (os := []) .nil k1)
    (.setInit (s := ⟨⟨0.2, 0.5⟩, 0.04⟩))) (.setGoal (s := ⟨⟨0.6, 0.5⟩, 0.04⟩))
  have hdiff : identicalPoses ⟨⟨0.2, 0.5⟩, 0.04⟩ ⟨⟨0.6, 0.5⟩, 0.04⟩ = false := by
    rw [← Bool.not_eq_true]
    intro h
    have := (near_of_identical h).1
    norm_num [abs_lt] at this
  have cell : ∀ q : PoseR, _ → _ → _ → discretizePose exHybridParam q = .mk' 0 0 0 := ex_cell exHybridParam rfl rfl
  obtain ⟨st, w', p', hs⟩ := C95_always_returns exWorld exHybridParam exWorld_setup (by norm_num [exHybridParam])
    (by norm_num [exHybridParam]) p₀ h₀ _ _ _ r' hdiff random
  have := C82_planner_fails exWorld exHybridParam exWorld_setup p₀ h₀ _ _ _ r' (by
      show discretizePose exHybridParam ⟨⟨0.2, 0.5⟩, 0.04⟩ = discretizePose exHybridParam ⟨⟨0.6, 0.5⟩, 0.04⟩
      rw [cell _ (by norm_num) (by norm_num) (by norm_num), cell _ (by norm_num) (by norm_num) (by norm_num)]) hdiff
    (by
      intro q h
      have h : identicalPoses q ⟨⟨0.6, 0.5⟩, 0.04⟩ = true := h
      obtain ⟨h1, h2, h3⟩ := near_of_identical h
      rw [abs_lt] at h1 h2 h3
      norm_num at h1 h2 h3
      show _ = discretizePose exHybridParam ⟨⟨0.6, 0.5⟩, 0.04⟩
      rw [cell q ⟨by linarith, by linarith⟩ ⟨by linarith, by linarith⟩ ⟨by linarith, by norm_num; linarith⟩,
        cell _ (by norm_num) (by norm_num) (by norm_num)]) random st w' p' hs
  subst this
  exact ⟨_, _, w', _, p', r', rfl, hs⟩

end PathPlanning
