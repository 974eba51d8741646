import Verif.Props.HybridPlanner
import Verif.Props.HybridGoal

/-!
# C98: the motions and the cost that hybrid A* reports
-/

namespace PathPlanning
open Real Spec HybridAStar HybridAStar.Propagator Validator HybridPlanner

namespace Spec

/-- The cost of driving a motion: the length times the multiplier of the direction; a Reeds-Shepp path also pays for its
changes of direction. -/
noncomputable def travelCost (prm : HybridParam) : Action → Option ℝ
  | .steer q => some ((if q.direction = .forward then prm.forwardCostMultiplier else prm.reverseCostMultiplier) * q.length)
  | .reedsShepp q => q.segment.computeCost prm.minTurningRadius prm.reverseCostMultiplier prm.forwardCostMultiplier
      prm.directionSwitchingCost

/-- `x` is the cost of the motion `a`: driving it, and the Voronoi field at the last of the points at a distance of one
cell diagonal (see C83 for what is missing in this cost). -/
def MotionCost (prm : HybridParam) (map : OccMap) (field : Cell → ℝ) (a : Action) (x : ℝ) : Prop :=
  ∃ t v : ℝ, travelCost prm a = some t ∧ x = t + v ∧ (a.length = 0 → v = 0) ∧
    (0 < a.length → ∃ m : Nat, m * (map.resolution * √2) < a.length ∧ a.length ≤ (m + 1) * (map.resolution * √2) ∧
      v = prm.voronoiCostMultiplier * (map.resolution * √2 *
        field (map.worldPositionToGridCell (a.interpolate (m * (map.resolution * √2) / a.length)).position false)))

end Spec

theorem steerChild_action {e : Propagator} {u v : State} {δ : ℝ} {dir : Direction} {a : Action} {c : WithTop ℝ}
    (h : e.steerChild u δ dir = some (some (v, a, c))) : ∃ q : PathSteer, a = .steer q ∧ q.direction = dir := by
  unfold steerChild at h
  simp only [Option.bind_eq_bind, Option.bind_eq_some_iff] at h
  obtain ⟨⟨valid, r⟩, hv, h⟩ := h
  dsimp only at h
  split at h
  · simp only [Option.bind_eq_some_iff, Option.some.injEq, Prod.mk.injEq] at h
    obtain ⟨x, hx, -, rfl, rfl⟩ := h
    exact ⟨_, rfl, rfl⟩
  · split at h
    · cases h
    · simp only [Option.bind_eq_some_iff, Option.some.injEq, Prod.mk.injEq] at h
      obtain ⟨x, hx, -, rfl, rfl⟩ := h
      exact ⟨_, rfl, rfl⟩

theorem voronoi_zero (e : Propagator) (a : Action) (h : a.length = 0) (w : ℝ) (hw : e.voronoiCost a = some w) : w = 0 := by
  unfold Propagator.voronoiCost at hw
  rw [voronoiLoop, if_neg (by rw [h]; exact lt_irrefl _)] at hw
  simpa using hw.symm

/-- The cost of a motion offered by the propagator. -/
theorem motion_cost {e : Propagator} (hc : Configured e) (hres : 0 < e.validator.map.resolution)
    (hmap : e.gvd.map = e.validator.map) {random : Nat → ℝ} {nbrs}
    (h : e.Answers random nbrs) {u : State} {a : Action} {c : WithTop ℝ} {v : State}
    (ht : (e.problem nbrs).tr u a c v) :
    ∃ x : ℝ, c = (x : WithTop ℝ) ∧ MotionCost e.param e.validator.map e.gvd.cost a x := by
  have hlen : ∀ w, e.voronoiCost a = some w → 0 < a.length → ∃ m : Nat,
      m * (e.validator.map.resolution * √2) < a.length ∧ a.length ≤ (m + 1) * (e.validator.map.resolution * √2) ∧
      w = e.param.voronoiCostMultiplier * (e.validator.map.resolution * √2 * e.gvd.cost
        (e.validator.map.worldPositionToGridCell
          (a.interpolate (m * (e.validator.map.resolution * √2) / a.length)).position false)) := by
    intro w hw hl
    obtain ⟨m, h1, h2, h3⟩ := C83_voronoi_of_last_sample e a hl _ (by rw [hmap]) (by rw [hmap]; exact hres) w hw
    refine ⟨m, h1, by push_cast at h2; exact h2, ?_⟩
    rw [h3]
    ring
  obtain ⟨k, hk⟩ := ht
  obtain ⟨ts, hts, hk⟩ : ∃ ts, e.neighborStates (random k) u = some ts ∧ (v, a, c) ∈ ts := by
    have hk : (v, a, c) ∈ nbrs k u := hk
    rw [h k u] at hk
    cases hn : e.neighborStates (random k) u with
    | none => rw [hn] at hk; cases hk
    | some ts => rw [hn] at hk; exact ⟨ts, rfl, hk⟩
  rcases mem_neighborStates hts _ hk with ⟨δ, hδ, dir, hdir, h1⟩ | h1
  · obtain ⟨q, rfl, rfl⟩ := steerChild_action h1
    obtain ⟨w, hw, hcw⟩ := C83_steer_cost_partial e u δ _ hdir v _ c h1
    exact ⟨_, hcw, _, w, rfl, rfl, fun hz => voronoi_zero e _ hz w hw, hlen w hw⟩
  · obtain ⟨q, -, rfl, x, w, hx, hw, hcw⟩ := C83_reeds_shepp_cost e u v a c h1
    exact ⟨_, hcw, x, w, hx, rfl, fun hz => voronoi_zero e _ hz w hw, hlen w hw⟩

/-- The cost of a route of the search. -/
theorem route_costs {e : Propagator} (hc : Configured e) (hres : 0 < e.validator.map.resolution)
    (hmap : e.gvd.map = e.validator.map) {random : Nat → ℝ} {nbrs}
    (h : e.Answers random nbrs) {u v : State} {l} (hr : Route (e.problem nbrs).tr u l v) :
    ∃ costs : List ℝ, List.Forall₂ (MotionCost e.param e.validator.map e.gvd.cost) (routeActions l) costs ∧
      routeCost l = ((costs.sum : ℝ) : WithTop ℝ) := by
  induction hr with
  | nil => exact ⟨[], .nil, rfl⟩
  | snoc hr ht ih =>
    rename_i l w a c v
    obtain ⟨costs, h1, h2⟩ := ih
    obtain ⟨x, rfl, hx⟩ := motion_cost hc hres hmap h ht
    refine ⟨costs ++ [x], ?_, ?_⟩
    · rw [show routeActions (l ++ [(a, (x : WithTop ℝ), v)]) = routeActions l ++ [a] by simp [routeActions]]
      exact List.rel_append h1 (.cons hx .nil)
    · have : routeCost (l ++ [(a, (x : WithTop ℝ), v)]) = routeCost l + (x : WithTop ℝ) := by simp [routeCost]
      rw [this, h2, List.sum_append, List.sum_singleton, WithTop.coe_add]

/-- The Voronoi field lies between 0 and 1. -/
theorem field_range {occ : Cell → Int} {g g' : GVD} (hu : GVD.Update occ g g')
    (h0 : ∀ c, g.maps.core.inside c = false → g.cost c = 0) (hsz : g'.maps.core.rows = g.maps.core.rows ∧
      g'.maps.core.columns = g.maps.core.columns) (hr : 0 ≤ g.map.resolution) (c : Cell) :
    0 ≤ g'.cost c ∧ g'.cost c ≤ 1 := by
  cases hc : g'.maps.core.inside c with
  | false =>
    rw [gvd_update_outside hu h0 hsz c hc]
    exact ⟨le_rfl, zero_le_one⟩
  | true =>
    obtain ⟨m1, e1, e2, h1, h2, h3, rfl⟩ := hu
    have hc1 : m1.core.inside c = true := hc
    show 0 ≤ GVD.updateCost _ _ c ∧ GVD.updateCost _ _ c ≤ 1
    unfold GVD.updateCost
    rw [if_pos hc1]
    exact C40_between_zero_and_one (by norm_num [GVD.alpha]) (by norm_num [GVD.dMax])
      (mul_nonneg (sqrt_nonneg _) hr) (mul_nonneg (sqrt_nonneg _) hr)

/-- C98: after a successful search, the reported motions are motions of the vehicle that lead from the start to the goal, and the reported cost is the
(finite) sum of the costs of these motions, for the Voronoi field of the updated map. -/
theorem C98_reports_the_search (w0 : PlanWorld) (prm : HybridParam) (hsetup : Setup w0 prm) (p₀ : PoseR) (h₀ : NonHolo)
    (h : List HybridPlanner.Op) (w : PlanWorld) (p : HybridPlanner) (r : HybridPlanner.Run (w0, .new prm p₀ h₀) h (w, p))
    (random : Nat → ℝ) (w' : PlanWorld) (p' : HybridPlanner)
    (hs : HybridPlanner.SearchPath w p random .success w' p') :
    ∃ actions costs occ g q, p'.getGraphSearchPath = some (actions.map some) ∧
      Joined (startInForce p₀ h) actions q ∧
      ((q.position - (goalInForce p₀ h).position).norm < 1e-3 ∧ |q.theta - (goalInForce p₀ h).theta| < 1e-3 * π / 180) ∧
      (∀ a ∈ actions, Motion prm (goalInForce p₀ h) a ∧ 0 ≤ a.length) ∧
      w'.maps.obs.matrix = some occ ∧ GVD.Update occ ⟨w0.frame, w.maps.dist, p.cost⟩ g ∧ w'.maps.dist = g.maps ∧
      (∀ c, 0 ≤ g.cost c ∧ g.cost c ≤ 1) ∧
      List.Forall₂ (MotionCost prm w0.frame g.cost) actions costs ∧
      p'.getGraphSearchOptimalCost = some ((costs.sum : ℝ) : WithTop ℝ) := by
  obtain ⟨mops, t⟩ := run_tracked hsetup.maps r
  cases hs with
  | searched hi hocc htab hg hedges hheur hn hsearch hpath hsmooth =>
  rename_i occ tables g edges hh nbrs fuel gst s dflt path sst0 smoothed0
  have hsee := search_sees hsetup t hocc hg
  obtain ⟨e, he⟩ : ∃ e : Propagator, e = ⟨p.param, { w with maps.dist := g.maps }.validator, g, hh, p.goal⟩ := ⟨_, rfl⟩
  have hframe : w.frame = w0.frame := t.frame
  have hparam : p.param = prm := t.param
  have ev : e.validator = { w with maps.dist := g.maps }.validator := by rw [he]
  have emap : e.validator.map = w0.frame := by rw [ev, ← hframe]; rfl
  have estep : e.validator.minStep = w0.minStep := by rw [ev, ← show w.minStep = w0.minStep from t.minStep]; rfl
  have eparam : e.param = prm := by rw [he, ← hparam]
  have egoal : e.goal = goalInForce p₀ h := by rw [he]; exact t.goal
  have egvd : e.gvd = g := by rw [he]
  have gmap : g.map = w0.frame := by
    rw [← hframe]
    obtain ⟨_, _, _, _, _, _, rfl⟩ := hg
    rfl
  rw [← ev] at hsee
  have hc : Configured e := by
    refine ⟨sees_sameSize hsee, ?_, ?_, ?_⟩
    · rw [estep]; exact hsetup.minStep
    · rw [eparam]; exact hsetup.spatialResolution
    · rw [eparam]; exact hsetup.minTurningRadius
  rw [← he] at hn hsearch hpath
  have hsearch' : AStar.searchPath (e.problem nbrs) true fuel (stateFromPose e.param p.init) = some (gst, s) := by
    rw [eparam, ← hparam]; exact hsearch
  have hgst : gst = .success := by
    cases gst with
    | success => rfl
    | failure =>
      have := (C86_failure e nbrs p.pathInterpolation dflt (smoothPoses ((p.smoothParam w).terms w.frame
        g.maps.core.obst edges.obst) p.smooth.maxIterations { w with maps.dist := g.maps }.validator.isStateValid) p.path
        fuel p.init p.path).mpr ⟨rfl, s, hsearch'⟩
      rw [this] at hpath
      cases hpath
  subst hgst
  obtain ⟨steps, goal, hr, hsol, -, hact, hcost⟩ :=
    C05_astar_cost_and_actions_match_path (P := e.problem nbrs) equal_equiv hsearch'
  obtain ⟨hj, hmo⟩ := route_joined hc hn hr
  obtain ⟨costs, k1, k2⟩ := route_costs hc (by rw [emap]; exact hsetup.resolution) (by rw [egvd, gmap, emap]) hn hr
  rw [eparam, emap, egvd] at k1
  refine ⟨routeActions steps, costs, occ, g, goal.continuousPose, hact, ?_, ?_, ?_, hocc, ?_, rfl, ?_, k1, hcost.trans (congrArg some k2)⟩
  · rw [← show p.init = startInForce p₀ h from t.init]; exact hj
  · rw [← egoal]; exact (identicalPoses_iff _ _).mp hsol
  · intro a ha
    rw [← eparam, ← egoal]
    exact ⟨(hmo a ha).1, (hmo a ha).2.1⟩
  · rw [← hframe]; exact hg
  · refine field_range hg t.cost ?_ (by rw [hframe]; exact hsetup.resolution.le)
    obtain ⟨m, c1, -, c2⟩ := gvd_update_calls hocc hg
    obtain ⟨a, b⟩ := dist_size hsetup.maps t.run
    obtain ⟨a', b'⟩ := dist_size hsetup.maps ((t.run.snoc c1).snoc c2)
    exact ⟨a'.trans a.symm, b'.trans b.symm⟩

/-- C82, the planner object: a goal in the cell of the start is never reached, whatever was done before. -/
theorem C82_planner_fails (w0 : PlanWorld) (prm : HybridParam) (hsetup : Setup w0 prm) (p₀ : PoseR) (h₀ : NonHolo)
    (h : List HybridPlanner.Op) (w : PlanWorld) (p : HybridPlanner) (r : HybridPlanner.Run (w0, .new prm p₀ h₀) h (w, p))
    (hcell : discretizePose prm (startInForce p₀ h) = discretizePose prm (goalInForce p₀ h))
    (hdiff : identicalPoses (startInForce p₀ h) (goalInForce p₀ h) = false)
    (hinner : ∀ q, identicalPoses q (goalInForce p₀ h) = true → discretizePose prm q = discretizePose prm (goalInForce p₀ h))
    (random : Nat → ℝ) (st : Status) (w' : PlanWorld) (p' : HybridPlanner)
    (hs : HybridPlanner.SearchPath w p random st w' p') : st = .failure := by
  obtain ⟨mops, t⟩ := run_tracked hsetup.maps r
  cases hs with
  | notInitialized h1 => rfl
  | searched hi hocc htab hg hedges hheur hn hsearch hpath hsmooth =>
  rename_i occ tables g edges hh nbrs fuel gst s dflt path sst0 smoothed0
  have hsee := search_sees hsetup t hocc hg
  obtain ⟨e, he⟩ : ∃ e : Propagator, e = ⟨p.param, { w with maps.dist := g.maps }.validator, g, hh, p.goal⟩ := ⟨_, rfl⟩
  have hparam : p.param = prm := t.param
  have ev : e.validator = { w with maps.dist := g.maps }.validator := by rw [he]
  have estep : e.validator.minStep = w0.minStep := by rw [ev, ← show w.minStep = w0.minStep from t.minStep]; rfl
  have eparam : e.param = prm := by rw [he, ← hparam]
  have egoal : e.goal = goalInForce p₀ h := by rw [he]; exact t.goal
  have hinit : p.init = startInForce p₀ h := t.init
  rw [← ev] at hsee
  have hc : Configured e := by
    refine ⟨sees_sameSize hsee, ?_, ?_, ?_⟩
    · rw [estep]; exact hsetup.minStep
    · rw [eparam]; exact hsetup.spatialResolution
    · rw [eparam]; exact hsetup.minTurningRadius
  rw [← he] at hn hsearch hpath
  have hsearch' : AStar.searchPath (e.problem nbrs) true fuel (stateFromPose e.param p.init) = some (gst, s) := by
    rw [eparam, ← hparam]; exact hsearch
  cases gst with
  | success =>
    exact absurd hsearch' (C82_goal_in_the_cell_of_the_start e hc random nbrs hn p.init
      (by rw [eparam, egoal, hinit]; exact hcell) (by rw [egoal, hinit]; exact hdiff)
      (by rw [eparam, egoal]; exact hinner) fuel s)
  | failure =>
    have := (C86_failure e nbrs p.pathInterpolation dflt (smoothPoses ((p.smoothParam w).terms w.frame
      g.maps.core.obst edges.obst) p.smooth.maxIterations { w with maps.dist := g.maps }.validator.isStateValid) p.path
      fuel p.init p.path).mpr ⟨rfl, s, hsearch'⟩
    rw [this] at hpath
    cases hpath
    rfl

/-- C98: after a failed search no motion and no cost are reported. -/
theorem C98_failure_reports_nothing (w0 : PlanWorld) (prm : HybridParam) (hsetup : Setup w0 prm) (p₀ : PoseR)
    (h₀ : NonHolo) (h : List HybridPlanner.Op) (w : PlanWorld) (p : HybridPlanner)
    (r : HybridPlanner.Run (w0, .new prm p₀ h₀) h (w, p)) (hready : isReady h = true)
    (random : Nat → ℝ) (w' : PlanWorld) (p' : HybridPlanner)
    (hs : HybridPlanner.SearchPath w p random .failure w' p') :
    p'.getGraphSearchPath = some [] ∧ p'.getGraphSearchOptimalCost = none := by
  obtain ⟨mops, t⟩ := run_tracked hsetup.maps r
  cases hs with
  | notInitialized h1 => rw [show p.isInitialized = isReady h from t.ready, hready] at h1; cases h1
  | searched hi hocc htab hg hedges hheur hn hsearch hpath hsmooth =>
  rename_i occ tables g edges hh nbrs fuel gst s dflt path sst0 smoothed0
  obtain ⟨-, s', hs'⟩ := (C86_failure _ _ _ _ _ _ _ _ _).mp hpath
  have hsn : s'.solution = none := by
    rcases AStar.searchPath_spec (P := Propagator.problem _ _) equal_equiv hs' with ⟨_, inv, _⟩ | ⟨h, _⟩
    · exact inv.sol
    · cases h
  rw [show AStar.searchPath _ true fuel _ = _ from hs'] at hsearch
  cases hsearch
  unfold getGraphSearchPath getGraphSearchOptimalCost AStar.getActions AStar.getOptimalCost
  dsimp only
  rw [hsn]
  exact ⟨rfl, rfl⟩

/-- C98: until the next search, no call changes what is reported. -/
theorem C98_kept (s s' : PlanWorld × HybridPlanner) (o : HybridPlanner.Op) (hc : HybridPlanner.Call s o s')
    (hno : ∀ random, o ≠ .search random) :
    s'.2.getPath = s.2.getPath ∧ s'.2.getGraphSearchPath = s.2.getGraphSearchPath ∧
      s'.2.getGraphSearchOptimalCost = s.2.getGraphSearchOptimalCost := by
  cases hc with
  | search h => exact absurd rfl (hno _)
  | map => exact ⟨rfl, rfl, rfl⟩
  | «initialize» => exact ⟨rfl, rfl, rfl⟩
  | reject => exact ⟨rfl, rfl, rfl⟩
  | setInit => exact ⟨rfl, rfl, rfl⟩
  | setGoal => exact ⟨rfl, rfl, rfl⟩
  | setSmootherParameters => exact ⟨rfl, rfl, rfl⟩

end PathPlanning
