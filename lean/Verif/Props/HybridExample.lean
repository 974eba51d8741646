import Verif.Props.HybridSearch
import Verif.Props.ValidatorMore

/-!
# A concrete successful search of hybrid A*
-/

namespace PathPlanning
open Real Spec HybridAStar HybridAStar.Propagator Validator

/-- A search whose first expansion gives one neighbour, a solution. -/
theorem search_two {S A C : Type} [LinearOrder C] [Add C] [Zero C] {P : Problem S A C} (he : KeyEquiv P.eqS)
    {init v : S} {a : A} {c : C} (h0 : P.isSol init = false) (hn : P.nbrs 0 init = [(v, a, c)])
    (hne : P.eqS init v = false) (hs : P.isSol v = true) :
    ∃ s, AStar.searchPath P true 2 init = some (.success, s) ∧
      AStar.getActions s = some [some a] ∧ s.calls = [init] := by
  obtain ⟨r, hrr⟩ : ∃ r : ANode S A C, r = AStar.rootNode init := ⟨_, rfl⟩
  have hrs : r.state = init := by rw [hrr]; rfl
  obtain ⟨n, hnn⟩ : ∃ n : ANode S A C, n = AStar.childNode P r (v, a, c) := ⟨_, rfl⟩
  have hns : n.state = v := by rw [hnn]; rfl
  have hpush : ∀ x : ANode S A C, ((⟨[], []⟩ : Frontier (ANode S A C)).push AStar.cmpNode (AStar.eqNode P) x).1
      = ⟨[x], [x]⟩ := by
    intro x
    simp [Frontier.push]
  have hpop : ∀ x : ANode S A C, Frontier.pop (AStar.eqNode P) ⟨[x], [x]⟩ = some (⟨[], []⟩, x) := by
    intro x
    simp [Frontier.pop, AStar.eqNode, he.refl]
  have h1 : AStar.initSearch P init = ⟨⟨[r], [r]⟩, [r], none, []⟩ := by
    unfold AStar.initSearch
    rw [← hrr]
    congr 1
    exact hpush r
  have h2 : AStar.expand P true ⟨⟨[], []⟩, [r], none, []⟩ r = ⟨⟨[n], [n]⟩, [r], none, [init]⟩ := by
    unfold AStar.expand
    have hins : AStar.exploredInsert P [r] r = [r] := by
      simp [AStar.exploredInsert, AStar.exploredContains, he.refl]
    simp only [hins, List.length_nil, hrs, hn, List.foldl_cons, List.foldl_nil]
    congr 1
    unfold AStar.expandOne
    rw [← hnn]
    have hc : AStar.exploredContains P [r] n.state = false := by
      simp [AStar.exploredContains, hrs, hns, hne]
    simp only [if_true, Frontier.find, List.find?_nil, hc, Bool.false_eq_true, if_false]
    exact hpush n
  refine ⟨⟨⟨[], []⟩, [r], some n, [init]⟩, ?_, ?_, rfl⟩
  · unfold AStar.searchPath
    rw [h1, AStar.loop, hpop]
    simp only [hrs, h0, Bool.false_eq_true, if_false]
    rw [h2, AStar.loop, hpop]
    simp only [hns, hs, if_true]
  · rw [hnn, hrr]; rfl

/-- The map of `exValidator` (10 m × 10 m, without obstacles), one motion forward and one backward, a start at
the left border and a goal 1.5 m ahead of it; a Reeds-Shepp path is tried only when the random number is
very small. -/
noncomputable def exPlanner : Propagator where
  param := { numGeneratedMotion := 0 }
  validator := exValidator (.new 10 10)
  gvd := ⟨exMap, .new 10 10, fun _ => 0⟩
  heuristic := fun _ => ((100 : ℝ) : WithTop ℝ)
  goal := ⟨⟨-7 / 2, 0⟩, 0⟩

noncomputable def exStart : PoseR := ⟨⟨-5, 0⟩, 0⟩

theorem exPlanner_configured : Configured exPlanner :=
  ⟨⟨rfl, rfl⟩, by norm_num [exPlanner, exValidator], by norm_num [exPlanner], by norm_num [exPlanner]⟩

theorem straight_steer (w : ℝ) (p : PoseR) (hp : p.theta = 0) (d : ℝ) (dir : Direction) :
    (⟨w, 0⟩ : Bicycle).constantSteer p 0 d dir =
      ⟨⟨p.position.x + (if dir = .backward then -d else d), p.position.y⟩, 0⟩ := by
  simp [Bicycle.constantSteer, Bicycle.beta, Bicycle.dThetaDdist, hp]
  intro h
  norm_num at h

theorem ex_deltas : deltas exPlanner.param = [0] := by
  simp [deltas, exPlanner]

theorem ex_interpolate (dir : Direction) (r : ℝ) :
    (exPlanner.steerPath (stateFromPose exPlanner.param exStart) 0 dir).interpolate r =
      ⟨⟨-5 + (if dir = .backward then -(1.5 * r) else 1.5 * r), 0⟩, 0⟩ := by
  show Bicycle.constantSteer ⟨_, 0⟩ exStart 0 (1 * 1.5 * r) dir = _
  rw [straight_steer _ _ rfl, one_mul]
  rfl

theorem ex_forward : exPlanner.validator.isPathValid
    (exPlanner.steerPath (stateFromPose exPlanner.param exStart) 0 .forward).any = some (true, 1) := by
  refine not_rejected exPlanner_configured.size exPlanner_configured.step ?_ fun r h0 h1 => ?_
  · show (0 : ℝ) < 1 * 1.5
    norm_num
  · show Acceptable exPlanner.validator
      ((exPlanner.steerPath (stateFromPose exPlanner.param exStart) 0 .forward).interpolate r)
    rw [ex_interpolate]
    refine ex_acceptable _ _ ?_ ?_ (ex_reported _)
    · simp only [reduceCtorEq, if_false]
      constructor <;> linarith
    · norm_num

theorem ex_backward : exPlanner.validator.isPathValid
    (exPlanner.steerPath (stateFromPose exPlanner.param exStart) 0 .backward).any = some (false, 0) := by
  obtain ⟨a, ha⟩ : ∃ a, a = exPlanner.steerPath (stateFromPose exPlanner.param exStart) 0 .backward := ⟨_, rfl⟩
  have hint : ∀ r, a.interpolate r = ⟨⟨-5 - 1.5 * r, 0⟩, 0⟩ := by
    intro r; rw [ha, ex_interpolate]; simp only [if_true]; congr 2
  have hlen : a.any.length = 1.5 := by rw [ha]; show (1 : ℝ) * 1.5 = 1.5; norm_num
  have hpos : 0 < a.any.length := by rw [hlen]; norm_num
  have hacc : ∀ r, Acceptable exPlanner.validator (a.any.interpolate r) → r ≤ 0 := by
    intro r h
    have h1 := h.x_ge
    have h2 : (a.any.interpolate r).position.x = -5 - 1.5 * r := by
      show (a.interpolate r).position.x = _
      rw [hint]
    rw [h2] at h1
    simp only [exPlanner, exValidator, exSpace, exMap] at h1
    norm_num at h1
    linarith
  rw [← ha]
  obtain ⟨⟨b, r⟩, hr⟩ := C53_terminates exPlanner.validator exPlanner_configured.size
    exPlanner_configured.step a.any
  cases b with
  | true =>
    exfalso
    obtain ⟨-, -, h⟩ := C53_accepted_partial _ exPlanner_configured.size exPlanner_configured.step _ hpos r hr
    obtain ⟨t, h1, h2, h3, h4⟩ := h 1 zero_le_one (by rw [hlen]; norm_num)
    have h5 := hacc _ h3
    rw [hlen] at h5
    have h6 : t = 0 := le_antisymm (by
      by_contra hc
      push Not at hc
      have : 0 < t / 1.5 := by positivity
      linarith) h1
    subst h6
    rw [zero_div] at h4
    have h7 : freeDistance exPlanner.validator (a.any.interpolate 0) ≤ 0 := by
      refine (min_le_right _ _).trans ((min_le_left _ _).trans ((min_le_left _ _).trans ?_))
      show (a.interpolate 0).position.x - (-5) ≤ 0
      rw [hint]
      norm_num
    have h8 : exPlanner.validator.minStep = 1 / 10 := rfl
    rw [h8, max_eq_right (by linarith)] at h4
    norm_num at h4
  | false =>
    obtain ⟨bad, h0, h1, h2, h3, h4, h5⟩ :=
      C53_rejected _ exPlanner_configured.size exPlanner_configured.step _ hpos r hr
    rcases h4 with ⟨-, rfl⟩ | ⟨h4, -⟩
    · rw [hr]
    · rw [hr, le_antisymm (hacc r h4) h0]

theorem truncInt_zero : truncInt 0 = 0 := by simp [truncInt]

theorem ex_cost_of (e : Propagator) (hv : e.validator.map = exMap) (hg : e.gvd.map = exMap)
    (hz : e.gvd.maps.core.rows = 10 ∧ e.gvd.maps.core.columns = 10) (a : Action) (hl2 : a.length ≤ 2)
    (hin : ∀ r, 0 ≤ r → r < 1 → exMap.isInsideCell (exMap.worldPositionToGridCell (a.interpolate r).position false)
      = true) : ∃ c, e.voronoiCost a = some c := by
  have hil : e.interpLength = √2 := by
    simp [Propagator.interpLength, hg, exMap]
  have hs : (1.4 : ℝ) < √2 := by
    rw [Real.lt_sqrt (by norm_num)]; norm_num
  have hcell : ∀ l, 0 ≤ l → l < a.length →
      ∃ x, e.pathCost (e.validator.map.worldPositionToGridCell
        (a.interpolate (l / a.length)).position false) = some x := by
    intro l h0 h1
    have hp : 0 < a.length := lt_of_le_of_lt h0 h1
    have := hin (l / a.length) (div_nonneg h0 hp.le) ((div_lt_one hp).mpr h1)
    unfold Propagator.pathCost
    rw [hv]
    refine ⟨_, if_pos ?_⟩
    simp only [DistMap.inside, hz.1, hz.2]
    exact this
  unfold Propagator.voronoiCost
  rw [hil]
  suffices h : ∃ c, e.voronoiLoop a √2 0 0 = some c by
    obtain ⟨c, hc⟩ := h
    exact ⟨_, by rw [hc]; rfl⟩
  by_cases h0 : 0 < a.length
  · rw [Propagator.voronoiLoop, if_pos h0]
    dsimp only
    obtain ⟨x, hx⟩ := hcell 0 le_rfl h0
    rw [hx, Option.bind_eq_bind, Option.bind_some, zero_add]
    by_cases h1 : √2 < a.length
    · rw [Propagator.voronoiLoop, if_pos h1]
      dsimp only
      obtain ⟨y, hy⟩ := hcell _ (by positivity) h1
      rw [hy, Option.bind_eq_bind, Option.bind_some]
      rw [Propagator.voronoiLoop, if_neg (by linarith)]
      exact ⟨_, rfl⟩
    · rw [Propagator.voronoiLoop, if_neg h1]
      exact ⟨_, rfl⟩
  · rw [Propagator.voronoiLoop, if_neg h0]
    exact ⟨_, rfl⟩

theorem ex_cost (a : Action) (hl2 : a.length ≤ 2)
    (hin : ∀ r, 0 ≤ r → r < 1 → exMap.isInsideCell (exMap.worldPositionToGridCell (a.interpolate r).position false)
      = true) : ∃ c, exPlanner.voronoiCost a = some c := ex_cost_of exPlanner rfl rfl ⟨rfl, rfl⟩ a hl2 hin

/-- The cells of the positions of the map. -/
theorem ex_inside (p : Pt) (hx : -5 ≤ p.x ∧ p.x < 5) (hy : -5 ≤ p.y ∧ p.y < 5) :
    exMap.isInsideCell (exMap.worldPositionToGridCell p false) = true := by
  have h : exMap.isInsidePos p = true :=
    (C29_inside_exact exMap (by norm_num [exMap]) (by simp [exMap]) (by simp [exMap]) _).mpr (by
      simp only [exMap]
      push_cast
      refine ⟨⟨?_, ?_⟩, ?_, ?_⟩ <;> linarith)
  unfold OccMap.isInsidePos at h
  obtain ⟨cell, hcell⟩ : ∃ cell, cell = exMap.worldPositionToGridCell p false := ⟨_, rfl⟩
  have hb : exMap.worldPositionToGridCell p true =
      if exMap.isInsideCell cell then cell else ⟨-1, -1⟩ := by rw [hcell]; rfl
  rw [hb] at h
  rw [← hcell]
  by_contra hc
  rw [if_neg hc] at h
  simp [OccMap.isInsideCell] at h

theorem ex_neighbors (random : ℝ) (hr : 0.001 ≤ random) : ∃ c,
    exPlanner.neighborStates random (stateFromPose exPlanner.param exStart) =
      some [(stateFromPath exPlanner.param (exPlanner.steerPath (stateFromPose exPlanner.param exStart) 0 .forward),
        exPlanner.steerPath (stateFromPose exPlanner.param exStart) 0 .forward, c)] := by
  obtain ⟨c, hc⟩ := ex_cost (exPlanner.steerPath (stateFromPose exPlanner.param exStart) 0 .forward)
    (by show (1 : ℝ) * 1.5 ≤ 2; norm_num) (by
      intro r h0 h1
      rw [ex_interpolate]
      have h : exMap.isInsidePos ⟨-5 + 1.5 * r, 0⟩ = true :=
        (C29_inside_exact exMap (by norm_num [exMap]) (by simp [exMap]) (by simp [exMap]) _).mpr (by
          simp only [exMap]
          push_cast
          refine ⟨⟨?_, ?_⟩, ?_, ?_⟩ <;> linarith)
      have hx : -5 + (if Direction.forward = .backward then -(1.5 * r) else 1.5 * r) = -5 + 1.5 * r := by simp
      rw [hx]
      unfold OccMap.isInsidePos at h
      obtain ⟨cell, hcell⟩ : ∃ cell, cell = exMap.worldPositionToGridCell ⟨-5 + 1.5 * r, 0⟩ false := ⟨_, rfl⟩
      have hb : exMap.worldPositionToGridCell ⟨-5 + 1.5 * r, 0⟩ true =
          if exMap.isInsideCell cell then cell else ⟨-1, -1⟩ := by rw [hcell]; rfl
      rw [hb] at h
      show exMap.isInsideCell (exMap.worldPositionToGridCell ⟨-5 + 1.5 * r, 0⟩ false) = true
      rw [← hcell]
      by_contra hc
      rw [if_neg hc] at h
      simp [OccMap.isInsideCell] at h)
  have hf : exPlanner.steerChild (stateFromPose exPlanner.param exStart) 0 .forward =
      some (some (stateFromPath exPlanner.param
        (exPlanner.steerPath (stateFromPose exPlanner.param exStart) 0 .forward),
        exPlanner.steerPath (stateFromPose exPlanner.param exStart) 0 .forward,
        ((1 * (exPlanner.steerPath (stateFromPose exPlanner.param exStart) 0 .forward).length + 0 + c : ℝ)
          : WithTop ℝ))) := by
    unfold Propagator.steerChild
    dsimp only
    rw [ex_forward]
    simp only [Option.bind_eq_bind, Option.bind_some, if_true, Propagator.steerCost, hc]
    rfl
  have hb : exPlanner.steerChild (stateFromPose exPlanner.param exStart) 0 .backward = some none := by
    unfold Propagator.steerChild
    dsimp only
    rw [ex_backward]
    simp only [Option.bind_eq_bind, Option.bind_some, Bool.false_eq_true, if_false]
    rw [if_pos]
    refine decide_eq_true ?_
    show discretizePose _ exStart = discretizePose _ (Action.final _)
    congr 1
    show exStart = (exPlanner.steerPath (stateFromPose exPlanner.param exStart) 0 .backward).interpolate 0
    rw [ex_interpolate]
    simp [exStart]
  refine ⟨((1 * (exPlanner.steerPath (stateFromPose exPlanner.param exStart) 0 .forward).length + 0 + c : ℝ)
          : WithTop ℝ), ?_⟩
  unfold Propagator.neighborStates
  rw [ex_deltas]
  classical
  have ht : tryReedsShepp (exPlanner.heuristic (stateFromPose exPlanner.param exStart).continuousPose) random
      = false := by
    show (decide ((100 : ℝ) < 10) || decide (random < 10 / ((100 : ℝ) * 100))) = false
    have h1 : ¬ ((100 : ℝ) < 10) := by norm_num
    have h2 : ¬ (random < 10 / ((100 : ℝ) * 100)) := by norm_num; norm_num at hr; linarith
    simp [h1, h2]
  simp only [Propagator.steerChildren, hf, hb, ht, Option.bind_eq_bind, Option.bind_some, Bool.false_eq_true,
    if_false, Option.toList, List.append_nil]

theorem ex_diff : identicalPoses exStart exPlanner.goal = false := by
  rw [← Bool.not_eq_true]
  intro h
  have h := ((identicalPoses_iff _ _).mp h).1
  have : (exStart.position - exPlanner.goal.position).norm = 3 / 2 := by
    show (⟨-5, 0⟩ - ⟨-7 / 2, 0⟩ : Pt).norm = 3 / 2
    have : (⟨-5, 0⟩ - ⟨-7 / 2, 0⟩ : Pt) = ⟨-3/2, 0⟩ := by ext <;> norm_num
    rw [this]
    unfold Pt.norm
    rw [show (⟨-3 / 2, 0⟩ : Pt).x ^ 2 + (⟨-3 / 2, 0⟩ : Pt).y ^ 2 = (3 / 2) ^ 2 by norm_num]
    exact Real.sqrt_sq (by norm_num)
  rw [this] at h
  norm_num at h

/-- Non-vacuity of `C80_success`: this planner finds the path of one motion. -/
theorem ex_search (random : Nat → ℝ) (hr : ∀ k, 0.001 ≤ random k) : ∃ nbrs, exPlanner.Answers random nbrs ∧
    ∃ s, AStar.searchPath (exPlanner.problem nbrs) true 2 (stateFromPose exPlanner.param exStart) =
      some (.success, s) ∧
    AStar.getActions s = some [some (exPlanner.steerPath (stateFromPose exPlanner.param exStart) 0 .forward)] := by
  refine ⟨fun k s => (exPlanner.neighborStates (random k) s).getD [], fun _ _ => rfl, ?_⟩
  obtain ⟨c, hc⟩ := ex_neighbors (random 0) (hr 0)
  have hfin : (exPlanner.steerPath (stateFromPose exPlanner.param exStart) 0 .forward).final =
      ⟨⟨-7 / 2, 0⟩, 0⟩ := by
    show (exPlanner.steerPath (stateFromPose exPlanner.param exStart) 0 .forward).interpolate 1 = _
    rw [ex_interpolate]
    simp only [reduceCtorEq, if_false]
    norm_num
  refine Exists.elim (search_two
    (P := exPlanner.problem fun k s => (exPlanner.neighborStates (random k) s).getD [])
    (init := stateFromPose exPlanner.param exStart)
    (v := stateFromPath exPlanner.param
      (exPlanner.steerPath (stateFromPose exPlanner.param exStart) 0 .forward))
    (a := exPlanner.steerPath (stateFromPose exPlanner.param exStart) 0 .forward) (c := c) equal_equiv
    ?_ (by show Option.getD _ _ = _; rw [hc]; rfl) ?_ ?_) fun s h => ⟨s, h.1, h.2.1⟩
  · exact ex_diff
  · rw [← Bool.not_eq_true]
    intro h
    have h := of_decide_eq_true h
    have h : discretizePose exPlanner.param exStart = discretizePose exPlanner.param (Action.final _) := h
    rw [hfin] at h
    have h := congrArg PoseI.x h
    have h : truncInt ((-5 : ℝ) / 1) = truncInt ((-7 / 2 : ℝ) / 1) := h
    unfold truncInt at h
    norm_num at h
  · refine (identicalPoses_iff _ _).mpr ?_
    show ((Action.final _).position - _).norm < _ ∧ |(Action.final _).theta - _| < _
    rw [hfin]
    have := Real.pi_pos
    have h0 : (⟨-7 / 2, 0⟩ - exPlanner.goal.position : Pt) = ⟨0, 0⟩ := by ext <;> simp [exPlanner]
    constructor
    · rw [h0]; unfold Pt.norm; norm_num
    · simp only [exPlanner, sub_self, abs_zero]; positivity

theorem truncInt_unit {x : ℝ} (h0 : 0 ≤ x) (h1 : x < 1) : truncInt x = 0 := by
  unfold truncInt
  rw [if_pos h0]
  exact Int.floor_eq_zero_iff.mpr ⟨h0, h1⟩

/-- Poses near (0.5, 0.5) with headings near 0.04 are in one cell. -/
theorem ex_cell (p : HybridParam) (hp : p.spatialResolution = 1) (hq : p.angularResolution = 0.0872) (q : PoseR)
    (hx : 0 ≤ q.position.x ∧ q.position.x < 1) (hy : 0 ≤ q.position.y ∧ q.position.y < 1)
    (ht : 0 ≤ q.theta ∧ q.theta < 0.08) : discretizePose p q = .mk' 0 0 0 := by
  have h3 := Real.pi_gt_three
  unfold discretizePose
  rw [C41_unchanged _ (by linarith) (by linarith), hp, hq, div_one, div_one, truncInt_unit hx.1 hx.2,
    truncInt_unit hy.1 hy.2, truncInt_unit (by apply div_nonneg ht.1; norm_num) (by
      rw [div_lt_one (by norm_num)]; linarith)]

theorem near_of_identical {a b : PoseR} (h : identicalPoses a b = true) :
    |a.position.x - b.position.x| < 1e-3 ∧ |a.position.y - b.position.y| < 1e-3 ∧
      |a.theta - b.theta| < 1e-3 := by
  obtain ⟨h1, h2⟩ := (identicalPoses_iff _ _).mp h
  have h4 := Real.pi_le_four
  have hx : |(a.position - b.position).x| ≤ (a.position - b.position).norm := Real.abs_le_sqrt (by
    nlinarith [sq_nonneg (a.position - b.position).y])
  have hy : |(a.position - b.position).y| ≤ (a.position - b.position).norm := Real.abs_le_sqrt (by
    nlinarith [sq_nonneg (a.position - b.position).x])
  exact ⟨lt_of_le_of_lt hx h1, lt_of_le_of_lt hy h1, by linarith⟩

/-- Non-vacuity of `C82_goal_in_the_cell_of_the_start`: the goal is 0.4 m straight ahead of the start, on the
map without obstacles. -/
example : ∃ (e : Propagator) (init : PoseR), Configured e ∧ init = ⟨⟨0.2, 0.5⟩, 0.04⟩ ∧
    e.goal = ⟨⟨0.6, 0.5⟩, 0.04⟩ ∧ discretizePose e.param init = discretizePose e.param e.goal ∧
    identicalPoses init e.goal = false ∧
    ∀ q, identicalPoses q e.goal = true → discretizePose e.param q = discretizePose e.param e.goal := by
  refine ⟨{ exPlanner with goal := ⟨⟨0.6, 0.5⟩, 0.04⟩ }, _, ⟨exPlanner_configured.1, exPlanner_configured.2,
    exPlanner_configured.3, exPlanner_configured.4⟩, rfl, rfl, ?_, ?_, fun q h => ?_⟩
  · rw [ex_cell _ rfl rfl _ (by norm_num) (by norm_num) (by norm_num),
      ex_cell _ rfl rfl _ (by norm_num) (by norm_num) (by norm_num)]
  · rw [← Bool.not_eq_true]
    intro h
    have := (near_of_identical h).1
    norm_num [abs_lt] at this
  · obtain ⟨h1, h2, h3⟩ := near_of_identical h
    rw [abs_lt] at h1 h2 h3
    norm_num at h1 h2 h3
    rw [ex_cell _ rfl rfl q ⟨by linarith, by linarith⟩ ⟨by linarith, by linarith⟩ ⟨by linarith, by norm_num; linarith⟩,
      ex_cell _ rfl rfl _ (by norm_num) (by norm_num) (by norm_num)]

end PathPlanning
