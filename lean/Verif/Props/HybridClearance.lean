import Verif.Props.HybridExample
import Verif.Props.UnitSpeed

/-!
# C80: clearance of the motions found, C81: termination
-/

namespace PathPlanning
open Real Spec HybridAStar HybridAStar.Propagator Validator

/-- The motions of the planner do not move faster than their length. -/
theorem motion_unit_speed {p : HybridParam} (hR : 0 < p.minTurningRadius) {goal : PoseR} {a : Action}
    (h : Spec.Motion p goal a) : UnitSpeed a.any := by
  rcases h with ⟨δ, -, dir, -, len, hl, -, ha⟩ | ha
  · have := C70_unit_speed_constant_steer p.wheelbase a.init δ len hl dir
    rw [ha]
    exact this
  · have := C70_unit_speed_connect a.init goal p.minTurningRadius p.reverseCostMultiplier
      p.forwardCostMultiplier p.directionSwitchingCost hR
    rw [ha]
    exact this

/-- C80: the clearance of the motions found: each of their states (but the final one) follows an acceptable
state of the same motion whose reported distance bounds the distance of the state to every obstacle (up to
8.3 % error of the distance map, the safe radius or the interpolation step, and the diagonal of a cell). -/
theorem C80_clearance (e : Propagator) (hc : Configured e) (random : Nat → ℝ)
    (nbrs : Nat → State → List (State × Action × WithTop ℝ)) (h : e.Answers random nbrs)
    (init : PoseR) (fuel : Nat) (s : Search State Action (WithTop ℝ))
    (hs : AStar.searchPath (e.problem nbrs) true fuel (stateFromPose e.param init) = some (.success, s))
    (hres : 0 < e.validator.map.resolution) (ops : List DistMap.Op)
    (hrun : DistMap.Run (.new e.validator.map.rows e.validator.map.columns) (ops ++ [.update]) e.validator.dist)
    (o : Cell) (ho : o ∈ obstacles ops) (actions : List Action)
    (hact : AStar.getActions s = some (actions.map some)) (a : Action) (ha : a ∈ actions)
    (t : ℝ) (ht : 0 ≤ t) (ht1 : t < 1) (hl : a.length ≠ 0) :
    ∃ t', 0 ≤ t' ∧ t' ≤ t ∧ Acceptable e.validator (a.interpolate t') ∧
      reportedDistance e.validator (a.interpolate t').position / √(4 - 2 * √2)
        - max (reportedDistance e.validator (a.interpolate t').position - e.validator.minSafe) e.validator.minStep
        - √2 * e.validator.map.resolution
        ≤ euclid (a.interpolate t).position (e.validator.map.gridCellToWorldPosition o) := by
  obtain ⟨steps, q, hact', -, -, -, hm⟩ := C80_success e hc random nbrs h init fuel s hs
  have heq : actions = routeActions steps := by
    rw [hact] at hact'
    exact List.map_injective_iff.mpr (Option.some_injective _) (Option.some.inj hact')
  rw [heq] at ha
  obtain ⟨h1, h2, h3⟩ := hm a ha
  have hpos : 0 < a.length := lt_of_le_of_ne h2 (Ne.symm hl)
  obtain ⟨x, h4, h5, h6, h7⟩ := h3 (t * a.length) (mul_nonneg ht h2) (by nlinarith)
  have h8 : √2 < 2 := by
    rw [Real.sqrt_lt' (by norm_num)]; norm_num
  exact clearance_at hres (q := a.any) hpos (motion_unit_speed hc.radius h1) o _
    (Real.sqrt_pos.mpr (by linarith)) (reported_le hres hrun o ho) t ht1 h4 h5 h6 h7

/-! ## C81 -/

theorem abs_le_euclid (p q : Pt) : |q.x - p.x| ≤ euclid p q ∧ |q.y - p.y| ≤ euclid p q := by
  rw [euclid_swap]
  exact ⟨abs_le_sqrt (by nlinarith [sq_nonneg (q.y - p.y)]), abs_le_sqrt (by nlinarith [sq_nonneg (q.x - p.x)])⟩

/-- Where a child is: at its parent, at the goal, or at most 1.5 resolutions away from an acceptable parent. -/
theorem child_position {e : Propagator} (hc : Configured e) {u : State} {t : State × Action × WithTop ℝ}
    (h : ChildOf e u t) :
    t.1.continuousPose.position = u.continuousPose.position ∨ t.1.continuousPose.position = e.goal.position ∨
    ((∃ θ, Acceptable e.validator ⟨u.continuousPose.position, θ⟩) ∧
      euclid u.continuousPose.position t.1.continuousPose.position ≤ 1.5 * e.param.spatialResolution) := by
  obtain ⟨v, a, c⟩ := t
  obtain ⟨hi, hf, -, hm, hl, hck⟩ := h
  dsimp only at hi hf hm hl hck ⊢
  have hspeed := motion_unit_speed hc.radius hm
  rcases hm with ⟨δ, -, dir, -, len, hlen, hle, ha⟩ | ha
  · have e0 : a.interpolate 0 = a.init := by
      rw [ha]
      show Bicycle.constantSteer _ _ _ (_ * 0) _ = _
      rw [mul_zero]
      unfold Bicycle.constantSteer
      simp
      rfl
    have e1 : a.interpolate 1 = a.final := by rw [ha]; rfl
    have hal : a.length = len := by rw [ha]; rfl
    rw [hf, ← hi]
    rcases hlen.eq_or_lt with h0 | h0
    · left
      rw [← e1, ← e0, ha]
      show (Bicycle.constantSteer _ _ _ (len * 1) _).position = (Bicycle.constantSteer _ _ _ (len * 0) _).position
      rw [← h0, zero_mul, zero_mul]
    · right; right
      obtain ⟨t, h1, h2, h3, -⟩ := hck 0 le_rfl (by rw [hal]; exact h0)
      obtain rfl : t = 0 := le_antisymm h2 h1
      rw [zero_div, e0] at h3
      refine ⟨⟨a.init.theta, h3⟩, ?_⟩
      have := hspeed 0 1 le_rfl zero_le_one le_rfl
      have this : euclid (a.interpolate 0).position (a.interpolate 1).position ≤ (1 - 0) * a.length := this
      rw [e0, e1, hal] at this
      linarith
  · right; left
    rw [hf, ha]
    exact (C49_connect a.init e.goal e.param.minTurningRadius
      e.param.reverseCostMultiplier e.param.forwardCostMultiplier e.param.directionSwitchingCost hc.radius).2.1.1

/-- The positions within `M` of the origin of the world. -/
def Within (M : ℝ) (p : Pt) : Prop := |p.x| ≤ M ∧ |p.y| ≤ M

theorem reachable_within {e : Propagator} (hc : Configured e) {random : Nat → ℝ} {nbrs}
    (h : e.Answers random nbrs) {init : PoseR} {M : ℝ} (hi : Within M init.position)
    (hg : Within M e.goal.position)
    (hb : ∀ s, Acceptable e.validator s → Within (M - 1.5 * e.param.spatialResolution) s.position) {v : State}
    (hr : Reachable (e.problem nbrs).tr (stateFromPose e.param init) v) : Within M v.continuousPose.position := by
  obtain ⟨l, hl⟩ := hr
  obtain ⟨i, hii⟩ : ∃ i, i = stateFromPose e.param init := ⟨_, rfl⟩
  rw [← hii] at hl
  induction hl with
  | nil => rw [hii]; exact hi
  | snoc _ ht ih =>
    rcases child_position hc (child_of hc h ht) with h1 | h1 | ⟨⟨θ, h1⟩, h2⟩
    · dsimp only at h1
      rw [h1]; exact ih
    · dsimp only at h1
      rw [h1]; exact hg
    · obtain ⟨h3, h4⟩ := hb _ h1
      obtain ⟨h5, h6⟩ := abs_le_euclid _ _ |>.imp (·.trans h2) (·.trans h2)
      dsimp only at h3 h4 h5 h6
      rw [abs_le] at h3 h4 h5 h6
      constructor <;> rw [abs_le] <;> constructor <;> linarith [h3.1, h3.2, h4.1, h4.2, h5.1, h5.2, h6.1, h6.2]

/-- All cells with indices up to `N`. -/
def hybridCells (N : Nat) : List PoseI :=
  (List.range (2 * N + 1)).flatMap fun (i : Nat) => (List.range (2 * N + 1)).flatMap fun (j : Nat) =>
    (List.range 7).map fun (k : Nat) => ⟨(i : ℤ) - N, (j : ℤ) - N, (k : ℤ) - 3⟩

theorem length_hybridCells (N : Nat) : (hybridCells N).length = 7 * (2 * N + 1) ^ 2 := by
  simp [hybridCells, List.length_flatMap]
  ring

theorem mem_hybridCells {N : Nat} {c : PoseI} (hx : |c.x| ≤ N) (hy : |c.y| ≤ N) (ht : -3 ≤ c.theta ∧ c.theta ≤ 3) :
    c ∈ hybridCells N := by
  rw [abs_le] at hx hy
  simp only [hybridCells, List.mem_flatMap, List.mem_map, List.mem_range]
  refine ⟨(c.x + N).toNat, by omega, (c.y + N).toNat, by omega, (c.theta + 3).toNat, by omega, ?_⟩
  obtain ⟨x, y, θ⟩ := c
  simp only [PoseI.mk.injEq]
  dsimp only at hx hy ht
  omega

theorem abs_truncInt_le {x : ℝ} {N : Nat} (h : |x| ≤ N) : |truncInt x| ≤ N := by
  rw [abs_le] at h ⊢
  unfold truncInt
  split
  · rename_i h0
    have h1 : 0 ≤ ⌊x⌋ := Int.floor_nonneg.mpr h0
    refine ⟨by omega, ?_⟩
    have : (⌊x⌋ : ℝ) ≤ N := (Int.floor_le x).trans h.2
    exact_mod_cast this
  · rename_i h0
    push Not at h0
    have h1 : ⌈x⌉ ≤ 0 := Int.ceil_le.mpr (by push_cast; linarith)
    refine ⟨?_, by omega⟩
    have : ((-(N : ℤ) : ℤ) : ℝ) ≤ ⌈x⌉ := by push_cast; exact h.1.trans (Int.le_ceil x)
    exact_mod_cast this

/-- C81: the graph search always ends, whatever the obstacles, the heuristic (even infinite or negative) and
the random numbers: when the start and the goal are within the distance `M` of the origin of the world, and
all acceptable positions within `M` less 1.5 spatial resolutions, it ends after at most
`7 (2 ⌈M / resolution⌉ + 1)² + 1` iterations. -/
theorem C81_terminates (e : Propagator) (hc : Configured e) (random : Nat → ℝ)
    (nbrs : Nat → State → List (State × Action × WithTop ℝ)) (h : e.Answers random nbrs)
    (init : PoseR) (M : ℝ) (hi : Within M init.position) (hg : Within M e.goal.position)
    (hb : ∀ s, Acceptable e.validator s → Within (M - 1.5 * e.param.spatialResolution) s.position) :
    ∃ st s, AStar.searchPath (e.problem nbrs) true
      (7 * (2 * ⌈M / e.param.spatialResolution⌉₊ + 1) ^ 2 + 1) (stateFromPose e.param init) = some (st, s) := by
  obtain ⟨N, hN⟩ : ∃ N, N = ⌈M / e.param.spatialResolution⌉₊ := ⟨_, rfl⟩
  obtain ⟨R, hR⟩ : ∃ R : List State, R = (hybridCells N).map fun c => ⟨.noMotion, c, init⟩ := ⟨_, rfl⟩
  have hlen : R.length = 7 * (2 * N + 1) ^ 2 := by rw [hR, List.length_map, length_hybridCells]
  have := C08_astar_graph_search_terminates (P := e.problem nbrs) equal_equiv
    (init := stateFromPose e.param init) (R := R) (by
      intro x hx
      have hw := reachable_within hc h hi hg hb hx
      have hcell := reachable_cell hc h hx
      have hsc : ∀ y : ℝ, |y| ≤ M → |truncInt (y / e.param.spatialResolution)| ≤ N := by
        intro y hy
        refine abs_truncInt_le ?_
        rw [abs_div, abs_of_pos hc.res, hN]
        exact (div_le_div_of_nonneg_right hy hc.res.le).trans (Nat.le_ceil _)
      refine ⟨⟨.noMotion, x.discretePose, init⟩, ?_, decide_eq_true rfl⟩
      rw [hR, List.mem_map]
      refine ⟨x.discretePose, ?_, rfl⟩
      rw [hcell]
      exact mem_hybridCells (hsc _ hw.1) (hsc _ hw.2) (C79_at_most_seven_headings _ _))
  rw [hlen, Option.isSome_iff_exists] at this
  obtain ⟨⟨st, s⟩, hs⟩ := this
  exact ⟨st, s, by rw [← hN]; exact hs⟩

/-- C81, for the bounds of the state space: the planner of every start and goal ends. -/
theorem C81_always_ends (e : Propagator) (hc : Configured e) (random : Nat → ℝ)
    (nbrs : Nat → State → List (State × Action × WithTop ℝ)) (h : e.Answers random nbrs) (init : PoseR) :
    ∃ fuel st s, AStar.searchPath (e.problem nbrs) true fuel (stateFromPose e.param init) = some (st, s) := by
  obtain ⟨v, hv⟩ : ∃ v, v = e.validator := ⟨_, rfl⟩
  obtain ⟨r, hr⟩ : ∃ r, r = 1.5 * e.param.spatialResolution := ⟨_, rfl⟩
  obtain ⟨M, hM⟩ : ∃ M, M = |init.position.x| + |init.position.y| + |e.goal.position.x| + |e.goal.position.y| +
      |v.space.lb.position.x| + |v.space.ub.position.x| + |v.space.lb.position.y| + |v.space.ub.position.y| +
      |v.map.localOrigin.x| + |v.map.localOrigin.y| + r := ⟨_, rfl⟩
  have hr0 : 0 ≤ r := by rw [hr]; have := hc.res; positivity
  have n1 := abs_nonneg init.position.x
  have n2 := abs_nonneg init.position.y
  have n3 := abs_nonneg e.goal.position.x
  have n4 := abs_nonneg e.goal.position.y
  have n5 := abs_nonneg v.space.lb.position.x
  have n6 := abs_nonneg v.space.ub.position.x
  have n7 := abs_nonneg v.space.lb.position.y
  have n8 := abs_nonneg v.space.ub.position.y
  have n9 := abs_nonneg v.map.localOrigin.x
  have n10 := abs_nonneg v.map.localOrigin.y
  obtain ⟨st, s, hs⟩ := C81_terminates e hc random nbrs h init M ⟨by linarith, by linarith⟩ ⟨by linarith, by linarith⟩ (by
    intro s ha
    rw [← hv] at ha
    rw [← hr]
    have a1 := neg_abs_le v.space.lb.position.x
    have a2 := le_abs_self v.space.ub.position.x
    have a3 := neg_abs_le v.space.lb.position.y
    have a4 := le_abs_self v.space.ub.position.y
    have a5 := neg_abs_le v.map.localOrigin.x
    have a6 := le_abs_self v.map.localOrigin.x
    have a7 := neg_abs_le v.map.localOrigin.y
    have a8 := le_abs_self v.map.localOrigin.y
    have b1 := ha.x_ge
    have b2 := ha.x_le
    have b3 := ha.y_ge
    have b4 := ha.y_le
    constructor <;> rw [abs_le] <;> constructor <;> linarith)
  exact ⟨_, st, s, hs⟩

/-- Non-vacuity: the planner of `HybridExample` meets the hypotheses. -/
example (random : Nat → ℝ) : Configured exPlanner ∧
    exPlanner.Answers random (fun k s => (exPlanner.neighborStates (random k) s).getD []) ∧
    Within 7 exStart.position ∧ Within 7 exPlanner.goal.position ∧
    ∀ s, Acceptable exPlanner.validator s →
      Within (7 - 1.5 * exPlanner.param.spatialResolution) s.position := by
  refine ⟨exPlanner_configured, fun _ _ => rfl, ?_, ?_, fun s hs => ?_⟩
  · constructor <;> norm_num [exStart, abs_le]
  · constructor <;> norm_num [exPlanner, abs_le]
  · have b1 := hs.x_ge
    have b2 := hs.x_le
    have b3 := hs.y_ge
    have b4 := hs.y_le
    simp only [exPlanner, exValidator, exSpace, exMap, sub_zero] at b1 b2 b3 b4
    simp only [exPlanner]
    constructor <;> rw [abs_le] <;> constructor <;> linarith

end PathPlanning
