import Verif.Props.HybridClearance
import Verif.Props.HybridSampling
import Verif.Props.HybridSteer

/-!
# C82-C85, C87: expansion, costs and recognition of the goal in hybrid A*
-/

namespace PathPlanning
open Real Spec HybridAStar HybridAStar.Propagator

/-! ## C87: what an expansion offers -/

theorem steerChildren_complete {e : Propagator} {u : State} : ∀ {l : List ℝ} {ts}, e.steerChildren u l = some ts →
    ∀ δ ∈ l, ∀ dir, (dir = .forward ∨ dir = .backward) →
      ∃ o, e.steerChild u δ dir = some o ∧ ∀ t, o = some t → t ∈ ts
  | [], ts, _, δ, hδ, _, _ => by cases hδ
  | d :: l, ts, h, δ, hδ, dir, hdir => by
    simp only [steerChildren, Option.bind_eq_bind, Option.bind_eq_some_iff] at h
    obtain ⟨f, hf, b, hb, rest, hrest, h⟩ := h
    simp only [Option.some.injEq] at h
    subst h
    rcases List.mem_cons.mp hδ with rfl | hδ
    · rcases hdir with rfl | rfl
      · exact ⟨f, hf, fun t ht => by rw [ht]; simp⟩
      · exact ⟨b, hb, fun t ht => by rw [ht]; simp⟩
    · obtain ⟨o, h1, h2⟩ := steerChildren_complete hrest δ hδ dir hdir
      exact ⟨o, h1, fun t ht => List.mem_append_right _ (h2 t ht)⟩

/-- C87: every steering angle is offered in both directions. If the motion of 1.5 resolutions passes the
collision check it is offered in full; if it does not, the part that was checked is offered, unless its
end is in the cell of the expanded state. -/
theorem C87_every_steering_angle (e : Propagator) (random : ℝ) (u : State)
    (ts : List (State × Action × WithTop ℝ)) (h : e.neighborStates random u = some ts)
    (δ : ℝ) (hδ : δ ∈ deltas e.param) (dir : Direction) (hdir : dir = .forward ∨ dir = .backward) :
    ∃ valid r, e.validator.isPathValid (Action.steer (PathSteer.new (model e.param) u.continuousPose δ
        (1.5 * e.param.spatialResolution) dir)).any = some (valid, r) ∧
      ∃ len, len = (if valid then 1.5 * e.param.spatialResolution else r * (1.5 * e.param.spatialResolution)) ∧
      ∃ a, a = Action.steer (PathSteer.new (model e.param) u.continuousPose δ len dir) ∧
        ((∃ t ∈ ts, t.2.1 = a ∧ t.1.continuousPose = a.final) ∨
          (valid = false ∧ u.discretePose = discretizePose e.param a.final)) := by
  unfold neighborStates at h
  simp only [Option.bind_eq_bind, Option.bind_eq_some_iff] at h
  obtain ⟨ns, hns, h⟩ := h
  have hsub : ∀ t ∈ ns, t ∈ ts := by
    intro t ht
    split at h
    · simp only [Option.bind_eq_some_iff] at h
      obtain ⟨c, hc, h⟩ := h
      simp only [Option.some.injEq] at h
      rw [← h]
      exact List.mem_append_left _ ht
    · simp only [Option.some.injEq] at h
      rw [← h]
      exact ht
  obtain ⟨o, ho, hmem⟩ := steerChildren_complete hns δ hδ dir hdir
  unfold steerChild at ho
  simp only [Option.bind_eq_bind, Option.bind_eq_some_iff] at ho
  obtain ⟨⟨valid, r⟩, hv, ho⟩ := ho
  have hp : e.steerPath u δ dir = Action.steer (PathSteer.new (model e.param) u.continuousPose δ
      (1.5 * e.param.spatialResolution) dir) := by
    unfold steerPath
    rw [mul_comm]
  rw [hp] at hv ho
  refine ⟨valid, r, hv, _, rfl, _, rfl, ?_⟩
  dsimp only at ho
  cases valid with
  | true =>
    simp only [if_true, Option.bind_eq_some_iff] at ho
    obtain ⟨c, hc, ho⟩ := ho
    simp only [Option.some.injEq] at ho
    left
    exact ⟨_, hsub _ (hmem _ ho.symm), rfl, rfl⟩
  | false =>
    simp only [Bool.false_eq_true, if_false] at ho ⊢
    have htr : (Action.steer (PathSteer.new (model e.param) u.continuousPose δ
        (1.5 * e.param.spatialResolution) dir)).truncate r =
        Action.steer (PathSteer.new (model e.param) u.continuousPose δ
          (r * (1.5 * e.param.spatialResolution)) dir) := by
      show Action.steer (PathSteer.truncate _ r) = _
      rw [steer_truncate, mul_comm]
    rw [htr] at ho
    split at ho
    · rename_i heq
      exact .inr ⟨trivial, of_decide_eq_true heq⟩
    · simp only [Option.bind_eq_some_iff] at ho
      obtain ⟨c, hc, ho⟩ := ho
      simp only [Option.some.injEq] at ho
      exact .inl ⟨_, hsub _ (hmem _ ho.symm), rfl, rfl⟩

/-- C87: the Reeds-Shepp path of least cost to the goal is offered if it passes the collision check and the
heuristic value is below 10 (whatever the random number), or the random number is below `10 / h²`. -/
theorem C87_reeds_shepp (e : Propagator) (random : ℝ) (u : State)
    (ts : List (State × Action × WithTop ℝ)) (h : e.neighborStates random u = some ts)
    (hh : ∃ c : ℝ, e.heuristic u.continuousPose = c ∧ (c < 10 ∨ random < 10 / c ^ 2)) (r : ℝ)
    (hv : e.validator.isPathValid (Action.reedsShepp (PathRS.connect u.continuousPose e.goal
      e.param.minTurningRadius e.param.reverseCostMultiplier e.param.forwardCostMultiplier
      e.param.directionSwitchingCost)).any = some (true, r)) :
    ∃ t ∈ ts, t.2.1 = .reedsShepp (PathRS.connect u.continuousPose e.goal
        e.param.minTurningRadius e.param.reverseCostMultiplier e.param.forwardCostMultiplier
        e.param.directionSwitchingCost) ∧ t.1.continuousPose = t.2.1.final ∧
      t.1.discretePose = discretizePose e.param t.1.continuousPose := by
  unfold neighborStates at h
  simp only [Option.bind_eq_bind, Option.bind_eq_some_iff] at h
  obtain ⟨ns, hns, h⟩ := h
  obtain ⟨c, hc, hlt⟩ := hh
  have htry : tryReedsShepp (e.heuristic u.continuousPose) random = true := by
    rw [hc]
    show (decide (c < 10) || decide (random < 10 / (c * c))) = true
    rw [Bool.or_eq_true, decide_eq_true_eq, decide_eq_true_eq, ← pow_two]
    exact hlt
  rw [if_pos htry] at h
  simp only [Option.bind_eq_some_iff] at h
  obtain ⟨o, ho, h⟩ := h
  simp only [Option.some.injEq] at h
  unfold reedsSheppChild at ho
  simp only [Option.bind_eq_bind, Option.bind_eq_some_iff] at ho
  obtain ⟨⟨valid, r'⟩, hv', ho⟩ := ho
  have hv'' : some (valid, r') = some (true, r) := hv'.symm.trans hv
  simp only [Option.some.injEq, Prod.mk.injEq] at hv''
  dsimp only at ho
  rw [hv''.1, if_pos rfl] at ho
  simp only [Option.bind_eq_some_iff] at ho
  obtain ⟨w, hw, ho⟩ := ho
  simp only [Option.some.injEq] at ho
  rw [← h, ← ho]
  exact ⟨_, List.mem_append_right _ (List.mem_singleton.mpr rfl), rfl, rfl, rfl⟩

/-! ## C83: costs -/

/-- C83 is violated: the children of a state, and their costs, do not depend on the direction in which the
state was reached: a change of direction is never charged. -/
theorem C83_switch_not_charged (e : Propagator) (u : State) (d : Direction) (random : ℝ) :
    e.neighborStates random { u with direction := d } = e.neighborStates random u := by
  have h1 : ∀ δ dir, e.steerChild { u with direction := d } δ dir = e.steerChild u δ dir := fun _ _ => rfl
  have h2 : ∀ l, e.steerChildren { u with direction := d } l = e.steerChildren u l := by
    intro l
    induction l with
    | nil => rfl
    | cons δ l ih => simp only [steerChildren, h1, ih]
  unfold neighborStates
  rw [h2]
  rfl

/-- C83 (partial: without the switching cost): the cost of a steering motion is its length times the
multiplier of its direction plus its Voronoi cost. -/
theorem C83_steer_cost_partial (e : Propagator) (u : State) (δ : ℝ) (dir : Direction)
    (hdir : dir = .forward ∨ dir = .backward) (v : State) (a : Action) (c : WithTop ℝ)
    (h : e.steerChild u δ dir = some (some (v, a, c))) :
    ∃ w, e.voronoiCost a = some w ∧
      c = (((if dir = .forward then e.param.forwardCostMultiplier else e.param.reverseCostMultiplier) * a.length
        + w : ℝ) : WithTop ℝ) := by
  have key : ∀ a x, e.steerCost a dir = some x → ∃ w, e.voronoiCost a = some w ∧
      x = (if dir = .forward then e.param.forwardCostMultiplier else e.param.reverseCostMultiplier) * a.length
        + w := by
    intro a x hx
    unfold steerCost at hx
    simp only [Option.bind_eq_bind, Option.bind_eq_some_iff] at hx
    obtain ⟨w, hw, hx⟩ := hx
    simp only [Option.some.injEq] at hx
    refine ⟨w, hw, ?_⟩
    rw [← hx, if_pos trivial]
    rcases hdir with rfl | rfl <;> simp
  unfold steerChild at h
  simp only [Option.bind_eq_bind, Option.bind_eq_some_iff] at h
  obtain ⟨⟨valid, r⟩, hv, h⟩ := h
  dsimp only at h
  split at h
  · simp only [Option.bind_eq_some_iff] at h
    obtain ⟨x, hx, h⟩ := h
    simp only [Option.some.injEq, Prod.mk.injEq] at h
    obtain ⟨-, rfl, rfl⟩ := h
    obtain ⟨w, h1, h2⟩ := key _ _ hx
    exact ⟨w, h1, by rw [h2]⟩
  · split at h
    · cases h
    · simp only [Option.bind_eq_some_iff] at h
      obtain ⟨x, hx, h⟩ := h
      simp only [Option.some.injEq, Prod.mk.injEq] at h
      obtain ⟨-, rfl, rfl⟩ := h
      obtain ⟨w, h1, h2⟩ := key _ _ hx
      exact ⟨w, h1, by rw [h2]⟩

/-- C83: the cost of a Reeds-Shepp connection is the cost of the path (with the multipliers and the switching
cost) plus its Voronoi cost. -/
theorem C83_reeds_shepp_cost (e : Propagator) (u : State) (v : State) (a : Action) (c : WithTop ℝ)
    (h : e.reedsSheppChild u = some (some (v, a, c))) :
    ∃ q, q = PathRS.connect u.continuousPose e.goal e.param.minTurningRadius e.param.reverseCostMultiplier
        e.param.forwardCostMultiplier e.param.directionSwitchingCost ∧ a = .reedsShepp q ∧
      ∃ x w : ℝ, q.segment.computeCost e.param.minTurningRadius e.param.reverseCostMultiplier
          e.param.forwardCostMultiplier e.param.directionSwitchingCost = some x ∧
        e.voronoiCost a = some w ∧ c = ((x + w : ℝ) : WithTop ℝ) := by
  obtain ⟨_, _, _, _, _, _, x, _, _, hx, _⟩ := C50_optimal u.continuousPose e.goal e.param.minTurningRadius
    e.param.reverseCostMultiplier e.param.forwardCostMultiplier e.param.directionSwitchingCost
  unfold reedsSheppChild at h
  simp only [Option.bind_eq_bind, Option.bind_eq_some_iff] at h
  obtain ⟨⟨valid, r⟩, hv, h⟩ := h
  dsimp only at h
  split at h
  · simp only [Option.bind_eq_some_iff] at h
    obtain ⟨w, hw, h⟩ := h
    simp only [Option.some.injEq, Prod.mk.injEq] at h
    obtain ⟨-, rfl, rfl⟩ := h
    refine ⟨_, rfl, rfl, x, w, hx, hw, ?_⟩
    rw [WithTop.coe_add]
    exact congrArg (· + (w : WithTop ℝ)) hx
  · cases h

theorem voronoiLoop_last (e : Propagator) (a : Action) (d : ℝ) (hd : 0 < d) : ∀ (fuel n : Nat) (acc w : ℝ),
    a.length ≤ ((n + fuel : Nat) : ℝ) * d → e.voronoiLoop a d (n * d) acc = some w →
    (a.length ≤ n * d ∧ w = acc) ∨ ∃ m : Nat, (m : ℝ) * d < a.length ∧ a.length ≤ ((m + 1 : Nat) : ℝ) * d ∧
      e.pathCost (e.validator.map.worldPositionToGridCell (a.interpolate (m * d / a.length)).position false)
        = some w
  | fuel, n, acc, w, hf, h => by
    rw [voronoiLoop] at h
    by_cases hlt : (n : ℝ) * d < a.length
    · rw [if_pos hlt] at h
      simp only [Option.bind_eq_bind, Option.bind_eq_some_iff] at h
      obtain ⟨c, hc, h⟩ := h
      have hnext : (n : ℝ) * d + d = ((n + 1 : Nat) : ℝ) * d := by push_cast; ring
      rw [hnext] at h
      cases fuel with
      | zero => simp at hf; linarith
      | succ fuel =>
        right
        rcases voronoiLoop_last e a d hd fuel (n + 1) c w (by rwa [show n + 1 + fuel = n + (fuel + 1) by omega]) h
          with ⟨h1, h2⟩ | h1
        · exact ⟨n, hlt, h1, by rw [h2]; exact hc⟩
        · exact h1
    · rw [if_neg hlt] at h
      simp only [Option.some.injEq] at h
      exact .inl ⟨not_lt.mp hlt, h.symm⟩

/-- C83 is violated: the Voronoi cost of a motion is not accumulated along it: it is the value of the field
at the last sampled state (times the sampling distance), whatever the motion passed before. -/
theorem C83_voronoi_of_last_sample (e : Propagator) (a : Action) (hl : 0 < a.length) (d : ℝ)
    (hd : d = e.gvd.map.resolution * √2) (hres : 0 < e.gvd.map.resolution) (w : ℝ)
    (h : e.voronoiCost a = some w) :
    ∃ m : Nat, (m : ℝ) * d < a.length ∧ a.length ≤ ((m + 1 : Nat) : ℝ) * d ∧
      w = e.param.voronoiCostMultiplier * (e.gvd.cost (e.validator.map.worldPositionToGridCell
        (a.interpolate (m * d / a.length)).position false) * d) := by
  have hd0 : 0 < d := by rw [hd]; positivity
  have hi : e.interpLength = d := hd.symm
  unfold Propagator.voronoiCost at h
  rw [hi] at h
  simp only [Option.map_eq_some_iff] at h
  obtain ⟨c, hc, rfl⟩ := h
  obtain ⟨fuel, hfuel⟩ := exists_nat_gt (a.length / d)
  rw [div_lt_iff₀ hd0] at hfuel
  rcases voronoiLoop_last e a d hd0 fuel 0 0 c (by simpa using hfuel.le) (by simpa using hc) with ⟨h1, -⟩ | ⟨m, h1, h2, h3⟩
  · simp at h1; linarith
  · refine ⟨m, h1, h2, ?_⟩
    unfold pathCost at h3
    split at h3
    · simp only [Option.some.injEq] at h3
      rw [h3]
    · cases h3

/-! ## C84: the start is the goal -/

theorem search_one {S A C : Type} [LinearOrder C] [Add C] [Zero C] {P : Problem S A C} (he : KeyEquiv P.eqS)
    {init : S} (h0 : P.isSol init = true) (fuel : Nat) :
    ∃ s, AStar.searchPath P true (fuel + 1) init = some (.success, s) ∧ AStar.getActions s = some [] := by
  obtain ⟨r, hrr⟩ : ∃ r : ANode S A C, r = AStar.rootNode init := ⟨_, rfl⟩
  have hrs : r.state = init := by rw [hrr]; rfl
  have h1 : AStar.initSearch P init = ⟨⟨[r], [r]⟩, [r], none, []⟩ := by
    unfold AStar.initSearch
    rw [← hrr]
    congr 1
    simp [Frontier.push, Frontier.empty]
  have hpop : Frontier.pop (AStar.eqNode P) ⟨[r], [r]⟩ = some (⟨[], []⟩, r) := by
    simp [Frontier.pop, AStar.eqNode, he.refl]
  refine ⟨⟨⟨[], []⟩, [r], some r, []⟩, ?_, by rw [hrr]; rfl⟩
  unfold AStar.searchPath
  rw [h1, AStar.loop, hpop]
  simp only [hrs, h0, if_true]

theorem identicalPoses_self (a : PoseR) : identicalPoses a a = true := by
  rw [identicalPoses_iff]
  have hpi := Real.pi_pos
  have : (a.position - a.position).norm = 0 := by simp [Pt.norm]
  rw [this, sub_self, abs_zero]
  exact ⟨by norm_num, by positivity⟩

/-- C84 is violated: if the start is (within 1 mm and 0.001°) the goal, the graph search succeeds at once
without an action, and `SearchPath` then throws, whatever the map, the smoother and the parameters. -/
theorem C84_start_is_goal (e : Propagator) (nbrs : Nat → State → List (State × Action × WithTop ℝ))
    (init : PoseR) (hg : identicalPoses init e.goal = true) (fuel : Nat) (h : ℝ) (hh : 0 < h) (dflt : PoseR)
    (smooth : List PoseR → List Nat → Option (SmoothStatus × List PoseR)) (old : List PoseR) :
    ∃ s, AStar.searchPath (e.problem nbrs) true (fuel + 1) (stateFromPose e.param init) = some (.success, s) ∧
      AStar.getActions s = some [] ∧ finish h dflt smooth old .success [] = none := by
  have hproc : finish h dflt smooth old .success [] = none := by
    obtain ⟨ratios, idx, h1, h2, -⟩ := C57_samples_partial h 0 [] hh le_rfl (by simp)
    have : processPath h dflt [] = none := by
      unfold processPath compositePath
      show (do
        let (ratios, cuspIndices) ← sampleRatios h 0 []
        let states ← ratios.mapM ((Composite.new dflt : Composite PoseR Action ℝ).interpolate Action.ops)
        some (states, cuspIndices)) = none
      rw [h1]
      cases ratios with
      | nil => cases h2
      | cons r l =>
        have : (Composite.new dflt : Composite PoseR Action ℝ).interpolate Action.ops r = none := rfl
        simp [this]
    unfold finish
    rw [this]
    rfl
  obtain ⟨s, h1, h2⟩ := search_one (P := e.problem nbrs) equal_equiv (init := stateFromPose e.param init) hg fuel
  exact ⟨s, h1, h2, hproc⟩

example : ∃ init : PoseR, identicalPoses init exPlanner.goal = true :=
  ⟨exPlanner.goal, identicalPoses_self _⟩

/-! ## C85: recognition of the goal -/

theorem add_wrapped (a b : PoseR) : -π ≤ (a.add b).theta ∧ (a.add b).theta ≤ π := C41_range _

theorem move_wrapped (R : ℝ) (p : PoseR) (m : RS.Motion) (l : ℝ) :
    -π ≤ (PathRS.move R p m l).theta ∧ (PathRS.move R p m l).theta ≤ π := by
  unfold PathRS.move
  split
  · exact C41_range _
  · exact add_wrapped _ _

theorem interpLoop_wrapped (R target : ℝ) : ∀ (ms : List RS.Motion) (p : PoseR) (len : ℝ),
    (-π ≤ p.theta ∧ p.theta ≤ π) ∨ totalLength (stretches R ms) ≠ 0 →
    -π ≤ (PathRS.interpLoop R target ms p len).theta ∧ (PathRS.interpLoop R target ms p len).theta ≤ π
  | [], p, len, h => by
    rcases h with h | h
    · exact h
    · exact absurd rfl h
  | m :: l, p, len, h => by
    unfold PathRS.interpLoop
    split
    · rename_i hv
      dsimp only
      split
      · rename_i h0
        refine interpLoop_wrapped R target l p len (h.imp id fun h h' => h ?_)
        unfold stretches totalLength at h' ⊢
        rw [List.takeWhile_cons_of_pos hv]
        simp only [List.map_cons, List.sum_cons]
        rw [h', add_zero]
        exact h0
      · split
        · exact move_wrapped _ _ _ _
        · exact interpLoop_wrapped R target l _ _ (.inl (move_wrapped _ _ _ _))
    · rename_i hv
      rcases h with h | h
      · exact h
      · refine absurd ?_ h
        unfold stretches totalLength
        rw [List.takeWhile_cons_of_neg hv]
        rfl

/-- C85 (partial: for a Reeds-Shepp connection of positive length, and headings of the goal other than ±π).
The end of the Reeds-Shepp connection to the goal is recognised as the goal, from every state. -/
theorem C85_connection_recognised_partial (e : Propagator) (hR : 0 < e.param.minTurningRadius) (p : PoseR)
    (hg : -π < e.goal.theta) (hg' : e.goal.theta < π)
    (hl : (PathRS.connect p e.goal e.param.minTurningRadius e.param.reverseCostMultiplier
      e.param.forwardCostMultiplier e.param.directionSwitchingCost).length ≠ 0) :
    (PathRS.connect p e.goal e.param.minTurningRadius e.param.reverseCostMultiplier
      e.param.forwardCostMultiplier e.param.directionSwitchingCost).final = e.goal ∧
    identicalPoses (PathRS.connect p e.goal e.param.minTurningRadius e.param.reverseCostMultiplier
      e.param.forwardCostMultiplier e.param.directionSwitchingCost).final e.goal = true := by
  obtain ⟨-, ⟨h1, k, h2⟩, -, -⟩ := C49_connect p e.goal e.param.minTurningRadius e.param.reverseCostMultiplier
      e.param.forwardCostMultiplier e.param.directionSwitchingCost hR
  have hpi := Real.pi_pos
  have hw : -π ≤ (PathRS.connect p e.goal e.param.minTurningRadius e.param.reverseCostMultiplier
      e.param.forwardCostMultiplier e.param.directionSwitchingCost).final.theta ∧
      (PathRS.connect p e.goal e.param.minTurningRadius e.param.reverseCostMultiplier
      e.param.forwardCostMultiplier e.param.directionSwitchingCost).final.theta ≤ π := by
    obtain ⟨w, hw, t, u, v, len, c, hm, hp, -, -⟩ := C50_optimal p e.goal e.param.minTurningRadius
      e.param.reverseCostMultiplier e.param.forwardCostMultiplier e.param.directionSwitchingCost
    obtain ⟨hb, ht, hu, hv, _, _⟩ := word_ends hR hm
    have hwf := getPath_wellFormed hb ht hu hv
    unfold PathRS.connect at hl ⊢
    rw [hp] at hl ⊢
    obtain ⟨-, g2, -, g4, -, -⟩ := C45_reeds_shepp p _ hwf e.param.minTurningRadius hR
    rw [← g4]
    unfold PathRS.interpolate
    rw [if_neg hl]
    refine interpLoop_wrapped _ _ _ _ _ (.inr ?_)
    rw [g2] at hl
    exact hl
  have hk : k = 0 := by
    have h3 : (k : ℝ) * (2 * π) < 2 * π := by linarith [hw.2]
    have h4 : -(2 * π) < (k : ℝ) * (2 * π) := by linarith [hw.1]
    have h5 : (k : ℝ) < 1 := by nlinarith
    have h6 : (-1 : ℝ) < k := by nlinarith
    have h7 : k < 1 := by exact_mod_cast h5
    have h8 : -1 < k := by exact_mod_cast h6
    omega
  have heq : (PathRS.connect p e.goal e.param.minTurningRadius e.param.reverseCostMultiplier
      e.param.forwardCostMultiplier e.param.directionSwitchingCost).final = e.goal := by
    rw [hk] at h2
    rw [Int.cast_zero, zero_mul, add_zero] at h2
    obtain ⟨q, hq⟩ : ∃ q, q = (PathRS.connect p e.goal e.param.minTurningRadius e.param.reverseCostMultiplier
      e.param.forwardCostMultiplier e.param.directionSwitchingCost).final := ⟨_, rfl⟩
    rw [← hq] at h1 h2 ⊢
    obtain ⟨g, hgg⟩ : ∃ g, g = e.goal := ⟨_, rfl⟩
    rw [← hgg] at h1 h2 ⊢
    cases q
    cases g
    simp only at h1 h2
    rw [h1, h2]
  exact ⟨heq, by rw [heq]; exact identicalPoses_self _⟩

/-- C85 is violated: a state at the goal whose heading differs from that of the goal by full turns is not
recognised. -/
theorem C85_full_turn (a goal : PoseR) (hp : a.position = goal.position) (k : ℤ) (hk : k ≠ 0)
    (ht : a.theta = goal.theta + k * (2 * π)) :
    SamePose a goal ∧ identicalPoses a goal = false := by
  refine ⟨⟨hp, k, ht⟩, ?_⟩
  have hpi := Real.pi_pos
  rw [Bool.eq_false_iff]
  intro h
  obtain ⟨-, h⟩ := (identicalPoses_iff _ _).mp h
  rw [ht] at h
  have h1 : (1 : ℝ) ≤ |(k : ℝ)| := by exact_mod_cast Int.one_le_abs hk
  have h2 : |goal.theta + k * (2 * π) - goal.theta| = |(k : ℝ)| * (2 * π) := by
    rw [show goal.theta + k * (2 * π) - goal.theta = (k : ℝ) * (2 * π) by ring, abs_mul,
      abs_of_pos (by positivity : (0 : ℝ) < 2 * π)]
  rw [h2] at h
  nlinarith

/-- C85 is violated by states the planner generates: the motions do not wrap the heading, so that the sharpest
left turn from a heading just below π (closer than the turn) ends at a pose that is not recognised when it is
given as the goal with its heading in [-π, π], as the constructor of the poses makes it. -/
theorem C85_motion_not_recognised (p : HybridParam) (hW : 0 < p.wheelbase) (hR : 0 < p.minTurningRadius)
    (hbig : p.minTurningRadius < 10 ^ 9) (start : PoseR) (len : ℝ)
    (hs : π - len / p.minTurningRadius < start.theta)
    (a : PathSteer) (ha : a = PathSteer.new (model p) start (deltaMax p) len .forward)
    (goal : PoseR) (hg : goal = PoseR.mk' a.final.position a.final.theta) :
    SamePose a.final goal ∧ identicalPoses a.final goal = false := by
  have htan : tan (deltaMax p) / p.wheelbase = 1 / p.minTurningRadius := by
    rw [deltaMax_eq p hR, tan_arctan]
    field_simp
  have hth : a.final.theta = start.theta + len / p.minTurningRadius := by
    obtain ⟨h1, h2⟩ := dThetaDdist_model p (deltaMax p)
    rw [ha]
    show ((model p).constantSteer start (deltaMax p) (len * 1) .forward).theta = _
    unfold Bicycle.constantSteer
    dsimp only
    rw [h1, h2, htan, cos_zero, div_one, mul_one, if_pos]
    · simp only [reduceCtorEq, if_false]
      ring
    · rw [abs_of_pos (by positivity), gt_iff_lt, lt_div_iff₀ hR]
      norm_num at hbig ⊢
      linarith
  have h1 : π < a.final.theta := by rw [hth]; linarith
  obtain ⟨k, hk⟩ := C41_same_angle a.final.theta
  have hr := C41_range a.final.theta
  have hpi := Real.pi_pos
  refine C85_full_turn a.final goal (by rw [hg]; rfl) (-k) ?_ ?_
  · rintro h0
    have : k = 0 := by omega
    rw [this] at hk
    simp at hk
    rw [hk] at hr
    linarith [hr.2]
  · rw [hg]
    show _ = wrapTheta _ + _
    rw [hk]
    push_cast
    ring

/-- The default parameters, whose motions are 1.5 m long, and the heading 3 meet the hypotheses. -/
example : (0 : ℝ) < ({} : HybridParam).wheelbase ∧ (0 : ℝ) < ({} : HybridParam).minTurningRadius ∧
    ({} : HybridParam).minTurningRadius < 10 ^ 9 ∧ deltaMax {} ∈ deltas {} ∧
    π - 1.5 / ({} : HybridParam).minTurningRadius < 3 := by
  refine ⟨by norm_num, by norm_num, by norm_num, C58_sharpest_turn _ (by norm_num), ?_⟩
  have := Real.pi_lt_d2
  norm_num
  linarith

/-! ## C82 -/

/-- C82 (partial): the only reason for which a goal that is directly connected to an expanded state is
missed: if the search fails although the Reeds-Shepp path from an expanded state to the goal passed the
collision check and the heuristic value there is below 10, then it expanded a state in the cell of the goal
that is not the goal. -/
theorem C82_missed_only_if_cell_expanded_partial (e : Propagator) (hc : Configured e) (random : Nat → ℝ)
    (nbrs : Nat → State → List (State × Action × WithTop ℝ)) (h : e.Answers random nbrs)
    (init : PoseR) (fuel : Nat) (s : Search State Action (WithTop ℝ))
    (hs : AStar.searchPath (e.problem nbrs) true fuel (stateFromPose e.param init) = some (.failure, s))
    (hg : -π < e.goal.theta) (hg' : e.goal.theta < π)
    (u : State) (hu : u ∈ s.calls) (hdef : ∀ k, (e.neighborStates (random k) u).isSome)
    (hh : ∃ c : ℝ, e.heuristic u.continuousPose = c ∧ c < 10) (r : ℝ)
    (hv : e.validator.isPathValid (Action.reedsShepp (PathRS.connect u.continuousPose e.goal
      e.param.minTurningRadius e.param.reverseCostMultiplier e.param.forwardCostMultiplier
      e.param.directionSwitchingCost)).any = some (true, r))
    (hl : (PathRS.connect u.continuousPose e.goal e.param.minTurningRadius e.param.reverseCostMultiplier
      e.param.forwardCostMultiplier e.param.directionSwitchingCost).length ≠ 0) :
    ∃ w ∈ s.calls, discretizePose e.param w.continuousPose = discretizePose e.param e.goal ∧
      identicalPoses w.continuousPose e.goal = false := by
  rcases AStar.searchPath_spec (P := e.problem nbrs) equal_equiv hs with ⟨-, inv, hf⟩ | ⟨h', -⟩
  · obtain ⟨k, hk⟩ := inv.closed u hu
    obtain ⟨ts, hts⟩ := Option.isSome_iff_exists.mp (hdef k)
    obtain ⟨t, ht, h1, h2, h3⟩ := C87_reeds_shepp e (random k) u ts hts
      (hh.imp fun c hc => ⟨hc.1, .inl hc.2⟩) r hv
    have hmem : t ∈ (e.problem nbrs).nbrs k u := by
      show t ∈ nbrs k u
      rw [h k u, hts]
      exact ht
    rcases hk t hmem with ⟨w, hw, hwt⟩ | ⟨y, hy, -⟩
    · refine ⟨w, hw, ?_, inv.notSol w hw⟩
      have hr := inv.reach w hw
      have hcell := reachable_cell hc h hr
      have hwt : w.discretePose = t.1.discretePose := of_decide_eq_true hwt
      rw [← hcell, hwt, h3, h2, h1]
      congr 1
      exact (C85_connection_recognised_partial e hc.radius u.continuousPose hg hg' hl).1
    · rw [hf] at hy
      cases hy
  · cases h'

end PathPlanning
