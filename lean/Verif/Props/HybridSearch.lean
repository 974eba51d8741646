import Verif.Spec.HybridAStar
import Verif.Props.AStar
import Verif.Props.Path
import Verif.Props.Validator
import Verif.Props.ReedsShepp
import Verif.Props.HybridCells

/-!
# C80-C82: the graph search of hybrid A*
-/

namespace PathPlanning
open Real Spec HybridAStar HybridAStar.Propagator

theorem equal_equiv : KeyEquiv HybridAStar.equal where
  refl a := decide_eq_true rfl
  symm a b h := decide_eq_true (of_decide_eq_true h).symm
  trans a b c h h' := decide_eq_true ((of_decide_eq_true h).trans (of_decide_eq_true h'))

theorem identicalPoses_iff (a b : PoseR) : identicalPoses a b = true ↔
    (a.position - b.position).norm < 1e-3 ∧ |a.theta - b.theta| < 1e-3 * π / 180 := by
  unfold identicalPoses
  exact decide_eq_true_iff

/-! ## Transitions -/

/-- What a child of the propagator is. -/
structure ChildOf (e : Propagator) (u : State) (t : State × Action × WithTop ℝ) : Prop where
  init : t.2.1.init = u.continuousPose
  final : t.1.continuousPose = t.2.1.final
  cell : t.1.discretePose = discretizePose e.param t.1.continuousPose
  motion : Motion e.param e.goal t.2.1
  length : 0 ≤ t.2.1.length
  checked : Checked e.validator t.2.1

theorem steer_truncate (m : Bicycle) (p : PoseR) (s l r : ℝ) (dir : Direction) :
    (PathSteer.new m p s l dir).truncate r = PathSteer.new m p s (l * r) dir := by
  unfold PathSteer.truncate PathSteer.new PathSteer.interpolate
  simp only [mul_one]

theorem checked_of_accepted {v : Validator} (h : SameSize v) (hstep : 0 < v.minStep) (a : Action)
    (hl : 0 ≤ a.length) {r : ℝ} (ha : v.isPathValid a.any = some (true, r)) : Checked v a := by
  intro s h0 h1
  have hpos : 0 < a.length := lt_of_le_of_lt h0 h1
  exact (Validator.C53_accepted_partial v h hstep a.any hpos r ha).2.2 s h0 h1

theorem checked_of_truncated {v : Validator} (h : SameSize v) (hstep : 0 < v.minStep) (q : PathSteer)
    (hl : 0 < q.length) {r : ℝ} (ha : v.isPathValid (Action.steer q).any = some (false, r)) :
    0 ≤ r ∧ r ≤ 1 ∧ Checked v (.steer (q.truncate r)) := by
  obtain ⟨bad, h0, h1, h2, -, -, h5⟩ := Validator.C53_rejected v h hstep (Action.steer q).any hl r ha
  refine ⟨h0, by linarith, fun s hs0 hs1 => ?_⟩
  obtain ⟨-, hlen, hint, -⟩ := C46_constant_steer q r 0
  have hs1 : s < r * q.length := by
    have : (Action.steer (q.truncate r)).length = r * q.length := hlen
    rwa [this] at hs1
  have hlen' : (Action.steer (q.truncate r)).length = r * q.length := hlen
  have hr : r ≠ 0 := by rintro rfl; simp at hs1; linarith
  have hb : s < bad * q.length := lt_of_lt_of_le hs1 (mul_le_mul_of_nonneg_right h1 hl.le)
  obtain ⟨t, ht0, ht1, hacc, hlt⟩ := h5 s hs0 hb
  have e : (Action.steer (q.truncate r)).interpolate (t / (Action.steer (q.truncate r)).length) =
      (Action.steer q).any.interpolate (t / (Action.steer q).any.length) := by
    rw [hlen']
    show (q.truncate r).interpolate (t / (r * q.length)) = q.interpolate (t / q.length)
    rw [(C46_constant_steer q r _).2.2.1]
    congr 1
    field_simp
  exact ⟨t, ht0, ht1, by rw [e]; exact hacc, by rw [e]; exact hlt⟩

theorem steerChild_spec {e : Propagator} (h : SameSize e.validator) (hstep : 0 < e.validator.minStep)
    (hres : 0 < e.param.spatialResolution) {u : State} {δ : ℝ} (hδ : δ ∈ deltas e.param) {dir : Direction}
    (hdir : dir = .forward ∨ dir = .backward) {t : State × Action × WithTop ℝ}
    (ht : e.steerChild u δ dir = some (some t)) :
    ChildOf e u t ∧ t.1.direction = dir ∧ ∃ c, e.steerCost t.2.1 dir = some c ∧ t.2.2 = (c : WithTop ℝ) := by
  unfold steerChild at ht
  simp only [Option.bind_eq_bind, Option.bind_eq_some_iff] at ht
  obtain ⟨⟨valid, r⟩, hv, ht⟩ := ht
  have hlen : 0 < e.param.spatialResolution * 1.5 := by positivity
  dsimp only at ht
  cases valid with
  | true =>
    simp only [if_true, Option.bind_eq_some_iff] at ht
    obtain ⟨c, hc, ht⟩ := ht
    simp only [Option.some.injEq] at ht
    subst ht
    refine ⟨⟨rfl, rfl, rfl, .inl ⟨δ, hδ, dir, hdir, _, hlen.le, by rw [mul_comm], rfl⟩, hlen.le, ?_⟩, rfl,
      c, hc, rfl⟩
    exact checked_of_accepted h hstep _ hlen.le hv
  | false =>
    simp only [Bool.false_eq_true, if_false] at ht
    split at ht
    · cases ht
    · simp only [Option.bind_eq_some_iff] at ht
      obtain ⟨c, hc, ht⟩ := ht
      simp only [Option.some.injEq] at ht
      subst ht
      obtain ⟨h0, h1, hck⟩ := checked_of_truncated h hstep _ hlen hv
      refine ⟨⟨rfl, rfl, rfl, ?_, ?_, hck⟩, rfl, c, hc, rfl⟩
      · refine .inl ⟨δ, hδ, dir, hdir, e.param.spatialResolution * 1.5 * r, by positivity, ?_, ?_⟩
        · nlinarith
        · show Action.steer (PathSteer.truncate _ r) = _
          rw [steer_truncate]; rfl
      · show 0 ≤ e.param.spatialResolution * 1.5 * r
        positivity

theorem connect_length_nonneg (start goal : PoseR) (R rev fwd sw : ℝ) (hR : 0 < R) :
    0 ≤ (PathRS.connect start goal R rev fwd sw).length := by
  obtain ⟨w, hw, t, u, v, len, c, hm, hp, -, -⟩ := C50_optimal start goal R rev fwd sw
  obtain ⟨hb, ht, hu, hv, _, _⟩ := word_ends hR hm
  have hwf := getPath_wellFormed hb ht hu hv
  unfold PathRS.connect
  rw [hp, (C45_reeds_shepp start _ hwf R hR).2.1]
  exact totalLength_nonneg (stretches_length_nonneg hwf hR.le)

theorem reedsSheppChild_spec {e : Propagator} (h : SameSize e.validator) (hstep : 0 < e.validator.minStep)
    (hR : 0 < e.param.minTurningRadius) {u : State} {t : State × Action × WithTop ℝ}
    (ht : e.reedsSheppChild u = some (some t)) :
    ChildOf e u t ∧ SamePose t.1.continuousPose e.goal := by
  unfold reedsSheppChild at ht
  simp only [Option.bind_eq_bind, Option.bind_eq_some_iff] at ht
  obtain ⟨⟨valid, r⟩, hv, ht⟩ := ht
  dsimp only at ht
  cases valid with
  | false => simp at ht
  | true =>
    simp only [if_true, Option.bind_eq_some_iff] at ht
    obtain ⟨c, hc, ht⟩ := ht
    simp only [Option.some.injEq] at ht
    subst ht
    have hl := connect_length_nonneg u.continuousPose e.goal e.param.minTurningRadius
      e.param.reverseCostMultiplier e.param.forwardCostMultiplier e.param.directionSwitchingCost hR
    refine ⟨⟨rfl, rfl, rfl, .inr rfl, hl, checked_of_accepted h hstep _ hl hv⟩, ?_⟩
    exact (C49_connect u.continuousPose e.goal e.param.minTurningRadius
      e.param.reverseCostMultiplier e.param.forwardCostMultiplier e.param.directionSwitchingCost hR).2.1

theorem mem_steerChildren {e : Propagator} {u : State} : ∀ {l : List ℝ} {ts}, e.steerChildren u l = some ts →
    ∀ t ∈ ts, ∃ δ ∈ l, ∃ dir, (dir = .forward ∨ dir = .backward) ∧ e.steerChild u δ dir = some (some t)
  | [], ts, h, t, ht => by
    simp only [steerChildren, Option.some.injEq] at h
    subst h
    simp at ht
  | δ :: l, ts, h, t, ht => by
    simp only [steerChildren, Option.bind_eq_bind, Option.bind_eq_some_iff] at h
    obtain ⟨f, hf, b, hb, rest, hrest, h⟩ := h
    simp only [Option.some.injEq] at h
    subst h
    simp only [List.mem_append, Option.mem_toList] at ht
    rcases ht with (ht | ht) | ht
    · exact ⟨δ, by simp, .forward, .inl rfl, by rw [hf, ht]⟩
    · exact ⟨δ, by simp, .backward, .inr rfl, by rw [hb, ht]⟩
    · obtain ⟨δ', h1, h2⟩ := mem_steerChildren hrest t ht
      exact ⟨δ', List.mem_cons_of_mem _ h1, h2⟩

theorem mem_neighborStates {e : Propagator} {x : ℝ} {u : State} {ts}
    (h : e.neighborStates x u = some ts) (t) (ht : t ∈ ts) :
    (∃ δ ∈ deltas e.param, ∃ dir, (dir = .forward ∨ dir = .backward) ∧
      e.steerChild u δ dir = some (some t)) ∨ e.reedsSheppChild u = some (some t) := by
  unfold neighborStates at h
  simp only [Option.bind_eq_bind, Option.bind_eq_some_iff] at h
  obtain ⟨ns, hns, h⟩ := h
  split at h
  · simp only [Option.bind_eq_some_iff] at h
    obtain ⟨c, hc, h⟩ := h
    simp only [Option.some.injEq] at h
    subst h
    rcases List.mem_append.mp ht with ht | ht
    · exact .inl (mem_steerChildren hns t ht)
    · right
      rw [hc]
      simp only [Option.mem_toList] at ht
      rw [ht]
  · simp only [Option.some.injEq] at h
    subst h
    exact .inl (mem_steerChildren hns t ht)

/-- Conditions on the configuration of the planner. -/
structure Configured (e : Propagator) : Prop where
  /-- the distance map of the validator is that of its occupancy map (C74) -/
  size : SameSize e.validator
  step : 0 < e.validator.minStep
  res : 0 < e.param.spatialResolution
  radius : 0 < e.param.minTurningRadius

theorem child_of {e : Propagator} (hc : Configured e) {random : Nat → ℝ} {nbrs}
    (h : e.Answers random nbrs) {u : State} {a : Action} {c : WithTop ℝ} {v : State}
    (ht : (e.problem nbrs).tr u a c v) : ChildOf e u (v, a, c) := by
  obtain ⟨k, hk⟩ := ht
  obtain ⟨ts, hts, hk⟩ : ∃ ts, e.neighborStates (random k) u = some ts ∧ (v, a, c) ∈ ts := by
    have hk : (v, a, c) ∈ nbrs k u := hk
    rw [h k u] at hk
    cases hn : e.neighborStates (random k) u with
    | none => rw [hn] at hk; cases hk
    | some ts => rw [hn] at hk; exact ⟨ts, rfl, hk⟩
  rcases mem_neighborStates hts _ hk with ⟨δ, hδ, dir, hdir, h1⟩ | h1
  · exact (steerChild_spec hc.size hc.step hc.res hδ hdir h1).1
  · exact (reedsSheppChild_spec hc.size hc.step hc.radius h1).1

/-! ## C80 -/

theorem joined_snoc {p q : PoseR} {l : List Action} (h : Joined p l q) (a : Action) (ha : a.init = q) :
    Joined p (l ++ [a]) a.final := by
  induction l generalizing p with
  | nil => exact ⟨by rw [ha]; exact (show p = q from h).symm, rfl⟩
  | cons b l ih => exact ⟨h.1, ih h.2⟩

theorem route_joined {e : Propagator} (hc : Configured e) {random : Nat → ℝ} {nbrs}
    (h : e.Answers random nbrs) {u v : State} {l} (hr : Route (e.problem nbrs).tr u l v) :
    Joined u.continuousPose (routeActions l) v.continuousPose ∧
      ∀ a ∈ routeActions l, Motion e.param e.goal a ∧ 0 ≤ a.length ∧ Checked e.validator a := by
  induction hr with
  | nil => exact ⟨rfl, by simp [routeActions]⟩
  | snoc hr ht ih =>
    rename_i l w a c v
    have hch := child_of hc h ht
    have e1 : routeActions (l ++ [(a, c, v)]) = routeActions l ++ [a] := by simp [routeActions]
    rw [e1]
    refine ⟨?_, fun b hb => ?_⟩
    · have := joined_snoc ih.1 a hch.init
      rwa [← hch.final] at this
    · rcases List.mem_append.mp hb with hb | hb
      · exact ih.2 b hb
      · rw [List.mem_singleton.mp hb]
        exact ⟨hch.motion, hch.length, hch.checked⟩

/-- C80: for every map, vehicle, heuristic and random choice: when the graph search succeeds, its actions
are motions of the vehicle that passed the collision checks; they lead from the start, each one starting
where the one before ends, to a pose within 1 mm and 0.001° of the goal; and the reported cost is the sum
of the costs of the motions. -/
theorem C80_success (e : Propagator) (hc : Configured e) (random : Nat → ℝ)
    (nbrs : Nat → State → List (State × Action × WithTop ℝ)) (h : e.Answers random nbrs)
    (init : PoseR) (fuel : Nat) (s : Search State Action (WithTop ℝ))
    (hs : AStar.searchPath (e.problem nbrs) true fuel (stateFromPose e.param init) = some (.success, s)) :
    ∃ (steps : List (Action × WithTop ℝ × State)) (q : PoseR),
      AStar.getActions s = some ((routeActions steps).map some) ∧
      AStar.getOptimalCost s = some (routeCost steps) ∧
      Joined init (routeActions steps) q ∧
      ((q.position - e.goal.position).norm < 1e-3 ∧ |q.theta - e.goal.theta| < 1e-3 * π / 180) ∧
      ∀ a ∈ routeActions steps, Motion e.param e.goal a ∧ 0 ≤ a.length ∧ Checked e.validator a := by
  obtain ⟨steps, t, hr, hsol, -, hact, hcost⟩ :=
    C05_astar_cost_and_actions_match_path (P := e.problem nbrs) equal_equiv hs
  obtain ⟨h1, h2⟩ := route_joined hc h hr
  exact ⟨steps, t.continuousPose, hact, hcost, h1, (identicalPoses_iff _ _).mp hsol, h2⟩

/-! ## C82: cells and goals -/

/-- After the first iteration the initial state has been expanded. -/
private theorem found_not_expanded {S A C : Type} [LinearOrder C] [Add C] [Zero C] {P : Problem S A C}
    (he : KeyEquiv P.eqS) {init : S} (hi : P.isSol init = false) {fuel : Nat} {s : Search S A C}
    (hs : AStar.searchPath P true fuel init = some (.success, s)) :
    ∃ n, s.solution = some n ∧ P.isSol n.state = true ∧ Reachable P.tr init n.state ∧
      P.eqS init n.state = false ∧ ∀ u ∈ s.calls, P.eqS u n.state = false := by
  rcases AStar.loop_spec he (graph := true) (init := init)
    (fun s => (∀ y ∈ s.frontier.vec, y = AStar.rootNode init) ∨ AStar.Expanded P s.calls init)
    (by
      intro s f' n inv hI hp _
      right
      rcases hI with hI | ⟨u, hu, hue⟩
      · obtain ⟨_, hn, _, _⟩ := inv.ok.pop AStar.cmpNode_swo (AStar.eqNode_equiv he) hp
        refine ⟨n.state, by rw [AStar.calls_expand]; simp, ?_⟩
        rw [hI n hn]
        exact he.refl _
      · exact ⟨u, by rw [AStar.calls_expand]; exact List.mem_cons_of_mem _ hu, hue⟩)
    fuel _ _ s (AStar.inv_init he true init)
    (by
      left
      intro y hy
      have hc := AStar.cmpNode_swo (S := S) (A := A) (C := C)
      have hnone : (Frontier.empty : Frontier (ANode S A C)).find (AStar.eqNode P) (AStar.rootNode init) =
        none := rfl
      have hy : y ∈ (Frontier.push _ _ _ _).1.vec := hy
      rw [Frontier.ok_empty.mem_push_new hc (AStar.eqNode_equiv he) hnone] at hy
      simpa [Frontier.empty] using hy) hs with h | ⟨-, s₀, f', n, inv, hI, hp, hsol, rfl⟩
  · cases h.1
  · obtain ⟨_, hn, _, _⟩ := inv.ok.pop AStar.cmpNode_swo (AStar.eqNode_equiv he) hp
    have hcalls : ∀ x, P.eqS x n.state = true → ¬ AStar.Expanded P s₀.calls x := by
      rintro x hx ⟨u, hu, hux⟩
      exact inv.disj rfl n.state ⟨u, hu, he.trans _ _ _ hux hx⟩ ⟨n, hn, he.refl _⟩
    obtain ⟨l, hl, _⟩ := (inv.wf n hn).route
    refine ⟨n, rfl, hsol, ⟨l, hl⟩, ?_, fun u hu => ?_⟩
    · cases hq : P.eqS init n.state with
      | false => rfl
      | true =>
        exfalso
        rcases hI with hI | hI
        · have := hI n hn
          subst this
          rw [show (AStar.rootNode init : ANode S A C).state = init from rfl] at hsol
          rw [hi] at hsol
          cases hsol
        · exact hcalls init hq hI
    · cases hq : P.eqS u n.state with
      | false => rfl
      | true => exact absurd ⟨u, hu, he.refl _⟩ (hcalls u hq)

theorem reachable_cell {e : Propagator} (hc : Configured e) {random : Nat → ℝ} {nbrs}
    (h : e.Answers random nbrs) {init : PoseR} {v : State}
    (hr : Reachable (e.problem nbrs).tr (stateFromPose e.param init) v) :
    v.discretePose = discretizePose e.param v.continuousPose := by
  obtain ⟨l, hl⟩ := hr
  cases hl with
  | nil => rfl
  | snoc _ ht => exact (child_of hc h ht).cell

/-- C82: a goal in the cell of the start is never reached, unless the start is the goal itself, however
close the two are and whatever the map, the heuristic and the random choices. (The goal is taken at least
1 mm and 0.001° away from the border of its cell.) -/
theorem C82_goal_in_the_cell_of_the_start (e : Propagator) (hc : Configured e) (random : Nat → ℝ)
    (nbrs : Nat → State → List (State × Action × WithTop ℝ)) (h : e.Answers random nbrs)
    (init : PoseR) (hcell : discretizePose e.param init = discretizePose e.param e.goal)
    (hdiff : identicalPoses init e.goal = false)
    (hinner : ∀ q, identicalPoses q e.goal = true → discretizePose e.param q = discretizePose e.param e.goal)
    (fuel : Nat) (s : Search State Action (WithTop ℝ)) :
    AStar.searchPath (e.problem nbrs) true fuel (stateFromPose e.param init) ≠ some (.success, s) := by
  intro hs
  obtain ⟨n, -, hsol, hr, hne, -⟩ := found_not_expanded (P := e.problem nbrs)
    (init := stateFromPose e.param init) equal_equiv hdiff hs
  have h1 := reachable_cell hc h hr
  have h2 := hinner _ hsol
  have : equal (stateFromPose e.param init) n.state = true := by
    refine decide_eq_true ?_
    show discretizePose e.param init = _
    rw [h1, h2, hcell]
  have hne : equal (stateFromPose e.param init) n.state = false := hne
  rw [this] at hne
  cases hne

/-- C82: more generally, once a pose in the cell of the goal that is not the goal has been expanded, the
search does not succeed any more: no expanded state of a successful search lies in the cell of the goal. -/
theorem C82_goal_cell_never_expanded (e : Propagator) (hc : Configured e) (random : Nat → ℝ)
    (nbrs : Nat → State → List (State × Action × WithTop ℝ)) (h : e.Answers random nbrs)
    (init : PoseR) (hdiff : identicalPoses init e.goal = false)
    (hinner : ∀ q, identicalPoses q e.goal = true → discretizePose e.param q = discretizePose e.param e.goal)
    (fuel : Nat) (s : Search State Action (WithTop ℝ))
    (hs : AStar.searchPath (e.problem nbrs) true fuel (stateFromPose e.param init) = some (.success, s)) :
    ∀ u ∈ s.calls, discretizePose e.param u.continuousPose ≠ discretizePose e.param e.goal := by
  obtain ⟨n, -, hsol, hr, -, hne⟩ := found_not_expanded (P := e.problem nbrs)
    (init := stateFromPose e.param init) equal_equiv hdiff hs
  intro u hu hcell
  have hru := (C08_astar_no_state_expanded_twice (P := e.problem nbrs) equal_equiv hs).2 u hu
  have : equal u n.state = true := by
    refine decide_eq_true ?_
    rw [reachable_cell hc h hru, reachable_cell hc h hr, hinner _ hsol, hcell]
  have hne : equal u n.state = false := hne u hu
  rw [this] at hne
  cases hne

end PathPlanning
