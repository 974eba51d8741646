import Verif.Props.HybridPlannerExample

/-!
# C110: what the planner tells about its last search
-/

namespace PathPlanning
open Real Spec HybridAStar HybridAStar.Propagator Validator HybridPlanner

/-- What the status of the smoother says about the path it was given. -/
theorem smoothPoses_status (T : Smoother.Terms Pt) (maxIterations : Int)
    (valid : PoseR → Option Bool) (path : List PoseR) (idx : List Nat) {st : SmoothStatus} {r : List PoseR}
    (h : smoothPoses T maxIterations valid path idx = some (st, r)) :
    st ≠ .collision ∧ (0 ≤ st.toInt → (st = .pathSize ↔ path.length < 5)) ∧ (path.length < 5 → r = path) := by
  unfold smoothPoses at h
  simp only [Option.map_eq_some_iff] at h
  obtain ⟨⟨s, r', n⟩, h, he⟩ := h
  simp only [Prod.mk.injEq] at he
  obtain ⟨rfl, rfl⟩ := he
  rcases smooth_run _ _ _ _ _ _ _ _ h with ⟨hl, rfl, rfl, hs, -⟩ | ⟨hl, s', hloop, hs⟩
  · rw [List.length_map] at hl
    refine ⟨by rcases hs with rfl | rfl <;> simp, fun h0 => ?_, fun _ => ?_⟩
    · rcases hs with rfl | rfl
      · simp [hl]
      · exact absurd h0 (by decide)
    · rw [List.map_map]
      conv_rhs => rw [← List.map_id path]
      rfl
  · rw [List.length_map] at hl
    obtain ⟨_, _, _, _, _, _, h4⟩ := Smoother.loop_iterates _ _ _ _ _ _ _ _ _ _ hloop
    have hs' : s' = .maxIteration ∨ s' = .stepTolerance := by
      rcases h4 with ⟨h, _⟩ | ⟨h, _⟩
      · exact .inl h
      · exact .inr h
    refine ⟨?_, fun h0 => ?_, fun hh => by omega⟩
    · rcases hs with ⟨rfl, -⟩ | ⟨rfl, -⟩
      · rcases hs' with rfl | rfl <;> simp
      · simp
    · have : ¬ path.length < 5 := by omega
      rcases hs with ⟨rfl, -⟩ | ⟨rfl, -⟩
      · rcases hs' with rfl | rfl <;> simp [this]
      · exact absurd h0 (by decide)

/-- C110 (partial, see `C110_failure_keeps`, `C110_stale` and `C110_stale_after_reset`): after a success, `GetStats` and
`GetSmoothedPath` describe this search. The status of the graph search is `Success`. The smoothed path has the headings
and the ends of the samples of the reported motions; the smoothing status is negative exactly if one of its states is
not acceptable. `GetPath` is the smoothed path if the status is not negative, and the samples otherwise. `PathSize`
means that there were fewer than five samples, which are then the smoothed path; `Collision` is never reported. -/
theorem C110_success_partial (w0 : PlanWorld) (prm : HybridParam) (hsetup : Setup w0 prm) (p₀ : PoseR) (h₀ : NonHolo)
    (h : List HybridPlanner.Op) (w : PlanWorld) (p : HybridPlanner) (r : HybridPlanner.Run (w0, .new prm p₀ h₀) h (w, p))
    (random : Nat → ℝ) (w' : PlanWorld) (p' : HybridPlanner)
    (hs : HybridPlanner.SearchPath w p random .success w' p') :
    p'.getStats.1 = .success ∧
    ∃ actions q states, p'.getGraphSearchPath = some (actions.map some) ∧
      SampledPath actions (startInForce p₀ h) q (1 / 10) states ∧ Reshaped states p'.getSmoothedPath ∧
      (0 ≤ p'.getStats.2.toInt ↔ ∀ s ∈ p'.getSmoothedPath, Acceptable w'.validator s) ∧
      (0 ≤ p'.getStats.2.toInt → p'.getPath = p'.getSmoothedPath) ∧
      (p'.getStats.2.toInt < 0 → p'.getPath = states) ∧
      p'.getStats.2 ≠ .collision ∧
      (0 ≤ p'.getStats.2.toInt → (p'.getStats.2 = .pathSize ↔ states.length < 5)) ∧
      (states.length < 5 → p'.getSmoothedPath = states) := by
  obtain ⟨mops, t⟩ := run_tracked hsetup.maps r
  cases hs with
  | searched hi hocc htab hg hedges hheur hn hsearch hpath hsmooth =>
  rename_i occ tables g edges hh nbrs fuel gst s dflt path sst smoothed
  have hsee := search_sees hsetup t hocc hg
  obtain ⟨e, he⟩ : ∃ e : Propagator, e = ⟨p.param, { w with maps.dist := g.maps }.validator, g, hh, p.goal⟩ := ⟨_, rfl⟩
  have hparam : p.param = prm := t.param
  have hint : p.pathInterpolation = 1 / 10 := t.interp
  have ev : e.validator = { w with maps.dist := g.maps }.validator := by rw [he]
  have estep : e.validator.minStep = w0.minStep := by rw [ev, ← show w.minStep = w0.minStep from t.minStep]; rfl
  have eparam : e.param = prm := by rw [he, ← hparam]
  rw [← ev] at hsee
  have hc : Configured e := by
    refine ⟨sees_sameSize hsee, ?_, ?_, ?_⟩
    · rw [estep]; exact hsetup.minStep
    · rw [eparam]; exact hsetup.spatialResolution
    · rw [eparam]; exact hsetup.minTurningRadius
  rw [← he] at hn hsearch hpath
  have hsearch' : AStar.searchPath (e.problem nbrs) true fuel (stateFromPose e.param p.init) = some (gst, s) := by
    rw [eparam, ← hparam]; exact hsearch
  have hgst : gst = .success := (planner_status hpath hsearch').symm
  subst hgst
  have hd : 0 < p.pathInterpolation := by rw [hint]; norm_num
  have hdiff : identicalPoses p.init e.goal = false := by
    cases hid : identicalPoses p.init e.goal with
    | false => rfl
    | true => rw [search_start_goal e nbrs _ hd dflt _ _ fuel p.init hid] at hpath; cases hpath
  obtain ⟨actions, q', states, idx, k0, k1, k2, k3, k4, kp, k5⟩ := searched e hc random nbrs hn p.pathInterpolation hd dflt
    (smoothPoses ((p.smoothParam w).terms w.frame g.maps.core.obst edges.obst) p.smooth.maxIterations
      { w with maps.dist := g.maps }.validator.isStateValid) p.path fuel p.init hdiff s hsearch'
  rw [k5] at hpath
  simp only [Option.map_eq_some_iff, Prod.mk.injEq, true_and] at hpath
  obtain ⟨⟨sst1, rr⟩, k6, k7⟩ := hpath
  have hsm : sst1 = sst ∧ rr = smoothed := by
    unfold HybridPlanner.smoothing at hsmooth
    simp only [k0, Option.bind_eq_bind, Option.bind_some, mapM_id_some, kp] at hsmooth
    rw [k6] at hsmooth
    simpa using hsmooth
  obtain ⟨rfl, rfl⟩ := hsm
  obtain ⟨g1, g2, -⟩ := smoothPoses_spec _ (terms_move_zero _ _ _ _) _ _ _ _ k6
  obtain ⟨g3, g4, g5⟩ := smoothPoses_status _ _ _ _ _ k6
  have hv : ∀ y, { w with maps.dist := g.maps }.validator.isStateValid y = some true ↔
      Acceptable { w with maps.dist := g.maps }.validator y := by
    intro y
    obtain ⟨b, hb, hb'⟩ := C53_state_valid_iff { w with maps.dist := g.maps }.validator (ev ▸ hc.size) y
    rw [hb, ← hb', Option.some.injEq]
  rw [hint, show p.init = startInForce p₀ h from t.init] at k4
  refine ⟨rfl, actions, q', states, k0, k4, g1, ?_, fun h0 => ?_, fun h0 => ?_, g3, g4, g5⟩
  · show 0 ≤ sst1.toInt ↔ ∀ s ∈ rr, _
    rw [g2]
    exact forall_congr' fun y => imp_congr_right fun _ => hv y
  · show path = rr
    rw [← show _ = path from k7]
    exact if_neg (not_lt.mpr h0)
  · show path = states
    rw [← show _ = path from k7]
    exact if_pos h0

/-- C110, the rest: a failed search of an initialised planner is reported as a failure of the graph search, but the
smoothing status, the smoothed path and the path stay those of an earlier search. -/
theorem C110_failure_keeps (w0 : PlanWorld) (prm : HybridParam) (hsetup : Setup w0 prm) (p₀ : PoseR) (h₀ : NonHolo)
    (h : List HybridPlanner.Op) (w : PlanWorld) (p : HybridPlanner) (r : HybridPlanner.Run (w0, .new prm p₀ h₀) h (w, p))
    (hready : isReady h = true) (random : Nat → ℝ) (w' : PlanWorld) (p' : HybridPlanner)
    (hs : HybridPlanner.SearchPath w p random .failure w' p') :
    p'.getStats = (.failure, p.getStats.2) ∧ p'.getSmoothedPath = p.getSmoothedPath ∧ p'.getPath = p.getPath := by
  obtain ⟨mops, t⟩ := run_tracked hsetup.maps r
  cases hs with
  | notInitialized h1 => rw [show p.isInitialized = isReady h from t.ready, hready] at h1; cases h1
  | searched hi hocc htab hg hedges hheur hn hsearch hpath hsmooth =>
    rename_i occ tables g edges hh nbrs fuel gst s dflt path sst smoothed
    have hgst : gst = .failure := (planner_status hpath hsearch).symm
    subst hgst
    obtain ⟨rfl, -⟩ := (C86_failure _ _ _ _ _ _ _ _ _).mp hpath
    simp only [HybridPlanner.smoothing, Option.some.injEq, Prod.mk.injEq] at hsmooth
    obtain ⟨rfl, rfl⟩ := hsmooth
    exact ⟨rfl, rfl, rfl⟩

/-- C110: until the next search, no call changes what is reported. -/
theorem C110_kept (s s' : PlanWorld × HybridPlanner) (o : HybridPlanner.Op) (hc : HybridPlanner.Call s o s')
    (hno : ∀ random, o ≠ .search random) :
    s'.2.getStats = s.2.getStats ∧ s'.2.getSmoothedPath = s.2.getSmoothedPath := by
  cases hc with
  | search _ => exact absurd rfl (hno _)
  | _ => exact ⟨rfl, rfl⟩

/-- C110: before the first search both statuses are `Failure`, and there is no path. -/
theorem C110_before_search (prm : HybridParam) (p₀ : PoseR) (h₀ : NonHolo) (w0 w : PlanWorld)
    (h : List HybridPlanner.Op) (p : HybridPlanner) (r : HybridPlanner.Run (w0, .new prm p₀ h₀) h (w, p))
    (hno : ∀ random, .search random ∉ h) :
    p.getStats = (.failure, .failure) ∧ p.getSmoothedPath = [] := by
  generalize hs0 : (w0, HybridPlanner.new prm p₀ h₀) = s0 at r
  generalize hs1 : (w, p) = s1 at r
  induction r generalizing w p with
  | nil =>
    subst hs0
    cases hs1
    exact ⟨rfl, rfl⟩
  | @snoc s' s'' os o r c ih =>
    subst hs1
    obtain ⟨a, b⟩ := ih s'.1 s'.2 (fun random hm => hno random (List.mem_append_left _ hm)) rfl
    obtain ⟨a', b'⟩ := C110_kept _ _ _ c (fun random hh => hno random (List.mem_append_right _ (by rw [hh]; simp)))
    exact ⟨a'.trans a, b'.trans b⟩

/-- The history of the witnesses: a search that succeeds. -/
theorem ex_success (p₀ : PoseR) (h₀ : NonHolo) (random : Nat → ℝ) (hr : ∀ k, 0.001 ≤ random k) :
    ∃ (h : List HybridPlanner.Op) (w : PlanWorld) (p : HybridPlanner),
      HybridPlanner.Run (exWorld, .new exHybridParam p₀ h₀) (h ++ [.search random]) (w, p) ∧ isReady h = true ∧
      p.getStats.1 = .success ∧ p.getSmoothedPath ≠ [] ∧
      ∃ s, p.getSmoothedPath[0]? = some s ∧ SamePose s exStart := by
  obtain ⟨cells, hcells, hne, hin, hfar⟩ := exBox_cells
  obtain ⟨w, p, r⟩ := exHistory_run cells hin p₀ h₀
  obtain ⟨w', p', hs⟩ := ex_search_succeeds cells hne hfar p₀ h₀ w p _ (.inl rfl) r random hr
  obtain ⟨k1, actions, q, states, -, k2, k3, -⟩ := C110_success_partial exWorld exHybridParam exWorld_setup p₀ h₀ _ w p r
    random w' p' hs
  obtain ⟨s, hs0, hs1⟩ := k2.start
  refine ⟨exHistory cells, w', p', .snoc r (.search hs), rfl, k1, ?_, s, k3.first.trans hs0, hs1⟩
  intro h0
  have := k3.first
  rw [h0, hs0] at this
  cases this

/-- C110 is violated: there are calls after which `SearchPath` returns a failure, while `GetStats` says that the graph
search succeeded. (The planner was initialised without a validator in between.) -/
theorem C110_stale_after_reset (p₀ : PoseR) (h₀ : NonHolo) (random : Nat → ℝ) (hr : ∀ k, 0.001 ≤ random k) :
    ∃ (h : List HybridPlanner.Op) (w : PlanWorld) (p : HybridPlanner),
      HybridPlanner.Run (exWorld, .new exHybridParam p₀ h₀) h (w, p) ∧
      ∀ random' st w' p', HybridPlanner.SearchPath w p random' st w' p' → st = .failure ∧ p'.getStats.1 = .success := by
  obtain ⟨h, w, p, r, -, k1, -⟩ := ex_success p₀ h₀ random hr
  have r' := r.snoc .reject
  refine ⟨_, _, _, r', fun random' st w' p' hs => ?_⟩
  obtain ⟨rfl, rfl, rfl⟩ := (C95_not_initialised exWorld exHybridParam exWorld_setup p₀ h₀ _ _ _ r'
    (by simp [isReady]) random' st w' p').mp hs
  exact ⟨rfl, k1⟩

/-- C110 is violated: there are calls after which every search fails, while `GetSmoothedPath` still is a path from a
start that is no longer in force. -/
theorem C110_stale (p₀ : PoseR) (h₀ : NonHolo) (random : Nat → ℝ) (hr : ∀ k, 0.001 ≤ random k) :
    ∃ (h : List HybridPlanner.Op) (w : PlanWorld) (p : HybridPlanner),
      HybridPlanner.Run (exWorld, .new exHybridParam p₀ h₀) h (w, p) ∧ isReady h = true ∧
      (∀ random', ∃ st w' p', HybridPlanner.SearchPath w p random' st w' p') ∧
      ∀ random' st w' p', HybridPlanner.SearchPath w p random' st w' p' → st = .failure ∧
        ∃ s, p'.getSmoothedPath[0]? = some s ∧ ¬ SamePose s (startInForce p₀ h) := by
  obtain ⟨h, w, p, r, hrd, -, -, s, hs0, hs1⟩ := ex_success p₀ h₀ random hr
  have r' := (r.snoc (.setInit (s := ⟨⟨0.2, 0.5⟩, 0.04⟩))).snoc (.setGoal (s := ⟨⟨0.6, 0.5⟩, 0.04⟩))
  have hdiff : identicalPoses ⟨⟨0.2, 0.5⟩, 0.04⟩ ⟨⟨0.6, 0.5⟩, 0.04⟩ = false := by
    rw [← Bool.not_eq_true]
    intro h
    have := (near_of_identical h).1
    norm_num [abs_lt] at this
  have cell : ∀ q : PoseR, _ → _ → _ → discretizePose exHybridParam q = .mk' 0 0 0 := ex_cell exHybridParam rfl rfl
  have hst : startInForce p₀ (h ++ [.search random] ++ [.setInit ⟨⟨0.2, 0.5⟩, 0.04⟩] ++ [.setGoal ⟨⟨0.6, 0.5⟩, 0.04⟩])
      = ⟨⟨0.2, 0.5⟩, 0.04⟩ := by simp [startInForce]
  have hgo : goalInForce p₀ (h ++ [.search random] ++ [.setInit ⟨⟨0.2, 0.5⟩, 0.04⟩] ++ [.setGoal ⟨⟨0.6, 0.5⟩, 0.04⟩])
      = ⟨⟨0.6, 0.5⟩, 0.04⟩ := by simp [goalInForce]
  have hrd' : isReady (h ++ [.search random] ++ [.setInit ⟨⟨0.2, 0.5⟩, 0.04⟩] ++ [.setGoal ⟨⟨0.6, 0.5⟩, 0.04⟩]) = true := by
    rw [← hrd]
    simp [isReady]
  refine ⟨_, _, _, r', hrd', fun random' => ?_, fun random' st w' p' hs => ?_⟩
  · exact C95_always_returns exWorld exHybridParam exWorld_setup (by norm_num [exHybridParam])
      (by norm_num [exHybridParam]) p₀ h₀ _ _ _ r' (by rw [hst, hgo]; exact hdiff) random'
  · have hfail := C82_planner_fails exWorld exHybridParam exWorld_setup p₀ h₀ _ _ _ r' (by
        rw [hst, hgo, cell _ (by norm_num) (by norm_num) (by norm_num), cell _ (by norm_num) (by norm_num) (by norm_num)])
      (by rw [hst, hgo]; exact hdiff)
      (by
        intro q h
        rw [hgo] at h
        obtain ⟨h1, h2, h3⟩ := near_of_identical h
        rw [abs_lt] at h1 h2 h3
        norm_num at h1 h2 h3
        rw [hgo, cell q ⟨by linarith, by linarith⟩ ⟨by linarith, by linarith⟩ ⟨by linarith, by norm_num; linarith⟩,
          cell _ (by norm_num) (by norm_num) (by norm_num)]) random' st w' p' hs
    subst hfail
    obtain ⟨-, k2, -⟩ := C110_failure_keeps exWorld exHybridParam exWorld_setup p₀ h₀ _ _ _ r' hrd' random' w' p' hs
    refine ⟨rfl, s, k2 ▸ hs0, fun hsame => ?_⟩
    rw [hst] at hsame
    have a := hs1.1
    have b := hsame.1
    rw [a] at b
    have := congrArg Pt.x b
    norm_num [exStart] at this

end PathPlanning
