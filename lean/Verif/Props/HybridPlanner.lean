import Verif.Model.HybridPlanner
import Verif.Props.PlanOutside
import Verif.Props.ObstacleInside
import Verif.Props.VoronoiLate
import Verif.Props.ObstHeuristic

/-!
# C95, C96, C97: the hybrid A* planner as an object
-/

namespace PathPlanning
open Real Spec HybridAStar HybridAStar.Propagator Validator HybridPlanner

namespace Spec

/-- The calls made on the map itself. -/
def mapCalls (h : List HybridPlanner.Op) : List MapState.Op :=
  h.filterMap fun | .map o => some o | _ => none

/-- Was the last `Initialize` given a validator? -/
def isReady (h : List HybridPlanner.Op) : Bool :=
  h.foldl (fun b o => match o with | .initialize v => v | _ => b) false

/-- The parameters of the smoother after the history: those of the last `SetSmootherParameters` or `Initialize`. -/
noncomputable def smootherInForce (initial atInitialize : SmoothParam) (h : List HybridPlanner.Op) : SmoothParam :=
  h.foldl (fun q o => match o with
    | .initialize true => atInitialize
    | .setSmootherParameters q' => q'
    | _ => q) initial

/-- The start after the history. -/
def startInForce (initial : PoseR) (h : List HybridPlanner.Op) : PoseR :=
  h.foldl (fun q o => match o with | .setInit s => s | _ => q) initial

/-- The goal after the history. -/
def goalInForce (initial : PoseR) (h : List HybridPlanner.Op) : PoseR :=
  h.foldl (fun q o => match o with | .setGoal s => s | _ => q) initial

end Spec

/-- The effect of a search on the maps. -/
theorem gvd_update_calls {w : PlanWorld} {occ : Cell → Int} {cost : Cell → ℝ} {g : GVD}
    (hm : w.maps.obs.matrix = some occ) (hu : GVD.Update occ ⟨w.frame, w.maps.dist, cost⟩ g) :
    ∃ m, MapState.Call w.maps .update m ∧ m.dist.core = g.maps.core ∧
      MapState.Call m .updateEdges { w.maps with dist := g.maps } := by
  obtain ⟨m1, e1, e2, h1, h2, h3, rfl⟩ := hu
  exact ⟨{ w.maps with dist := m1 }, .update hm (.update h1), rfl, .updateEdges (.updateEdges h2 h3)⟩

theorem gvd_update_outside {occ : Cell → Int} {g g' : GVD} (hu : GVD.Update occ g g')
    (h0 : ∀ c, g.maps.core.inside c = false → g.cost c = 0) (hsz : g'.maps.core.rows = g.maps.core.rows ∧
      g'.maps.core.columns = g.maps.core.columns) :
    ∀ c, g'.maps.core.inside c = false → g'.cost c = 0 := by
  obtain ⟨m1, e1, e2, h1, h2, h3, rfl⟩ := hu
  intro c hc
  have hc1 : m1.core.inside c = false := hc
  show GVD.updateCost _ _ c = 0
  unfold GVD.updateCost
  rw [if_neg (by simp only; rw [hc1]; decide)]
  refine h0 c ?_
  simp only [DistMap.inside] at hc1 ⊢
  dsimp only at hsz
  rw [← hsz.1, ← hsz.2]
  exact hc1

/-- What the members of the planner and the maps are after a history. -/
structure Tracked (w0 : PlanWorld) (prm : HybridParam) (p₀ : PoseR) (h : List HybridPlanner.Op)
    (s : PlanWorld × HybridPlanner) (mops : List MapState.Op) : Prop where
  run : MapState.Run w0.maps mops s.1.maps
  calls : obstacleOps mops = obstacleOps (mapCalls h)
  space : s.1.space = w0.space
  frame : s.1.frame = w0.frame
  minStep : s.1.minStep = w0.minStep
  minSafe : s.1.minSafe = w0.minSafe
  param : s.2.param = prm
  interp : s.2.pathInterpolation = 1 / 10
  ready : s.2.isInitialized = isReady h
  init : s.2.init = startInForce p₀ h
  goal : s.2.goal = goalInForce p₀ h
  smooth : s.2.smooth = smootherInForce (.default 1 0) (.default (1 / prm.minTurningRadius) w0.minSafe) h
  nonHolo : isReady h = true → s.2.nonHolo = (s.2.configure w0).nonHolo
  linked : isReady h = true → s.1.maps.dist.edges.isSome = true
  cost : ∀ c, s.1.maps.dist.core.inside c = false → s.2.cost c = 0

theorem dist_size {w0 : PlanWorld} {rows columns : Int} (hnew : w0.maps = .new rows columns) {mops : List MapState.Op}
    {m : MapState} (r : MapState.Run w0.maps mops m) : m.dist.core.rows = rows ∧ m.dist.core.columns = columns := by
  rw [hnew] at r
  obtain ⟨dops, inv⟩ := MapState.inv_run r
  exact DistMap.run_size (C34_linked_maps inv.dist).1

theorem dist_inside {w0 : PlanWorld} {rows columns : Int} (hnew : w0.maps = .new rows columns)
    {mops mops' : List MapState.Op} {m m' : MapState} (r : MapState.Run w0.maps mops m)
    (r' : MapState.Run w0.maps mops' m') (c : Cell) : m.dist.core.inside c = m'.dist.core.inside c := by
  obtain ⟨a, b⟩ := dist_size hnew r
  obtain ⟨a', b'⟩ := dist_size hnew r'
  simp only [DistMap.inside, a, b, a', b']

/-- Updates and calls of a linked distance map keep it linked. -/
theorem update_linked {occ : Cell → Int} {g g' : ObstDistMap} {S : Set Cell} (hI : g.GInv S)
    (u : ObstDistMap.Update occ g g') (he : g.edges.isSome = true) : g'.edges.isSome = true := by
  have key : ∀ g', Relation.ReflTransGen (ObstDistMap.Step occ) g g' → g'.edges.isSome = true := by
    intro g' st
    induction st with
    | refl => exact he
    | tail st1 st ih =>
      obtain ⟨e1, he1⟩ := Option.isSome_iff_exists.mp ih
      obtain ⟨e2, he2⟩ := (hI.steps st1).1.step_edges st he1
      rw [he2]; rfl
  exact key _ u.1

theorem dist_run_linked {g g' : ObstDistMap} {os : List ObstDistMap.Op} (r : ObstDistMap.Run g os g') {rows columns : Int}
    {pre : List ObstDistMap.Op} (r0 : ObstDistMap.Run (.new rows columns) pre g) (hs : g.edges.isSome = true) :
    g'.edges.isSome = true := by
  induction r generalizing pre with
  | nil => exact hs
  | @cons g1 g2 g3 o os c _ ih =>
    refine ih (r0.append (.cons c .nil)) ?_
    cases c with
    | set _ => exact hs
    | unset _ => exact hs
    | link =>
      unfold ObstDistMap.linkVoronoi
      split
      · exact hs
      · rfl
    | update u => exact update_linked (ObstDistMap.run_ginv r0).1 u hs
    | updateEdges _ _ => rfl

theorem call_linked {w0 : PlanWorld} {rows columns : Int} (hnew : w0.maps = .new rows columns) {mops : List MapState.Op}
    {m m' : MapState} {o : MapState.Op} (r : MapState.Run w0.maps mops m) (c : MapState.Call m o m')
    (hs : m.dist.edges.isSome = true ∨ o = .link) : m'.dist.edges.isSome = true := by
  rw [hnew] at r
  obtain ⟨dops, inv⟩ := MapState.inv_run r
  cases c with
  | obstacle _ _ hr => exact dist_run_linked hr inv.dist (hs.resolve_right (by simp))
  | link hc =>
    cases hc
    show (ObstDistMap.linkVoronoi _).edges.isSome = true
    unfold ObstDistMap.linkVoronoi
    split
    · rename_i h; rw [h]; rfl
    · rfl
  | update _ hc => exact dist_run_linked (.cons hc .nil) inv.dist (hs.resolve_right (by simp))
  | updateEdges hc => exact dist_run_linked (.cons hc .nil) inv.dist (hs.resolve_right (by simp))

theorem mapCalls_snoc (h : List HybridPlanner.Op) (o : HybridPlanner.Op) :
    mapCalls (h ++ [o]) = mapCalls h ++ match o with | .map o => [o] | _ => [] := by
  unfold mapCalls
  rw [List.filterMap_append]
  cases o <;> rfl

theorem run_tracked {w0 : PlanWorld} {prm : HybridParam} {p₀ : PoseR} {h₀ : NonHolo} {rows columns : Int}
    (hnew : w0.maps = .new rows columns) {h : List HybridPlanner.Op} {s : PlanWorld × HybridPlanner}
    (r : HybridPlanner.Run (w0, .new prm p₀ h₀) h s) : ∃ mops, Tracked w0 prm p₀ h s mops := by
  generalize hs0 : (w0, HybridPlanner.new prm p₀ h₀) = s0 at r
  induction r with
  | nil =>
    subst hs0
    exact ⟨[], .nil, rfl, rfl, rfl, rfl, rfl, rfl, rfl, rfl, rfl, rfl, rfl, (by intro h; cases h), (by intro h; cases h), fun _ _ => rfl⟩
  | snoc r c ih =>
    obtain ⟨mops, t⟩ := ih
    cases c with
    | map hc =>
      rename_i w p o m
      have hr := t.run.snoc hc
      refine ⟨mops ++ [o], hr, ?_, t.space, t.frame, t.minStep, t.minSafe, t.param, t.interp, ?_, ?_, ?_, ?_, ?_, ?_,
        fun c hcc => t.cost c ?_⟩
      · rw [mapCalls_snoc, MapState.obstacleOps_snoc, t.calls]
        simp only
        rw [MapState.obstacleOps_snoc]
      · simpa [isReady] using t.ready
      · simpa [startInForce] using t.init
      · simpa [goalInForce] using t.goal
      · simpa [smootherInForce] using t.smooth
      · simpa [isReady, HybridPlanner.configure] using t.nonHolo
      · intro hh
        exact call_linked hnew t.run hc (.inl (t.linked (by simpa [isReady] using hh)))
      · rw [dist_inside hnew t.run hr]; exact hcc
    | «initialize» hc =>
      rename_i w p m
      have hr := t.run.snoc hc
      have e1 : p.param = prm := t.param
      refine ⟨mops ++ [.link], hr, ?_, t.space, t.frame, t.minStep, t.minSafe, t.param, t.interp, ?_, ?_, ?_, ?_, ?_, ?_,
        fun c hcc => rfl⟩
      · rw [mapCalls_snoc, MapState.obstacleOps_snoc, t.calls]
        simp [obstacleOps]
      · simp [isReady, HybridPlanner.configure]
      · simpa [startInForce, HybridPlanner.configure] using t.init
      · simpa [goalInForce, HybridPlanner.configure] using t.goal
      · have e2 : w.minSafe = w0.minSafe := t.minSafe
        simp [smootherInForce, HybridPlanner.configure, e1, e2]
      · have e2 : w.space = w0.space := t.space
        intro _
        simp [HybridPlanner.configure, e2]
      · exact fun _ => call_linked hnew t.run hc (.inr rfl)
    | reject =>
      rename_i w p
      refine ⟨mops, t.run, ?_, t.space, t.frame, t.minStep, t.minSafe, t.param, t.interp, ?_, ?_, ?_, ?_, ?_, ?_, t.cost⟩
      · rw [mapCalls_snoc, t.calls]; simp
      · simp [isReady]
      · simpa [startInForce] using t.init
      · simpa [goalInForce] using t.goal
      · simpa [smootherInForce] using t.smooth
      · simp [isReady]
      · simp [isReady]
    | setInit =>
      rename_i w p q
      refine ⟨mops, t.run, ?_, t.space, t.frame, t.minStep, t.minSafe, t.param, t.interp, ?_, ?_, ?_, ?_, ?_, ?_, t.cost⟩
      · rw [mapCalls_snoc, t.calls]; simp
      · simpa [isReady] using t.ready
      · simp [startInForce]
      · simpa [goalInForce] using t.goal
      · simpa [smootherInForce] using t.smooth
      · simpa [isReady, HybridPlanner.configure] using t.nonHolo
      · simpa [isReady] using t.linked
    | setGoal =>
      rename_i w p q
      refine ⟨mops, t.run, ?_, t.space, t.frame, t.minStep, t.minSafe, t.param, t.interp, ?_, ?_, ?_, ?_, ?_, ?_, t.cost⟩
      · rw [mapCalls_snoc, t.calls]; simp
      · simpa [isReady] using t.ready
      · simpa [startInForce] using t.init
      · simp [goalInForce]
      · simpa [smootherInForce] using t.smooth
      · simpa [isReady, HybridPlanner.configure] using t.nonHolo
      · simpa [isReady] using t.linked
    | setSmootherParameters =>
      rename_i w p q
      refine ⟨mops, t.run, ?_, t.space, t.frame, t.minStep, t.minSafe, t.param, t.interp, ?_, ?_, ?_, ?_, ?_, ?_, t.cost⟩
      · rw [mapCalls_snoc, t.calls]; simp
      · simpa [isReady] using t.ready
      · simpa [startInForce] using t.init
      · simpa [goalInForce] using t.goal
      · simp [smootherInForce]
      · simpa [isReady, HybridPlanner.configure] using t.nonHolo
      · simpa [isReady] using t.linked
    | search hs =>
      rename_i w p random st w' p'
      cases hs with
      | notInitialized =>
        refine ⟨mops, t.run, ?_, t.space, t.frame, t.minStep, t.minSafe, t.param, t.interp, ?_, ?_, ?_, ?_, ?_, ?_, t.cost⟩
        · rw [mapCalls_snoc, t.calls]; simp
        · simpa [isReady] using t.ready
        · simpa [startInForce] using t.init
        · simpa [goalInForce] using t.goal
        · simpa [smootherInForce] using t.smooth
        · simpa [isReady, HybridPlanner.configure] using t.nonHolo
        · simpa [isReady] using t.linked
      | searched _ hm _ hu _ _ _ _ _ _ =>
        rename_i occ tables g edges hh nbrs fuel gst s dflt path sst0 smoothed0
        obtain ⟨m, c1, -, c2⟩ := gvd_update_calls hm hu
        have hr := (t.run.snoc c1).snoc c2
        refine ⟨mops ++ [.update] ++ [.updateEdges], hr, ?_, t.space, t.frame, t.minStep, t.minSafe, t.param, t.interp,
          ?_, ?_, ?_, ?_, ?_, ?_, ?_⟩
        · rw [mapCalls_snoc, MapState.obstacleOps_snoc, MapState.obstacleOps_snoc, t.calls]; simp [obstacleOps]
        · simpa [isReady] using t.ready
        · simpa [startInForce] using t.init
        · simpa [goalInForce] using t.goal
        · simpa [smootherInForce] using t.smooth
        · simpa [isReady, HybridPlanner.configure] using t.nonHolo
        · intro hh
          have hl := t.linked (by simpa [isReady] using hh)
          exact call_linked hnew (t.run.snoc c1) c2 (.inl (call_linked hnew t.run c1 (.inl hl)))
        · refine gvd_update_outside hu t.cost ?_
          obtain ⟨a, b⟩ := dist_size hnew t.run
          obtain ⟨a', b'⟩ := dist_size hnew hr
          exact ⟨a'.trans a.symm, b'.trans b.symm⟩

/-- The hypotheses on the object under construction: a new map of the size of the frame, positive lengths. -/
structure Spec.Setup (w0 : PlanWorld) (prm : HybridParam) : Prop where
  maps : w0.maps = .new w0.frame.rows w0.frame.columns
  resolution : 0 < w0.frame.resolution
  minStep : 0 < w0.minStep
  spatialResolution : 0 < prm.spatialResolution
  minTurningRadius : 0 < prm.minTurningRadius

/-- What the validator sees after a search on an initialised planner. -/
theorem search_sees {w0 : PlanWorld} {prm : HybridParam} (hs : Setup w0 prm) {p₀ : PoseR} {h : List HybridPlanner.Op}
    {s : PlanWorld × HybridPlanner} {mops : List MapState.Op} (t : Tracked w0 prm p₀ h s mops) {occ : Cell → Int} {g : GVD}
    (hm : s.1.maps.obs.matrix = some occ) (hu : GVD.Update occ ⟨s.1.frame, s.1.maps.dist, s.2.cost⟩ g) :
    SeesMap { s.1 with maps.dist := g.maps }.validator (mops ++ [.update]) := by
  obtain ⟨m, c1, e, -⟩ := gvd_update_calls hm hu
  refine ⟨m, ?_, e.symm⟩
  have hr := t.run.snoc c1
  rw [hs.maps] at hr
  show MapState.Run (.new s.1.frame.rows s.1.frame.columns) _ _
  rw [t.frame]
  exact hr

theorem obstacleOps_update (mops : List MapState.Op) : obstacleOps (mops ++ [.update]) = obstacleOps mops := by
  rw [MapState.obstacleOps_snoc]; simp

theorem covered_congr {mops ops : List MapState.Op} (h : obstacleOps mops = obstacleOps ops) (c : Cell) :
    Covered mops c ↔ Covered ops c := by
  unfold Covered; rw [h]

/-- Every length on the map, plus 8.3 %: no reported distance exceeds it. -/
noncomputable def Spec.longestReport (frame : OccMap) : ℝ :=
  √(4 - 2 * √2) * (√((((frame.rows - 1) ^ 2 + (frame.columns - 1) ^ 2 : Int)) : ℝ) * frame.resolution)

/-- The clearance that a planner guarantees to its motions (see `guaranteedClearance`). -/
noncomputable def Spec.motionClearance (w0 : PlanWorld) : ℝ :=
  min (w0.minSafe - (1 - 1 / √(4 - 2 * √2)) * longestReport w0.frame) (w0.minSafe / √(4 - 2 * √2) - w0.minStep)
    - (√2 + 5 / 2) * w0.frame.resolution

/-- C95: without a validator, `SearchPath` fails and changes nothing. -/
theorem C95_not_initialised (w0 : PlanWorld) (prm : HybridParam) (hsetup : Setup w0 prm) (p₀ : PoseR) (h₀ : NonHolo)
    (h : List HybridPlanner.Op) (w : PlanWorld) (p : HybridPlanner) (r : HybridPlanner.Run (w0, .new prm p₀ h₀) h (w, p))
    (hno : isReady h = false) (random : Nat → ℝ) (st : Status) (w' : PlanWorld) (p' : HybridPlanner) :
    HybridPlanner.SearchPath w p random st w' p' ↔ st = .failure ∧ w' = w ∧ p' = p := by
  obtain ⟨mops, t⟩ := run_tracked hsetup.maps r
  have hi : p.isInitialized = false := t.ready.trans hno
  constructor
  · intro hs
    cases hs with
    | notInitialized => exact ⟨rfl, rfl, rfl⟩
    | searched h1 => rw [hi] at h1; cases h1
  · rintro ⟨rfl, rfl, rfl⟩
    exact .notInitialized hi

/-- C95: an initialised planner always returns, whatever the calls before and the random numbers, unless the start is
the goal (C84). -/
theorem C95_always_returns (w0 : PlanWorld) (prm : HybridParam) (hsetup : Setup w0 prm) (hfwd : 0 ≤ prm.forwardCostMultiplier)
    (hrev : 0 ≤ prm.reverseCostMultiplier) (p₀ : PoseR) (h₀ : NonHolo)
    (h : List HybridPlanner.Op) (w : PlanWorld) (p : HybridPlanner) (r : HybridPlanner.Run (w0, .new prm p₀ h₀) h (w, p))
    (hdiff : identicalPoses (startInForce p₀ h) (goalInForce p₀ h) = false) (random : Nat → ℝ) :
    ∃ st w' p', HybridPlanner.SearchPath w p random st w' p' := by
  obtain ⟨mops, t⟩ := run_tracked hsetup.maps r
  cases hi : p.isInitialized with
  | false => exact ⟨_, _, _, .notInitialized hi⟩
  | true =>
    have hready : isReady h = true := t.ready.symm.trans hi
    have hrun := t.run
    rw [hsetup.maps] at hrun
    obtain ⟨dops, inv⟩ := MapState.inv_run hrun
    obtain ⟨occ, hocc, -⟩ := inv.agree
    obtain ⟨m1, u1⟩ := (ObstDistMap.run_ginv inv.dist).1.exists_update occ
    obtain ⟨e1, he1⟩ := Option.isSome_iff_exists.mp (update_linked (ObstDistMap.run_ginv inv.dist).1 u1 (t.linked hready))
    obtain ⟨eops, re⟩ := ((ObstDistMap.run_ginv inv.dist).1.steps u1.1).1.edges e1 he1
    obtain ⟨e2, u2⟩ := (DistMap.run_inv re).1.exists_update
    obtain ⟨g, hg⟩ : ∃ g, GVD.Update occ ⟨w.frame, w.maps.dist, p.cost⟩ g := ⟨_, m1, e1, e2, u1, he1, u2, rfl⟩
    obtain ⟨edges, hedges⟩ : ∃ edges, g.maps.edges = some edges := by
      obtain ⟨_, _, e2, _, _, _, rfl⟩ := hg
      exact ⟨e2, rfl⟩
    have hparam : p.param = prm := t.param
    obtain ⟨tables, -, htab, -⟩ := ObstHeuristic.C71_bounds_partial w.frame (fun c => decide (occ c ≥ 0)) p.param.reverseCostMultiplier
      p.param.forwardCostMultiplier (by rw [hparam]; exact hrev) (by rw [hparam]; exact hfwd)
      (by rw [show w.frame = w0.frame from t.frame]; exact hsetup.resolution.le) p.goal p.goal
    classical
    obtain ⟨hh, hheur⟩ : ∃ hh, CombinedHeuristic p w.frame tables hh := by
      refine ⟨fun pose => match p.nonHolo.getHeuristicValue p.goal pose,
          ObstHeuristic.getHeuristicValue w.frame p.param.reverseCostMultiplier p.param.forwardCostMultiplier tables
            p.goal pose with
        | some a, some b => max (match a with | none => ⊤ | some x => (x : WithTop ℝ)) (b : WithTop ℝ)
        | _, _ => ⊤, fun pose a b h1 h2 => ?_⟩
      simp only [h1, h2]
      cases a <;> rfl
    obtain ⟨e, he⟩ : ∃ e : Propagator, e = ⟨p.param, { w with maps.dist := g.maps }.validator, g, hh, p.goal⟩ := ⟨_, rfl⟩
    obtain ⟨nbrs, hn⟩ : ∃ nbrs, e.Answers random nbrs := ⟨fun k s => (e.neighborStates (random k) s).getD [], fun _ _ => rfl⟩
    have hc : Configured e := by
      rw [he]
      refine ⟨sees_sameSize (search_sees hsetup t hocc hg), ?_, ?_, ?_⟩
      · show 0 < w.minStep
        rw [show w.minStep = w0.minStep from t.minStep]; exact hsetup.minStep
      · show 0 < p.param.spatialResolution
        rw [hparam]; exact hsetup.spatialResolution
      · show 0 < p.param.minTurningRadius
        rw [hparam]; exact hsetup.minTurningRadius
    obtain ⟨fuel, gst, s, hs⟩ := C81_always_ends e hc random nbrs hn p.init
    have hep : e.param = p.param := by rw [he]
    have hout : ∃ status path sst smoothed, HybridAStar.searchPath e nbrs p.pathInterpolation p.init
        (smoothPoses ((p.smoothParam w).terms w.frame g.maps.core.obst edges.obst) p.smooth.maxIterations
          e.validator.isStateValid) p.path fuel p.init = some (status, path) ∧
        HybridPlanner.smoothing p.pathInterpolation p.init
          (smoothPoses ((p.smoothParam w).terms w.frame g.maps.core.obst edges.obst) p.smooth.maxIterations
            e.validator.isStateValid) (p.smoothingStatus, p.smoothedPath) gst s = some (sst, smoothed) := by
      cases gst with
      | failure => exact ⟨.failure, p.path, _, _, (C86_failure e nbrs _ _ _ _ _ _ _).mpr ⟨rfl, s, hs⟩, rfl⟩
      | success =>
        have hmap : w.frame = e.validator.map := by rw [he]; rfl
        have hd2 : identicalPoses p.init e.goal = false := by
          rw [he]
          show identicalPoses p.init p.goal = false
          rw [show p.init = _ from t.init, show p.goal = _ from t.goal]
          exact hdiff
        have hint : p.pathInterpolation = 1 / 10 := t.interp
        obtain ⟨states, idx, sst, smoothed, path, ⟨actions, h1, h2⟩, h3, h4, -⟩ := C86_smoothed_or_samples e hc random nbrs hn p.pathInterpolation
          (by rw [hint]; norm_num) p.init (p.smoothParam w) g.maps.core.obst edges.obst p.smooth.maxIterations p.path
          fuel p.init hd2 s hs
        rw [hmap]
        refine ⟨_, path, sst, smoothed, h4, ?_⟩
        unfold HybridPlanner.smoothing
        simp only [h1, Option.bind_eq_bind, Option.bind_some, mapM_id_some, h2]
        exact h3
    obtain ⟨status, path, sst, smoothed, hpath, hsm⟩ := hout
    subst he
    exact ⟨_, _, _, .searched hi hocc htab hg hedges hheur hn hs hpath hsm⟩

/-- C95: a search plans for the obstacles that are registered when it is called, whether or not the map was updated
since. After a success, `GetGraphSearchPath` are motions that lead from the start to within 1 mm and 0.001° of the goal;
they keep clear of the outline of every registered obstacle, and do not enter a convex one that they do not start in.
`GetPath` consists of samples of these motions, or of states that keep clear of the outlines. -/
theorem C95_plans_for_current_obstacles (w0 : PlanWorld) (prm : HybridParam) (hsetup : Setup w0 prm) (p₀ : PoseR)
    (h₀ : NonHolo) (h : List HybridPlanner.Op) (w : PlanWorld) (p : HybridPlanner)
    (r : HybridPlanner.Run (w0, .new prm p₀ h₀) h (w, p)) (ht : Tidy (mapCalls h))
    (pose : Nat → PoseR) (shape : Nat → Shape)
    (hcells : ∀ o, registered (obstacleOps (mapCalls h)) o = true →
      Shape.gridCells w0.frame (pose o) (shape o) = some (covers (obstacleOps (mapCalls h)) o) ∧
      ∀ u, IsCorner (pose o) (shape o) u → Inside w0.frame.size (w0.frame.worldPositionToGridCell u false))
    (c0 : Cell) (hc0 : Covered (mapCalls h) c0) (hin0 : InRect w0.frame.rows w0.frame.columns c0)
    (random : Nat → ℝ) (w' : PlanWorld) (p' : HybridPlanner) (hs : HybridPlanner.SearchPath w p random .success w' p') :
    ∃ actions q states, p'.getGraphSearchPath = some (actions.map some) ∧ Joined (startInForce p₀ h) actions q ∧
      ((q.position - (goalInForce p₀ h).position).norm < 1e-3 ∧ |q.theta - (goalInForce p₀ h).theta| < 1e-3 * π / 180) ∧
      (∀ a ∈ actions, Motion prm (goalInForce p₀ h) a ∧ 0 ≤ a.length) ∧
      SampledPath actions (startInForce p₀ h) q (1 / 10) states ∧ Reshaped states p'.getPath ∧
      (∀ o, registered (obstacleOps (mapCalls h)) o = true →
        (∀ a ∈ actions, a.length ≠ 0 → ∀ t, 0 ≤ t → t ≤ 1 → ∀ x, OnOutline (pose o) (shape o) x →
          motionClearance w0 ≤ euclid (a.interpolate t).position x) ∧
        (0 < motionClearance w0 → TurnsLeft (placedCorners (pose o) (shape o)) →
          ¬ InsideConvex (placedCorners (pose o) (shape o)) (startInForce p₀ h).position →
          ∀ a ∈ actions, ∀ t, 0 ≤ t → t ≤ 1 →
            ¬ InsideConvex (placedCorners (pose o) (shape o)) (a.interpolate t).position)) ∧
      (p'.getPath = states ∨ ∀ s ∈ p'.getPath, ∀ o, registered (obstacleOps (mapCalls h)) o = true →
        ∀ x, OnOutline (pose o) (shape o) x →
          w0.minSafe / √(4 - 2 * √2) - (√2 + 5 / 2) * w0.frame.resolution ≤ euclid s.position x) := by
  obtain ⟨mops, t⟩ := run_tracked hsetup.maps r
  cases hs with
  | searched hi hocc htab hg hedges hheur hn hsearch hpath hsmooth =>
  rename_i occ tables g edges hh nbrs fuel gst s dflt path sst0 smoothed0
  have hsee := search_sees hsetup t hocc hg
  obtain ⟨e, he⟩ : ∃ e : Propagator, e = ⟨p.param, { w with maps.dist := g.maps }.validator, g, hh, p.goal⟩ := ⟨_, rfl⟩
  have hframe : w.frame = w0.frame := t.frame
  have hsafe : w.minSafe = w0.minSafe := t.minSafe
  have hstep : w.minStep = w0.minStep := t.minStep
  have hparam : p.param = prm := t.param
  have hint : p.pathInterpolation = 1 / 10 := t.interp
  have hinit : p.init = startInForce p₀ h := t.init
  have hgoal : p.goal = goalInForce p₀ h := t.goal
  have ev : e.validator = { w with maps.dist := g.maps }.validator := by rw [he]
  have emap : e.validator.map = w0.frame := by rw [ev, ← hframe]; rfl
  have esafe : e.validator.minSafe = w0.minSafe := by rw [ev, ← hsafe]; rfl
  have estep : e.validator.minStep = w0.minStep := by rw [ev, ← hstep]; rfl
  have eparam : e.param = prm := by rw [he, ← hparam]
  have egoal : e.goal = goalInForce p₀ h := by rw [he, ← hgoal]
  rw [← ev] at hsee
  have hc : Configured e := by
    refine ⟨sees_sameSize hsee, ?_, ?_, ?_⟩
    · rw [estep]; exact hsetup.minStep
    · rw [eparam]; exact hsetup.spatialResolution
    · rw [eparam]; exact hsetup.minTurningRadius
  have ht' : Tidy mops := ⟨by rw [t.calls]; exact ht.still, by rw [t.calls]; exact ht.apart⟩
  have hD : ∀ x, e.validator.map.isInsidePos x = true → reportedDistance e.validator x ≤ longestReport w0.frame := by
    intro x hx
    have := C92_reported_distance_bounded e.validator mops hsee ht' (by rw [emap]; exact hsetup.resolution) c0
      ((covered_congr t.calls c0).mpr hc0) (by rw [emap]; exact hin0) x hx
    rw [emap] at this
    exact this
  rw [← he] at hn hsearch
  have hpath' : HybridAStar.searchPath e nbrs p.pathInterpolation dflt
      (smoothPoses ((p.smoothParam w).terms e.validator.map g.maps.core.obst edges.obst) p.smooth.maxIterations
        e.validator.isStateValid) p.path fuel p.init = some (.success, path) := by
    rw [emap, ← hframe, ev, he]; exact hpath
  have hsearch' : AStar.searchPath (e.problem nbrs) true fuel (stateFromPose e.param p.init) = some (gst, s) := by
    rw [eparam, ← hparam]; exact hsearch
  have hgst : gst = .success := by
    cases gst with
    | success => rfl
    | failure =>
      have := (C86_failure e nbrs p.pathInterpolation dflt (smoothPoses ((p.smoothParam w).terms e.validator.map
        g.maps.core.obst edges.obst) p.smooth.maxIterations e.validator.isStateValid) p.path fuel p.init p.path).mpr
        ⟨rfl, s, hsearch'⟩
      rw [this] at hpath'
      cases hpath'
  subst hgst
  have hd : 0 < p.pathInterpolation := by rw [hint]; norm_num
  have hdiff : identicalPoses p.init e.goal = false := by
    cases hid : identicalPoses p.init e.goal with
    | false => rfl
    | true => rw [search_start_goal e nbrs _ hd dflt _ _ fuel p.init hid] at hpath'; cases hpath'
  obtain ⟨actions, q, states, idx, k0, k1, k2, k3, k4, -, k5⟩ := searched e hc random nbrs hn p.pathInterpolation hd dflt
    (smoothPoses ((p.smoothParam w).terms e.validator.map g.maps.core.obst edges.obst) p.smooth.maxIterations
        e.validator.isStateValid) p.path fuel p.init hdiff s hsearch'
  rw [k5] at hpath'
  simp only [Option.map_eq_some_iff, Prod.mk.injEq, true_and] at hpath'
  obtain ⟨⟨sst, rr⟩, k6, k7⟩ := hpath'
  obtain ⟨g1, g2, -⟩ := smoothPoses_spec _ (terms_move_zero _ _ _ _) _ _ _ _ k6
  have hclear : guaranteedClearance e.validator (longestReport w0.frame) = motionClearance w0 := by
    unfold guaranteedClearance motionClearance
    rw [esafe, estep, emap]
  have hcells' : ∀ o, registered (obstacleOps (mapCalls h)) o = true →
      Shape.gridCells e.validator.map (pose o) (shape o) = some (covers (obstacleOps mops) o) ∧
      ∀ u, IsCorner (pose o) (shape o) u →
        Inside e.validator.map.size (e.validator.map.worldPositionToGridCell u false) := by
    intro o ho
    rw [emap, t.calls]
    exact hcells o ho
  have hres : 0 < e.validator.map.resolution := by rw [emap]; exact hsetup.resolution
  rw [hinit] at k1 k4
  rw [egoal] at k2
  rw [hint] at k4
  refine ⟨actions, q, states, k0, k1, k2, fun a ha => ?_, k4, ?_, fun o ho => ⟨?_, ?_⟩, ?_⟩
  · have := k3 a ha
    rw [eparam, egoal] at this
    exact ⟨this.1, this.2.1⟩
  · show Reshaped states path
    rw [← k7]
    dsimp only
    split
    · exact ⟨rfl, rfl, rfl, rfl⟩
    · exact g1
  · intro a ha hl x h0 h1 y hy
    have := C92_checked_motion_keeps_clear e.validator mops hsee ht' hres o (by rw [t.calls]; exact ho) (pose o) (shape o)
      (hcells' o ho).1 (hcells' o ho).2 _ hD a (motion_unit_speed hc.radius (k3 a ha).1) (k3 a ha).2.2
      (lt_of_le_of_ne (k3 a ha).2.1 (Ne.symm hl)) x h0 h1 y hy
    rw [← hclear]
    exact this
  · intro hpos hturn hout
    exact joined_outside (R := InsideConvex (placedCorners (pose o) (shape o))) actions _ q k1
      (fun a ha => motion_good hc.radius (k3 a ha).1 (k3 a ha).2.1)
      (fun a ha hst x x0 x1 => C93_checked_motion_stays_outside e.validator mops hsee ht' hres o
        (by rw [t.calls]; exact ho) (pose o) (shape o) (hcells' o ho).1 (hcells' o ho).2 hturn _ hD
        (by rw [hclear]; exact hpos) a (motion_unit_speed hc.radius (k3 a ha).1) (k3 a ha).2.2 (k3 a ha).2.1 hst x x0 x1)
      hout
  · show path = states ∨ _
    dsimp only at k7
    split at k7
    · exact .inl k7.symm
    · rename_i hneg
      refine .inr fun y hy o ho x hx => ?_
      have hy : y ∈ path := hy
      rw [← k7] at hy
      have hv := g2.mp (not_lt.mp hneg) y hy
      have := C92_accepted_state_keeps_clear e.validator mops hsee ht' hres y hv o (by rw [t.calls]; exact ho) (pose o)
        (shape o) (hcells' o ho).1 (hcells' o ho).2 x hx
      rw [esafe, emap] at this
      exact this

/-! ## C96: the planner can be used again -/

/-- The path of a success does not depend on the path before. -/
theorem success_old (e : Propagator) (nbrs : Nat → State → List (State × Action × WithTop ℝ)) (d : ℝ) (dflt : PoseR)
    (smooth : List PoseR → List Nat → Option (SmoothStatus × List PoseR)) (old old' : List PoseR) (fuel : Nat) (init : PoseR)
    (path : List PoseR) (h : HybridAStar.searchPath e nbrs d dflt smooth old fuel init = some (.success, path)) :
    HybridAStar.searchPath e nbrs d dflt smooth old' fuel init = some (.success, path) := by
  unfold HybridAStar.searchPath at h ⊢
  cases hgs : AStar.searchPath (e.problem nbrs) true fuel (stateFromPose e.param init) with
  | none => rw [hgs] at h; cases h
  | some r =>
    obtain ⟨gst, s⟩ := r
    rw [hgs] at h
    cases gst with
    | failure => simp [finish] at h
    | success => exact h

/-- The planner returns the status of its graph search. -/
theorem planner_status {e : Propagator} {nbrs : Nat → State → List (State × Action × WithTop ℝ)} {d : ℝ} {dflt : PoseR}
    {smooth : List PoseR → List Nat → Option (SmoothStatus × List PoseR)} {old : List PoseR} {fuel : Nat} {init : PoseR}
    {st gst : Status} {path : List PoseR} {s : Search State Action (WithTop ℝ)}
    (h : HybridAStar.searchPath e nbrs d dflt smooth old fuel init = some (st, path))
    (hs : AStar.searchPath (e.problem nbrs) true fuel (stateFromPose e.param init) = some (gst, s)) : st = gst := by
  cases gst with
  | failure =>
    have := (C86_failure e nbrs d dflt smooth old fuel init old).mpr ⟨rfl, s, hs⟩
    rw [h] at this
    cases this; rfl
  | success =>
    cases st with
    | success => rfl
    | failure =>
      obtain ⟨-, s', hs'⟩ := (C86_failure e nbrs d dflt smooth old fuel init path).mp h
      rw [hs] at hs'
      cases hs'

/-- The searches of a planner depend on its parameters, its start and goal, and on the maps, but neither on the path nor
on the path costs before. -/
theorem search_again {w : PlanWorld} {p f : HybridPlanner} {random : Nat → ℝ} {st : Status} {w' : PlanWorld}
    {p' : HybridPlanner} (e1 : f.param = p.param) (e2 : f.pathInterpolation = p.pathInterpolation)
    (e3 : f.isInitialized = p.isInitialized) (e4 : f.nonHolo = p.nonHolo) (e5 : f.smooth = p.smooth)
    (e6 : f.init = p.init) (e7 : f.goal = p.goal) (e8 : p.isInitialized = true)
    (hcost : ∀ m e2, GVD.updateCost ⟨w.frame, m, f.cost⟩ e2 = GVD.updateCost ⟨w.frame, m, p.cost⟩ e2 ∨
      ¬ ∃ occ, ObstDistMap.Update occ w.maps.dist m)
    (hs : HybridPlanner.SearchPath w p random st w' p') :
    ∃ f', HybridPlanner.SearchPath w f random st w' f' ∧ f'.search = p'.search ∧
      f'.graphSearchStatus = p'.graphSearchStatus ∧ (st = .success → f'.path = p'.path) ∧
      (st = .failure → f'.path = f.path) ∧ (st = .success → f'.smoothingStatus = p'.smoothingStatus ∧
        f'.smoothedPath = p'.smoothedPath) := by
  cases hs with
  | notInitialized h1 => rw [e8] at h1; cases h1
  | searched h1 hocc htab hg hedges hheur hn hsearch hpath hsmooth =>
    rename_i occ tables g edges hh nbrs fuel gst s dflt path sst0 smoothed0
    have hg' : GVD.Update occ ⟨w.frame, w.maps.dist, f.cost⟩ g := by
      obtain ⟨m1, a1, a2, u1, u2, u3, rfl⟩ := hg
      refine ⟨m1, a1, a2, u1, u2, u3, ?_⟩
      rcases hcost m1 a2 with h | h
      · simp only [h]
      · exact absurd ⟨occ, u1⟩ h
    have hheur' : CombinedHeuristic f w.frame tables hh := by
      unfold CombinedHeuristic
      rw [e1, e4, e7]
      exact hheur
    have hsp : f.smoothParam w = p.smoothParam w := by unfold HybridPlanner.smoothParam; rw [e5]
    obtain ⟨path', hpath', hs1, hs2⟩ : ∃ path', HybridAStar.searchPath ⟨p.param, { w with maps.dist := g.maps }.validator,
        g, hh, p.goal⟩ nbrs p.pathInterpolation
        dflt (smoothPoses ((p.smoothParam w).terms w.frame g.maps.core.obst edges.obst) p.smooth.maxIterations
          { w with maps.dist := g.maps }.validator.isStateValid) f.path fuel p.init = some (st, path') ∧
        (st = .success → path' = path) ∧ (st = .failure → path' = f.path) := by
      cases st with
      | success => exact ⟨path, success_old _ _ _ _ _ _ _ _ _ _ hpath, fun _ => rfl, fun h => by cases h⟩
      | failure =>
        refine ⟨f.path, ?_, fun h => (by cases h), fun _ => rfl⟩
        obtain ⟨-, s', hs'⟩ := (C86_failure _ _ _ _ _ _ _ _ _).mp hpath
        exact (C86_failure _ _ _ _ _ _ _ _ _).mpr ⟨rfl, s', hs'⟩
    have hstat : st = gst := planner_status hpath hsearch
    obtain ⟨sst, smoothed, hsm, hs3⟩ : ∃ sst smoothed, HybridPlanner.smoothing p.pathInterpolation
        dflt (smoothPoses ((p.smoothParam w).terms w.frame g.maps.core.obst edges.obst) p.smooth.maxIterations
          { w with maps.dist := g.maps }.validator.isStateValid) (f.smoothingStatus, f.smoothedPath) gst s
          = some (sst, smoothed) ∧ (st = .success → sst = sst0 ∧ smoothed = smoothed0) := by
      cases gst with
      | failure => exact ⟨_, _, rfl, fun h => by rw [hstat] at h; cases h⟩
      | success => exact ⟨sst0, smoothed0, hsmooth, fun _ => ⟨rfl, rfl⟩⟩
    refine ⟨{ f with cost := g.cost, search := s, path := path', graphSearchStatus := gst, smoothingStatus := sst
                     smoothedPath := smoothed }, ?_, rfl, rfl, hs1, hs2, hs3⟩
    refine .searched (edges := edges) (h := hh) (nbrs := nbrs) (fuel := fuel) (dflt := dflt) (tables := tables) (occ := occ)
      (e3.trans e8) hocc (by rw [e7]; exact htab) hg' hedges hheur' ?_ ?_ ?_ ?_
    · rw [e1, e7]; exact hn
    · rw [e1, e6, e7]; exact hsearch
    · rw [e1, e2, e5, e6, e7, hsp]; exact hpath'
    · rw [e2, e5, hsp]; exact hsm

/-- C96: after any calls, a search has the same possible results as that of a planner newly created for the same map,
with the start, the goal and the smoother parameters now in force. -/
theorem C96_reusable (w0 : PlanWorld) (prm : HybridParam) (hsetup : Setup w0 prm) (p₀ : PoseR) (h₀ : NonHolo)
    (h : List HybridPlanner.Op) (w : PlanWorld) (p : HybridPlanner) (r : HybridPlanner.Run (w0, .new prm p₀ h₀) h (w, p))
    (hready : isReady h = true) (p₁ : PoseR) (h₁ : NonHolo) :
    ∃ f : HybridPlanner, HybridPlanner.Run (w, .new prm p₁ h₁)
      [.initialize true, .setInit (startInForce p₀ h), .setGoal (goalInForce p₀ h), .setSmootherParameters
        (smootherInForce (.default 1 0) (.default (1 / prm.minTurningRadius) w0.minSafe) h)] (w, f) ∧
      ∀ random st w' motions cost path stats smoothed,
        (∃ p', HybridPlanner.SearchPath w p random st w' p' ∧ p'.getGraphSearchPath = motions ∧
          p'.getGraphSearchOptimalCost = cost ∧
          (st = .success → p'.getPath = path ∧ p'.getStats = stats ∧ p'.getSmoothedPath = smoothed)) ↔
        (∃ f', HybridPlanner.SearchPath w f random st w' f' ∧ f'.getGraphSearchPath = motions ∧
          f'.getGraphSearchOptimalCost = cost ∧
          (st = .success → f'.getPath = path ∧ f'.getStats = stats ∧ f'.getSmoothedPath = smoothed)) := by
  obtain ⟨mops, t⟩ := run_tracked hsetup.maps r
  have hlink : MapState.Call w.maps .link w.maps := by
    obtain ⟨e, he⟩ := Option.isSome_iff_exists.mp (t.linked hready)
    have he : w.maps.dist.edges = some e := he
    have : w.maps = { w.maps with dist := w.maps.dist.linkVoronoi } := by
      unfold ObstDistMap.linkVoronoi
      rw [he]
    have h2 : MapState.Call w.maps .link { w.maps with dist := w.maps.dist.linkVoronoi } := .link .link
    rw [← this] at h2
    exact h2
  obtain ⟨f, hf⟩ : ∃ f : HybridPlanner, f = { (HybridPlanner.new prm p₁ h₁).configure w with
      init := startInForce p₀ h, goal := goalInForce p₀ h
      smooth := smootherInForce (.default 1 0) (.default (1 / prm.minTurningRadius) w0.minSafe) h } := ⟨_, rfl⟩
  have hrun : HybridPlanner.Run (w, .new prm p₁ h₁)
      [.initialize true, .setInit (startInForce p₀ h), .setGoal (goalInForce p₀ h), .setSmootherParameters
        (smootherInForce (.default 1 0) (.default (1 / prm.minTurningRadius) w0.minSafe) h)] (w, f) := by
    have c1 : HybridPlanner.Call (w, .new prm p₁ h₁) (.initialize true) (w, (HybridPlanner.new prm p₁ h₁).configure w) :=
      .initialize (m := w.maps) hlink
    rw [hf]
    exact .snoc (os := [_, _, _]) (.snoc (os := [_, _]) (.snoc (os := [_]) (.snoc (os := []) .nil c1) .setInit) .setGoal)
      .setSmootherParameters
  have hparam : p.param = prm := t.param
  have e1 : f.param = p.param := by rw [hf, hparam]; rfl
  have e2 : f.pathInterpolation = p.pathInterpolation := by
    rw [show p.pathInterpolation = 1 / 10 from t.interp, hf]; rfl
  have e8 : p.isInitialized = true := t.ready.trans hready
  have e3 : f.isInitialized = p.isInitialized := by rw [e8, hf]; rfl
  have e4 : f.nonHolo = p.nonHolo := by
    rw [show p.nonHolo = _ from t.nonHolo hready, hf]
    show NonHolo.build _ _ _ _ _ _ _ _ = NonHolo.build _ _ _ _ _ _ _ _
    rw [hparam, show w.space = w0.space from t.space]
    rfl
  have e5 : f.smooth = p.smooth := by rw [show p.smooth = _ from t.smooth, hf]
  have e6 : f.init = p.init := by rw [show p.init = _ from t.init, hf]
  have e7 : f.goal = p.goal := by rw [show p.goal = _ from t.goal, hf]
  have hcost : ∀ m e2, GVD.updateCost ⟨w.frame, m, f.cost⟩ e2 = GVD.updateCost ⟨w.frame, m, p.cost⟩ e2 ∨
      ¬ ∃ occ, ObstDistMap.Update occ w.maps.dist m := by
    intro m e2
    by_cases hu : ∃ occ, ObstDistMap.Update occ w.maps.dist m
    · left
      obtain ⟨occ, u⟩ := hu
      have hr := t.run
      rw [hsetup.maps] at hr
      obtain ⟨dops, inv⟩ := MapState.inv_run hr
      have hz := DistMap.run_size (C34_linked_maps inv.dist).1
      have hz' := DistMap.run_size (C34_linked_maps (inv.dist.append (.cons (.update u) .nil))).1
      funext c
      unfold GVD.updateCost
      split
      · rfl
      · rename_i hc
        have h0 : p.cost c = 0 := by
          refine t.cost c ?_
          rw [Bool.not_eq_true] at hc
          simp only [DistMap.inside] at hc ⊢
          rw [hz.1, hz.2, ← hz'.1, ← hz'.2]
          exact hc
        show f.cost c = p.cost c
        rw [h0, hf]
        rfl
    · exact .inr hu
  refine ⟨f, hrun, fun random st w' motions cost path stats smoothed => ⟨?_, ?_⟩⟩
  · rintro ⟨p', hs, h1, h2, h3⟩
    obtain ⟨f', k1, k2, k3, k4, -, k5⟩ := search_again e1 e2 e3 e4 e5 e6 e7 e8 hcost hs
    refine ⟨f', k1, ?_, ?_, fun hst => ⟨(k4 hst).trans (h3 hst).1, ?_, (k5 hst).2.trans (h3 hst).2.2⟩⟩
    · unfold HybridPlanner.getGraphSearchPath at h1 ⊢; rw [k2, h1]
    · unfold HybridPlanner.getGraphSearchOptimalCost at h2 ⊢; rw [k2, h2]
    · rw [← (h3 hst).2.1]
      unfold HybridPlanner.getStats
      rw [k3, (k5 hst).1]
  · rintro ⟨f', hs, h1, h2, h3⟩
    obtain ⟨p', k1, k2, k3, k4, -, k5⟩ := search_again e1.symm e2.symm e3.symm e4.symm e5.symm e6.symm e7.symm (e3.trans e8)
      (fun m e => (hcost m e).imp Eq.symm id) hs
    refine ⟨p', k1, ?_, ?_, fun hst => ⟨(k4 hst).trans (h3 hst).1, ?_, (k5 hst).2.trans (h3 hst).2.2⟩⟩
    · unfold HybridPlanner.getGraphSearchPath at h1 ⊢; rw [k2, h1]
    · unfold HybridPlanner.getGraphSearchOptimalCost at h2 ⊢; rw [k2, h2]
    · rw [← (h3 hst).2.1]
      unfold HybridPlanner.getStats
      rw [k3, (k5 hst).1]

/-! ## C97: the smoother parameters -/

/-- Parameters stay in force until the next `Initialize` or `SetSmootherParameters`. -/
theorem smoother_kept (q a b : SmoothParam) (h h' : List HybridPlanner.Op) (h1 : Op.initialize true ∉ h')
    (h2 : ∀ q', Op.setSmootherParameters q' ∉ h') :
    smootherInForce a b (h ++ [.setSmootherParameters q] ++ h') = q := by
  unfold smootherInForce
  rw [List.foldl_append, List.foldl_append]
  simp only [List.foldl_cons, List.foldl_nil]
  induction h' using List.reverseRecOn with
  | nil => rfl
  | append_singleton l o ih =>
    rw [List.foldl_append, ih (fun hm => h1 (List.mem_append_left _ hm)) (fun q' hm => h2 q' (List.mem_append_left _ hm))]
    cases o with
    | «initialize» b =>
      cases b with
      | true => exact absurd (List.mem_append_right _ (List.mem_singleton.mpr rfl)) h1
      | false => rfl
    | setSmootherParameters q' => exact absurd (List.mem_append_right _ (List.mem_singleton.mpr rfl)) (h2 q')
    | map o => rfl
    | setInit s => rfl
    | setGoal s => rfl
    | search random => rfl

/-- C97, for calls without `Initialize` after `SetSmootherParameters` (partial: see
`C97_initialize_resets_parameters`): `GetSmootherParameters` returns the parameters, and a search smooths with them the
samples of its motions. It returns the result if all its states are acceptable, otherwise the samples. -/
theorem C97_parameters_used_partial (w0 : PlanWorld) (prm : HybridParam) (hsetup : Setup w0 prm) (p₀ : PoseR) (h₀ : NonHolo)
    (h h' : List HybridPlanner.Op) (q : SmoothParam) (w : PlanWorld) (p : HybridPlanner)
    (r : HybridPlanner.Run (w0, .new prm p₀ h₀) (h ++ [.setSmootherParameters q] ++ h') (w, p))
    (h1 : Op.initialize true ∉ h') (h2 : ∀ q', Op.setSmootherParameters q' ∉ h') :
    p.getSmootherParameters = q ∧
    ∀ random w' p', HybridPlanner.SearchPath w p random .success w' p' →
      ∃ actions q' states idx edges sst smoothed, p'.getGraphSearchPath = some (actions.map some) ∧
        SampledPath actions p.init q' (1 / 10) states ∧ w'.maps.dist.edges = some edges ∧
        smoothPoses ({ q with minSafeRadius := w0.minSafe, alpha := GVD.alpha, dMax := GVD.dMax }.terms w0.frame
          w'.maps.dist.core.obst edges.obst) q.maxIterations w'.validator.isStateValid states idx = some (sst, smoothed) ∧
        ((∀ s ∈ smoothed, Acceptable w'.validator s) → p'.getPath = smoothed) ∧
        ((∃ s ∈ smoothed, ¬ Acceptable w'.validator s) → p'.getPath = states) := by
  obtain ⟨mops, t⟩ := run_tracked hsetup.maps r
  have hq : p.smooth = q := (show p.smooth = _ from t.smooth).trans (smoother_kept q _ _ h h' h1 h2)
  refine ⟨hq, fun random w' p' hs => ?_⟩
  cases hs with
  | searched hi hocc htab hg hedges hheur hn hsearch hpath hsmooth =>
  rename_i occ tables g edges hh nbrs fuel gst s dflt path sst0 smoothed0
  have hsee := search_sees hsetup t hocc hg
  obtain ⟨e, he⟩ : ∃ e : Propagator, e = ⟨p.param, { w with maps.dist := g.maps }.validator, g, hh, p.goal⟩ := ⟨_, rfl⟩
  have hframe : w.frame = w0.frame := t.frame
  have hparam : p.param = prm := t.param
  have hint : p.pathInterpolation = 1 / 10 := t.interp
  have ev : e.validator = { w with maps.dist := g.maps }.validator := by rw [he]
  have emap : e.validator.map = w.frame := by rw [ev]; rfl
  have estep : e.validator.minStep = w0.minStep := by rw [ev, ← show w.minStep = w0.minStep from t.minStep]; rfl
  have eparam : e.param = prm := by rw [he, ← hparam]
  rw [← ev] at hsee
  have hc : Configured e := by
    refine ⟨sees_sameSize hsee, ?_, ?_, ?_⟩
    · rw [estep]; exact hsetup.minStep
    · rw [eparam]; exact hsetup.spatialResolution
    · rw [eparam]; exact hsetup.minTurningRadius
  rw [← he] at hn hsearch hpath
  have hsearch' : AStar.searchPath (e.problem nbrs) true fuel (stateFromPose e.param p.init) = some (gst, s) := by
    rw [eparam, ← hparam]; exact hsearch
  have hgst : gst = .success := by
    cases gst with
    | success => rfl
    | failure =>
      have := (C86_failure e nbrs p.pathInterpolation dflt (smoothPoses ((p.smoothParam w).terms w.frame
        g.maps.core.obst edges.obst) p.smooth.maxIterations { w with maps.dist := g.maps }.validator.isStateValid) p.path
        fuel p.init p.path).mpr ⟨rfl, s, hsearch'⟩
      rw [this] at hpath
      cases hpath
  subst hgst
  have hd : 0 < p.pathInterpolation := by rw [hint]; norm_num
  have hdiff : identicalPoses p.init e.goal = false := by
    cases hid : identicalPoses p.init e.goal with
    | false => rfl
    | true => rw [search_start_goal e nbrs _ hd dflt _ _ fuel p.init hid] at hpath; cases hpath
  obtain ⟨actions, q', states, idx, k0, k1, k2, k3, k4, -, k5⟩ := searched e hc random nbrs hn p.pathInterpolation hd dflt
    (smoothPoses ((p.smoothParam w).terms w.frame g.maps.core.obst edges.obst) p.smooth.maxIterations
      { w with maps.dist := g.maps }.validator.isStateValid) p.path fuel p.init hdiff s hsearch'
  rw [k5] at hpath
  simp only [Option.map_eq_some_iff, Prod.mk.injEq, true_and] at hpath
  obtain ⟨⟨sst, rr⟩, k6, k7⟩ := hpath
  obtain ⟨-, g2, -⟩ := smoothPoses_spec _ (terms_move_zero _ _ _ _) _ _ _ _ k6
  have hv : ∀ y, { w with maps.dist := g.maps }.validator.isStateValid y = some true ↔
      Acceptable { w with maps.dist := g.maps }.validator y := by
    intro y
    obtain ⟨b, hb, hb'⟩ := C53_state_valid_iff { w with maps.dist := g.maps }.validator (ev ▸ hc.size) y
    rw [hb, ← hb', Option.some.injEq]
  rw [hint] at k4
  refine ⟨actions, q', states, idx, edges, sst, rr, k0, k4, hedges, ?_, fun ha => ?_, fun ⟨y, hy, hny⟩ => ?_⟩
  · rw [← hframe, ← hq, ← show w.minSafe = w0.minSafe from t.minSafe]
    exact k6
  · rw [← show _ = path from k7]
    exact if_neg (not_lt.mpr (g2.mpr fun y hy => (hv y).mpr (ha y hy)))
  · rw [← show _ = path from k7]
    exact if_pos (not_le.mp fun hle => hny ((hv y).mp (g2.mp hle y hy)))

/-- C97 is violated: parameters set before `Initialize` are lost. -/
theorem C97_initialize_resets_parameters (w0 : PlanWorld) (prm : HybridParam) (hsetup : Setup w0 prm) (p₀ : PoseR)
    (h₀ : NonHolo) (h : List HybridPlanner.Op) (q : SmoothParam) (w : PlanWorld) (p : HybridPlanner)
    (r : HybridPlanner.Run (w0, .new prm p₀ h₀) (h ++ [.setSmootherParameters q, .initialize true]) (w, p)) :
    p.getSmootherParameters = .default (1 / prm.minTurningRadius) w0.minSafe := by
  obtain ⟨mops, t⟩ := run_tracked hsetup.maps r
  have ht : p.smooth = _ := t.smooth
  show p.smooth = _
  rw [ht]
  simp [smootherInForce]

end PathPlanning
