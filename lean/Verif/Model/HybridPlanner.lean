import Verif.Model.HybridAStar
import Verif.Model.MapUpdate
import Verif.Model.GVD
import Verif.Model.ObstHeuristic
import Verif.Model.NonHolonomic

/-!
# Model of a `HybridAStar` object and its public interface
(planner/src/algo/hybrid_a_star.h:216-272, hybrid_a_star.cpp:199-329)

The planner shares the occupancy map, its distance map and its Voronoi map with the validator. There is one validator,
whose map keeps its place and size. Left out: `VisualizeObstacleHeuristic` (see Model/Image.lean) and the profiling.
-/

namespace PathPlanning
open Real

/-- The validator (state_validator_occupancy_map.h:29-34) and the map it shares with the planner. -/
structure PlanWorld where
  space : SpaceSE2
  frame : OccMap
  minStep : ℝ
  minSafe : ℝ
  maps : MapState

/-- What the validator sees now (state_validator_occupancy_map.cpp:25: the distances of the shared map). -/
def PlanWorld.validator (w : PlanWorld) : Validator := ⟨w.space, w.frame, w.maps.dist.core, w.minStep, w.minSafe⟩

/-- hybrid_a_star.h:255-271, path_planner.h:44-46, the data members. `cost` is the path cost map of `m_gvd`, whose other
members are shared with the validator; `smooth` are the parameters of `m_smoother` and `smoothedPath` its path; `search`
is what `m_graphSearch` holds; `graphSearchStatus` and `smoothingStatus` are `m_stats`. -/
structure HybridPlanner where
  param : HybridParam
  pathInterpolation : ℝ
  isInitialized : Bool
  cost : Cell → ℝ
  nonHolo : NonHolo
  smooth : SmoothParam
  init : PoseR
  goal : PoseR
  search : Search HybridAStar.State HybridAStar.Action (WithTop ℝ)
  path : List PoseR
  graphSearchStatus : Status
  smoothingStatus : SmoothStatus
  smoothedPath : List PoseR

namespace HybridPlanner
open HybridAStar

/-- hybrid_a_star.cpp:199-204 and the default member initialisers; `p₀` and `h₀` stand for the poses and the heuristic
before they are set; smoother.cpp:15-16. -/
noncomputable def new (param : HybridParam) (p₀ : PoseR) (h₀ : NonHolo) : HybridPlanner :=
  { param, pathInterpolation := 1 / 10, isInitialized := false, cost := fun _ => 0, nonHolo := h₀
    smooth := SmoothParam.default 1 0, init := p₀, goal := p₀
    search := { frontier := Frontier.empty, explored := [], solution := none, calls := [] }
    path := [], graphSearchStatus := .failure, smoothingStatus := .failure, smoothedPath := [] }

/-- hybrid_a_star.cpp:206-235, `Initialize` with a validator: a new path cost map (gvd.cpp:261, 287) and the default
parameters of the smoother (smoother.cpp:25). -/
noncomputable def configure (p : HybridPlanner) (w : PlanWorld) : HybridPlanner :=
  { p with
    isInitialized := true
    cost := fun _ => 0
    smooth := SmoothParam.default (1 / p.param.minTurningRadius) w.minSafe
    nonHolo := NonHolo.build w.space.lb w.space.ub p.param.spatialResolution p.param.angularResolution
      p.param.minTurningRadius p.param.reverseCostMultiplier p.param.forwardCostMultiplier
      p.param.directionSwitchingCost }

/-- hybrid_a_star.cpp:221-227, a_star.h:99-106: the combined heuristic, wherever both values are defined. -/
def CombinedHeuristic (p : HybridPlanner) (frame : OccMap) (tables : HeurTables ℝ) (h : PoseR → WithTop ℝ) : Prop :=
  ∀ pose (a : Option ℝ) (b : ℝ), p.nonHolo.getHeuristicValue p.goal pose = some a →
    ObstHeuristic.getHeuristicValue frame p.param.reverseCostMultiplier p.param.forwardCostMultiplier tables
      p.goal pose = some b →
    h pose = max (match a with | none => ⊤ | some x => (x : WithTop ℝ)) (b : WithTop ℝ)

/-- smoother.cpp:82, 112-134: the parameters with the values taken from the validator and the Voronoi map. -/
noncomputable def smoothParam (p : HybridPlanner) (w : PlanWorld) : SmoothParam :=
  { p.smooth with minSafeRadius := w.minSafe, alpha := GVD.alpha, dMax := GVD.dMax }

/-- hybrid_a_star.cpp:254-294: the status stored in `m_stats` and the path of the smoother (`old` before) once the graph
search has returned. `smooth` is `Smoother::Smooth`. -/
noncomputable def smoothing (pathInterpolation : ℝ) (dflt : PoseR)
    (smooth : List PoseR → List Nat → Option (SmoothStatus × List PoseR)) (old : SmoothStatus × List PoseR)
    (graphSearchStatus : Status) (s : Search HybridAStar.State HybridAStar.Action (WithTop ℝ)) :
    Option (SmoothStatus × List PoseR) :=
  match graphSearchStatus with
  | .failure => some old
  | .success => do
    let actions ← AStar.getActions s
    let actions ← actions.mapM id
    let (graphSearchPath, cuspIndices) ← processPath pathInterpolation dflt actions
    smooth graphSearchPath cuspIndices

/-- hybrid_a_star.cpp:237-304, `SearchPath`: the possible results, for the random numbers `random`. The maps are
updated first (249-250), `dflt` stands for the never initialised first pose of the composite path. -/
inductive SearchPath (w : PlanWorld) (p : HybridPlanner) (random : Nat → ℝ) : Status → PlanWorld → HybridPlanner → Prop
  | notInitialized : p.isInitialized = false → SearchPath w p random .failure w p
  | searched {occ tables g edges h nbrs fuel gst s dflt status path sst smoothed} :
      p.isInitialized = true → w.maps.obs.matrix = some occ →
      ObstHeuristic.updatePose w.frame (fun c => decide (occ c ≥ 0)) (√2) p.goal = some tables →
      GVD.Update occ ⟨w.frame, w.maps.dist, p.cost⟩ g → g.maps.edges = some edges →
      CombinedHeuristic p w.frame tables h →
      Propagator.Answers ⟨p.param, { w with maps.dist := g.maps }.validator, g, h, p.goal⟩ random nbrs →
      AStar.searchPath (Propagator.problem ⟨p.param, { w with maps.dist := g.maps }.validator, g, h, p.goal⟩ nbrs) true
        fuel (stateFromPose p.param p.init) = some (gst, s) →
      HybridAStar.searchPath ⟨p.param, { w with maps.dist := g.maps }.validator, g, h, p.goal⟩ nbrs p.pathInterpolation
        dflt (smoothPoses ((p.smoothParam w).terms w.frame g.maps.core.obst edges.obst) p.smooth.maxIterations
          { w with maps.dist := g.maps }.validator.isStateValid) p.path fuel p.init = some (status, path) →
      smoothing p.pathInterpolation
        dflt (smoothPoses ((p.smoothParam w).terms w.frame g.maps.core.obst edges.obst) p.smooth.maxIterations
          { w with maps.dist := g.maps }.validator.isStateValid) (p.smoothingStatus, p.smoothedPath) gst s
        = some (sst, smoothed) →
      SearchPath w p random status { w with maps.dist := g.maps }
        { p with cost := g.cost, search := s, path := path, graphSearchStatus := gst, smoothingStatus := sst
                 smoothedPath := smoothed }

/-- A public call on the map or on the planner; `initialize` is given a validator (with a state space), or not. -/
inductive Op where
  | map (o : MapState.Op)
  | initialize (valid : Bool)
  | setInit (s : PoseR)
  | setGoal (s : PoseR)
  | setSmootherParameters (q : SmoothParam)
  | search (random : Nat → ℝ)

/-- The possible effects of a call. `Initialize` links a Voronoi map (hybrid_a_star.cpp:217, gvd.cpp:291). -/
inductive Call : PlanWorld × HybridPlanner → Op → PlanWorld × HybridPlanner → Prop
  | map {w p o m} : MapState.Call w.maps o m → Call (w, p) (.map o) ({ w with maps := m }, p)
  | initialize {w p m} : MapState.Call w.maps .link m →
      Call (w, p) (.initialize true) ({ w with maps := m }, p.configure w)
  | reject {w p} : Call (w, p) (.initialize false) (w, { p with isInitialized := false })
  | setInit {w p s} : Call (w, p) (.setInit s) (w, { p with init := s })
  | setGoal {w p s} : Call (w, p) (.setGoal s) (w, { p with goal := s })
  | setSmootherParameters {w p q} : Call (w, p) (.setSmootherParameters q) (w, { p with smooth := q })
  | search {w p random st w' p'} : SearchPath w p random st w' p' → Call (w, p) (.search random) (w', p')

/-- The possible effects of a history of calls. -/
inductive Run : PlanWorld × HybridPlanner → List Op → PlanWorld × HybridPlanner → Prop
  | nil {s} : Run s [] s
  | snoc {s s' s'' os o} : Run s os s' → Call s' o s'' → Run s (os ++ [o]) s''

/-- hybrid_a_star.cpp:316-323, `GetGraphSearchPath`. -/
def getGraphSearchPath (p : HybridPlanner) : Option (List (Option Action)) := AStar.getActions p.search

/-- hybrid_a_star.cpp:325-328, `GetGraphSearchOptimalCost`; `none` is infinity. -/
def getGraphSearchOptimalCost (p : HybridPlanner) : Option (WithTop ℝ) := AStar.getOptimalCost p.search

/-- hybrid_a_star.h:231-234, `GetSmootherParameters`. -/
def getSmootherParameters (p : HybridPlanner) : SmoothParam := p.smooth

/-- hybrid_a_star.h:222, `GetPath`. -/
def getPath (p : HybridPlanner) : List PoseR := p.path

/-- hybrid_a_star.h:239, `GetStats`. -/
def getStats (p : HybridPlanner) : Status × SmoothStatus := (p.graphSearchStatus, p.smoothingStatus)

/-- hybrid_a_star.h:245, `GetSmoothedPath`. -/
def getSmoothedPath (p : HybridPlanner) : List PoseR := p.smoothedPath

end HybridPlanner
end PathPlanning
