import Verif.Model.AStar
import Verif.Model.Composite
import Verif.Model.ReedsShepp
import Verif.Model.Validator
import Verif.Model.Smoother
import Mathlib.Data.List.Sort
import Mathlib.Analysis.Real.Pi.Bounds

/-!
# Model of hybrid A* (planner/src/algo/hybrid_a_star.h, hybrid_a_star.cpp)

Numbers are reals (the sampling of the result is written for any ordered field): rounding is not
modelled, in particular that of the `float` values `lastValidRatio`, `voronoiCost`, `interpLength` and
`pathInterpolation`. The heuristic and the random numbers are arbitrary.
-/

namespace PathPlanning
open Real

/-- hybrid_a_star.h:29-50, `SearchParameters`, with its default values. -/
structure HybridParam where
  wheelbase : ℝ := 2.6
  minTurningRadius : ℝ := 2
  directionSwitchingCost : ℝ := 0
  reverseCostMultiplier : ℝ := 1
  forwardCostMultiplier : ℝ := 1
  voronoiCostMultiplier : ℝ := 1
  numGeneratedMotion : Nat := 5
  spatialResolution : ℝ := 1
  angularResolution : ℝ := 0.0872

namespace HybridAStar

/-! ## Steering angles -/

/-- hybrid_a_star.cpp:19, `m_model`. -/
def model (p : HybridParam) : Bicycle := ⟨p.wheelbase, 0⟩

/-- hybrid_a_star.cpp:22, `deltaMax`. -/
noncomputable def deltaMax (p : HybridParam) : ℝ := (model p).steeringFromRadius p.minTurningRadius

/-- hybrid_a_star.cpp:21-28, `m_deltas`. -/
noncomputable def deltas (p : HybridParam) : List ℝ :=
  0 :: (List.range (p.numGeneratedMotion / 2)).flatMap fun i =>
    let delta := ((i + 1 : Nat) : ℝ) / 2 * deltaMax p
    [delta, -delta]

/-! ## States -/

/-- 2dplane.h:40-41 for `T = int`: `t -= 2 * M_PI` subtracts in `double` and truncates. -/
noncomputable def intWrapDown (t : ℤ) : ℤ :=
  if (t : ℝ) > π then intWrapDown (truncInt ((t : ℝ) - 2 * π)) else t
termination_by t.toNat
decreasing_by
  rename_i h
  have h3 := Real.pi_gt_three
  have h0 : (0 : ℤ) < t := by
    have : (0 : ℝ) < t := by linarith
    exact_mod_cast this
  have : truncInt ((t : ℝ) - 2 * π) < t := by
    unfold truncInt
    split
    · rw [Int.floor_lt]; linarith
    · rename_i hn
      push Not at hn
      have : ⌈(t : ℝ) - 2 * π⌉ ≤ 0 := Int.ceil_le.mpr (by push_cast; linarith)
      omega
  omega

/-- 2dplane.h:42-43 for `T = int`. -/
noncomputable def intWrapUp (t : ℤ) : ℤ :=
  if (t : ℝ) < -π then intWrapUp (truncInt ((t : ℝ) + 2 * π)) else t
termination_by (-t).toNat
decreasing_by
  rename_i h
  have h3 := Real.pi_gt_three
  have h0 : t < (0 : ℤ) := by
    have : (t : ℝ) < 0 := by linarith
    exact_mod_cast this
  have : t < truncInt ((t : ℝ) + 2 * π) := by
    unfold truncInt
    split
    · rename_i hn
      have : 0 ≤ ⌊(t : ℝ) + 2 * π⌋ := Int.floor_nonneg.mpr hn
      omega
    · rw [Int.lt_ceil]; linarith
  omega

/-- 2dplane.h:36-45, `Pose2<int>::WrapTheta`. -/
noncomputable def intWrapTheta (t : ℤ) : ℤ := intWrapUp (intWrapDown t)

/-- geometry/2dplane.h:93, `Pose2i`. -/
structure PoseI where
  x : ℤ
  y : ℤ
  theta : ℤ
deriving DecidableEq

/-- 2dplane.h:21-22, the constructor with three arguments for `T = int`: it wraps its argument like an
angle in radians. -/
noncomputable def PoseI.mk' (x y theta : ℤ) : PoseI := ⟨x, y, intWrapTheta theta⟩

/-- hybrid_a_star.h:104-111, `DiscretizePose`. -/
noncomputable def discretizePose (p : HybridParam) (pose : PoseR) : PoseI :=
  .mk' (truncInt (pose.position.x / p.spatialResolution)) (truncInt (pose.position.y / p.spatialResolution))
    (truncInt (wrapTheta pose.theta / p.angularResolution))

/-- hybrid_a_star.h:59-65, `State`. -/
structure State where
  direction : Direction
  discretePose : PoseI
  continuousPose : PoseR

/-- hybrid_a_star.h:81-86, `State::Equal`. -/
def equal (lhs rhs : State) : Bool := decide (lhs.discretePose = rhs.discretePose)

/-- hybrid_a_star.cpp:50-57, `CreateStateFromPose`. -/
noncomputable def stateFromPose (p : HybridParam) (pose : PoseR) : State :=
  ⟨.noMotion, discretizePose p pose, pose⟩

/-- hybrid_a_star.h:208-211, `IdenticalPoses`. -/
noncomputable def identicalPoses (lhs rhs : PoseR) : Bool :=
  open Classical in
  decide ((lhs.position - rhs.position).norm < 1e-3 ∧ |lhs.theta - rhs.theta| < 1e-3 * π / 180)

/-! ## Actions -/

/-- hybrid_a_star.h:90-93, `Action`: the two kinds of paths stored in it (lines 115 and 158 of the cpp). -/
inductive Action where
  | steer (path : PathSteer)
  | reedsShepp (path : PathRS)

namespace Action
/-- path.h:31 -/
def init : Action → PoseR
  | steer p => p.init
  | reedsShepp p => p.init
/-- path.h:33 -/
def final : Action → PoseR
  | steer p => p.final
  | reedsShepp p => p.final
/-- path.h:52 -/
def length : Action → ℝ
  | steer p => p.length
  | reedsShepp p => p.length
/-- path.h:36 -/
noncomputable def interpolate : Action → ℝ → PoseR
  | steer p => p.interpolate
  | reedsShepp p => p.interpolate
/-- path.h:49 -/
noncomputable def truncate : Action → ℝ → Action
  | steer p, r => steer (p.truncate r)
  | reedsShepp p, r => reedsShepp (p.truncate r)
/-- path.h:82 -/
noncomputable def direction : Action → ℝ → Direction
  | steer p => p.getDirection
  | reedsShepp p => p.getDirection
/-- path.h:85-88: no cusps, unless overridden. -/
noncomputable def cusps : Action → List ℝ
  | steer _ => []
  | reedsShepp p => p.cusps
/-- What the validator sees of the path. -/
noncomputable def any (a : Action) : AnyPath := ⟨a.init, a.length, a.interpolate⟩
/-- What a composite path sees of its parts. -/
noncomputable def ops : PartOps PoseR Action ℝ :=
  ⟨length, init, final, interpolate, truncate, direction, cusps⟩
end Action

/-- hybrid_a_star.cpp:41-48, `CreateStateFromPath`. -/
noncomputable def stateFromPath (p : HybridParam) (path : Action) : State :=
  ⟨path.direction 1, discretizePose p path.final, path.final⟩

/-! ## Expansion -/

/-- hybrid_a_star.h:156-164, the members of the propagator; `validator` gives also the occupancy map
(cpp:35). -/
structure Propagator where
  param : HybridParam
  validator : Validator
  gvd : GVD
  /-- the heuristic value of a pose (hybrid_a_star.h:167-177); `⊤` is infinity -/
  heuristic : PoseR → WithTop ℝ
  /-- `m_goalState.continuousPose` -/
  goal : PoseR

namespace Propagator

/-- gvd.h:146-148, `GetPathCost(cell)`; `none` is an access outside the matrix. -/
noncomputable def pathCost (e : Propagator) (c : Cell) : Option ℝ :=
  if e.gvd.maps.core.inside c then some (e.gvd.cost c) else none

/-- hybrid_a_star.cpp:100-105, the loop of `GetVoronoiCost`; `acc` is the value of `voronoiCost`. `none`
is an access outside the matrix, or a loop that does not end. -/
noncomputable def voronoiLoop (e : Propagator) (path : Action) (interpLength length acc : ℝ) : Option ℝ :=
  if length < path.length then do
    let position := (path.interpolate (length / path.length)).position
    let cost ← e.pathCost (e.validator.map.worldPositionToGridCell position false)
    voronoiLoop e path interpLength (length + interpLength) cost
  else some acc
partial_fixpoint

/-- hybrid_a_star.cpp:38, `m_voroFieldDiagResolution`. -/
noncomputable def interpLength (e : Propagator) : ℝ := e.gvd.map.resolution * √2

/-- hybrid_a_star.cpp:93-109, `GetVoronoiCost`. -/
noncomputable def voronoiCost (e : Propagator) (path : Action) : Option ℝ :=
  (e.voronoiLoop path e.interpLength 0 0).map fun c =>
    e.param.voronoiCostMultiplier * (c * e.interpLength)

/-- hybrid_a_star.cpp:115 -/
noncomputable def steerPath (e : Propagator) (state : State) (delta : ℝ) (direction : Direction) : Action :=
  .steer (PathSteer.new (model e.param) state.continuousPose delta (e.param.spatialResolution * 1.5) direction)

/-- hybrid_a_star.cpp:131-144, the transition cost. -/
noncomputable def steerCost (e : Propagator) (path : Action) (direction : Direction) : Option ℝ := do
  let pathCost := match direction with
    | .forward => e.param.forwardCostMultiplier * path.length
    | .backward => e.param.reverseCostMultiplier * path.length
    | .noMotion => 0
  let switchingCost := if path.direction 1 = path.direction 1 then 0 else e.param.directionSwitchingCost
  let voronoiCost ← e.voronoiCost path
  some (pathCost + switchingCost + voronoiCost)

/-- hybrid_a_star.cpp:111-147, `GetConstantSteerChild`: the inner option is the returned Boolean with the
output arguments. -/
noncomputable def steerChild (e : Propagator) (state : State) (delta : ℝ) (direction : Direction) :
    Option (Option (State × Action × WithTop ℝ)) := do
  let path := e.steerPath state delta direction
  let child := stateFromPath e.param path
  let (valid, lastValidRatio) ← e.validator.isPathValid path.any
  if valid then
    let cost ← e.steerCost path direction
    some (some (child, path, cost))
  else
    let path := path.truncate lastValidRatio
    let child := { child with
      continuousPose := path.final, discretePose := discretizePose e.param path.final }
    if equal state child then some none
    else
      let cost ← e.steerCost path direction
      some (some (child, path, cost))

/-- hybrid_a_star.cpp:149-173, `GetReedsSheppChild`. The cost may be infinite. -/
noncomputable def reedsSheppChild (e : Propagator) (state : State) :
    Option (Option (State × Action × WithTop ℝ)) := do
  let segment := RS.optimalPath state.continuousPose e.goal e.param.minTurningRadius
    e.param.reverseCostMultiplier e.param.forwardCostMultiplier e.param.directionSwitchingCost
  let path := PathRS.new state.continuousPose segment e.param.minTurningRadius
  let (valid, _) ← e.validator.isPathValid (Action.reedsShepp path).any
  if valid then
    let pathAndSwitchingCosts : WithTop ℝ := path.computeCost e.param.directionSwitchingCost
      e.param.reverseCostMultiplier e.param.forwardCostMultiplier
    let voronoiCost ← e.voronoiCost (.reedsShepp path)
    some (some (stateFromPath e.param (.reedsShepp path), .reedsShepp path,
      pathAndSwitchingCosts + (voronoiCost : WithTop ℝ)))
  else some none

/-- hybrid_a_star.cpp:65-77, the loop over the steering angles. -/
noncomputable def steerChildren (e : Propagator) (state : State) :
    List ℝ → Option (List (State × Action × WithTop ℝ))
  | [] => some []
  | delta :: l => do
    let forward ← e.steerChild state delta .forward
    let backward ← e.steerChild state delta .backward
    let rest ← steerChildren e state l
    some (forward.toList ++ backward.toList ++ rest)

open Classical in
/-- hybrid_a_star.cpp:81-82: is a Reeds-Shepp child tried? `random` is the next random number. -/
noncomputable def tryReedsShepp (hCost : WithTop ℝ) (random : ℝ) : Bool :=
  match hCost with
  | ⊤ => decide (random < 0)
  | (h : ℝ) => decide (h < 10) || decide (random < 10 / (h * h))

/-- hybrid_a_star.cpp:59-91, `GetNeighborStates`. -/
noncomputable def neighborStates (e : Propagator) (random : ℝ) (state : State) :
    Option (List (State × Action × WithTop ℝ)) := do
  let neighbors ← e.steerChildren state (deltas e.param)
  if tryReedsShepp (e.heuristic state.continuousPose) random then
    let child ← e.reedsSheppChild state
    some (neighbors ++ child.toList)
  else some neighbors

/-- hybrid_a_star.h:180-212, `GraphSearch`, with the propagator answers `nbrs` (one list for every call). -/
noncomputable def problem (e : Propagator) (nbrs : Nat → State → List (State × Action × WithTop ℝ)) :
    Problem State Action (WithTop ℝ) where
  eqS := equal
  nbrs := nbrs
  h := fun s => e.heuristic s.continuousPose
  isSol := fun s => identicalPoses s.continuousPose e.goal
  mayReplace := fun frontierNode child => identicalPoses frontierNode.continuousPose child.continuousPose

/-- The lists `nbrs` are what `GetNeighborStates` answers when its `k`-th call draws `random k`. A call
with undefined behaviour is taken to answer nothing; theorems about a search say nothing about executions
of the program that make such a call. -/
def Answers (e : Propagator) (random : Nat → ℝ) (nbrs : Nat → State → List (State × Action × WithTop ℝ)) :
    Prop :=
  ∀ k s, nbrs k s = (e.neighborStates (random k) s).getD []

end Propagator

/-! ## Sampling of the result -/

section
variable {K : Type} [LinearOrder K] [Field K]

/-- hybrid_a_star.cpp:271-273: the cusp ratios, a `std::set`. -/
def cuspRatios (cusps : List K) : List K := (0 :: 1 :: cusps).dedup.insertionSort (· ≤ ·)

/-- hybrid_a_star.cpp:276-287: the ratios and the cusp indices that are appended from here on. `it` is
what is left of the cusp ratios, `size` is `ratios.size()`. `none` is the dereference of `end()`, or a
loop that does not end. -/
def sampleLoop (pathInterpolation pathLength : K) (it : List K) (length : K) (size : Nat) :
    Option (List K × List Nat) :=
  if length ≤ pathLength then
    match it with
    | [] => none
    | c :: rest =>
      let cuspLength := c * pathLength
      if length ≥ cuspLength - pathInterpolation / 2 ∧ length < cuspLength + pathInterpolation / 2 then do
        let r ← sampleLoop pathInterpolation pathLength rest (length + pathInterpolation) (size + 1)
        some (c :: r.1, size :: r.2)
      else do
        let r ← sampleLoop pathInterpolation pathLength (c :: rest) (length + pathInterpolation) (size + 1)
        some (length / pathLength :: r.1, r.2)
  else some ([], [])
partial_fixpoint

/-- hybrid_a_star.cpp:269-287: `ratios` and `cuspIndices`. -/
def sampleRatios (pathInterpolation pathLength : K) (cusps : List K) : Option (List K × List Nat) :=
  sampleLoop pathInterpolation pathLength (cuspRatios cusps) 0 0

end

/-! ## The planner -/

/-- hybrid_a_star.cpp:175-183, `GetCompositePath`, for the list of actions of the solution; the initial
state of the composite path is never set (path_composite.h:24). -/
noncomputable def compositePath (dflt : PoseR) (actions : List Action) : Composite PoseR Action ℝ :=
  actions.foldl (Composite.pushBack Action.ops) (Composite.new dflt)

/-- hybrid_a_star.cpp:260-291: the sampled path and the cusp indices; `none` is an exception. -/
noncomputable def processPath (pathInterpolation : ℝ) (dflt : PoseR) (actions : List Action) :
    Option (List PoseR × List Nat) := do
  let path := compositePath dflt actions
  let (ratios, cuspIndices) ←
    sampleRatios pathInterpolation path.length (path.getCuspPointRatios Action.ops)
  let states ← ratios.mapM (path.interpolate Action.ops)
  some (states, cuspIndices)

/-- hybrid_a_star.cpp:253-303, `SearchPath` of an initialised planner once the graph search has returned:
the returned status and `m_path` (`old` before). `smooth` is `Smoother::Smooth`, its status and path. -/
noncomputable def finish (pathInterpolation : ℝ) (dflt : PoseR)
    (smooth : List PoseR → List Nat → Option (SmoothStatus × List PoseR)) (old : List PoseR)
    (graphSearchStatus : Status) (actions : List Action) : Option (Status × List PoseR) :=
  match graphSearchStatus with
  | .failure => some (.failure, old)
  | .success => do
    let (graphSearchPath, cuspIndices) ← processPath pathInterpolation dflt actions
    let (smoothingStatus, path) ← smooth graphSearchPath cuspIndices
    if smoothingStatus.toInt < 0 then some (.success, graphSearchPath)
    else some (.success, path)

/-- hybrid_a_star.cpp:294, 301, the call of `Smooth` and of `GetPath`: the smoother sees the positions and the
headings, `valid` is `IsStateValid`. -/
def smoothPoses (T : Smoother.Terms Pt) (maxIterations : Int) (valid : PoseR → Option Bool)
    (path : List PoseR) (cuspIndices : List Nat) : Option (SmoothStatus × List PoseR) :=
  (Smoother.smooth T maxIterations (fun p => valid ⟨p.1, p.2⟩) (fun i => decide (i ∈ cuspIndices))
    (path.map fun p => (p.position, p.theta))).map fun r => (r.1, r.2.1.map fun p => ⟨p.1, p.2⟩)

/-- hybrid_a_star.cpp:237-303, `SearchPath` of an initialised planner: the returned status and `m_path` (`old`
before). `fuel` bounds the iterations of the graph search; `none` is an exception or undefined behaviour, or
that the search needs more iterations. -/
noncomputable def searchPath (e : Propagator) (nbrs : Nat → State → List (State × Action × WithTop ℝ))
    (pathInterpolation : ℝ) (dflt : PoseR)
    (smooth : List PoseR → List Nat → Option (SmoothStatus × List PoseR)) (old : List PoseR)
    (fuel : Nat) (init : PoseR) : Option (Status × List PoseR) := do
  let (status, s) ← AStar.searchPath (e.problem nbrs) true fuel (stateFromPose e.param init)
  match status with
  | .failure => finish pathInterpolation dflt smooth old .failure []
  | .success =>
    let actions ← AStar.getActions s
    let actions ← actions.mapM id
    finish pathInterpolation dflt smooth old .success actions

end HybridAStar
end PathPlanning
