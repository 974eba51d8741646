import Verif.Model.Smoother
import Verif.Model.HybridAStar

/-!
# Model of a `Smoother` object (planner/src/algo/smoother.h:60-93, planner/src/algo/smoother.cpp:15-50)

The smoother keeps shared pointers to a validator, to the map that this validator had when the smoother was initialised,
and to a Voronoi diagram. Their contents belong to others and change between the calls: pointers are numbers here, and
`SmootherWorld` is what they point to.
-/

namespace PathPlanning

/-- What the pointers point to: `IsStateValid`, `minSafeRadius` and the map of a validator
(state_validator_occupancy_map.h:24-34); the frame of a map; the nearest obstacle and edge of the cells of a Voronoi
diagram with its constants (gvd.h:175-183). -/
structure SmootherWorld where
  valid : Nat → PoseR → Option Bool
  minSafeRadius : Nat → ℝ
  mapOf : Nat → Nat
  frame : Nat → OccMap
  obstacle : Nat → Cell → Cell
  edge : Nat → Cell → Cell
  alpha : Nat → ℝ
  dMax : Nat → ℝ

/-- smoother.h:83-93, the data members. -/
structure SmootherObj where
  isInitialized : Bool
  param : SmoothParam
  validator : Option Nat
  map : Option Nat
  gvd : Option Nat
  path : List PoseR

namespace SmootherObj

/-- smoother.cpp:15-16, smoother.h:84-92. -/
noncomputable def new : SmootherObj := ⟨false, SmoothParam.default 1 0, none, none, none, []⟩

/-- smoother.cpp:18-31, `Initialize`; `none` is a null pointer. -/
noncomputable def init (s : SmootherObj) (w : SmootherWorld) (validator gvd : Option Nat) (maxCurvature : ℝ) :
    Bool × SmootherObj :=
  match validator, gvd with
  | some v, some g =>
    (true, { s with param := SmoothParam.default maxCurvature 0, validator := some v, map := some (w.mapOf v)
                    gvd := some g, isInitialized := true })
  | _, _ => (false, { s with isInitialized := false })

/-- smoother.cpp:33-158, `Smooth`, with smoother.cpp:82, 117-130 for the constants that are read from the validator and
the diagram; `none` is a null dereference or an access outside of a vector. -/
noncomputable def smooth (s : SmootherObj) (w : SmootherWorld) (path : List PoseR) (cuspIndices : List Nat) :
    Option (SmoothStatus × SmootherObj) :=
  if s.isInitialized = false then some (.failure, s)
  else do
    let v ← s.validator
    let m ← s.map
    let g ← s.gvd
    let q := { s.param with minSafeRadius := w.minSafeRadius v, alpha := w.alpha g, dMax := w.dMax g }
    let (status, result) ← HybridAStar.smoothPoses (q.terms (w.frame m) (w.obstacle g) (w.edge g)) q.maxIterations
      (w.valid v) path cuspIndices
    return (status, { s with path := result })

/-- smoother.h:70, `GetPath`. -/
def getPath (s : SmootherObj) : List PoseR := s.path

/-- smoother.h:72-73, `GetParameters`. -/
def getParameters (s : SmootherObj) : SmoothParam := s.param

/-- smoother.h:74, `SetParameters`. -/
def setParameters (s : SmootherObj) (q : SmoothParam) : SmootherObj := { s with param := q }

/-- A call, or a change of the objects that the smoother uses. -/
inductive Op where
  | world (w : SmootherWorld)
  | init (validator gvd : Option Nat) (maxCurvature : ℝ)
  | setParameters (q : SmoothParam)
  | smooth (path : List PoseR) (cuspIndices : List Nat)

/-- The effect of a call. -/
noncomputable def call (st : SmootherWorld × SmootherObj) : Op → Option (SmootherWorld × SmootherObj)
  | .world w => some (w, st.2)
  | .init v g k => some (st.1, (st.2.init st.1 v g k).2)
  | .setParameters q => some (st.1, st.2.setParameters q)
  | .smooth path cusps => (st.2.smooth st.1 path cusps).map fun r => (st.1, r.2)

/-- The effect of a history of calls. -/
noncomputable def after (st : SmootherWorld × SmootherObj) (h : List Op) : Option (SmootherWorld × SmootherObj) :=
  h.foldlM call st

end SmootherObj
end PathPlanning
