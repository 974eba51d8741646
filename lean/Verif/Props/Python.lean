import Verif.Model.Python

/-! # C168: classes derived in Python, and the names of the module -/

namespace PathPlanning

namespace Spec

/-- The name of a virtual function in the C++ classes (path_planner.h, a_star.h, path.h, path_connection.h, occupancy_map.h,
obstacle.h, state_validator.h), under which its implementation in Python is expected. -/
def cppName : PyVirtual → String
  | .planSE2Search | .planN2Search => "SearchPath"
  | .planSE2Path | .planN2Path => "GetPath"
  | .heuristicValue => "GetHeuristicValue"
  | .heuristicGoal => "SetGoal"
  | .neighbors => "GetNeighborStates"
  | .interpolate => "Interpolate"
  | .truncate => "Truncate"
  | .direction => "GetDirection"
  | .cusps => "GetCuspPointRatios"
  | .connect => "Connect"
  | .mapUpdate => "Update"
  | .isOccupied => "IsOccupied"
  | .shapeCells => "GetGridCellsPosition"
  | .shapeVertices => "GetVerticesPosition"
  | .isStateValid => "IsStateValid"
  | .isPathValid => "IsPathValid"

/-- The functions that have an implementation in C++, which a Python class may leave as it is. -/
def hasBase : PyVirtual → Prop
  | .cusps | .mapUpdate => True
  | _ => False

/-- A name that can be written in a Python program after a dot. -/
def isIdentifier (s : String) : Bool :=
  match s.toList with
  | [] => false
  | c :: cs => (c.isAlpha || c == '_') && cs.all fun d => d.isAlpha || d.isDigit || d == '_'

end Spec

open Spec

/-- C168: for every virtual function but `IsPathValid`, a C++ call on an object of a Python class is answered by the method
of this class with the name of the function, called with the same arguments; if the class has none, by the implementation
in C++ if there is one, and else with an exception. Missing: `IsPathValid`, for which it is false
(`C168_path_valid_never_called`). -/
theorem C168_override_called_partial {V R : Type} (o : PyObject V R) (args : List V) (f : PyVirtual)
    (hf : f ≠ .isPathValid) :
    (∀ m, o.methods (cppName f) = some m → pyCall o args f = .python (m args)) ∧
    (o.methods (cppName f) = none → hasBase f → pyCall o args f = .base) ∧
    (o.methods (cppName f) = none → ¬ hasBase f → pyCall o args f = .pureVirtual) := by
  refine ⟨fun m hm => ?_, fun hm hb => ?_, fun hm hb => ?_⟩
  all_goals
    cases f <;> first | exact absurd rfl hf | exact absurd trivial hb | exact hb.elim | skip
    all_goals (simp only [cppName] at hm; simp only [pyCall, overridePure, overrideOrBase, hm])

/-- Non-vacuity: a heuristic written in Python. -/
example : ∃ o : PyObject Nat Nat, o.methods (cppName .heuristicValue) = some List.sum ∧
    pyCall o [3, 4] .heuristicValue = .python 7 := by
  refine ⟨⟨fun s => if s = "GetHeuristicValue" then some List.sum else none⟩, by simp [cppName], ?_⟩
  simp [pyCall, overridePure]

/-- C168: the method `IsPathValid` of a validator written in Python is never called: C++ calls of `IsPathValid` are
answered by its method `IsStateValid`, which gets the path and the pointer instead of a state. Whatever two validators do
in `IsPathValid`, C++ sees no difference. If `IsStateValid` raises an exception for two arguments, so does every
`IsPathValid`. -/
theorem C168_path_valid_never_called {V R : Type} (o : PyObject V R) (path last : V) :
    (∀ m, o.methods "IsStateValid" = some m → pyCall o [path, last] .isPathValid = .python (m [path, last])) ∧
    (∀ o' : PyObject V R, (∀ s, s ≠ "IsPathValid" → o'.methods s = o.methods s) → ∀ f : PyVirtual,
      pyCall o' [path, last] f = pyCall o [path, last] f) ∧
    ∃ v : PyObject V (Option Bool), v.methods (cppName .isPathValid) = some (fun _ => some true) ∧
      v.methods (cppName .isStateValid) = some (fun a => if a.length = 1 then some true else none) ∧
      pyCall v [path, last] .isPathValid = .python none := by
  refine ⟨fun m hm => by simp only [pyCall, overridePure, hm], fun o' h f => ?_,
    ⟨fun s => if s = "IsPathValid" then some (fun _ => some true)
      else some (fun a => if a.length = 1 then some true else none)⟩, by simp [cppName], by simp [cppName], ?_⟩
  · cases f <;> (simp only [pyCall, overridePure, overrideOrBase]; rw [h _ (by decide)])
  · simp [pyCall, overridePure]

/-- C168: all names of the module can be used in a Python program, except one. Missing: `OccupancyMap::IsOccupied`, which is
offered under a name with a parenthesis. -/
theorem C168_names_usable_partial : ∀ n ∈ pyNames, n ≠ ("OccupancyMap", "is_occupied)") → isIdentifier n.2 = true := by
  decide +kernel

/-- Non-vacuity: the name of the planner. -/
example : ("", "HybridAStar") ∈ pyNames ∧ ("", "HybridAStar") ≠ ("OccupancyMap", "is_occupied)") := by decide +kernel

/-- C168: the name of `OccupancyMap::IsOccupied` cannot be written in a Python program, and there is no other for it. -/
theorem C168_is_occupied_unusable : ("OccupancyMap", "is_occupied)") ∈ pyNames ∧ isIdentifier "is_occupied)" = false ∧
    ∀ c, (c, "is_occupied") ∉ pyNames ∧ (c, "IsOccupied") ∉ pyNames := by
  refine ⟨by decide +kernel, by decide +kernel, fun c => ?_⟩
  have h : ∀ n ∈ pyNames, n.2 ≠ "is_occupied" ∧ n.2 ≠ "IsOccupied" := by decide +kernel
  exact ⟨fun hc => (h _ hc).1 rfl, fun hc => (h _ hc).2 rfl⟩

end PathPlanning
