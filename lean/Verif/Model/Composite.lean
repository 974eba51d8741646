import Verif.Model.Path
import Mathlib.Algebra.Order.Field.Basic

/-!
# Model of composite paths (planner/src/paths/path_composite.h, path_composite.cpp)

The parts are abstract. A part is held by value: the code holds a shared pointer, so `Truncate` also
changes the part for its other owners.
-/

namespace PathPlanning

/-- paths/path.h: what a composite path uses of its parts. -/
structure PartOps (S P K : Type) where
  length : P → K
  init : P → S
  final : P → S
  interpolate : P → K → S
  truncate : P → K → P
  direction : P → K → Direction
  cusps : P → List K

/-- path_composite.h:13-19, 88-89, and the members of `Path` (path.h:54-57). -/
structure Composite (S P K : Type) where
  init : S
  final : S
  length : K
  /-- `initLength`, `finalLength` and the part -/
  paths : List (K × K × P)

/-- `std::upper_bound` on a range of indices (the halving algorithm of the standard library);
`above i` says that the value is less than element `i`. -/
def upperBound (above : Nat → Bool) (first len : Nat) : Nat :=
  if h : len = 0 then first
  else
    let half := len / 2
    if above (first + half) then upperBound above first half
    else upperBound above (first + half + 1) (len - half - 1)
termination_by len

namespace Composite
variable {S P K : Type} [LinearOrder K] [Field K]

/-- path_composite.h:24; `init` and `final` are default-constructed states. -/
def new (dflt : S) : Composite S P K := ⟨dflt, dflt, 0, []⟩

/-- path_composite.h:34-40, `PushBack`. -/
def pushBack (o : PartOps S P K) (c : Composite S P K) (p : P) : Composite S P K :=
  { c with
    paths := c.paths ++ [(c.length, c.length + o.length p, p)]
    final := o.final p
    length := c.length + o.length p }

/-- path_composite.h:75-77, the comparison with the element at an index of the range. -/
def lessThanAt (c : Composite S P K) (length : K) (i : Nat) : Bool :=
  match c.paths[i]? with
  | some e => decide (length < e.2.1)
  | none => false

/-- path_composite.h:71-86, `FindSegment`: an index (`paths.length` is `end()`) and a ratio. -/
def findSegment (o : PartOps S P K) (c : Composite S P K) (ratio : K) : Nat × K :=
  let length := ratio * c.length
  let it := upperBound (c.lessThanAt length) 0 c.paths.length
  match c.paths[it]? with
  | none => (it, 1)
  | some e =>
    if o.length e.2.2 = 0 then (it, 0)
    else (it, (length - e.1) / o.length e.2.2)

/-- path_composite.h:43-52, `Interpolate`; `none` is the exception of an empty path. -/
def interpolate (o : PartOps S P K) (c : Composite S P K) (ratio : K) : Option S :=
  if c.paths.isEmpty then none
  else
    let (it, pathRatio) := c.findSegment o ratio
    let it := if it = c.paths.length then it - 1 else it
    (c.paths[it]?).map fun e => o.interpolate e.2.2 pathRatio

/-- path_composite.h:56-68, `Truncate`. -/
def truncate (o : PartOps S P K) (c : Composite S P K) (ratio : K) : Composite S P K :=
  if c.paths.isEmpty then c
  else
    let (it, pathRatio) := c.findSegment o ratio
    match c.paths[it]? with
    | none => c
    | some e =>
      let p := o.truncate e.2.2 pathRatio
      { c with
        final := o.final p
        length := e.1 + o.length p
        paths := c.paths.take it ++ [(e.1, e.2.1, p)] }

/-- path_composite.cpp:29-33, `GetDirection`; `none` is the dereference of `end()`. -/
def getDirection (o : PartOps S P K) (c : Composite S P K) (ratio : K) : Option Direction :=
  let (it, pathRatio) := c.findSegment o ratio
  (c.paths[it]?).map fun e => o.direction e.2.2 pathRatio

/-- path_composite.cpp:13-24, the loop of `GetCuspPointRatios`. -/
def cuspLoop (o : PartOps S P K) (total : K) : List (K × K × P) → K → Direction → List K
  | [], _, _ => []
  | e :: es, length, prev =>
    (if o.direction e.2.2 0 ≠ prev then [length / total] else []) ++ o.cusps e.2.2 ++
      cuspLoop o total es (length + o.length e.2.2) (o.direction e.2.2 1)

/-- path_composite.cpp:4-27, `GetCuspPointRatios` (a set, here the list of what is inserted). -/
def getCuspPointRatios (o : PartOps S P K) (c : Composite S P K) : List K :=
  match c.paths with
  | [] => []
  | e :: _ => cuspLoop o c.length c.paths 0 (o.direction e.2.2 0)

end Composite
end PathPlanning
