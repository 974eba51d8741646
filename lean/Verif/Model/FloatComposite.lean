import Verif.Model.Composite
import Verif.Model.Float

/-!
# Model of composite paths with the arithmetic of the program (planner/src/paths/path_composite.h, path_composite.cpp)

Same functions as in `Verif.Model.Composite`, with each operation rounded to a `double`. What the parts do (`PartOps`) is
not interpreted.
-/

namespace PathPlanning.Composite
open Flt
variable {S P : Type}

/-- path_composite.h:34-40, `PushBack`. -/
noncomputable def pushBackF (o : PartOps S P ℝ) (c : Composite S P ℝ) (p : P) : Composite S P ℝ :=
  { c with
    paths := c.paths ++ [(c.length, fl64 (c.length + o.length p), p)]
    final := o.final p
    length := fl64 (c.length + o.length p) }

/-- path_composite.h:71-86, `FindSegment`: an index (`paths.length` is `end()`) and a ratio. -/
noncomputable def findSegmentF (o : PartOps S P ℝ) (c : Composite S P ℝ) (ratio : ℝ) : Nat × ℝ :=
  let length := fl64 (ratio * c.length)
  let it := upperBound (c.lessThanAt length) 0 c.paths.length
  match c.paths[it]? with
  | none => (it, 1)
  | some e =>
    if o.length e.2.2 = 0 then (it, 0)
    else (it, fl64 (fl64 (length - e.1) / o.length e.2.2))

/-- path_composite.h:43-52, `Interpolate`; `none` is the exception of an empty path. -/
noncomputable def interpolateF (o : PartOps S P ℝ) (c : Composite S P ℝ) (ratio : ℝ) : Option S :=
  if c.paths.isEmpty then none
  else
    let (it, pathRatio) := c.findSegmentF o ratio
    let it := if it = c.paths.length then it - 1 else it
    (c.paths[it]?).map fun e => o.interpolate e.2.2 pathRatio

/-- path_composite.h:56-68, `Truncate`. -/
noncomputable def truncateF (o : PartOps S P ℝ) (c : Composite S P ℝ) (ratio : ℝ) : Composite S P ℝ :=
  if c.paths.isEmpty then c
  else
    let (it, pathRatio) := c.findSegmentF o ratio
    match c.paths[it]? with
    | none => c
    | some e =>
      let p := o.truncate e.2.2 pathRatio
      { c with
        final := o.final p
        length := fl64 (e.1 + o.length p)
        paths := c.paths.take it ++ [(e.1, e.2.1, p)] }

/-- path_composite.cpp:29-33, `GetDirection`; `none` is the dereference of `end()`. -/
noncomputable def getDirectionF (o : PartOps S P ℝ) (c : Composite S P ℝ) (ratio : ℝ) : Option Direction :=
  let (it, pathRatio) := c.findSegmentF o ratio
  (c.paths[it]?).map fun e => o.direction e.2.2 pathRatio

/-- path_composite.cpp:13-24, the loop of `GetCuspPointRatios`. -/
noncomputable def cuspLoopF (o : PartOps S P ℝ) (total : ℝ) : List (ℝ × ℝ × P) → ℝ → Direction → List ℝ
  | [], _, _ => []
  | e :: es, length, prev =>
    (if o.direction e.2.2 0 ≠ prev then [fl64 (length / total)] else []) ++ o.cusps e.2.2 ++
      cuspLoopF o total es (fl64 (length + o.length e.2.2)) (o.direction e.2.2 1)

/-- path_composite.cpp:4-27, `GetCuspPointRatios` (a set, here the list of what is inserted). -/
noncomputable def getCuspPointRatiosF (o : PartOps S P ℝ) (c : Composite S P ℝ) : List ℝ :=
  match c.paths with
  | [] => []
  | e :: _ => cuspLoopF o c.length c.paths 0 (o.direction e.2.2 0)

end PathPlanning.Composite
