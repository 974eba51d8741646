import Verif.Model.Grid
import Mathlib.Order.WithBot
import Mathlib.Logic.Relation
import Mathlib.Algebra.Order.Monoid.WithTop
import Mathlib.Algebra.Order.Group.Int
import Mathlib.Algebra.Order.Group.Abs

/-!
# Model of the incremental distance maps (planner/src/state_validator/gvd.h, gvd.cpp)

`GVD::VoronoiDistanceMap` and the distance part of `GVD::ObstacleDistanceMap` are the same algorithm;
it is modelled once, as `DistMap`, with the line numbers of both. `ObstacleDistanceMap` is a
`DistMap` that also edits the `VoronoiDistanceMap` it is linked to (`ObstDistMap`).

Simplifications: `std::numeric_limits<int>::max()` is `⊤`, above all distances (right as long as
`rows² + columns² < 2³¹ - 1`). `m_voro` is left out: it is written but only read by `PatternMatch`, of
which the only caller, `RebuildVoronoi`, is never called. A matrix is a function on cells; `none` is an
access outside the matrix.
-/

namespace PathPlanning

/-- gvd.cpp:12-17 -/
def squaredDistance (a b : Cell) : Nat :=
  let dr := a.row - b.row
  let dc := a.col - b.col
  (dr * dr + dc * dc).toNat

/-- gvd.h:89-97 and gvd.h:51-60. `obst` is `m_obstacle` (`m_edge`), `queue` is `m_open`. -/
structure DistMap where
  rows : Int
  columns : Int
  dist : Cell → WithTop Nat
  obst : Cell → Cell
  toRaise : Cell → Bool
  toProcess : Cell → Bool
  queue : List (Cell × WithTop Nat)

/-- Assignment of one entry of a matrix. -/
def setAt {α : Type} (f : Cell → α) (c : Cell) (v : α) : Cell → α := fun d => if d = c then v else f d

namespace DistMap

/-- gvd.cpp:19-28, 191-198, the constructors. -/
def new (rows columns : Int) : DistMap :=
  ⟨rows, columns, fun _ => ⊤, fun _ => Cell.invalid, fun _ => false, fun _ => false, []⟩

/-- Is the cell one of the matrix? -/
def inside (m : DistMap) (c : Cell) : Bool :=
  decide (c.row ≥ 0) && decide (c.row < m.rows) && decide (c.col ≥ 0) && decide (c.col < m.columns)

/-- Reading an entry of a matrix. -/
def read {α : Type} (m : DistMap) (f : Cell → α) (c : Cell) : Option α :=
  if m.inside c then some (f c) else none

/-- gvd.cpp:186-189, 256-259, `IsOccupied`. -/
def isOccupied (m : DistMap) (s : Cell) : Option Bool :=
  if s.isValid then do
    let o ← m.read m.obst s
    return decide (o = s)
  else some false

/-- gvd.cpp:74-80, 239-245, `SetObstacle`, `SetEdge`. -/
def set (m : DistMap) (s : Cell) : Option DistMap :=
  if m.inside s then
    some { m with
      obst := setAt m.obst s s
      dist := setAt m.dist s 0
      queue := (s, 0) :: m.queue
      toProcess := setAt m.toProcess s true }
  else none

/-- gvd.cpp:82-89, 247-254, `UnsetObstacle`, `UnsetEdge`. -/
def unset (m : DistMap) (s : Cell) : Option DistMap :=
  if m.inside s then
    some { m with
      dist := setAt m.dist s ⊤
      obst := setAt m.obst s Cell.invalid
      toRaise := setAt m.toRaise s true
      queue := (s, ⊤) :: m.queue
      toProcess := setAt m.toProcess s true }
  else none

/-- gvd.cpp:42-46, 212-216: the neighbour loses its obstacle. -/
def clear (m : DistMap) (n : Cell) : DistMap :=
  { m with
    dist := setAt m.dist n ⊤
    obst := setAt m.obst n Cell.invalid
    toRaise := setAt m.toRaise n true }

/-- gvd.cpp:47-48, 63-64, 217-218, 230-231: the neighbour is to be processed. -/
def push (m : DistMap) (n : Cell) (d : WithTop Nat) : DistMap :=
  { m with queue := (n, d) :: m.queue, toProcess := setAt m.toProcess n true }

/-- gvd.cpp:41-49, 211-219: the raise loop for one neighbour. -/
def raiseOne (m : DistMap) (n : Cell) : Option DistMap := do
  let o ← m.read m.obst n
  let r ← m.read m.toRaise n
  if o.isValid && !r then
    let occ ← m.isOccupied o
    let m1 := if occ then m else m.clear n
    return m1.push n (m1.dist n)
  else return m

/-- gvd.cpp:61-64, 228-231: the neighbour takes a nearer obstacle. -/
def take (m : DistMap) (n o : Cell) (d : Nat) : DistMap :=
  ({ m with dist := setAt m.dist n d, obst := setAt m.obst n o }).push n d

/-- gvd.cpp:58-64, 225-232: the lower loop for one neighbour. -/
def lowerOne (s : Cell) (m : DistMap) (n : Cell) : Option DistMap := do
  let r ← m.read m.toRaise n
  if !r then
    let o ← m.read m.obst s
    let dn ← m.read m.dist n
    let d := squaredDistance o n
    if (d : WithTop Nat) < dn then return m.take n o d
    else return m
  else return m

/-- gvd.cpp:37-70, 207-235: the body of the loop of `Update` for the popped position `s`. -/
def process (m : DistMap) (s : Cell) : Option DistMap := do
  let p ← m.read m.toProcess s
  if p then
    let r ← m.read m.toRaise s
    if r then
      let m1 ← (s.getNeighbors m.rows m.columns).foldlM raiseOne m
      return { m1 with toRaise := setAt m1.toRaise s false }
    else
      let o ← m.read m.obst s
      let occ ← m.isOccupied o
      if occ then
        let m1 := { m with toProcess := setAt m.toProcess s false }
        (s.getNeighbors m.rows m.columns).foldlM (lowerOne s) m1
      else return m
  else return m

/-- gvd.h:17: a top entry of the priority queue is any entry of least value. -/
def IsTop (q : List (Cell × WithTop Nat)) (e : Cell × WithTop Nat) : Prop :=
  e ∈ q ∧ ∀ e' ∈ q, e.2 ≤ e'.2

/-- gvd.cpp:35-36, 205-206, the queue after `pop`. -/
def pop (m : DistMap) (e : Cell × WithTop Nat) : DistMap := { m with queue := m.queue.erase e }

/-- gvd.cpp:34-71, 204-236, one iteration of the loop of `Update`. -/
def Step (m m' : DistMap) : Prop := ∃ e, IsTop m.queue e ∧ (m.pop e).process e.1 = some m'

/-- gvd.cpp:30-72, 200-237, `Update`: the possible results. -/
def Update (m m' : DistMap) : Prop := Relation.ReflTransGen Step m m' ∧ m'.queue = []

/-- A public call. -/
inductive Op where
  | set (s : Cell)
  | unset (s : Cell)
  | update

/-- The possible effects of a call. -/
inductive Call : DistMap → Op → DistMap → Prop
  | set {m m' s} : m.set s = some m' → Call m (.set s) m'
  | unset {m m' s} : m.unset s = some m' → Call m (.unset s) m'
  | update {m m'} : Update m m' → Call m .update m'

/-- The possible effects of a history of calls. -/
inductive Run : DistMap → List Op → DistMap → Prop
  | nil {m} : Run m [] m
  | cons {m m' m'' o os} : Call m o m' → Run m' os m'' → Run m (o :: os) m''

end DistMap

/-- gvd.h:54-64, `ObstacleDistanceMap`: the distance map and the linked Voronoi map, if any. -/
structure ObstDistMap where
  core : DistMap
  edges : Option DistMap

namespace ObstDistMap

/-- The value of a distance as an `int`. -/
def toInt : WithTop Nat → Int
  | ⊤ => 2147483647
  | (n : Nat) => n

/-- gvd.cpp:115-128, the marking of `s` or `n` (the neighbour) as an edge. -/
def markEdges (e : DistMap) (sObstN nObstS distS distN : Int) (s n : Cell) : Option DistMap := do
  let sStability := sObstN - distS
  let nStability := nObstS - distN
  if sStability < 0 ∨ nStability < 0 then return e
  let e1 ← if sStability ≤ nStability then e.set s else some e
  if nStability ≤ sStability then e1.set n else some e1

/-- gvd.cpp:105-131, `CheckVoro`; `occ` is the occupancy matrix, of the same size. -/
def checkVoro (occ : Cell → Int) (m e : DistMap) (s n : Cell) : Option DistMap := do
  let obstS ← m.read m.obst s
  let obstN ← m.read m.obst n
  let vS ← m.read occ obstS
  let vN ← m.read occ obstN
  if vS = vN then return e
  let distS ← m.read m.dist s
  let distN ← m.read m.dist n
  if (distS > 1 ∨ distN > 1) ∧ obstN.isValid then
    if |obstS.row - obstN.row| > 1 ∨ |obstS.col - obstN.col| > 1 then
      markEdges e (squaredDistance s obstN) (squaredDistance n obstS) (toInt distS) (toInt distN) s n
    else return e
  else return e

/-- gvd.cpp:58-68, the lower loop for one neighbour. -/
def lowerOne (occ : Cell → Int) (s : Cell) (g : ObstDistMap) (n : Cell) : Option ObstDistMap := do
  let r ← g.core.read g.core.toRaise n
  if !r then
    let o ← g.core.read g.core.obst s
    let dn ← g.core.read g.core.dist n
    let d := squaredDistance o n
    if (d : WithTop Nat) < dn then return { g with core := g.core.take n o d }
    else
      match g.edges with
      | none => return g
      | some e => (checkVoro occ g.core e s n).map fun e => { g with edges := some e }
  else return g

/-- gvd.cpp:54-55 -/
def unsetEdge (e : Option DistMap) (s : Cell) : Option (Option DistMap) :=
  match e with
  | none => some none
  | some e => (e.unset s).map some

/-- gvd.cpp:37-70, the body of the loop of `Update`. -/
def process (occ : Cell → Int) (g : ObstDistMap) (s : Cell) : Option ObstDistMap := do
  let m := g.core
  let p ← m.read m.toProcess s
  if p then
    let r ← m.read m.toRaise s
    if r then
      let m1 ← (s.getNeighbors m.rows m.columns).foldlM DistMap.raiseOne m
      return { g with core := { m1 with toRaise := setAt m1.toRaise s false } }
    else
      let o ← m.read m.obst s
      let occd ← m.isOccupied o
      if occd then
        let e ← unsetEdge g.edges s
        let m1 := { m with toProcess := setAt m.toProcess s false }
        (s.getNeighbors m.rows m.columns).foldlM (lowerOne occ s) ⟨m1, e⟩
      else return g
  else return g

/-- gvd.cpp:34-71, one iteration of `Update`. -/
def Step (occ : Cell → Int) (g g' : ObstDistMap) : Prop :=
  ∃ e, DistMap.IsTop g.core.queue e ∧ process occ { g with core := g.core.pop e } e.1 = some g'

/-- gvd.cpp:30-72, `Update`: the possible results. -/
def Update (occ : Cell → Int) (g g' : ObstDistMap) : Prop :=
  Relation.ReflTransGen (Step occ) g g' ∧ g'.core.queue = []

/-- gvd.cpp:91-98, `GetVoronoiDistanceMap`: creates the Voronoi map the first time. -/
def linkVoronoi (g : ObstDistMap) : ObstDistMap :=
  match g.edges with
  | some _ => g
  | none => { g with edges := some (.new g.core.rows g.core.columns) }

/-- A public call; `occ` is the occupancy matrix at the time of the call. -/
inductive Op where
  | set (s : Cell)
  | unset (s : Cell)
  | link
  | update (occ : Cell → Int)
  /-- `VoronoiDistanceMap::Update` (gvd.cpp:299) -/
  | updateEdges

/-- The possible effects of a call. -/
inductive Call : ObstDistMap → Op → ObstDistMap → Prop
  | set {g m s} : g.core.set s = some m → Call g (.set s) { g with core := m }
  | unset {g m s} : g.core.unset s = some m → Call g (.unset s) { g with core := m }
  | link {g} : Call g .link g.linkVoronoi
  | update {g g' occ} : Update occ g g' → Call g (.update occ) g'
  | updateEdges {g e e'} : g.edges = some e → DistMap.Update e e' → Call g .updateEdges { g with edges := some e' }

/-- The possible effects of a history of calls. -/
inductive Run : ObstDistMap → List Op → ObstDistMap → Prop
  | nil {g} : Run g [] g
  | cons {g g' g'' o os} : Call g o g' → Run g' os g'' → Run g (o :: os) g''

/-- gvd.cpp:19-28 -/
def new (rows columns : Int) : ObstDistMap := ⟨.new rows columns, none⟩

end ObstDistMap
end PathPlanning
