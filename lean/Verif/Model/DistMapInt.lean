import Verif.Model.DistMap

/-!
# Model of the distance maps with 32 bit integers (planner/src/state_validator/gvd.h, gvd.cpp)

The same functions as `Verif.Model.DistMap`, with the types of the code: distances are `int`, the greatest
`int` stands for "no obstacle", and arithmetic on `int` is undefined (`none`) when its result is not an `int`.

Simplifications: `m_voro` is left out as in `Verif.Model.DistMap`. The rows and columns of neighbours
(grid.cpp:16-50) are those of cells of the matrix, plus or minus one, which are `int`s whenever the size of the
matrix is; they are not checked.
-/

namespace PathPlanning

/-- `std::numeric_limits<int>::max()` -/
def intMax : Int := 2147483647

/-- The result of an operation on `int`; `none` is an overflow, which is undefined behaviour. -/
def ckInt (x : Int) : Option Int := if -2147483648 ≤ x ∧ x ≤ 2147483647 then some x else none

/-- gvd.cpp:12-17 -/
def squaredDistanceI (a b : Cell) : Option Int := do
  let dr ← ckInt (a.row - b.row)
  let dc ← ckInt (a.col - b.col)
  let r2 ← ckInt (dr * dr)
  let c2 ← ckInt (dc * dc)
  ckInt (r2 + c2)

/-- gvd.h:89-97 and gvd.h:51-60, with the types of the code. -/
structure IntMap where
  rows : Int
  columns : Int
  dist : Cell → Int
  obst : Cell → Cell
  toRaise : Cell → Bool
  toProcess : Cell → Bool
  queue : List (Cell × Int)

namespace IntMap

/-- gvd.cpp:19-28, 191-198, the constructors. -/
def new (rows columns : Int) : IntMap :=
  ⟨rows, columns, fun _ => intMax, fun _ => Cell.invalid, fun _ => false, fun _ => false, []⟩

/-- Is the cell one of the matrix? -/
def inside (m : IntMap) (c : Cell) : Bool :=
  decide (c.row ≥ 0) && decide (c.row < m.rows) && decide (c.col ≥ 0) && decide (c.col < m.columns)

/-- Reading an entry of a matrix. -/
def read {α : Type} (m : IntMap) (f : Cell → α) (c : Cell) : Option α :=
  if m.inside c then some (f c) else none

/-- gvd.cpp:186-189, 256-259, `IsOccupied`. -/
def isOccupied (m : IntMap) (s : Cell) : Option Bool :=
  if s.isValid then do
    let o ← m.read m.obst s
    return decide (o = s)
  else some false

/-- gvd.cpp:74-80, 239-245, `SetObstacle`, `SetEdge`. -/
def set (m : IntMap) (s : Cell) : Option IntMap :=
  if m.inside s then
    some { m with
      obst := setAt m.obst s s
      dist := setAt m.dist s 0
      queue := (s, 0) :: m.queue
      toProcess := setAt m.toProcess s true }
  else none

/-- gvd.cpp:82-89, 247-254, `UnsetObstacle`, `UnsetEdge`. -/
def unset (m : IntMap) (s : Cell) : Option IntMap :=
  if m.inside s then
    some { m with
      dist := setAt m.dist s intMax
      obst := setAt m.obst s Cell.invalid
      toRaise := setAt m.toRaise s true
      queue := (s, intMax) :: m.queue
      toProcess := setAt m.toProcess s true }
  else none

/-- gvd.cpp:42-46, 212-216 -/
def clear (m : IntMap) (n : Cell) : IntMap :=
  { m with
    dist := setAt m.dist n intMax
    obst := setAt m.obst n Cell.invalid
    toRaise := setAt m.toRaise n true }

/-- gvd.cpp:47-48, 63-64, 217-218, 230-231 -/
def push (m : IntMap) (n : Cell) (d : Int) : IntMap :=
  { m with queue := (n, d) :: m.queue, toProcess := setAt m.toProcess n true }

/-- gvd.cpp:41-49, 211-219: the raise loop for one neighbour. -/
def raiseOne (m : IntMap) (n : Cell) : Option IntMap := do
  let o ← m.read m.obst n
  let r ← m.read m.toRaise n
  if o.isValid && !r then
    let occ ← m.isOccupied o
    let m1 := if occ then m else m.clear n
    return m1.push n (m1.dist n)
  else return m

/-- gvd.cpp:61-64, 228-231 -/
def take (m : IntMap) (n o : Cell) (d : Int) : IntMap :=
  ({ m with dist := setAt m.dist n d, obst := setAt m.obst n o }).push n d

/-- gvd.cpp:225-232: the lower loop for one neighbour. -/
def lowerOne (s : Cell) (m : IntMap) (n : Cell) : Option IntMap := do
  let r ← m.read m.toRaise n
  if !r then
    let o ← m.read m.obst s
    let d ← squaredDistanceI o n
    let dn ← m.read m.dist n
    if d < dn then return m.take n o d
    else return m
  else return m

/-- gvd.cpp:207-235: the body of the loop of `VoronoiDistanceMap::Update`. -/
def process (m : IntMap) (s : Cell) : Option IntMap := do
  let p ← m.read m.toProcess s
  if p then
    let r ← m.read m.toRaise s
    if r then
      let m1 ← (s.getNeighbors m.rows m.columns).foldlM raiseOne m
      return { m1 with toRaise := setAt m1.toRaise s false }
    else
      let o ← m.read m.obst s
      let occ ← m.isOccupied o
      if occ then
        let m1 := { m with toProcess := setAt m.toProcess s false }
        (s.getNeighbors m.rows m.columns).foldlM (lowerOne s) m1
      else return m
  else return m

/-- gvd.h:17: a top entry of the priority queue is any entry of least value. -/
def IsTop (q : List (Cell × Int)) (e : Cell × Int) : Prop := e ∈ q ∧ ∀ e' ∈ q, e.2 ≤ e'.2

/-- gvd.cpp:35-36, 205-206, the queue after `pop`. -/
def pop (m : IntMap) (e : Cell × Int) : IntMap := { m with queue := m.queue.erase e }

/-- gvd.cpp:204-236, one iteration of the loop of `VoronoiDistanceMap::Update`. -/
def Step (m m' : IntMap) : Prop := ∃ e, IsTop m.queue e ∧ (m.pop e).process e.1 = some m'

/-- gvd.cpp:200-237, `VoronoiDistanceMap::Update`: the possible results. -/
def Update (m m' : IntMap) : Prop := Relation.ReflTransGen Step m m' ∧ m'.queue = []

end IntMap

/-- gvd.h:54-64, `ObstacleDistanceMap`: the distance map and the linked Voronoi map, if any. -/
structure IntObstMap where
  core : IntMap
  edges : Option IntMap

namespace IntObstMap

/-- gvd.cpp:115-128 -/
def markEdges (e : IntMap) (sObstN nObstS distS distN : Int) (s n : Cell) : Option IntMap := do
  let sStability ← ckInt (sObstN - distS)
  let nStability ← ckInt (nObstS - distN)
  if sStability < 0 ∨ nStability < 0 then return e
  let e1 ← if sStability ≤ nStability then e.set s else some e
  if nStability ≤ sStability then e1.set n else some e1

/-- gvd.cpp:105-131, `CheckVoro`; `occ` is the occupancy matrix, of the same size. -/
def checkVoro (occ : Cell → Int) (m e : IntMap) (s n : Cell) : Option IntMap := do
  let obstS ← m.read m.obst s
  let obstN ← m.read m.obst n
  let vS ← m.read occ obstS
  let vN ← m.read occ obstN
  if vS = vN then return e
  let distS ← m.read m.dist s
  let distN ← m.read m.dist n
  if (distS > 1 ∨ distN > 1) ∧ obstN.isValid then
    let dr ← ckInt (obstS.row - obstN.row)
    let dc ← ckInt (obstS.col - obstN.col)
    if |dr| > 1 ∨ |dc| > 1 then
      let sObstN ← squaredDistanceI s obstN
      let nObstS ← squaredDistanceI n obstS
      markEdges e sObstN nObstS distS distN s n
    else return e
  else return e

/-- gvd.cpp:58-68, the lower loop for one neighbour. -/
def lowerOne (occ : Cell → Int) (s : Cell) (g : IntObstMap) (n : Cell) : Option IntObstMap := do
  let r ← g.core.read g.core.toRaise n
  if !r then
    let o ← g.core.read g.core.obst s
    let d ← squaredDistanceI o n
    let dn ← g.core.read g.core.dist n
    if d < dn then return { g with core := g.core.take n o d }
    else
      match g.edges with
      | none => return g
      | some e => (checkVoro occ g.core e s n).map fun e => { g with edges := some e }
  else return g

/-- gvd.cpp:54-55 -/
def unsetEdge (e : Option IntMap) (s : Cell) : Option (Option IntMap) :=
  match e with
  | none => some none
  | some e => (e.unset s).map some

/-- gvd.cpp:37-70, the body of the loop of `ObstacleDistanceMap::Update`. -/
def process (occ : Cell → Int) (g : IntObstMap) (s : Cell) : Option IntObstMap := do
  let m := g.core
  let p ← m.read m.toProcess s
  if p then
    let r ← m.read m.toRaise s
    if r then
      let m1 ← (s.getNeighbors m.rows m.columns).foldlM IntMap.raiseOne m
      return { g with core := { m1 with toRaise := setAt m1.toRaise s false } }
    else
      let o ← m.read m.obst s
      let occd ← m.isOccupied o
      if occd then
        let e ← unsetEdge g.edges s
        let m1 := { m with toProcess := setAt m.toProcess s false }
        (s.getNeighbors m.rows m.columns).foldlM (lowerOne occ s) ⟨m1, e⟩
      else return g
  else return g

/-- gvd.cpp:34-71, one iteration of `ObstacleDistanceMap::Update`. -/
def Step (occ : Cell → Int) (g g' : IntObstMap) : Prop :=
  ∃ e, IntMap.IsTop g.core.queue e ∧ process occ { g with core := g.core.pop e } e.1 = some g'

/-- gvd.cpp:30-72, `ObstacleDistanceMap::Update`: the possible results. -/
def Update (occ : Cell → Int) (g g' : IntObstMap) : Prop :=
  Relation.ReflTransGen (Step occ) g g' ∧ g'.core.queue = []

/-- gvd.cpp:91-98, `GetVoronoiDistanceMap`. -/
def linkVoronoi (g : IntObstMap) : IntObstMap :=
  match g.edges with
  | some _ => g
  | none => { g with edges := some (.new g.core.rows g.core.columns) }

/-- The possible effects of a public call. -/
inductive Call : IntObstMap → ObstDistMap.Op → IntObstMap → Prop
  | set {g m s} : g.core.set s = some m → Call g (.set s) { g with core := m }
  | unset {g m s} : g.core.unset s = some m → Call g (.unset s) { g with core := m }
  | link {g} : Call g .link g.linkVoronoi
  | update {g g' occ} : Update occ g g' → Call g (.update occ) g'
  | updateEdges {g e e'} : g.edges = some e → IntMap.Update e e' → Call g .updateEdges { g with edges := some e' }

/-- The possible effects of a history of calls. -/
inductive Run : IntObstMap → List ObstDistMap.Op → IntObstMap → Prop
  | nil {g} : Run g [] g
  | cons {g g' g'' o os} : Call g o g' → Run g' os g'' → Run g (o :: os) g''

/-- gvd.cpp:19-28 -/
def new (rows columns : Int) : IntObstMap := ⟨.new rows columns, none⟩

end IntObstMap
end PathPlanning
