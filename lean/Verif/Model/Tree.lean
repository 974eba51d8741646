import Verif.Model.Node

/-!
# Model of `Tree<State, Dimensions, NodeInfo>` (planner/src/utils/tree.h)

States are compared with decidable equality (`Hash`/`Equal` are assumed lawful). The k-d tree
(flann) is a list of points with an oracle for nearest-neighbour queries.
-/

namespace PathPlanning

/-- What flann answers: the nearest of the points, and the `k` nearest. -/
structure KNN (V : Type) where
  nearest : List V → V → Option V
  knn : List V → V → Nat → List V

/-- tree.h:171-176. -/
structure Tree (V : Type) where
  heap : Heap
  /-- `m_rootNode` -/
  root : Option Nat
  /-- `(*node)->state` -/
  state : Nat → V
  /-- `m_exploredNodeMap` -/
  map : List (V × Nat)
  /-- the points of `m_kdTree` -/
  points : List V

namespace Tree
variable {V : Type} [DecidableEq V]

/-- tree.h:43-44. The function `state` is irrelevant while there is no node. -/
def new [Inhabited V] : Tree V := ⟨Heap.empty, none, fun _ => default, [], []⟩

/-- tree.h:49 -/
def size (t : Tree V) : Nat := t.map.length

/-- Look up in `m_exploredNodeMap`. -/
def find (t : Tree V) (v : V) : Option Nat := (t.map.find? fun e => e.1 == v).map Prod.snd

/-- `m_exploredNodeMap.insert`, which keeps an existing entry. -/
def insertMap (m : List (V × Nat)) (v : V) (n : Nat) : List (V × Nat) :=
  if m.any (fun e => e.1 == v) then m else (v, n) :: m

/-- Destruction of what `m_rootNode` owned. -/
def dropRoot (t : Tree V) : Heap :=
  match t.root with
  | none => t.heap
  | some r => t.heap.drop r

/-- tree.h:59-65, `CreateRootNode`. -/
def createRootNode (t : Tree V) (start : V) : Tree V × Nat :=
  let h := t.dropRoot
  let n := h.next
  ({ heap := h.new
     root := some n
     state := fun x => if x = n then start else t.state x
     map := insertMap t.map start n
     points := [start] }, n)

/-- tree.h:102-116, `GetNearestNode`; `none` is a null pointer (or a query of an empty index). -/
def getNearestNode (o : KNN V) (t : Tree V) (v : V) : Option Nat :=
  (o.nearest t.points v).bind t.find

/-- tree.h:73-95, `GetNearestNodes`. -/
def getNearestNodes (o : KNN V) (t : Tree V) (v : V) (nn : Nat) : List Nat :=
  (o.knn t.points v nn).filterMap t.find

/-- tree.h:124-146, `Extend`; the node is `none` for a null pointer. -/
def extend (o : KNN V) (t : Tree V) (target : V) (source : Option Nat) : Tree V × Option Nat :=
  match t.find target with
  | some n => (t, some n)
  | none =>
    match (match source with | some s => some s | none => t.getNearestNode o target) with
    | none => (t, none)
    | some s =>
      let n := t.heap.next
      ({ t with
         heap := t.heap.new.addChild s n
         state := fun x => if x = n then target else t.state x
         points := t.points ++ [target]
         map := insertMap t.map target n }, some n)

/-- tree.h:156-159, `Reparent`. -/
def reparent (t : Tree V) (child newParent : Nat) : Option (Tree V) :=
  (t.heap.reparent child newParent t.root).map fun (h, r) => { t with heap := h, root := r }

/-- tree.h:162-168, `Clear`. -/
def clear (t : Tree V) : Tree V := { t with heap := t.dropRoot, root := none, map := [], points := [] }

/-- tree.h:51-56, `BelongToTree`. The loop of `IsDescendantOf(nullptr)` ends with `false` (node.h:113-117). -/
def belongToTree (t : Tree V) (node : Nat) : Option Bool :=
  match t.root with
  | none => some false
  | some r => (t.heap.isDescendantOf node r).map fun d => d || node == r

/-- A public call. -/
inductive Op (V : Type) where
  | createRoot (v : V)
  | extend (v : V) (source : Option Nat)
  | reparent (child newParent : Nat)
  | clear

/-- Effect of a call. -/
def call (o : KNN V) (t : Tree V) : Op V → Option (Tree V)
  | .createRoot v => some (t.createRootNode v).1
  | .extend v s => some (t.extend o v s).1
  | .reparent c n => t.reparent c n
  | .clear => some t.clear

end Tree
end PathPlanning
