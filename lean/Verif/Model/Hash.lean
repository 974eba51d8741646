import Verif.Model.HybridAStar

/-!
# Model of the hash functions and hash tables (planner/src/core/hash.h, geometry/2dplane.h, utils/grid.h,
algo/hybrid_a_star.h, algo/heuristics.h)

`std::size_t` has 64 bits. `std::hash<double>` and `std::hash<int>` are arbitrary functions `hd`, `hi`.
`std::unordered_set` and `std::unordered_map` are not part of the repository; `HashTable` models them as a
number of buckets, of which the key's hash selects one that is searched with the key's equality, and which may be
redistributed over any other number of buckets at any time.
-/

namespace PathPlanning
open HybridAStar

/-- core/hash.h:6-11, `HashCombine`; `h` is `std::hash<T>`. -/
def hashCombine {T : Type} (h : T → BitVec 64) (seed : BitVec 64) (v : T) : BitVec 64 :=
  seed ^^^ (h v + 0x9e3779b9#64 + (seed <<< 6) + (seed >>> 2))

/-- geometry/2dplane.h:97-106, `std::hash<Point2d>`. -/
def hashPoint (hd : ℝ → BitVec 64) (p : Pt) : BitVec 64 :=
  hashCombine hd (hashCombine hd 0 p.x) p.y

/-- geometry/2dplane.h:108-114, `std::equal_to<Point2d>`. -/
def equalPoint (a b : Pt) : Prop := a.x = b.x ∧ a.y = b.y

/-- geometry/2dplane.h:116-125, `std::hash<Pose2d>`. -/
noncomputable def hashPose (hd : ℝ → BitVec 64) (p : PoseR) : BitVec 64 :=
  hashCombine hd (hashCombine (hashPoint hd) 0 p.position) (wrapTheta p.theta)

/-- geometry/2dplane.h:127-133, `std::equal_to<Pose2d>`. -/
def equalPose (a b : PoseR) : Prop := a.position = b.position ∧ wrapTheta a.theta = wrapTheta b.theta

/-- utils/grid.h:28-37, `std::hash<GridCellPosition>`. -/
def hashCell (hi : Int → BitVec 64) (c : Cell) : BitVec 64 :=
  hashCombine hi (hashCombine hi 0 c.row) c.col

/-- utils/grid.cpp:6-9, `operator==`, which `std::equal_to<GridCellPosition>` calls. -/
def equalCell (a b : Cell) : Prop := a.row = b.row ∧ a.col = b.col

/-- geometry/2dplane.h:97-106, 116-125 for `T = int`, `std::hash<Pose2i>`. -/
noncomputable def hashPoseI (hi : Int → BitVec 64) (p : PoseI) : BitVec 64 :=
  hashCombine hi
    (hashCombine (fun q : Int × Int => hashCombine hi (hashCombine hi 0 q.1) q.2) 0 (p.x, p.y))
    (intWrapTheta p.theta)

/-- algo/hybrid_a_star.h:71-78, `State::Hash`. -/
noncomputable def hashState (hi : Int → BitVec 64) (s : State) : BitVec 64 := hashPoseI hi s.discretePose

/-- algo/hybrid_a_star.h:81-86, `State::Equal`, with 2dplane.h:80-84. -/
def equalState (a b : State) : Prop :=
  (a.discretePose.x = b.discretePose.x ∧ a.discretePose.y = b.discretePose.y) ∧
    a.discretePose.theta = b.discretePose.theta

/-- algo/heuristics.h:46-51, `HashCell` of a cell with a value. -/
def hashGridCell (hi : Int → BitVec 64) (c : Cell × ℝ) : BitVec 64 := hashCell hi c.1

/-- algo/heuristics.h:53-58, `EqualCell`. -/
def equalGridCell (a b : Cell × ℝ) : Prop := equalCell a.1 b.1

/-- A hash table: the buckets from `0` to `count - 1`, each a list of entries. -/
structure HashTable (K V : Type) where
  count : Nat
  buckets : Nat → List (K × V)

namespace HashTable
variable {K V : Type} (hash : K → BitVec 64) (eq : K → K → Prop) [DecidableRel eq]

/-- An empty table; tree.h:48 gives the number of buckets. -/
def new (n : Nat) : HashTable K V := ⟨max 1 n, fun _ => []⟩

/-- The bucket of a key. -/
def index (t : HashTable K V) (k : K) : Nat := (hash k).toNat % t.count

/-- `find` -/
def find (t : HashTable K V) (k : K) : Option V :=
  ((t.buckets (t.index hash k)).find? fun e => decide (eq e.1 k)).map (·.2)

/-- All entries. -/
def entries (t : HashTable K V) : List (K × V) := (List.range t.count).flatMap t.buckets

/-- `size` -/
def size (t : HashTable K V) : Nat := t.entries.length

/-- Replacement of a bucket. -/
def setBucket (t : HashTable K V) (j : Nat) (l : List (K × V)) : HashTable K V :=
  { t with buckets := fun i => if i = j then l else t.buckets i }

/-- `insert`, which leaves an existing entry as it is. -/
def insert (t : HashTable K V) (k : K) (v : V) : HashTable K V :=
  match t.find hash eq k with
  | some _ => t
  | none => t.setBucket (t.index hash k) ((k, v) :: t.buckets (t.index hash k))

/-- `erase` of a key. -/
def erase (t : HashTable K V) (k : K) : HashTable K V :=
  t.setBucket (t.index hash k) ((t.buckets (t.index hash k)).filter fun e => !decide (eq e.1 k))

/-- `clear` -/
def clear (t : HashTable K V) : HashTable K V := { t with buckets := fun _ => [] }

/-- The entries are distributed over `n` buckets. -/
def rehash (t : HashTable K V) (n : Nat) : HashTable K V :=
  ⟨max 1 n, fun j => t.entries.filter fun e => decide ((hash e.1).toNat % max 1 n = j)⟩

/-- A call, or a redistribution by the library. -/
inductive Op (K V : Type) where
  | insert (k : K) (v : V)
  | erase (k : K)
  | clear
  | rehash (n : Nat)

/-- The effect of a call. -/
def step (t : HashTable K V) : Op K V → HashTable K V
  | .insert k v => t.insert hash eq k v
  | .erase k => t.erase hash eq k
  | .clear => t.clear
  | .rehash n => t.rehash hash n

/-- The effect of a history of calls. -/
def run (t : HashTable K V) (ops : List (Op K V)) : HashTable K V := ops.foldl (step hash eq) t

end HashTable
end PathPlanning
