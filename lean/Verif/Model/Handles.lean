/-!
# Ownership and references of a `BidirectionalAStar` object (planner/src/algo/bidirectional_a_star.h,
planner/src/algo/a_star.h)

Which objects exist, who owns them, and what the raw pointers and the references returned by the getters point to. What the
objects compute is left out (`Model/BiPlanner`). `Ref` is `std::shared_ptr` (core/base.h): an object lives as long as some
`Ref` that itself lives refers to it; there are no cycles, as an object only refers to objects that exist when it is made.
-/

namespace PathPlanning.Own

/-- The objects handed to a planner: a propagator, a heuristic, an averaged heuristic with its two parts
(bidirectional_a_star.h:36; `none` is null). -/
inductive Obj where
  | propagator
  | heuristic
  | average (toGoal toInit : Option Nat)
deriving DecidableEq

/-- The `Ref` members of the two searches (a_star.h:430-431). -/
inductive Member where
  | fProp | fHeur | rProp | rHeur
deriving DecidableEq

/-- A planner in memory: its `Ref` members, its raw pointers (bidirectional_a_star.h:200), its flag (:203) and the number of
searches it has begun; each frees the nodes of the one before (a_star.h:357). `none` is null. -/
structure Planner where
  ref : Member → Option Nat
  fAvg : Option Nat
  rAvg : Option Nat
  isInitialized : Bool
  searches : Nat

/-- bidirectional_a_star.h:53 and the default member initialisers. -/
def Planner.new : Planner :=
  { ref := fun _ => none, fAvg := none, rAvg := none, isInitialized := false, searches := 0 }

/-- A place where a `Ref` is stored: a member of the planner, or an element of a temporary tuple. -/
inductive Loc where
  | member (m : Member)
  | temp (k : Nat)
deriving DecidableEq

/-- All that exists: the objects ever made (objects are named by their number), the `Ref`s in the hands of the user, the planner
(`none` once destroyed), and the temporaries: those that exist, and how many were ever made. -/
structure World where
  objs : List Obj
  user : List Nat
  planner : Option Planner
  temps : List (Nat × Option Nat)
  made : Nat

/-- Nothing but a new planner. -/
def World.start : World := { objs := [], user := [], planner := some .new, temps := [], made := 0 }

/-- The objects that exist: those that a `Ref` of the user, of the planner, of a temporary or of an existing object refers to. -/
inductive Alive (w : World) : Nat → Prop
  | user {o} : o ∈ w.user → Alive w o
  | member {p m o} : w.planner = some p → p.ref m = some o → Alive w o
  | temp {k o} : (k, some o) ∈ w.temps → Alive w o
  | part {a g i o} : Alive w a → w.objs[a]? = some (.average g i) → some o = g ∨ some o = i → Alive w o

/-- bidirectional_a_star.h:123-124: `dynamic_cast<AverageHeuristic*>(ref.get())`. -/
def World.averaged (w : World) : Option Nat → Option Nat
  | none => none
  | some o => match w.objs[o]? with
    | some (.average _ _) => some o
    | _ => none

/-- a_star.h:315-323, `AStar::Initialize` of one of the two searches: nothing is stored unless both arguments are there. -/
def Planner.take (p : Planner) (mp mh : Member) (N H : Option Nat) : Planner × Bool :=
  if N.isSome && H.isSome then
    ({ p with ref := fun m => if m = mp then N else if m = mh then H else p.ref m }, true)
  else (p, false)

/-- bidirectional_a_star.h:115-127, `Initialize`. -/
def World.initialize (w : World) (p : Planner) (N Nr H Hr : Option Nat) : Planner :=
  let (p, ok) := p.take .fProp .fHeur N H
  if ok then
    let (p, ok) := p.take .rProp .rHeur Nr Hr
    if ok then
      { p with fAvg := w.averaged (p.ref .fHeur), rAvg := w.averaged (p.ref .rHeur), isInitialized := true }
    else { p with isInitialized := false }
  else { p with isInitialized := false }

/-- What the user does. -/
inductive Op where
  /-- make a propagator or a plain heuristic, and keep a `Ref` to it -/
  | make (o : Obj)
  /-- bidirectional_a_star.h:58-63, `GetAverageHeuristicPair`, and keep both `Ref`s -/
  | average (f r : Option Nat)
  /-- copy a `Ref`, or obtain one from a getter -/
  | copy (o : Nat)
  /-- let go of a `Ref` -/
  | drop (o : Nat)
  | initialize (N Nr H Hr : Option Nat)
  | searchPath
  /-- bidirectional_a_star.h:87-96, `GetStatePropagators` (`true`) and `GetHeuristics` (`false`) -/
  | get (propagators : Bool)
  | destroy

/-- The user can only pass `Ref`s that they hold; a plain object has no parts; a destroyed planner is not used. -/
def Op.Allowed (w : World) : Op → Prop
  | .make o => o = .propagator ∨ o = .heuristic
  | .average f r => ∀ o, f = some o ∨ r = some o → o ∈ w.user
  | .copy o => o ∈ w.user
  | .drop o => o ∈ w.user
  | .initialize N Nr H Hr => w.planner.isSome = true ∧ ∀ x ∈ [N, Nr, H, Hr], ∀ o, x = some o → o ∈ w.user
  | .searchPath => w.planner.isSome = true
  | .get _ => w.planner.isSome = true
  | .destroy => w.planner.isSome = true

/-- The members behind the two getters (bidirectional_a_star.h:89, 94). -/
def getMembers (propagators : Bool) : Member × Member := if propagators then (.fProp, .rProp) else (.fHeur, .rHeur)

/-- bidirectional_a_star.h:87-96, the body of a getter: `std::make_tuple` makes a tuple of copies of the two `Ref`s; the tuple of
references that is returned refers to its elements. -/
def World.makeTuple (w : World) (p : Planner) (ms : Member × Member) : World × (Loc × Loc) :=
  ({ w with temps := (w.made + 1, p.ref ms.2) :: (w.made, p.ref ms.1) :: w.temps, made := w.made + 2 },
   (.temp w.made, .temp (w.made + 1)))

/-- The end of the return statement destroys the tuple of copies. -/
def World.endReturn (w : World) (l : Loc × Loc) : World :=
  { w with temps := w.temps.filter fun t => decide (Loc.temp t.1 ≠ l.1) && decide (Loc.temp t.1 ≠ l.2) }

/-- bidirectional_a_star.h:87-96, a getter: the tuple of references, after the return. -/
def World.getRefs (w : World) (p : Planner) (propagators : Bool) : World × (Loc × Loc) :=
  let r := w.makeTuple p (getMembers propagators)
  (r.1.endReturn r.2, r.2)

/-- Reading through a reference; `none` is undefined: the place does not exist any more. -/
def World.read (w : World) : Loc → Option (Option Nat)
  | .member m => w.planner.map fun p => p.ref m
  | .temp k => (w.temps.find? fun t => t.1 = k).map Prod.snd

/-- What an operation does to the world. -/
def World.step (w : World) : Op → World
  | .make o => { w with objs := w.objs ++ [o], user := w.objs.length :: w.user }
  | .average f r =>
    { w with objs := w.objs ++ [.average f r, .average r f], user := w.objs.length :: (w.objs.length + 1) :: w.user }
  | .copy o => { w with user := o :: w.user }
  | .drop o => { w with user := w.user.erase o }
  | .initialize N Nr H Hr => { w with planner := w.planner.map fun p => w.initialize p N Nr H Hr }
  | .searchPath =>
    { w with planner := w.planner.map fun p => if p.isInitialized then { p with searches := p.searches + 1 } else p }
  | .get b => match w.planner with
    | some p => (w.getRefs p b).1
    | none => w
  | .destroy => { w with planner := none }

/-- bidirectional_a_star.h:130-150 and a_star.h:363, 383, 388: the objects that a search calls: what the raw pointers point to
if both are set, the propagators and heuristics of the searches, and the parts of what it calls. -/
inductive Calls (w : World) (p : Planner) : Nat → Prop
  | rawF {a b} : p.fAvg = some a → p.rAvg = some b → Calls w p a
  | rawR {a b} : p.fAvg = some a → p.rAvg = some b → Calls w p b
  | member {m o} : p.ref m = some o → Calls w p o
  | part {a g i o} : Calls w p a → w.objs[a]? = some (.average g i) → some o = g ∨ some o = i → Calls w p o

/-- A search calls a null heuristic: a part of an averaged heuristic that it calls is null (bidirectional_a_star.h:21, 32). -/
def CallsNull (w : World) (p : Planner) : Prop :=
  ∃ a g i, Calls w p a ∧ w.objs[a]? = some (.average g i) ∧ (g = none ∨ i = none)

/-- A sequence of operations. -/
def World.run : World → List Op → World
  | w, [] => w
  | w, op :: l => (w.step op).run l

/-- All operations of a sequence are allowed when they are made. -/
def AllowedAll : World → List Op → Prop
  | _, [] => True
  | w, op :: l => op.Allowed w ∧ AllowedAll (w.step op) l

/-- A pointer to a node that `GetExploredStates` gave out (bidirectional_a_star.h:75-78, a_star.h:291): a node of the search in
whose tree it is. -/
def World.nodeAlive (w : World) (search : Nat) : Bool :=
  match w.planner with
  | some p => decide (p.searches = search)
  | none => false

end PathPlanning.Own
