import Mathlib.Data.List.Basic

/-!
# The random generators (planner/src/utils/random.h) and who constructs them

`Random<T>` has one device and one engine for each type `T`, shared by all objects and threads. They are constructed by
`Init`, which is called by the constructors of state spaces (state_space.h:20) and of RRT (rrt.h:46-47), and used by
`SampleUniform` and `SampleGaussian`. Threads advance in small steps, of which the scheduler chooses the order. Memory is
sequentially consistent; that a replaced engine is destroyed is not modelled, nor are the distributions (C44, C126), of
which the default constructed ones are the same up to the last bit.
-/

namespace PathPlanning.Rng

/-- The types `T` of `Random<T>` (random.h:9-10). -/
inductive Ty where
  | float
  | double
  deriving DecidableEq

/-- `s_randomDevice` (whether it is constructed) and `s_engine` of one type (random.h:40-41); `E` are the states of engines. -/
structure Gen (E : Type) where
  device : Bool
  engine : Option E

/-- The functions of `Random<T>`: `Init` (random.h:12-20), `SampleUniform` or `SampleGaussian` (23-34). -/
inductive Cmd where
  | init (t : Ty)
  | draw (t : Ty)

/-- Where a thread is: between commands, before random.h:15, before 16, or in the engine, whose next state is not yet
stored (26, 33). -/
inductive Pc (E : Type) where
  | ready
  | makeDevice (t : Ty)
  | makeEngine (t : Ty)
  | putBack (t : Ty) (e : E)

/-- A thread: where it is and what it does next. -/
structure Thread (E : Type) where
  pc : Pc E
  prog : List Cmd

/-- The generators, the threads, and the numbers drawn so far with their types, the last one first. -/
structure Sys (E N : Type) where
  gen : Ty → Gen E
  thread : Nat → Thread E
  log : List (Ty × N)

/-- Outcome of a step that may throw: the engine gets the state `seed` (random.h:16), or the device throws (`std::random_device`
may, when it is constructed, 15, and when it is used, 16) and the thread goes on with a handler. -/
inductive Outcome (E : Type) where
  | ok (seed : E)
  | throw (handler : List Cmd)

variable {E N : Type}

/-- Thread `i` goes on as `p`. -/
def Sys.put (σ : Sys E N) (i : Nat) (p : Thread E) : Sys E N :=
  { σ with thread := fun j => if j = i then p else σ.thread j }

/-- The generator of type `t` becomes `g`. -/
def Sys.setGen (σ : Sys E N) (t : Ty) (g : Gen E) : Sys E N :=
  { σ with gen := fun u => if u = t then g else σ.gen u }

/-- A step of thread `i`; `next` is the function of the engine (with its distribution): the number, and the next state.
`none`: the program dereferences a null pointer (random.h:26, 33). -/
def Sys.step (next : E → N × E) (σ : Sys E N) (i : Nat) (o : Outcome E) : Option (Sys E N) :=
  match (σ.thread i).pc, (σ.thread i).prog with
  | .ready, [] => some σ
  | .ready, .init t :: p =>
    if (σ.gen t).device then some (σ.put i ⟨.ready, p⟩) else some (σ.put i ⟨.makeDevice t, p⟩)
  | .ready, .draw t :: p =>
    match (σ.gen t).engine with
    | none => none
    | some e => some { σ.put i ⟨.putBack t (next e).2, p⟩ with log := (t, (next e).1) :: σ.log }
  | .makeDevice t, p =>
    match o with
    | .ok _ => some ((σ.setGen t { σ.gen t with device := true }).put i ⟨.makeEngine t, p⟩)
    | .throw h => some (σ.put i ⟨.ready, h⟩)
  | .makeEngine t, p =>
    match o with
    | .ok e => some ((σ.setGen t { σ.gen t with engine := some e }).put i ⟨.ready, p⟩)
    | .throw h => some (σ.put i ⟨.ready, h⟩)
  | .putBack t e, p => some ((σ.setGen t { σ.gen t with engine := some e }).put i ⟨.ready, p⟩)

/-- Effect of a schedule: the threads that take the steps, and the outcomes of the steps. -/
def Sys.exec (next : E → N × E) : Sys E N → List (Nat × Outcome E) → Option (Sys E N)
  | σ, [] => some σ
  | σ, (i, o) :: l =>
    match σ.step next i o with
    | none => none
    | some σ' => σ'.exec next l

/-- The program starts: nothing is constructed (random.h:40-41); thread `i` is going to do `progs i`. -/
def Sys.start (progs : Nat → List Cmd) : Sys E N :=
  ⟨fun _ => ⟨false, none⟩, fun i => ⟨.ready, progs i⟩, []⟩

/-- What a user does with the objects whose coordinates have type `t`: construct a state space, an RRT or RRT* planner on
one; sample a state space; or let a planner make an iteration. -/
inductive Act where
  | newSpace (t : Ty)
  | newRRT (t : Ty)
  | newRRTStar (t : Ty)
  | sampleSpace (t : Ty)
  | iterateRRT (t : Ty)
  | iterateRRTStar (t : Ty)

/-- The calls of `Random` made by the constructors (state_space.h:17-21, rrt.h:39-48, rrt_star.h:41-46), by sampling one
number of a state (state_space_r2.cpp:31; the spaces of the library have the type `double`), and by an iteration (rrt.h:72,
rrt_star.h:70), which draws a `double` and, unless that chooses the goal, samples the space. -/
def Act.cmds : Act → List Cmd
  | .newSpace t => [.init t]
  | .newRRT t => [.init t, .init .double]
  | .newRRTStar _ => []
  | .sampleSpace t => [.draw t]
  | .iterateRRT t => [.draw .double, .draw t]
  | .iterateRRTStar t => [.draw .double, .draw t]

end PathPlanning.Rng
