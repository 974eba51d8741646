/-!
# Model of `Singleton` (planner/src/utils/singleton.h:8-49), which the logger and the profiler use

Any number of threads, named by numbers, call `Get`, `Init` and `Release` any number of times. A schedule says
which thread takes the next step. Memory is sequentially consistent; one step is one access to the
shared pointer or one run of the constructor. (In the C++ memory model unsynchronised reads and writes of the pointer
are data races.)
-/

namespace PathPlanning.SingletonPlain

/-- The public functions. -/
inductive Fn where
  | get
  | init
  | release
  deriving DecidableEq

/-- Where a thread is. -/
inductive PC where
  /-- in no call -/
  | idle
  /-- line 15, about to test the pointer -/
  | test
  /-- line 24, about to test the pointer; called from `Get` or by the user -/
  | initTest (get : Bool)
  /-- line 25, about to run the constructor -/
  | construct (get : Bool)
  /-- line 25, about to store the pointer to the new instance -/
  | store (i : Nat) (get : Bool)
  /-- line 18, about to return `*m_instance_ptr` -/
  | ret
  /-- line 32, about to test the pointer -/
  | relTest
  /-- line 33, about to reset the pointer -/
  | relReset
  deriving DecidableEq

/-- The shared state and the threads. -/
structure State where
  /-- `m_instance_ptr`: which instance it points to. Instances are numbered by their construction. -/
  inst : Option Nat
  /-- how many times the constructor has run -/
  constructed : Nat
  /-- the instances whose destructor has run, latest first -/
  destroyed : List Nat
  pc : Nat → PC
  /-- What the finished calls of `Get` returned (`none`: dereferenced null pointer), latest first. -/
  returned : List (Nat × Option Nat)

/-- Before any call (lines 48-49). -/
def init : State := ⟨none, 0, [], fun _ => .idle, []⟩

/-- Thread `t` is at `p` from now on. -/
def State.goto (s : State) (t : Nat) (p : PC) : State :=
  { s with pc := fun u => if u = t then p else s.pc u }

/-- The pointer is replaced; a `std::unique_ptr` destroys the instance it pointed to. -/
def State.assign (s : State) (i : Option Nat) : State :=
  { s with inst := i, destroyed := s.inst.toList ++ s.destroyed }

/-- Where a call starts: lines 13-15, 22-24, 30-32. -/
def Fn.entry : Fn → PC
  | .get => .test
  | .init => .initTest false
  | .release => .relTest

/-- Where `Init` returns to: lines 16-18 or the user. -/
def after (get : Bool) : PC := if get then .ret else .idle

/-- The next step of thread `t`, which calls `f` if it is in no call. -/
def step (s : State) (t : Nat) (f : Fn) : State :=
  match s.pc t with
  | .idle => s.goto t f.entry
  | .test => s.goto t (if s.inst.isNone then .initTest true else .ret)
  | .initTest g => s.goto t (if s.inst.isNone then .construct g else after g)
  | .construct g => { s with constructed := s.constructed + 1 }.goto t (.store s.constructed g)
  | .store i g => (s.assign (some i)).goto t (after g)
  | .ret => { s with returned := (t, s.inst) :: s.returned }.goto t .idle
  | .relTest => s.goto t (if s.inst.isSome then .relReset else .idle)
  | .relReset => (s.assign none).goto t .idle

/-- An execution. -/
def exec (s : State) (sched : List (Nat × Fn)) : State := sched.foldl (fun s e => step s e.1 e.2) s

end PathPlanning.SingletonPlain
