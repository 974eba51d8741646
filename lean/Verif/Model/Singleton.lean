/-!
# Model of `SingletonThreadSafe` (planner/src/utils/singleton.h:92-138)

Any number of threads, named by numbers, call `Get` and `Release` any number of times. A schedule says
which thread takes the next step. Memory is sequentially consistent; one step is one access to the
shared pointer, one operation on the mutex or one run of the constructor. (In the C++ memory model the
unsynchronised reads of lines 100 and 111 are data races with the write of line 108.)
-/

namespace PathPlanning.SingletonTS

/-- Where a thread is. -/
inductive PC where
  /-- in no call -/
  | idle
  /-- line 100, about to test the pointer -/
  | test
  /-- line 104, about to lock -/
  | lock
  /-- line 107, about to test the pointer again -/
  | retest
  /-- line 108, about to run the constructor -/
  | construct
  /-- line 108, about to store the pointer to the new instance -/
  | store (i : Nat)
  /-- line 110, about to unlock -/
  | unlock
  /-- line 111, about to return `*m_instance_ptr` -/
  | ret
  /-- line 117, `Release` about to lock -/
  | relLock
  /-- lines 118-119 -/
  | relReset
  /-- line 121, about to unlock -/
  | relUnlock
  deriving DecidableEq

/-- The shared state and the threads. -/
structure State where
  /-- `m_instance_ptr`: which instance it points to. Instances are numbered by their construction. -/
  inst : Option Nat
  /-- how many times the constructor has run -/
  constructed : Nat
  /-- `m_constructed`: which thread holds the mutex -/
  mutex : Option Nat
  pc : Nat → PC
  /-- What the finished calls of `Get` returned (`none`: dereferenced null pointer), latest first. -/
  returned : List (Nat × Option Nat)

/-- Before any call (lines 135-138). -/
def init : State := ⟨none, 0, none, fun _ => .idle, []⟩

/-- The public functions. -/
inductive Fn where
  | get
  | release
  deriving DecidableEq

/-- Thread `t` is at `p` from now on. -/
def State.goto (s : State) (t : Nat) (p : PC) : State :=
  { s with pc := fun u => if u = t then p else s.pc u }

/-- The next step of thread `t`, which calls `f` if it is in no call; `none` if the thread is blocked. -/
def step (s : State) (t : Nat) (f : Fn) : Option State :=
  match s.pc t with
  | .idle => some (s.goto t (match f with | .get => .test | .release => .relLock))
  | .test => some (s.goto t (if s.inst.isNone then .lock else .ret))
  | .lock => if s.mutex.isNone then some ({ s with mutex := some t }.goto t .retest) else none
  | .retest => some (s.goto t (if s.inst.isNone then .construct else .unlock))
  | .construct => some ({ s with constructed := s.constructed + 1 }.goto t (.store s.constructed))
  | .store i => some ({ s with inst := some i }.goto t .unlock)
  | .unlock => some ({ s with mutex := none }.goto t .ret)
  | .ret => some ({ s with returned := (t, s.inst) :: s.returned }.goto t .idle)
  | .relLock => if s.mutex.isNone then some ({ s with mutex := some t }.goto t .relReset) else none
  | .relReset => some ({ s with inst := none }.goto t .relUnlock)
  | .relUnlock => some ({ s with mutex := none }.goto t .idle)

/-- An execution: a blocked thread does nothing when it is scheduled. -/
def exec (s : State) : List (Nat × Fn) → State
  | [] => s
  | (t, f) :: rest => exec ((step s t f).getD s) rest

end PathPlanning.SingletonTS
