import Verif.Model.Profiler

/-!
# Model of concurrent calls of `WriteProfile` (planner/src/debug/profiler.cpp:37-56)

Any number of threads, named by numbers, record events while a session is open. A schedule says which thread takes
the next step; one step is one operation on the mutex or on the output stream. The stream keeps text in a buffer
until it is flushed, and may write out any part of it earlier. A program that stops at any point leaves the file as it
is then, without the text in the buffer. Formatting the event (lines 39-49) is local to the thread and is part of the
call.
-/

namespace PathPlanning.Prof.Threads

/-- Where a thread is. -/
inductive PC where
  /-- in no call -/
  | idle
  /-- line 51, about to lock -/
  | lock (r : Result)
  /-- line 53, about to write -/
  | write (r : Result)
  /-- line 54, about to flush -/
  | flush (r : Result)
  /-- line 56, about to unlock and return -/
  | unlock (r : Result)

/-- The event of the call that a thread is in. -/
def PC.event : PC → Option Result
  | .idle => none
  | .lock r | .write r | .flush r | .unlock r => some r

/-- The file, the stream and the threads; `started` and `finished` log the calls, latest last. -/
structure State where
  disk : Text
  buffer : Text
  mutex : Option Nat
  pc : Nat → PC
  started : List (Nat × Result)
  finished : List (Nat × Result)

/-- debug/profiler.cpp:20-23, 58-62: after the session has been opened. -/
def opened : State := ⟨header, [], none, fun _ => .idle, [], []⟩

/-- Thread `t` is at `p` from now on. -/
def State.goto (s : State) (t : Nat) (p : PC) : State :=
  { s with pc := fun u => if u = t then p else s.pc u }

/-- debug/profiler.cpp:37-56: the next step of thread `t`, which records `r` if it is in no call; `none` if the thread
is blocked. -/
def step (s : State) (t : Nat) (r : Result) : Option State :=
  match s.pc t with
  | .idle => some ({ s with started := s.started ++ [(t, r)] }.goto t (.lock r))
  | .lock r => if s.mutex.isNone then some ({ s with mutex := some t }.goto t (.write r)) else none
  | .write r => some ({ s with buffer := s.buffer ++ r.json }.goto t (.flush r))
  | .flush r => some ({ s with disk := s.disk ++ s.buffer, buffer := [] }.goto t (.unlock r))
  | .unlock r => some ({ s with mutex := none, finished := s.finished ++ [(t, r)] }.goto t .idle)

/-- What happens next: a step of a thread, or the stream writes out the first `k` characters of its buffer. -/
inductive Event where
  | thread (t : Nat) (r : Result)
  | spill (k : Nat)

/-- The effect of an event; a blocked thread does nothing when it is scheduled. -/
def next (s : State) : Event → State
  | .thread t r => (step s t r).getD s
  | .spill k => { s with disk := s.disk ++ s.buffer.take k, buffer := s.buffer.drop k }

/-- An execution up to the point where the program stops. -/
def exec (s : State) (sched : List Event) : State := sched.foldl next s

end PathPlanning.Prof.Threads
