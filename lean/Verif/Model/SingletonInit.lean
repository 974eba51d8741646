/-!
# Model of `SingletonInit` (planner/src/utils/singleton.h:51-90)

One thread; `A` is the type of the arguments of the constructor. With `asserts` the program is compiled without `NDEBUG`.
`none` is a call that does not return: a failed assertion, or the dereference of a null pointer.
-/

namespace PathPlanning.SingletonInit

/-- The public functions. -/
inductive Op (A : Type) where
  | init (args : A)
  | get
  | release

structure State (A : Type) where
  /-- `m_instance_ptr`: which instance it points to, and the arguments it was made with. Instances are numbered by their
  construction. -/
  inst : Option (Nat × A)
  /-- how many times the constructor has run -/
  constructed : Nat
  /-- the instances whose destructor has run, latest first -/
  destroyed : List Nat
  /-- what the calls of `Get` returned, latest first -/
  returned : List (Nat × A)

variable {A : Type}

/-- Before any call (lines 89-90). -/
def new : State A := ⟨none, 0, [], []⟩

/-- The pointer is replaced; a `std::unique_ptr` destroys the instance it pointed to. -/
def State.assign (s : State A) (i : Option (Nat × A)) : State A :=
  { s with inst := i, destroyed := (s.inst.map Prod.fst).toList ++ s.destroyed }

/-- Lines 55-60, `Get`. -/
def get (s : State A) : Option (State A) :=
  match s.inst with
  | none => none
  | some i => some { s with returned := i :: s.returned }

/-- Lines 62-68, `Init`. -/
def initOp (asserts : Bool) (s : State A) (args : A) : Option (State A) :=
  if asserts && s.inst.isSome then none
  else some ({ s with constructed := s.constructed + 1 }.assign (some (s.constructed, args)))

/-- Lines 70-76, `Release`. -/
def release (s : State A) : State A := if s.inst.isSome then s.assign none else s

/-- A call. -/
def step (asserts : Bool) (s : State A) : Op A → Option (State A)
  | .init args => initOp asserts s args
  | .get => get s
  | .release => some (release s)

/-- A sequence of calls. -/
def run (asserts : Bool) (s : State A) : List (Op A) → Option (State A)
  | [] => some s
  | o :: os => (step asserts s o).bind fun s' => run asserts s' os

end PathPlanning.SingletonInit
