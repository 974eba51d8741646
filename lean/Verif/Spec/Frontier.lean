/-!
# Specification of a keyed priority list

Independent of the model: the live elements in insertion order, plus what "best" means.
-/

namespace PathPlanning.Spec

variable {T : Type}

/-- C++ *Compare* requirement: strict weak ordering. -/
structure StrictWeakOrder (cmp : T → T → Bool) : Prop where
  irrefl : ∀ a, cmp a a = false
  trans : ∀ a b c, cmp a b = true → cmp b c = true → cmp a c = true
  incomp_trans : ∀ a b c, (cmp a b = false ∧ cmp b a = false) →
    (cmp b c = false ∧ cmp c b = false) → (cmp a c = false ∧ cmp c a = false)

/-- C++ *KeyEqual* requirement: an equivalence relation. -/
structure KeyEquiv (eqv : T → T → Bool) : Prop where
  refl : ∀ a, eqv a a = true
  symm : ∀ a b, eqv a b = true → eqv b a = true
  trans : ∀ a b c, eqv a b = true → eqv b c = true → eqv a c = true

/-- The operations of the container. -/
inductive Op (T : Type)
  | push (x : T)
  | remove (x : T)
  | pop
  | top
  | find (x : T)
  | size
  | clear

/-- What a caller observes. `ub` is undefined behaviour. -/
inductive Out (T : Type)
  | pushed (e : T) (inserted : Bool)
  | removed (n : Nat)
  | elem (e : T)
  | found (e : Option T)
  | size (n : Nat)
  | unit
  | ub

/-- The element a `pop` must return: going through the elements in insertion order, an element
replaces the current choice unless it ranks strictly below it. Hence a best element, and the
most recently inserted one among equally ranked elements. -/
def best (cmp : T → T → Bool) : List T → Option T
  | [] => none
  | x :: xs => some (xs.foldl (fun b y => if cmp y b then b else y) x)

/-- Reference semantics: the state is the list of live elements in insertion order. -/
def step (cmp eqv : T → T → Bool) (live : List T) : Op T → List T × Out T
  | .push x => match live.find? (fun y => eqv y x) with
    | some y => (live, .pushed y false)
    | none => (live ++ [x], .pushed x true)
  | .remove x =>
    (live.filter (fun y => !eqv y x), .removed (live.countP (fun y => eqv y x)))
  | .pop => match best cmp live with
    | some b => (live.filter (fun y => !eqv y b), .elem b)
    | none => (live, .ub)
  | .top => match best cmp live with
    | some b => (live, .elem b)
    | none => (live, .ub)
  | .find x => (live, .found (live.find? (fun y => eqv y x)))
  | .size => (live, .size live.length)
  | .clear => ([], .unit)

/-- Observations of a whole history. -/
def run (cmp eqv : T → T → Bool) : List T → List (Op T) → List (Out T)
  | _, [] => []
  | s, o :: os => (step cmp eqv s o).2 :: run cmp eqv (step cmp eqv s o).1 os

/-- Live elements after a history. -/
def liveAfter (cmp eqv : T → T → Bool) : List T → List (Op T) → List T
  | s, [] => s
  | s, o :: os => liveAfter cmp eqv (step cmp eqv s o).1 os

end PathPlanning.Spec
