/-!
# Model of `Planner::Frontier` (planner/src/utils/frontier.h)

`T` is the element type, `cmp` the `Compare` functor and `eqv` the `KeyEqual` functor.
`m_vec` is a `List T` (front = `begin()`), `m_set` (a `std::unordered_set`) is a `List T`
searched with `eqv`; bucket order is not observable through the modelled interface.
Simplification: pointers to elements are replaced by the elements themselves.
-/

namespace PathPlanning

variable {T : Type}

/-- frontier.h:154-158, the data members `m_vec` and `m_set`. -/
structure Frontier (T : Type) where
  vec : List T
  set : List T

namespace Frontier

/-- frontier.h:16, default constructor. -/
def empty : Frontier T := ⟨[], []⟩

/-- frontier.h:23, `Size`. -/
def size (f : Frontier T) : Nat := f.vec.length

/-- frontier.h:26, `Empty`. -/
def isEmpty (f : Frontier T) : Bool := f.vec.isEmpty

/-- frontier.h:29-33, `Clear`. -/
def clear (_ : Frontier T) : Frontier T := ⟨[], []⟩

/-- frontier.h:116-127, the loop of `FindFirstCompareIsFalse`; positions are indices, `mid`
is the value returned when the loop condition fails.  `v[i]? = none` with `i = m + 1` is the
test `midNext != m_vec.end()`; the case `v[m]? = none` cannot occur (`m < e ≤ size`). -/
def ffLoop (cmp : T → T → Bool) (v : List T) (x : T) (b e mid : Nat) : Nat :=
  if b < e then
    let m := b + (e - b) / 2
    match v[m]? with
    | none => m
    | some y =>
      if cmp x y then ffLoop cmp v x b m m
      else
        match v[m + 1]? with
        | some z => if !cmp x z then ffLoop cmp v x (m + 1) e m else m + 1
        | none => m + 1
  else mid
termination_by e - b

/-- frontier.h:111-129, `FindFirstCompareIsFalse`. -/
def findFirstCompareIsFalse (cmp : T → T → Bool) (v : List T) (x : T) : Nat :=
  ffLoop cmp v x 0 v.length 0

/-- frontier.h:140-150, the loop of `FindLastCompareIsTrue`. -/
def flLoop (cmp : T → T → Bool) (v : List T) (x : T) (b e mid : Nat) : Nat :=
  if b < e then
    let m := b + (e - b) / 2
    match v[m]? with
    | none => m
    | some y =>
      if !cmp y x then flLoop cmp v x b m m
      else
        match v[m + 1]? with
        | some z => if cmp z x then flLoop cmp v x (m + 1) e m else m
        | none => m
  else mid
termination_by e - b

/-- frontier.h:135-152, `FindLastCompareIsTrue`. -/
def findLastCompareIsTrue (cmp : T → T → Bool) (v : List T) (x : T) : Nat :=
  flLoop cmp v x 0 v.length 0

/-- frontier.h:95-101, `Find` (`none` = nullptr). -/
def find (eqv : T → T → Bool) (f : Frontier T) (x : T) : Option T :=
  f.set.find? (fun y => eqv y x)

/-- frontier.h:39-48, `Push`.  Returns the new container, the element the returned pointer
designates and the success flag. -/
def push (cmp eqv : T → T → Bool) (f : Frontier T) (x : T) : Frontier T × T × Bool :=
  match f.set.find? (fun y => eqv y x) with
  | none =>
    let i := findFirstCompareIsFalse cmp f.vec x
    (⟨f.vec.take i ++ x :: f.vec.drop i, x :: f.set⟩, x, true)
  | some y => (f, y, false)

/-- frontier.h:59-65, the scan of `Remove`: erase the first element at index `≥ i` whose key
equals that of `s`. -/
def eraseFrom (eqv : T → T → Bool) (v : List T) (i : Nat) (s : T) : List T :=
  v.take i ++ (v.drop i).eraseP (fun y => eqv y s)

/-- frontier.h:52-73, `Remove`.  The assertion on line 66 is not modelled as an effect. -/
def remove (cmp eqv : T → T → Bool) (f : Frontier T) (x : T) : Frontier T × Nat :=
  match f.set.find? (fun y => eqv y x) with
  | some s =>
    (⟨eraseFrom eqv f.vec (findLastCompareIsTrue cmp f.vec s) s,
      f.set.eraseP (fun y => eqv y s)⟩, 1)
  | none => (f, 0)

/-- frontier.h:76-79, `Top`; `none` is the undefined behaviour of `back()` on an empty vector. -/
def top (f : Frontier T) : Option T := f.vec.getLast?

/-- frontier.h:83-91, `Pop`; `none` is the undefined behaviour on an empty container. -/
def pop (eqv : T → T → Bool) (f : Frontier T) : Option (Frontier T × T) :=
  match f.vec.getLast? with
  | some x => some (⟨f.vec.dropLast, f.set.eraseP (fun y => eqv y x)⟩, x)
  | none => none

end Frontier
end PathPlanning
