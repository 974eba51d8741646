import Verif.Model.NonHolonomic

/-!
# The memory of `NonHolonomicHeuristic` (planner/src/algo/heuristics.cpp:7-74, 89)

The table is a `double***`: a block of pointers to blocks of pointers to blocks of numbers. Addresses of
blocks are numbers that are never used again (a freed block stays dead). An access outside a block, to a
dead block or through an uninitialised pointer, and freeing a dead block, are undefined: `none`.
Allocations succeed.
-/

namespace PathPlanning
namespace HoloMem

/-- What a place in memory holds. -/
inductive Word (α : Type) where
  | undef
  | ptr (p : Nat)
  | val (a : α)

/-- The live blocks, and the address of the next new one. -/
structure Heap (α : Type) where
  next : Nat
  mem : Nat → Option (List (Word α))

variable {α : Type}

/-- `new T[n]` -/
def alloc (h : Heap α) (n : Nat) : Heap α × Nat :=
  (⟨h.next + 1, fun b => if b = h.next then some (List.replicate n .undef) else h.mem b⟩, h.next)

/-- Read a place. -/
def load (h : Heap α) (p i : Nat) : Option (Word α) := (h.mem p).bind fun l => l[i]?

/-- Read a pointer. -/
def loadPtr (h : Heap α) (p i : Nat) : Option Nat :=
  match load h p i with
  | some (.ptr q) => some q
  | _ => none

/-- Write a place. -/
def store (h : Heap α) (p i : Nat) (w : Word α) : Option (Heap α) :=
  match h.mem p with
  | some l => if i < l.length then some ⟨h.next, fun b => if b = p then some (l.set i w) else h.mem b⟩ else none
  | none => none

/-- `delete[]` -/
def free (h : Heap α) (p : Nat) : Option (Heap α) :=
  match h.mem p with
  | some _ => some ⟨h.next, fun b => if b = p then none else h.mem b⟩
  | none => none

/-- heuristics.cpp:16-22, the constructor: the heap and `m_values`. -/
def construct (h : Heap α) (nx ny na : Nat) : Option (Heap α × Nat) := do
  let (h, p) := alloc h nx
  let h ← (List.range nx).foldlM (fun h i => do
    let (h, q) := alloc h ny
    let h ← store h p i (.ptr q)
    (List.range ny).foldlM (fun h j => do
      let (h, r) := alloc h na
      let q ← loadPtr h p i
      store h q j (.ptr r)) h) h
  return (h, p)

/-- heuristics.cpp:64-72, the loops of `Build` that fill the table with `f i j k`. -/
def fill (h : Heap α) (p nx ny na : Nat) (f : Nat → Nat → Nat → α) : Option (Heap α) :=
  (List.range nx).foldlM (fun h i =>
    (List.range ny).foldlM (fun h j =>
      (List.range na).foldlM (fun h k => do
        let q ← loadPtr h p i
        let r ← loadPtr h q j
        store h r k (.val (f i j k))) h) h) h

/-- heuristics.cpp:89, `m_values[i][j][k]`; reading an uninitialised number is undefined. -/
def lookup (h : Heap α) (p i j k : Nat) : Option α := do
  let q ← loadPtr h p i
  let r ← loadPtr h q j
  match ← load h r k with
  | .val a => some a
  | _ => none

/-- heuristics.cpp:25-34, the destructor. -/
def destroy (h : Heap α) (p nx ny : Nat) : Option (Heap α) := do
  let h ← (List.range nx).foldlM (fun h i => do
    let h ← (List.range ny).foldlM (fun h j => do
      let q ← loadPtr h p i
      let r ← loadPtr h q j
      free h r) h
    let q ← loadPtr h p i
    free h q) h
  free h p

/-- The objects of a program: the parameters and `m_values` of each heuristic, `none` once it is destroyed. -/
structure Objects where
  heap : Heap (Option ℝ)
  tables : List (Option (NonHolo × Nat))

/-- heuristics.cpp:36-74, `Build`. -/
noncomputable def build (m : Objects) (h : NonHolo) : Option Objects := do
  let (heap, p) ← construct m.heap h.numSpatialX h.numSpatialY h.numAngular
  let heap ← fill heap p h.numSpatialX h.numSpatialY h.numAngular (fun i j k => h.entry i j k)
  return ⟨heap, m.tables ++ [some (h, p)]⟩

/-- heuristics.h:9-33: the implicit copy constructor copies the pointer. -/
def copy (m : Objects) (n : Nat) : Option Objects :=
  match m.tables[n]? with
  | some (some t) => some ⟨m.heap, m.tables ++ [some t]⟩
  | _ => none

/-- heuristics.cpp:25-34: the end of an object (of the last reference to it). -/
def release (m : Objects) (n : Nat) : Option Objects :=
  match m.tables[n]? with
  | some (some (h, p)) => do
    let heap ← destroy m.heap p h.numSpatialX h.numSpatialY
    return ⟨heap, m.tables.set n none⟩
  | _ => some m

/-- What a program does with these objects. -/
inductive Op where
  | build (h : NonHolo)
  | release (n : Nat)

/-- One step. -/
noncomputable def step (m : Objects) : Op → Option Objects
  | .build h => HoloMem.build m h
  | .release n => HoloMem.release m n

/-- A program that starts without objects. -/
noncomputable def run (ops : List Op) : Option Objects :=
  ops.foldlM step ⟨⟨0, fun _ => none⟩, []⟩

end HoloMem
end PathPlanning
