/-!
# Model of the storage of `Grid<T>` (planner/src/utils/grid.h:64-99)

`int` overflow of `rows * columns`: see `Verif.Model.MapInt`.
-/

namespace PathPlanning

/-- grid.h:95-98 -/
structure GridStore (T : Type) where
  rows : Int
  columns : Int
  data : List T

namespace GridStore
variable {T : Type}

/-- grid.h:66-77, the constructor; `none` is the exception. -/
def new (rows columns : Int) (val : T) : Option (GridStore T) :=
  if !(decide (rows > 0) && decide (columns > 0)) then none
  else some ⟨rows, columns, List.replicate (rows * columns).toNat val⟩

/-- grid.h:87, the offset of `grid[i][j]` in the array. -/
def offset (g : GridStore T) (i j : Int) : Int := i * g.columns + j

/-- Reading `grid[i][j]`; `none` is an access outside the array. -/
def get (g : GridStore T) (i j : Int) : Option T :=
  if g.offset i j < 0 then none else g.data[(g.offset i j).toNat]?

/-- `grid[i][j] = v`; `none` is an access outside the array. -/
def set (g : GridStore T) (i j : Int) (v : T) : Option (GridStore T) :=
  if g.offset i j < 0 ∨ g.data.length ≤ (g.offset i j).toNat then none
  else some { g with data := g.data.set (g.offset i j).toNat v }

/-- A sequence of writes. -/
def writes (g : GridStore T) (l : List (Int × Int × T)) : Option (GridStore T) :=
  l.foldlM (fun g w => g.set w.1 w.2.1 w.2.2) g

end GridStore
end PathPlanning
