import Verif.Model.GVD
import Verif.Model.ObstHeuristic
import Verif.Model.ReedsShepp

/-!
# Model of the images written by `GVD::Visualize` and `ObstaclesHeuristic::Visualize`
(planner/src/state_validator/gvd.cpp:350-428, planner/src/algo/heuristics.cpp:167-206)

The file is the text of the header and the list of the bytes that follow. Opening the file is not modelled; `float` is `ℝ`.
-/

namespace PathPlanning

/-- Contents of the file. -/
structure ImageFile where
  header : String
  data : List Nat

/-- gvd.cpp:396-397, heuristics.cpp:184-185, the two `fprintf`. -/
def imageHeader (sizeX sizeY : Nat) : String :=
  "P6\n#\n" ++ (toString sizeX ++ " " ++ toString sizeY ++ "\n255\n")

/-- gvd.cpp:398-399, heuristics.cpp:186-187, the order in which the loops visit the cells. -/
def imageCells (sizeX sizeY : Nat) : List Cell :=
  (List.range sizeY).reverse.flatMap fun (y : Nat) => (List.range sizeX).map fun (x : Nat) => ⟨(x : Int), (y : Int)⟩

/-- `fputc` of an `int` writes the value converted to `unsigned char`. -/
def toByte (v : Int) : Nat := (v % 256).toNat

/-- The three `fputc` of a pixel. -/
def rgb (c : Int × Int × Int) : List Nat := [toByte c.1, toByte c.2.1, toByte c.2.2]

/-- gvd.cpp:350-377, `HSVToRGB`. Simplification: `abs` is the one for floating point numbers, whatever headers are included. -/
noncomputable def hsvToRgb (H S V : ℝ) : Int × Int × Int :=
  let H := H * 360
  let S := S * 100
  let V := V * 100
  let s := S / 100
  let v := V / 100
  let C := s * v
  let X := C * (1 - |fmodR (H / 60) 2 - 1|)
  let m := v - C
  let c : ℝ × ℝ × ℝ :=
    if H ≥ 0 ∧ H < 60 then (C, X, 0)
    else if H ≥ 60 ∧ H < 120 then (X, C, 0)
    else if H ≥ 120 ∧ H < 180 then (0, C, X)
    else if H ≥ 180 ∧ H < 240 then (0, X, C)
    else if H ≥ 240 ∧ H < 300 then (X, 0, C)
    else (C, 0, X)
  (truncInt ((c.1 + m) * 255), truncInt ((c.2.1 + m) * 255), truncInt ((c.2.2 + m) * 255))

namespace GVD

/-- gvd.cpp:389-394, `numObstacles`. -/
def maxOccupancy (occ : Cell → Int) (sizeX sizeY : Nat) : Int :=
  (List.range sizeX).foldl (fun n (x : Nat) => (List.range sizeY).foldl (fun n (y : Nat) => max n (occ ⟨(x : Int), (y : Int)⟩)) n) 0

/-- gvd.cpp:400-424, the pixel of a cell; `occ` is `GetOccupancyValue`. -/
noncomputable def pixel (g : GVD) (occ : Cell → Int) (numObstacles : Int) (c : Cell) : List Nat :=
  if occ c ≥ 0 then rgb (0, 0, 0)
  else if !(g.maps.core.obst c).isValid then rgb (0, 0, 0)
  else
    let h : ℝ := (occ (g.maps.core.obst c) : ℝ) / ((numObstacles + 1 : Int) : ℝ)
    let l : ℝ := max 0 (min (1 - g.cost c) 1)
    rgb (hsvToRgb h 1 l)

/-- gvd.cpp:379-428, `Visualize`. -/
noncomputable def visualize (g : GVD) (occ : Cell → Int) : ImageFile :=
  let sizeX := g.maps.core.rows.toNat
  let sizeY := g.maps.core.columns.toNat
  { header := imageHeader sizeX sizeY
    data := (imageCells sizeX sizeY).flatMap (g.pixel occ (maxOccupancy occ sizeX sizeY)) }

end GVD

namespace HeurTables

/-- heuristics.cpp:177-183, `maxCost`; `⊥` is minus infinity. -/
noncomputable def maxCost (t : HeurTables ℝ) (sizeX sizeY : Nat) : WithBot ℝ :=
  (List.range sizeX).foldl (fun m (x : Nat) => (List.range sizeY).foldl (fun m (y : Nat) =>
    match t.cost ⟨(x : Int), (y : Int)⟩ with
    | ⊤ => m
    | (c : ℝ) => max m c) m) ⊥

/-- heuristics.cpp:188-204, the pixel of a cell. `0 / 0` (a single explored cell) is NaN, which the comparisons of `std::min`
and `std::max` turn into 0, the value of `0 / 0` in `ℝ`. An explored cell has a finite cost (C54). -/
noncomputable def pixel (t : HeurTables ℝ) (maxCost : ℝ) (c : Cell) : List Nat :=
  if !t.explored c then rgb (0, 0, 0)
  else
    let f := (maxCost - (t.cost c).untopD 0) / maxCost * 255
    let f := max 0 (min f 255)
    let v := truncInt f
    rgb (v, v, v)

/-- heuristics.cpp:167-206, `Visualize`. -/
noncomputable def visualize (t : HeurTables ℝ) (sizeX sizeY : Nat) : ImageFile :=
  { header := imageHeader sizeX sizeY
    data := (imageCells sizeX sizeY).flatMap (t.pixel ((t.maxCost sizeX sizeY).unbotD 0)) }

end HeurTables
end PathPlanning
