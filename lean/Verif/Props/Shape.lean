import Verif.Model.OccMap
import Verif.Props.Raster
import Mathlib.Tactic.Linarith
import Mathlib.Tactic.FieldSimp
import Mathlib.Tactic.LinearCombination
import Mathlib.Analysis.SpecialFunctions.Trigonometric.Bounds

/-!
# C33: rasterised polygons
-/

namespace PathPlanning
open Spec Raster

/-- The cell in which a vertex of an obstacle falls. -/
noncomputable def vertexCell (m : OccMap) (pose : PoseR) (v : Pt) : Cell :=
  m.worldPositionToGridCell (Shape.place pose v) false

/-- The size of the map as seen by the grid specification (the occupancy plays no role here). -/
def OccMap.size (m : OccMap) : GridMap := ⟨m.rows, m.columns, fun _ => false⟩

/-- `L` is a closed chain: it starts and ends in `a` and advances by king moves (or stays). -/
structure ClosedChain (a : Cell) (L : List Cell) : Prop where
  first : L.head? = some a
  last : L.getLast? = some a
  step : L.IsChain (fun u v => chebyshev u v ≤ 1)

/-- The edges of the closed polygon with these corners. -/
def closedEdges {α : Type} : List α → List (α × α)
  | [] => []
  | v :: vs => (v :: vs).zip (vs ++ [v])

private theorem edgeLoop_aux (m : OccMap) (v : Pt) (vs : List Pt) :
    ∀ (j k : Nat), k + j = (v :: vs).length → 
      Shape.edgeLoop m (v :: vs) (List.range' k j) =
        some ((((v :: vs).drop k).zip ((vs ++ [v]).drop k)).flatMap
          fun e => Shape.rasterizeLine m e.1 e.2) := by
  intro j
  induction j with
  | zero =>
    intro k hk
    have h1 : (v :: vs).drop k = [] := List.drop_eq_nil_of_le (by omega)
    rw [h1]; rfl
  | succ j ih =>
    intro k hk
    rw [List.range'_succ, Shape.edgeLoop, ih (k + 1) (by omega)]
    have hlt : k < (v :: vs).length := by omega
    have hlt2 : k < (vs ++ [v]).length := by simp at hk ⊢; omega
    have e1 : (v :: vs)[k % (v :: vs).length]? = some ((v :: vs)[k]'hlt) := by
      rw [Nat.mod_eq_of_lt hlt, List.getElem?_eq_getElem hlt]
    have e2 : (v :: vs)[(k + 1) % (v :: vs).length]? = some ((vs ++ [v])[k]'hlt2) := by
      by_cases hk2 : k + 1 < (v :: vs).length
      · rw [Nat.mod_eq_of_lt hk2, List.getElem?_eq_getElem hk2]
        have : k < vs.length := by simpa using hk2
        simp [List.getElem_append_left this]
      · have he : k + 1 = (v :: vs).length := by omega
        rw [he, Nat.mod_self]
        have : k = vs.length := by simpa using he
        subst this
        simp
    rw [e1, e2, List.drop_eq_getElem_cons hlt, List.drop_eq_getElem_cons hlt2,
      List.zip_cons_cons, List.flatMap_cons]
    rfl

theorem edgeLoop_eq (m : OccMap) (vs : List Pt) :
    Shape.edgeLoop m vs (List.range vs.length) =
      some ((closedEdges vs).flatMap fun e => Shape.rasterizeLine m e.1 e.2) := by
  cases vs with
  | nil => rfl
  | cons v vs =>
    rw [List.range_eq_range', edgeLoop_aux m v vs _ 0 (by simp)]
    rfl

private theorem chebyshev_symm (a b : Cell) : chebyshev a b = chebyshev b a := by
  unfold chebyshev
  rw [abs_sub_comm a.row, abs_sub_comm a.col]

private theorem chebyshev_self (a : Cell) : chebyshev a a = 0 := by simp [chebyshev]

/-- One edge, walked from its first to its second end. -/
private theorem edge_chain (m : GridMap) (a b : Cell) (ha : Inside m a) (hb : Inside m b) :
    ∃ L : List Cell, L.head? = some a ∧ L.getLast? = some b ∧ L.IsChain (fun u v => chebyshev u v ≤ 1) ∧
      ∀ c, c ∈ L ↔ c ∈ rasterCells m.rows m.columns a b := by
  rcases C32_line_inside_map m a b ha hb with h | h
  · exact ⟨_, h.first, h.last, h.step.imp (fun _ _ h => le_of_eq h), fun c => Iff.rfl⟩
  · refine ⟨(rasterCells m.rows m.columns a b).reverse, ?_, ?_, ?_, fun c => List.mem_reverse⟩
    · rw [List.head?_reverse]; exact h.last
    · rw [List.getLast?_reverse]; exact h.first
    · rw [List.isChain_reverse]
      exact h.step.imp (fun u v h => by rw [chebyshev_symm]; exact le_of_eq h)

/-- A sequence of edges, walked from the first to the last corner. -/
private theorem polyline_chain (m : GridMap) : ∀ (l : List Cell) (a b : Cell), Inside m a →
    (∀ c ∈ l, Inside m c) → Inside m b →
    ∃ L : List Cell, L.head? = some a ∧ L.getLast? = some b ∧ L.IsChain (fun u v => chebyshev u v ≤ 1) ∧
      ∀ c, c ∈ L ↔ ∃ e ∈ (a :: l).zip (l ++ [b]), c ∈ rasterCells m.rows m.columns e.1 e.2 := by
  intro l
  induction l with
  | nil =>
    intro a b ha _ hb
    obtain ⟨L, h1, h2, h3, h4⟩ := edge_chain m a b ha hb
    exact ⟨L, h1, h2, h3, fun c => by rw [h4]; simp⟩
  | cons x l ih =>
    intro a b ha hl hb
    have hx := hl x (List.mem_cons_self ..)
    obtain ⟨L1, h1, h2, h3, h4⟩ := edge_chain m a x ha hx
    obtain ⟨L2, k1, k2, k3, k4⟩ := ih x b hx (fun c hc => hl c (List.mem_cons_of_mem _ hc)) hb
    refine ⟨L1 ++ L2, ?_, ?_, ?_, ?_⟩
    · rw [List.head?_append, h1]; rfl
    · rw [List.getLast?_append, k2]; rfl
    · rw [List.isChain_append]
      refine ⟨h3, k3, ?_⟩
      intro u hu v hv
      rw [h2] at hu; rw [k1] at hv
      cases hu; cases hv
      rw [chebyshev_self]; decide
    · intro c
      rw [List.mem_append, h4, k4]
      simp only [List.cons_append, List.zip_cons_cons, List.mem_cons, exists_eq_or_imp]

/-- C33. For a polygon obstacle whose corners all lie in cells of the map, in any pose, the
rasterised boundary contains the cell of every corner, all its cells are inside the map, and they
are exactly the cells of a closed chain of king moves through the first corner. -/
theorem C33_polygon_boundary_closed (m : OccMap) (pose : PoseR) (v : Pt) (vs : List Pt)
    (hin : ∀ u ∈ v :: vs, Inside m.size (vertexCell m pose u)) :
    ∃ cells, Shape.gridCells m pose (.polygon (v :: vs)) = some cells ∧
      (∀ u ∈ v :: vs, vertexCell m pose u ∈ cells) ∧ (∀ c ∈ cells, Inside m.size c) ∧
      ∃ L, ClosedChain (vertexCell m pose v) L ∧ ∀ c, c ∈ L ↔ c ∈ cells := by
  have hg : Shape.gridCells m pose (.polygon (v :: vs)) =
      some ((closedEdges ((v :: vs).map (Shape.place pose))).flatMap
        fun e => Shape.rasterizeLine m e.1 e.2) := by
    rw [Shape.gridCells]
    have := edgeLoop_eq m ((v :: vs).map (Shape.place pose))
    rw [List.length_map] at this
    exact this
  refine ⟨_, hg, ?_, ?_, ?_⟩
  · intro u hu
    rw [List.mem_flatMap]
    obtain ⟨i, hi, hui⟩ := List.getElem_of_mem hu
    have hi2 : i < vs.length + 1 := by simpa using hi
    have hi1 : i < (closedEdges ((v :: vs).map (Shape.place pose))).length := by
      simpa [closedEdges] using hi2
    refine ⟨(closedEdges ((v :: vs).map (Shape.place pose)))[i], List.getElem_mem hi1, ?_⟩
    have hfst : ((closedEdges ((v :: vs).map (Shape.place pose)))[i]).1 = Shape.place pose u := by
      simp only [List.map_cons, closedEdges, List.getElem_zip]
      rw [← hui, ← List.getElem_map (Shape.place pose)]
      · simp only [List.map_cons]
      · simpa using hi2
    unfold Shape.rasterizeLine
    rw [hfst]
    exact (C32_line_cells_inside m.size _ _).2.1 (hin u hu)
  · intro c hc
    rw [List.mem_flatMap] at hc
    obtain ⟨e, _, hce⟩ := hc
    exact (C32_line_cells_inside m.size _ _).1 c hce
  · obtain ⟨L, h1, h2, h3, h4⟩ := polyline_chain m.size (vs.map (vertexCell m pose))
      (vertexCell m pose v) (vertexCell m pose v) (hin v (List.mem_cons_self ..))
      (by
        intro c hc
        obtain ⟨u, hu, rfl⟩ := List.mem_map.mp hc
        exact hin u (List.mem_cons_of_mem _ hu)) (hin v (List.mem_cons_self ..))
    refine ⟨L, ⟨h1, h2, h3⟩, fun c => ?_⟩
    rw [h4, List.mem_flatMap]
    have hz : (vertexCell m pose v :: vs.map (vertexCell m pose)).zip
        (vs.map (vertexCell m pose) ++ [vertexCell m pose v]) =
        (closedEdges ((v :: vs).map (Shape.place pose))).map
          (Prod.map (fun p => m.worldPositionToGridCell p false)
            (fun p => m.worldPositionToGridCell p false)) := by
      simp only [List.map_cons, closedEdges]
      rw [← List.zip_map]
      simp [vertexCell, Function.comp_def]
      rfl
    rw [hz]
    simp only [List.mem_map]
    constructor
    · rintro ⟨_, ⟨e, he, rfl⟩, hc⟩; exact ⟨e, he, hc⟩
    · rintro ⟨e, he, hc⟩; exact ⟨_, ⟨e, he, rfl⟩, hc⟩

mutual
theorem gridCells_total (m : OccMap) (pose : PoseR) :
    ∀ s : Shape, (Shape.gridCells m pose s).isSome = true
  | .polygon vertices => by
    rw [Shape.gridCells]
    have := edgeLoop_eq m (vertices.map (Shape.place pose))
    rw [List.length_map] at this
    rw [this]; rfl
  | .composite children => by
    rw [Shape.gridCells]; exact gridCellsList_total m pose children
private theorem gridCellsList_total (m : OccMap) (pose : PoseR) :
    ∀ s : List Shape, (Shape.gridCellsList m pose s).isSome = true
  | [] => rfl
  | c :: cs => by
    rw [Shape.gridCellsList]
    obtain ⟨a, ha⟩ := Option.isSome_iff_exists.mp (gridCells_total m pose c)
    obtain ⟨b, hb⟩ := Option.isSome_iff_exists.mp (gridCellsList_total m pose cs)
    simp [ha, hb]
end

/-- C33. A composite shape covers exactly the cells of its children; rasterising a shape never
accesses a vertex out of range. -/
theorem C33_composite_is_union (m : OccMap) (pose : PoseR) (children : List Shape) :
    ∃ cells, Shape.gridCells m pose (.composite children) = some cells ∧
      ∀ c, c ∈ cells ↔ ∃ s ∈ children, ∃ l, Shape.gridCells m pose s = some l ∧ c ∈ l := by
  rw [Shape.gridCells]
  induction children with
  | nil => exact ⟨[], rfl, by simp⟩
  | cons s ss ih =>
    obtain ⟨cells, h1, h2⟩ := ih
    obtain ⟨a, ha⟩ := Option.isSome_iff_exists.mp (gridCells_total m pose s)
    refine ⟨a ++ cells, by rw [Shape.gridCellsList, ha, h1]; rfl, ?_⟩
    intro c
    rw [List.mem_append, h2]
    simp only [List.mem_cons, exists_eq_or_imp, ha, Option.some.injEq, exists_eq_left']

/-- A triangle inside a 10 × 10 map. -/
example : ∀ u ∈ [(⟨1, 1⟩ : Pt), ⟨5, 2⟩, ⟨3, 6⟩],
    Inside (OccMap.size ⟨1, 10, 10, ⟨0, 0⟩, ⟨0, 0⟩, ⟨0, 0⟩⟩)
      (vertexCell ⟨1, 10, 10, ⟨0, 0⟩, ⟨0, 0⟩, ⟨0, 0⟩⟩ ⟨⟨0, 0⟩, 0⟩ u) := by
  intro u hu
  simp only [List.mem_cons, List.not_mem_nil, or_false] at hu
  rcases hu with rfl | rfl | rfl <;>
    simp [vertexCell, Shape.place, OccMap.worldPositionToGridCell, OccMap.gridPositionToGridCell,
      Inside, OccMap.size, truncInt] <;> norm_num

end PathPlanning
