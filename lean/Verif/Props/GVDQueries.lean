import Verif.Model.GVDQueries
import Verif.Props.GVD
import Verif.Props.ValidatorMore

/-!
# C68: the queries for the path cost and for the Voronoi edges
-/

namespace PathPlanning
open Real Spec Validator

/-- C68: after Update, the path cost of a position is that of its cell: it lies in [0, 1], is 1 exactly on the cells of the
obstacles and 0 exactly on the edges and where the obstacle is at least `dMax` away. -/
theorem C68_path_cost {rows columns : Int} {ops : List ObstDistMap.Op} {occ : Cell → Int} {g g' : GVD}
    (r : ObstDistMap.Run (.new rows columns) ops g.maps) (u : GVD.Update occ g g')
    (hrows : g.map.rows = rows) (hcols : g.map.columns = columns) (hres : 0 < g.map.resolution) (p : Pt) (out : ℝ) :
    (g'.map.isInsidePos p = false → g'.pathCost p out = (false, out)) ∧
    (g'.map.isInsidePos p = true → ∃ x e, g'.pathCost p out = (true, x) ∧ 0 ≤ x ∧ x ≤ 1 ∧
      (x = 1 ↔ g'.map.worldPositionToGridCell p true ∈ obstacles (obstacleCalls ops)) ∧
      g'.maps.edges = some e ∧ (x = 0 ↔
        e.obst (g'.map.worldPositionToGridCell p true) = g'.map.worldPositionToGridCell p true ∨
        GVD.dMax ≤ worldDistance g.map.resolution (g'.maps.core.dist (g'.map.worldPositionToGridCell p true)))) := by
  obtain ⟨k1, k2, k3⟩ := C68_query_result g' g'.cost p out
  refine ⟨fun h => Prod.ext (k1.trans h) (k3 h), fun h => ?_⟩
  have hmap : g'.map = g.map := by
    obtain ⟨-, -, -, -, -, -, -, -, hmap, -⟩ := u.run r
    exact hmap
  have hrect : InRect rows columns (g'.map.worldPositionToGridCell p true) := by
    have := inRect_of_inside h
    rwa [show g'.map.rows = rows by rw [hmap, hrows], show g'.map.columns = columns by rw [hmap, hcols]] at this
  obtain ⟨h1, h2, h3, e, h4, h5⟩ := C40_potential_map r u hres _ hrect
  exact ⟨_, e, Prod.ext (k1.trans h) (k2 h), h1, h2, h3, h4, h5⟩

/-- C68: after Update, a query for the nearest edge from a position in the map reports a cell of the map that is at the
reported distance from the cell of the position (the entry of the map of the edges), or it reports the cell (-1, -1), as
when there are no edges. -/
theorem C68_nearest_edge_at_reported_distance_partial {rows columns : Int} {ops : List ObstDistMap.Op}
    {occ : Cell → Int} {g g' : GVD}
    (r : ObstDistMap.Run (.new rows columns) ops g.maps) (u : GVD.Update occ g g')
    (hrows : g.map.rows = rows) (hcols : g.map.columns = columns) (hres : 0 ≤ g.map.resolution) (p out : Pt) (d0 : ℝ) :
    (g'.map.isInsidePos p = false →
      g'.nearestEdgePosition p out = some (false, out) ∧ g'.distanceToEdge p d0 = some (false, d0)) ∧
    (g'.map.isInsidePos p = true → ∃ (o : Cell) (d : ℝ) (e : DistMap), g'.maps.edges = some e ∧
      o = e.obst (g'.map.worldPositionToGridCell p true) ∧
      g'.nearestEdgePosition p out = some (true, g'.map.gridCellToWorldPosition o) ∧
      g'.distanceToEdge p d0 = some (true, d) ∧ (o = Cell.invalid ∨ InRect rows columns o ∧
        d = euclid (g'.map.gridCellToWorldPosition o)
          (g'.map.gridCellToWorldPosition (g'.map.worldPositionToGridCell p true)))) := by
  obtain ⟨m1, r1, hcore, e1, e2, he1, he2, u2, hmap, -⟩ := u.run r
  obtain ⟨hr, hedge⟩ := C34_linked_maps r1
  obtain ⟨eops, re⟩ := hedge e1 he1
  have re2 : DistMap.Run (.new rows columns) (eops ++ [.update]) e2 := re.append (.cons (.update u2) .nil)
  obtain ⟨k1, k2, k3⟩ := C68_query_result g' (fun c => g'.map.gridCellToWorldPosition (e2.obst c)) p out
  obtain ⟨l1, l2, l3⟩ := C68_query_result g' (fun c => worldDistance g'.map.resolution (e2.dist c)) p d0
  unfold GVD.nearestEdgePosition GVD.distanceToEdge
  rw [he2]
  refine ⟨fun h => ⟨congrArg some (Prod.ext (k1.trans h) (k3 h)), congrArg some (Prod.ext (l1.trans h) (l3 h))⟩, fun h => ?_⟩
  obtain ⟨cell, hcell⟩ : ∃ cell, cell = g'.map.worldPositionToGridCell p true := ⟨_, rfl⟩
  have hrect : InRect rows columns cell := by
    have := inRect_of_inside h
    rwa [show g'.map.rows = rows by rw [hmap, hrows], show g'.map.columns = columns by rw [hmap, hcols], ← hcell] at this
  refine ⟨_, _, e2, rfl, rfl, congrArg some (Prod.ext (k1.trans h) (k2 h)), congrArg some (Prod.ext (l1.trans h) (l2 h)), ?_⟩
  rw [← hcell]
  rcases C34_distance_of_reported_obstacle re2 cell hrect with ⟨h1, -⟩ | ⟨h1, d, h2, h3⟩
  · exact .inl h1
  · refine .inr ⟨h1, ?_⟩
    show worldDistance g'.map.resolution (e2.dist cell) = _
    rw [h2]
    show √(((d : Int) : Int) : ℝ) * g'.map.resolution = _
    have hres' : 0 ≤ g'.map.resolution := by rw [hmap]; exact hres
    rw [h3, ← Real.sqrt_sq hres', ← Real.sqrt_mul' _ (sq_nonneg _)]
    unfold euclid
    congr 1
    unfold sqDist OccMap.gridCellToWorldPosition OccMap.gridCellToGridPosition
    simp only [Pt.add_x, Pt.add_y]
    push_cast
    ring

/-- Non-vacuity: a diagram with two obstacles on a 4 × 5 map, updated, with a position in the map and one outside. -/
example : ∃ (g g' : GVD) (ops : List ObstDistMap.Op), ObstDistMap.Run (.new 4 5) ops g.maps ∧
    GVD.Update (fun c => c.row) g g' ∧ g.map.rows = 4 ∧ g.map.columns = 5 ∧ 0 < g.map.resolution ∧
    (∃ c, c ∈ obstacles (obstacleCalls ops)) ∧
    g'.map.isInsidePos ⟨1, 2⟩ = true ∧ g'.map.isInsidePos ⟨9, 2⟩ = false := by
  obtain ⟨g, g', ops, -, h1, ⟨m1, e1, e2, u1, u2, u3, -⟩, -, h4⟩ := GVD.update_example
  refine ⟨⟨⟨1, 4, 5, ⟨0, 0⟩, ⟨0, 0⟩, ⟨0, 0⟩⟩, g.maps, g.cost⟩, _, ops, h1, ⟨m1, e1, e2, u1, u2, u3, rfl⟩, rfl, rfl,
    by norm_num, h4, ?_, ?_⟩
  · refine (C29_inside_exact _ ?_ ?_ ?_ _).mpr ?_ <;> norm_num
  · rw [← Bool.not_eq_true, C29_inside_exact _ (by norm_num) (by norm_num) (by norm_num)]
    norm_num

end PathPlanning
