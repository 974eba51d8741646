import Verif.Props.FloatObstacle
import Verif.Props.ObstacleMap

/-!
# C169: the cells of an obstacle do not depend on how its shape is described
-/

namespace PathPlanning
open Flt Spec Raster

/-- Two descriptions of the same outline: the corners of a polygon may be listed from another one on or backwards, the parts
of a composite shape in another order, repeatedly, or in groups. -/
inductive Spec.SameOutline : Shape → Shape → Prop
  | backwards (vs : List Pt) : SameOutline (.polygon vs) (.polygon vs.reverse)
  | fromAnother (vs ws : List Pt) : SameOutline (.polygon (vs ++ ws)) (.polygon (ws ++ vs))
  | reordered {l k : List Shape} : l.Perm k → SameOutline (.composite l) (.composite k)
  | repeated (s : Shape) (l : List Shape) : SameOutline (.composite (s :: s :: l)) (.composite (s :: l))
  | grouped (l k : List Shape) : SameOutline (.composite (.composite l :: k)) (.composite (l ++ k))
  | alone (s : Shape) : SameOutline (.composite [s]) s
  | part {s t : Shape} (l : List Shape) : SameOutline s t → SameOutline (.composite (s :: l)) (.composite (t :: l))
  | refl (s : Shape) : SameOutline s s
  | symm {s t : Shape} : SameOutline s t → SameOutline t s
  | trans {s t u : Shape} : SameOutline s t → SameOutline t u → SameOutline s u

/-! ## Lines and edges -/

private theorem raster_symm (rows columns : Int) (p q : Cell) : rasterCells rows columns p q = rasterCells rows columns q p := by
  unfold rasterCells
  rw [abs_sub_comm q.col, abs_sub_comm q.row]
  by_cases h : |p.col - q.col| > |p.row - q.row|
  · simp only [h, decide_true, if_true]
    unfold orderEnds
    rcases lt_trichotomy p.col q.col with g | g | g
    · rw [if_neg (by omega), if_pos (by omega)]
    · rw [g, sub_self, abs_zero] at h
      exact absurd h (not_lt.2 (abs_nonneg _))
    · rw [if_pos (by omega), if_neg (by omega)]
  · simp only [h, decide_false, Bool.false_eq_true, if_false]
    unfold orderEnds
    rcases lt_trichotomy p.row q.row with g | g | g
    · rw [if_neg (by omega), if_pos (by omega)]
    · rw [g, sub_self, abs_zero, not_lt] at h
      have := abs_nonpos_iff.1 h
      rw [g, show p.col = q.col by omega]
    · rw [if_pos (by omega), if_neg (by omega)]

section
variable {α : Type}

/-- The steps of a list. -/
private def steps (l : List α) : List (α × α) := l.zip l.tail

private theorem steps_append (l : List α) (x : α) (r : List α) :
    steps (l ++ x :: r) = steps (l ++ [x]) ++ steps (x :: r) := by
  induction l with
  | nil => rfl
  | cons a l ih =>
    cases l with
    | nil => rfl
    | cons b l =>
      show (a, b) :: steps (b :: l ++ x :: r) = (a, b) :: (steps (b :: l ++ [x]) ++ steps (x :: r))
      rw [ih]

private theorem steps_reverse (l : List α) (a b : α) : (a, b) ∈ steps l.reverse ↔ (b, a) ∈ steps l := by
  induction l with
  | nil => exact iff_of_false (List.not_mem_nil) (List.not_mem_nil)
  | cons x l ih =>
    cases l with
    | nil => simp [steps]
    | cons y l =>
      rw [List.reverse_cons, List.reverse_cons, List.append_assoc]
      show _ ∈ steps (l.reverse ++ y :: [x]) ↔ _
      rw [steps_append, List.mem_append, ← List.reverse_cons, ih]
      show _ ↔ (b, a) ∈ (x, y) :: steps (y :: l)
      rw [List.mem_cons]
      show (_ ∨ (a, b) ∈ [(y, x)]) ↔ _
      simp only [List.mem_singleton, Prod.mk.injEq]
      tauto

private theorem closed_steps (v : α) (vs : List α) : closedEdges (v :: vs) = steps (v :: vs ++ [v]) := by
  show (v :: vs).zip (vs ++ [v]) = (v :: vs ++ [v]).zip (vs ++ [v])
  have h : ∀ (l r k : List α), l.length = k.length → l.zip k = (l ++ r).zip k := by
    intro l
    induction l with
    | nil => intro r k h; rw [List.length_eq_zero_iff.1 h.symm]; simp
    | cons a l ih =>
      intro r k h
      cases k with
      | nil => simp at h
      | cons b k => rw [List.cons_append, List.zip_cons_cons, List.zip_cons_cons, ih r k (by simpa using h)]
  exact h _ _ _ (by simp)

private theorem closed_rotate (vs ws : List α) (e : α × α) : e ∈ closedEdges (vs ++ ws) ↔ e ∈ closedEdges (ws ++ vs) := by
  cases vs with
  | nil => simp
  | cons v vs =>
    cases ws with
    | nil => simp
    | cons w ws =>
      rw [List.cons_append, List.cons_append, closed_steps, closed_steps]
      rw [show v :: (vs ++ w :: ws) ++ [v] = (v :: vs) ++ w :: (ws ++ [v]) by simp,
        show w :: (ws ++ v :: vs) ++ [w] = (w :: ws) ++ v :: (vs ++ [w]) by simp, steps_append (v :: vs),
        steps_append (w :: ws), List.mem_append, List.mem_append, or_comm]
      rfl

private theorem closed_reverse (vs : List α) (a b : α) : (a, b) ∈ closedEdges vs.reverse ↔ (b, a) ∈ closedEdges vs := by
  cases vs with
  | nil => exact iff_of_false (List.not_mem_nil) (List.not_mem_nil)
  | cons v vs =>
    rw [List.reverse_cons, closed_rotate, List.singleton_append, closed_steps, closed_steps, ← steps_reverse]
    simp

private theorem closed_map {β : Type} (f : α → β) (vs : List α) :
    closedEdges (vs.map f) = (closedEdges vs).map (Prod.map f f) := by
  cases vs with
  | nil => rfl
  | cons v vs => simp [closedEdges, ← List.zip_map]

end

/-! ## Covered cells -/

/-- The cell belongs to a line of the shape. -/
private inductive Covered (L : Pt → Pt → List Cell) : Shape → Cell → Prop
  | edge {vs : List Pt} {a b : Pt} {c : Cell} : (a, b) ∈ closedEdges vs → c ∈ L a b → Covered L (.polygon vs) c
  | part {children : List Shape} {s : Shape} {c : Cell} : s ∈ children → Covered L s c → Covered L (.composite children) c

section
variable {L : Pt → Pt → List Cell}

private theorem covered_polygon (vs : List Pt) (c : Cell) :
    Covered L (.polygon vs) c ↔ ∃ a b, (a, b) ∈ closedEdges vs ∧ c ∈ L a b :=
  ⟨fun h => by cases h with | edge h g => exact ⟨_, _, h, g⟩, fun ⟨_, _, h, g⟩ => .edge h g⟩

private theorem covered_composite (l : List Shape) (c : Cell) :
    Covered L (.composite l) c ↔ ∃ s ∈ l, Covered L s c :=
  ⟨fun h => by cases h with | part h g => exact ⟨_, h, g⟩, fun ⟨_, h, g⟩ => .part h g⟩

private theorem covered_same (hL : ∀ a b, L a b = L b a) {s t : Shape} (h : SameOutline s t) (c : Cell) :
    Covered L s c ↔ Covered L t c := by
  induction h with
  | backwards vs =>
    rw [covered_polygon, covered_polygon]
    exact ⟨fun ⟨a, b, h, g⟩ => ⟨b, a, (closed_reverse vs b a).2 h, by rwa [hL]⟩,
      fun ⟨a, b, h, g⟩ => ⟨b, a, (closed_reverse vs a b).1 h, by rwa [hL]⟩⟩
  | fromAnother vs ws =>
    rw [covered_polygon, covered_polygon]
    exact ⟨fun ⟨a, b, h, g⟩ => ⟨a, b, (closed_rotate vs ws _).1 h, g⟩,
      fun ⟨a, b, h, g⟩ => ⟨a, b, (closed_rotate vs ws _).2 h, g⟩⟩
  | reordered h =>
    rw [covered_composite, covered_composite]
    exact ⟨fun ⟨s, h1, g⟩ => ⟨s, h.subset h1, g⟩, fun ⟨s, h1, g⟩ => ⟨s, h.symm.subset h1, g⟩⟩
  | repeated s l =>
    rw [covered_composite, covered_composite]
    simp
  | grouped l k =>
    rw [covered_composite, covered_composite]
    simp only [List.mem_cons, List.mem_append, or_and_right, exists_or, exists_eq_left, covered_composite]
  | alone s =>
    rw [covered_composite]
    simp
  | part l h ih =>
    rw [covered_composite, covered_composite]
    simp only [List.mem_cons, exists_eq_or_imp, ih]
  | refl s => rfl
  | symm h ih => exact ih.symm
  | trans h h' ih ih' => exact ih.trans ih'

end

private theorem cells_covered (m : OccMap) (pose : PoseR) (s : Shape) :
    ∃ cells, s.gridCells m pose = some cells ∧ ∀ c, c ∈ cells ↔
      Covered (fun a b => Shape.rasterizeLine m (Shape.place pose a) (Shape.place pose b)) s c := by
  induction s using Shape.rec (motive_2 := fun l => ∃ cells, Shape.gridCellsList m pose l = some cells ∧ ∀ c, c ∈ cells ↔
      ∃ s ∈ l, Covered (fun a b => Shape.rasterizeLine m (Shape.place pose a) (Shape.place pose b)) s c) with
  | polygon vs =>
    have h := edgeLoop_eq m (vs.map (Shape.place pose))
    rw [List.length_map] at h
    refine ⟨_, by rw [Shape.gridCells]; exact h, fun c => ?_⟩
    rw [covered_polygon, closed_map]
    simp [List.mem_flatMap]
  | composite l ih =>
    obtain ⟨cells, h, g⟩ := ih
    exact ⟨cells, by rw [Shape.gridCells]; exact h, fun c => by rw [g, covered_composite]⟩
  | nil => exact ⟨[], rfl, by simp⟩
  | cons s l ih ih' =>
    obtain ⟨a, ha, ga⟩ := ih
    obtain ⟨b, hb, gb⟩ := ih'
    refine ⟨a ++ b, by rw [Shape.gridCellsList, ha, hb]; rfl, fun c => ?_⟩
    rw [List.mem_append, ga, gb]
    simp

private theorem cells_coveredF (lm : Libm) (m : OccMap) (pose : PoseR) (s : Shape) :
    ∃ cells, s.gridCellsF lm m pose = some cells ∧ ∀ c, c ∈ cells ↔
      Covered (fun a b => Shape.rasterizeLineF m (Shape.placeF lm pose a) (Shape.placeF lm pose b)) s c := by
  induction s using Shape.rec (motive_2 := fun l => ∃ cells, Shape.gridCellsListF lm m pose l = some cells ∧ ∀ c, c ∈ cells ↔
      ∃ s ∈ l, Covered (fun a b => Shape.rasterizeLineF m (Shape.placeF lm pose a) (Shape.placeF lm pose b)) s c) with
  | polygon vs =>
    refine ⟨_, gridCellsF_polygon lm m pose vs, fun c => ?_⟩
    rw [covered_polygon, closed_map]
    simp [List.mem_flatMap]
  | composite l ih =>
    obtain ⟨cells, h, g⟩ := ih
    exact ⟨cells, by rw [Shape.gridCellsF]; exact h, fun c => by rw [g, covered_composite]⟩
  | nil => exact ⟨[], rfl, by simp⟩
  | cons s l ih ih' =>
    obtain ⟨a, ha, ga⟩ := ih
    obtain ⟨b, hb, gb⟩ := ih'
    refine ⟨a ++ b, by rw [Shape.gridCellsListF, ha, hb]; rfl, fun c => ?_⟩
    rw [List.mem_append, ga, gb]
    simp

/-- C169. Two descriptions of the same outline, at the same pose on the same map, give the same cells. -/
theorem C169_same_cells (m : OccMap) (pose : PoseR) (s t : Shape) (h : SameOutline s t) :
    ∃ l k, s.gridCells m pose = some l ∧ t.gridCells m pose = some k ∧ ∀ c, c ∈ l ↔ c ∈ k := by
  obtain ⟨l, hl, gl⟩ := cells_covered m pose s
  obtain ⟨k, hk, gk⟩ := cells_covered m pose t
  exact ⟨l, k, hl, hk, fun c => by rw [gl, gk]; exact covered_same (fun a b => raster_symm _ _ _ _) h c⟩

/-- C169 with the arithmetic of the program: the cells are the same in spite of rounding, whatever the mathematical library. -/
theorem C169_same_cells_double (lm : Libm) (m : OccMap) (pose : PoseR) (s t : Shape) (h : SameOutline s t) :
    ∃ l k, s.gridCellsF lm m pose = some l ∧ t.gridCellsF lm m pose = some k ∧ ∀ c, c ∈ l ↔ c ∈ k := by
  obtain ⟨l, hl, gl⟩ := cells_coveredF lm m pose s
  obtain ⟨k, hk, gk⟩ := cells_coveredF lm m pose t
  exact ⟨l, k, hl, hk, fun c => by rw [gl, gk]; exact covered_same (fun a b => raster_symm _ _ _ _) h c⟩

private theorem foldl_write (v : Int) (l : List Cell) : ∀ (f : Cell → Int) (c : Cell),
    l.foldl (fun f c => ObsMap.write f c v) f c = if c ∈ l then v else f c := by
  induction l with
  | nil => intro f c; simp
  | cons a l ih =>
    intro f c
    rw [List.foldl_cons, ih]
    unfold ObsMap.write
    by_cases h : c ∈ l
    · simp [h]
    · by_cases g : c = a <;> simp [h, g]

/-- C169. Whatever the history of the map, adding (and removing) an obstacle has the same effect on the occupancy of every
cell, and on the identifiers, for the two descriptions. -/
theorem C169_same_occupancy (lm : Libm) (m : OccMap) (pose : PoseR) (s t : Shape) (h : SameOutline s t) (o : ObsMap)
    (i : Nat) {l k : List Cell} (hl : s.gridCellsF lm m pose = some l) (hk : t.gridCellsF lm m pose = some k) (c : Cell) :
    (((o.moveObstacle i l).addObstacle i).map fun r => (r.1.getOccupancyValue c, r.1.obstacles, r.2)) =
      (((o.moveObstacle i k).addObstacle i).map fun r => (r.1.getOccupancyValue c, r.1.obstacles, r.2)) ∧
    (((o.moveObstacle i l).removeObstacle i).map fun r => (r.1.getOccupancyValue c, r.1.obstacles, r.2)) =
      (((o.moveObstacle i k).removeObstacle i).map fun r => (r.1.getOccupancyValue c, r.1.obstacles, r.2)) := by
  obtain ⟨l', k', hl', hk', g⟩ := C169_same_cells_double lm m pose s t h
  rw [hl] at hl'
  rw [hk] at hk'
  cases hl'
  cases hk'
  unfold ObsMap.addObstacle ObsMap.removeObstacle ObsMap.moveObstacle ObsMap.getOccupancyValue
  dsimp only
  cases hm : o.matrix with
  | none => exact ⟨rfl, rfl⟩
  | some f =>
    dsimp only
    constructor
    · split
      · rfl
      · simp only [Option.map_some, if_true, foldl_write, g]
    · split
      · rfl
      · simp only [Option.map_some, if_true, foldl_write, g]

/-- A rectangle, listed from another corner on and backwards, next to a triangle: two descriptions of one outline. -/
example (a b c d e f g : Pt) : SameOutline (.composite [.polygon [a, b, c, d], .polygon [e, f, g]])
    (.composite [.polygon [e, f, g], .composite [.polygon [b, a, d, c]]]) :=
  .trans (.part [.polygon [e, f, g]] (.trans (.backwards [a, b, c, d]) (.fromAnother [d, c] [b, a])))
    (.trans (.part _ (.symm (.alone _))) (.reordered (List.Perm.swap _ _ _)))

/-- The line between two cells is the same in both directions, also where it passes exactly between two cells. -/
example : rasterCells 9 9 ⟨0, 0⟩ ⟨2, 1⟩ = [⟨0, 0⟩, ⟨1, 0⟩, ⟨2, 1⟩] ∧ rasterCells 9 9 ⟨2, 1⟩ ⟨0, 0⟩ = [⟨0, 0⟩, ⟨1, 0⟩, ⟨2, 1⟩] := by
  decide

end PathPlanning
