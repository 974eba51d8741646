import Verif.Model.Obstacle
import Verif.Props.ShapeNear

/-!
# C108: where an obstacle says it is
-/

namespace PathPlanning
open Spec Obstacle

/-- The shape set last. -/
def Spec.lastShape : List Obstacle.Op → Option Shape
  | [] => none
  | op :: ops =>
    if ops.any (fun | .setShape _ => true | .setPose _ => false) then lastShape ops
    else match op with
      | .setShape s => s
      | .setPose _ => none

/-- The pose set last. -/
def Spec.lastPose : List Obstacle.Op → Option PoseR
  | [] => none
  | op :: ops => match lastPose ops, op with
    | some p, _ => some p
    | none, .setPose p => some p
    | none, .setShape _ => none

theorem after_shape (ops : List Obstacle.Op) : ∀ o : Obstacle, (o.after ops).shape =
    if ops.any (fun | .setShape _ => true | .setPose _ => false) then lastShape ops else o.shape := by
  induction ops with
  | nil => intro o; rfl
  | cons op ops ih =>
    intro o
    show ((o.call op).after ops).shape = _
    rw [ih]
    cases op with
    | setShape s => simp [lastShape, Obstacle.call, setShape]
    | setPose p =>
      simp only [lastShape, Obstacle.call, setPose, List.any_cons, Bool.false_or]
      split <;> rfl

theorem after_pose (ops : List Obstacle.Op) : ∀ o : Obstacle, (o.after ops).pose = (lastPose ops).getD o.pose := by
  induction ops with
  | nil => intro o; rfl
  | cons op ops ih =>
    intro o
    show ((o.call op).after ops).pose = _
    rw [ih]
    cases h : lastPose ops with
    | some p => simp [lastPose, h]
    | none => cases op <;> simp [lastPose, h, Obstacle.call, setShape, setPose]

theorem lastShape_none (ops : List Obstacle.Op)
    (h : ops.any (fun | .setShape _ => true | .setPose _ => false) = false) : lastShape ops = none := by
  cases ops with
  | nil => rfl
  | cons op ops =>
    rw [List.any_cons, Bool.or_eq_false_iff] at h
    cases op with
    | setShape s => cases h.1
    | setPose p => simp [lastShape, h.2]

theorem new_after (junk : Pt) (ops : List Obstacle.Op) :
    (Obstacle.new junk).after ops = ⟨lastShape ops, (lastPose ops).getD ⟨junk, 0⟩⟩ := by
  have h1 := after_shape ops (Obstacle.new junk)
  have e2 := after_pose ops (Obstacle.new junk)
  have e1 : ((Obstacle.new junk).after ops).shape = lastShape ops := by
    rw [h1]
    split
    · rfl
    · rename_i h; rw [lastShape_none ops (by simpa using h)]; rfl
  cases h : (Obstacle.new junk).after ops with
  | mk s p => rw [h] at e1 e2; subst e1 e2; rfl

theorem mem_verticesPosition (pose : PoseR) : ∀ (s : Shape) (p : Pt), p ∈ s.verticesPosition pose ↔ IsCorner pose s p := by
  intro s
  induction s using Shape.rec (motive_2 := fun children => ∀ p : Pt, p ∈ Shape.verticesPositionList pose children ↔
    ∃ s ∈ children, IsCorner pose s p) with
  | polygon vs =>
    intro p
    rw [Shape.verticesPosition, List.mem_map]
    constructor
    · rintro ⟨u, hu, rfl⟩; exact .corner hu
    · rintro ⟨hu⟩; exact ⟨_, hu, rfl⟩
  | composite children ih =>
    intro p
    rw [Shape.verticesPosition, ih]
    constructor
    · rintro ⟨s, hs, h⟩; exact .part hs h
    · intro h
      cases h with
      | part hs h => exact ⟨_, hs, h⟩
  | nil => rename_i p; simp [Shape.verticesPositionList]
  | cons s ss ih1 ih2 =>
    rename_i p
    rw [Shape.verticesPositionList, List.mem_append, ih1, ih2]
    simp

/-- A corner is on the outline. -/
theorem corner_onOutline {pose : PoseR} {s : Shape} {p : Pt} (h : IsCorner pose s p) : OnOutline pose s p := by
  induction h with
  | @corner vs u hu =>
    obtain ⟨i, hi⟩ := List.getElem?_of_mem hu
    have hlt : i < vs.length := by
      by_contra hc
      rw [List.getElem?_eq_none (by omega)] at hi
      cases hi
    obtain ⟨b, hb⟩ : ∃ b, (vs.map (Shape.place pose))[(i + 1) % (vs.map (Shape.place pose)).length]? = some b :=
      ⟨_, List.getElem?_eq_getElem (Nat.mod_lt _ (by rw [List.length_map]; omega))⟩
    have := OnOutline.side (pose := pose) (vs := vs) (a := Shape.place pose u) (b := b) (t := 0)
      ⟨i, by rw [List.getElem?_map, hi]; rfl, hb⟩ le_rfl zero_le_one
    simpa using this
  | part hs _ ih => exact .part hs ih

/-- The cell of a corner in the map is one of the cells of the shape. -/
theorem corner_cell (m : OccMap) {pose : PoseR} {s : Shape} {p : Pt} (h : IsCorner pose s p)
    (hin : Inside m.size (m.worldPositionToGridCell p false)) :
    ∃ cells, s.gridCells m pose = some cells ∧ m.worldPositionToGridCell p false ∈ cells := by
  induction h with
  | @corner vs u hu =>
    refine ⟨_, gridCells_polygon m pose vs, ?_⟩
    obtain ⟨i, hi⟩ := List.getElem?_of_mem hu
    have hlt : i < vs.length := by
      by_contra hc
      rw [List.getElem?_eq_none (by omega)] at hi
      cases hi
    obtain ⟨b, hb⟩ : ∃ b, (vs.map (Shape.place pose))[(i + 1) % (vs.map (Shape.place pose)).length]? = some b :=
      ⟨_, List.getElem?_eq_getElem (Nat.mod_lt _ (by rw [List.length_map]; omega))⟩
    exact List.mem_flatMap.mpr ⟨(Shape.place pose u, b),
      isEdge_closedEdges ⟨i, by rw [List.getElem?_map, hi]; rfl, hb⟩,
      (C32_line_cells_inside m.size _ _).2.1 hin⟩
  | @part children s p hs _ ih =>
    obtain ⟨l, hl, hc⟩ := ih hin
    obtain ⟨cells, h1, h2⟩ := C33_composite_is_union m pose children
    exact ⟨cells, h1, (h2 _).mpr ⟨s, hs, l, hl, hc⟩⟩

/-- C108: for every history of an obstacle: the world positions it reports are exactly the corners of the shape set last,
at the pose set last. They are on its outline. For every map, the cell of each of them that is in the map is one of the
boundary cells that the obstacle reports for that map. -/
theorem C108_corners (junk : Pt) (ops : List Obstacle.Op) (s : Shape) (pose : PoseR) (hs : lastShape ops = some s)
    (hp : lastPose ops = some pose) :
    ∃ pts, ((Obstacle.new junk).after ops).getBoundaryWorldPosition = some pts ∧
      (∀ p, p ∈ pts ↔ IsCorner pose s p) ∧ (∀ p ∈ pts, OnOutline pose s p) ∧
      ∀ m : OccMap, ∃ cells, ((Obstacle.new junk).after ops).getBoundaryGridCellPosition m = some cells ∧
        ∀ p ∈ pts, Inside m.size (m.worldPositionToGridCell p false) → m.worldPositionToGridCell p false ∈ cells := by
  rw [new_after, hs, hp]
  refine ⟨_, rfl, mem_verticesPosition _ s, fun p hp => corner_onOutline ((mem_verticesPosition _ s p).mp hp), fun m => ?_⟩
  obtain ⟨cells, hc⟩ := Option.isSome_iff_exists.mp (gridCells_total m pose s)
  refine ⟨cells, hc, fun p hp hin => ?_⟩
  obtain ⟨l, hl, hm⟩ := corner_cell m ((mem_verticesPosition _ s p).mp hp) hin
  have hl : Shape.gridCells m pose s = some l := hl
  rw [hl] at hc
  cases hc
  exact hm

/-- C108: the positions of a polygon are its vertices, placed, in their order. -/
theorem C108_polygon (junk : Pt) (ops : List Obstacle.Op) (vs : List Pt) (pose : PoseR)
    (hs : lastShape ops = some (.polygon vs)) (hp : lastPose ops = some pose) :
    ((Obstacle.new junk).after ops).getBoundaryWorldPosition = some (vs.map (Shape.place pose)) := by
  rw [new_after, hs, hp]
  simp [getBoundaryWorldPosition, Shape.verticesPosition]

/-- C108: moving the obstacle keeps the number of its positions and all their distances. -/
theorem C108_rigid (junk : Pt) (s : Shape) (p p' : PoseR) : ∃ l l' : List Pt,
    ((Obstacle.new junk).after [.setShape (some s), .setPose p]).getBoundaryWorldPosition = some l ∧
    ((Obstacle.new junk).after [.setShape (some s), .setPose p, .setPose p']).getBoundaryWorldPosition = some l' ∧
    l.length = l'.length ∧ ∀ (i j : Nat) a b a' b', l[i]? = some a → l[j]? = some b → l'[i]? = some a' →
      l'[j]? = some b' → ptDist a b = ptDist a' b' := by
  have key : ∀ s : Shape, ∃ vs : List Pt, ∀ p, s.verticesPosition p = vs.map (Shape.place p) := by
    intro s
    induction s using Shape.rec (motive_2 := fun children => ∃ vs : List Pt, ∀ p,
      Shape.verticesPositionList p children = vs.map (Shape.place p)) with
    | polygon vs => exact ⟨vs, fun p => by rw [Shape.verticesPosition]⟩
    | composite children ih => obtain ⟨vs, h⟩ := ih; exact ⟨vs, fun p => by rw [Shape.verticesPosition, h]⟩
    | nil => exact ⟨[], fun p => by rw [Shape.verticesPositionList]; rfl⟩
    | cons s ss ih1 ih2 =>
      obtain ⟨vs, h⟩ := ih1
      obtain ⟨vs', h'⟩ := ih2
      exact ⟨vs ++ vs', fun p => by rw [Shape.verticesPositionList, h, h', List.map_append]⟩
  obtain ⟨vs, hv⟩ := key s
  refine ⟨s.verticesPosition p, s.verticesPosition p', rfl, rfl, by rw [hv, hv]; simp, ?_⟩
  intro i j a b a' b' h1 h2 h3 h4
  rw [hv, List.getElem?_map, Option.map_eq_some_iff] at h1 h2 h3 h4
  obtain ⟨x, hx, rfl⟩ := h1
  obtain ⟨y, hy, rfl⟩ := h2
  obtain ⟨x', hx', rfl⟩ := h3
  obtain ⟨y', hy', rfl⟩ := h4
  rw [hx] at hx'
  rw [hy] at hy'
  cases hx'
  cases hy'
  rw [C72_place_isometry, C72_place_isometry]

/-- C108: an obstacle without a shape has no position: asking for it dereferences a null pointer. -/
theorem C108_no_shape (junk : Pt) (ops : List Obstacle.Op) (hs : lastShape ops = none) (m : OccMap) :
    ((Obstacle.new junk).after ops).getBoundaryWorldPosition = none ∧
    ((Obstacle.new junk).after ops).getBoundaryGridCellPosition m = none := by
  rw [new_after, hs]
  exact ⟨rfl, rfl⟩

/-- Non-vacuity: a rectangle that is moved after its shape was set. -/
example : lastShape [.setPose ⟨⟨1, 1⟩, 0⟩, .setShape (some (.rectangle 2 1)), .setPose ⟨⟨3, 1⟩, 1⟩] =
      some (.rectangle 2 1) ∧
    lastPose [.setPose ⟨⟨1, 1⟩, 0⟩, .setShape (some (.rectangle 2 1)), .setPose ⟨⟨3, 1⟩, 1⟩] = some ⟨⟨3, 1⟩, 1⟩ :=
  ⟨rfl, rfl⟩

end PathPlanning
