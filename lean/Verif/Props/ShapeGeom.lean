import Verif.Model.OccMap
import Verif.Spec.Shape
import Mathlib.Tactic.Linarith
import Mathlib.Tactic.FieldSimp
import Mathlib.Tactic.LinearCombination
import Mathlib.Tactic.Positivity
import Mathlib.Analysis.SpecialFunctions.Trigonometric.Bounds

/-!
# C72: the geometry of the shapes
-/

namespace PathPlanning
open Spec Real

/-- The corners of a placed polygon. -/
noncomputable def placedCorners (pose : PoseR) : Shape → List Pt
  | .polygon vs => vs.map (Shape.place pose)
  | .composite _ => []

theorem leftOf_place (pose : PoseR) (a b p : Pt) :
    leftOf (Shape.place pose a) (Shape.place pose b) (Shape.place pose p) = leftOf a b p := by
  simp only [leftOf, Shape.place]
  linear_combination ((b.x - a.x) * (p.y - a.y) - (b.y - a.y) * (p.x - a.x)) * sin_sq_add_cos_sq pose.theta

/-- C72: placing a shape keeps all distances. -/
theorem C72_place_isometry (pose : PoseR) (a b : Pt) :
    ptDist (Shape.place pose a) (Shape.place pose b) = ptDist a b := by
  simp only [ptDist, Shape.place]
  congr 1
  linear_combination ((a.x - b.x) ^ 2 + (a.y - b.y) ^ 2) * sin_sq_add_cos_sq pose.theta

/-- C72: placing a shape keeps its orientation (it is not mirrored), puts its origin at the position of
the pose, and turns its x axis to the heading of the pose. -/
theorem C72_place_frame (pose : PoseR) :
    (∀ a b p, leftOf (Shape.place pose a) (Shape.place pose b) (Shape.place pose p) = leftOf a b p) ∧
    Shape.place pose ⟨0, 0⟩ = pose.position ∧
    Shape.place pose ⟨1, 0⟩ = pose.position + ⟨cos pose.theta, sin pose.theta⟩ := by
  refine ⟨leftOf_place pose, ?_, ?_⟩ <;> ext <;> simp [Shape.place, add_comm]

/-- Every point of the plane is the image of one point. -/
theorem place_surj (pose : PoseR) (p : Pt) : ∃ q, Shape.place pose q = p := by
  refine ⟨⟨cos pose.theta * (p.x - pose.position.x) + sin pose.theta * (p.y - pose.position.y),
    -sin pose.theta * (p.x - pose.position.x) + cos pose.theta * (p.y - pose.position.y)⟩, ?_⟩
  ext
  · simp only [Shape.place]
    linear_combination (p.x - pose.position.x) * sin_sq_add_cos_sq pose.theta
  · simp only [Shape.place]
    linear_combination (p.y - pose.position.y) * sin_sq_add_cos_sq pose.theta

theorem isEdge_map {vs : List Pt} {pose : PoseR} {a b : Pt}
    (h : IsEdge (vs.map (Shape.place pose)) a b) :
    ∃ a' b', IsEdge vs a' b' ∧ a = Shape.place pose a' ∧ b = Shape.place pose b' := by
  obtain ⟨i, h1, h2⟩ := h
  rw [List.length_map] at h2
  rw [List.getElem?_map, Option.map_eq_some_iff] at h1 h2
  obtain ⟨a', ha, rfl⟩ := h1
  obtain ⟨b', hb, rfl⟩ := h2
  exact ⟨a', b', ⟨i, ha, hb⟩, rfl, rfl⟩

theorem isEdge_map' {vs : List Pt} {pose : PoseR} {a b : Pt} (h : IsEdge vs a b) :
    IsEdge (vs.map (Shape.place pose)) (Shape.place pose a) (Shape.place pose b) := by
  obtain ⟨i, h1, h2⟩ := h
  exact ⟨i, by rw [List.getElem?_map, h1]; rfl, by rw [List.length_map, List.getElem?_map, h2]; rfl⟩

theorem inside_place (vs : List Pt) (pose : PoseR) (p : Pt) :
    InsideConvex (vs.map (Shape.place pose)) (Shape.place pose p) ↔ InsideConvex vs p := by
  constructor
  · intro h a b hab
    have := h _ _ (isEdge_map' (pose := pose) hab)
    rwa [leftOf_place] at this
  · intro h a b hab
    obtain ⟨a', b', h1, rfl, rfl⟩ := isEdge_map hab
    rw [leftOf_place]
    exact h _ _ h1

/-- C72: a placed regular polygon has the requested number of corners, all at the given radius of the
position. -/
theorem C72_regular_polygon (radius : ℝ) (count : Nat) (pose : PoseR) (hr : 0 ≤ radius) :
    (placedCorners pose (Shape.regularPolygon radius count)).length = count ∧
    ∀ a ∈ placedCorners pose (Shape.regularPolygon radius count), ptDist a pose.position = radius := by
  refine ⟨by simp [placedCorners, Shape.regularPolygon], ?_⟩
  intro a ha
  simp only [placedCorners, Shape.regularPolygon, List.map_map, List.mem_map] at ha
  obtain ⟨i, -, rfl⟩ := ha
  obtain ⟨φ, hφ⟩ : ∃ φ, φ = 2 * π * (i : ℝ) / (count : ℝ) := ⟨_, rfl⟩
  simp only [Function.comp, ptDist, Shape.place]
  rw [← hφ]
  rw [show (cos pose.theta * (radius * cos φ) - sin pose.theta * (radius * sin φ) + pose.position.x -
      pose.position.x) ^ 2 + (sin pose.theta * (radius * cos φ) + cos pose.theta * (radius * sin φ) +
      pose.position.y - pose.position.y) ^ 2 = radius ^ 2 from by
    linear_combination radius ^ 2 * (cos φ ^ 2 + sin φ ^ 2) * sin_sq_add_cos_sq pose.theta +
      radius ^ 2 * sin_sq_add_cos_sq φ]
  exact sqrt_sq hr

/-- The corners of an edge of a regular polygon: they are half a step before and after the direction
`m` of the middle of the edge. -/
theorem regular_edge {R : ℝ} {n : Nat} {a b : Pt} {vs : List Pt}
    (hvs : Shape.regularPolygon R n = .polygon vs) (h : IsEdge vs a b) :
    ∃ m, a = ⟨R * cos (m - π / n), R * sin (m - π / n)⟩ ∧ b = ⟨R * cos (m + π / n), R * sin (m + π / n)⟩ := by
  simp only [Shape.regularPolygon, Shape.polygon.injEq] at hvs
  subst hvs
  obtain ⟨i, h1, h2⟩ := h
  have hi : i < n := by
    by_contra hc
    rw [List.getElem?_eq_none (by simp; omega)] at h1
    simp at h1
  have hn : (n : ℝ) ≠ 0 := by
    have : 0 < n := by omega
    positivity
  have h1' := h1
  rw [List.getElem?_map, List.getElem?_range hi] at h1
  simp only [List.length_map, List.length_range] at h2
  have hlt : (i + 1) % n < n := Nat.mod_lt _ (by omega)
  rw [List.getElem?_map, List.getElem?_range hlt] at h2
  simp only [Option.map_some, Option.some.injEq] at h1 h2
  refine ⟨2 * π * (i : ℝ) / n + π / n, ?_, ?_⟩
  · rw [← h1, add_sub_cancel_right]
  · have e : 2 * π * (i : ℝ) / n + π / n + π / n = 2 * π * ((i + 1 : Nat) : ℝ) / n := by
      push_cast; field_simp; ring
    rw [← h2, e]
    by_cases hc : i + 1 < n
    · rw [Nat.mod_eq_of_lt hc]
    · have hc : i + 1 = n := by omega
      rw [hc, Nat.mod_self]
      have : 2 * π * (n : ℝ) / n = 2 * π := by field_simp
      rw [this]; simp

theorem leftOf_edge (R m h : ℝ) (p : Pt) :
    leftOf ⟨R * cos (m - h), R * sin (m - h)⟩ ⟨R * cos (m + h), R * sin (m + h)⟩ p =
      2 * R * sin h * (R * cos h - (p.x * cos m + p.y * sin m)) := by
  simp only [leftOf, cos_sub, cos_add, sin_sub, sin_add]
  linear_combination (2 * R ^ 2 * sin h * cos h) * sin_sq_add_cos_sq m

private theorem dot_le {p : Pt} {r : ℝ} (m : ℝ) (h : ptDist p ⟨0, 0⟩ ≤ r) :
    p.x * cos m + p.y * sin m ≤ r := by
  refine le_trans ?_ h
  simp only [ptDist, sub_zero]
  apply le_sqrt_of_sq_le
  nlinarith [sq_nonneg (p.x * sin m - p.y * cos m), sin_sq_add_cos_sq m, sq_nonneg p.x, sq_nonneg p.y]

theorem half_angle {n : Nat} (hn : 3 ≤ n) : 0 < sin (π / n) ∧ 0 < cos (π / n) := by
  have h3 : (3 : ℝ) ≤ n := by exact_mod_cast hn
  have hp := pi_pos
  have h0 : 0 < π / n := by positivity
  have h1 : π / n ≤ π / 3 := by gcongr
  exact ⟨sin_pos_of_pos_of_lt_pi h0 (by linarith), cos_pos_of_mem_Ioo ⟨by linarith, by linarith⟩⟩

/-- C72: the polygon of a circle obstacle contains the whole disc, wherever it is placed. -/
theorem C72_circle_contains_disc (radius : ℝ) (count : Nat) (pose : PoseR) (hr : 0 < radius)
    (hn : 3 ≤ count) (p : Pt) (hp : ptDist p pose.position ≤ radius) :
    InsideConvex (placedCorners pose (Shape.circle radius count)) p := by
  obtain ⟨q, rfl⟩ := place_surj pose p
  have h0 : pose.position = Shape.place pose ⟨0, 0⟩ := (C72_place_frame pose).2.1.symm
  rw [h0, C72_place_isometry] at hp
  obtain ⟨hs, hc⟩ := half_angle hn
  obtain ⟨vs, hvs⟩ : ∃ vs, Shape.circle radius count = .polygon vs := ⟨_, rfl⟩
  rw [hvs]
  simp only [placedCorners]
  rw [inside_place]
  intro a b hab
  obtain ⟨m, rfl, rfl⟩ := regular_edge hvs hab
  rw [leftOf_edge]
  have e : radius * (1 / cos (π / count)) * cos (π / count) = radius := by field_simp
  rw [e]
  have hd := dot_le m hp
  have hR : 0 < radius * (1 / cos (π / count)) := by positivity
  have : 0 ≤ radius - (q.x * cos m + q.y * sin m) := by linarith
  positivity

/-- C72: every edge of the polygon of a circle obstacle touches the circle, half way. -/
theorem C72_circle_edges_touch (radius : ℝ) (count : Nat) (pose : PoseR) (hr : 0 < radius)
    (hn : 3 ≤ count) (a b : Pt) (h : IsEdge (placedCorners pose (Shape.circle radius count)) a b) :
    ptDist (halfWay a b) pose.position = radius := by
  obtain ⟨hs, hc⟩ := half_angle hn
  obtain ⟨vs, hvs⟩ : ∃ vs, Shape.circle radius count = .polygon vs := ⟨_, rfl⟩
  rw [hvs] at h
  obtain ⟨a', b', h1, rfl, rfl⟩ := isEdge_map h
  have hm : halfWay (Shape.place pose a') (Shape.place pose b') = Shape.place pose (halfWay a' b') := by
    ext <;> simp only [halfWay, Shape.place] <;> ring
  rw [hm]
  have h0 : pose.position = Shape.place pose ⟨0, 0⟩ := (C72_place_frame pose).2.1.symm
  conv_lhs => rw [h0]
  rw [C72_place_isometry]
  obtain ⟨m, rfl, rfl⟩ := regular_edge hvs h1
  have e : radius * (1 / cos (π / count)) * cos (π / count) = radius := by field_simp
  obtain ⟨R, hR⟩ : ∃ R, R = radius * (1 / cos (π / count)) := ⟨_, rfl⟩
  rw [← hR] at e ⊢
  simp only [ptDist, halfWay, cos_sub, cos_add, sin_sub, sin_add, sub_zero]
  rw [show ((R * (cos m * cos (π / count) + sin m * sin (π / count)) +
      R * (cos m * cos (π / count) - sin m * sin (π / count))) / 2) ^ 2 +
      ((R * (sin m * cos (π / count) - cos m * sin (π / count)) +
      R * (sin m * cos (π / count) + cos m * sin (π / count))) / 2) ^ 2 =
      (R * cos (π / count)) ^ 2 from by
    linear_combination (R * cos (π / count)) ^ 2 * sin_sq_add_cos_sq m]
  rw [e]
  exact sqrt_sq hr.le

/-- C72: a placed rectangle is exactly the set of the points whose coordinates in the frame of the
obstacle are at most half the sides. -/
theorem C72_rectangle (dx dy : ℝ) (pose : PoseR) (hx : 0 < dx) (hy : 0 < dy) (q : Pt) :
    InsideConvex (placedCorners pose (Shape.rectangle dx dy)) (Shape.place pose q) ↔
      |q.x| ≤ dx / 2 ∧ |q.y| ≤ dy / 2 := by
  simp only [Shape.rectangle, placedCorners]
  rw [inside_place, abs_le, abs_le]
  constructor
  · intro h
    have h0 := h ⟨dx / 2, dy / 2⟩ ⟨-(dx / 2), dy / 2⟩ ⟨0, rfl, rfl⟩
    have h1 := h ⟨-(dx / 2), dy / 2⟩ ⟨-(dx / 2), -(dy / 2)⟩ ⟨1, rfl, rfl⟩
    have h2 := h ⟨-(dx / 2), -(dy / 2)⟩ ⟨dx / 2, -(dy / 2)⟩ ⟨2, rfl, rfl⟩
    have h3 := h ⟨dx / 2, -(dy / 2)⟩ ⟨dx / 2, dy / 2⟩ ⟨3, rfl, by simp⟩
    simp only [leftOf] at h0 h1 h2 h3
    refine ⟨⟨?_, ?_⟩, ?_, ?_⟩ <;> by_contra hc <;> push Not at hc <;> nlinarith
  · rintro ⟨⟨h0, h1⟩, h2, h3⟩ a b ⟨i, ha, hb⟩
    match i, ha, hb with
    | 0, ha, hb => 
      simp at ha hb; subst ha; subst hb; simp only [leftOf]; nlinarith
    | 1, ha, hb => 
      simp at ha hb; subst ha; subst hb; simp only [leftOf]; nlinarith
    | 2, ha, hb => 
      simp at ha hb; subst ha; subst hb; simp only [leftOf]; nlinarith
    | 3, ha, hb => 
      simp at ha hb; subst ha; subst hb; simp only [leftOf]; nlinarith
    | i + 4, ha, _ => simp at ha

/-! Concrete cases. -/

/-- A disc of radius 2 drawn with 8 corners around (5, 1): the point (6, 2) is inside. -/
example : InsideConvex (placedCorners ⟨⟨5, 1⟩, 1⟩ (Shape.circle 2 8)) ⟨6, 2⟩ := by
  refine C72_circle_contains_disc 2 8 _ (by norm_num) (by norm_num) _ ?_
  simp only [ptDist]
  rw [show ((6 : ℝ) - 5) ^ 2 + (2 - 1) ^ 2 = 2 by norm_num]
  exact (sqrt_le_left (by norm_num)).2 (by norm_num)

/-- Its first edge. -/
example : ∃ a b, IsEdge (placedCorners ⟨⟨5, 1⟩, 1⟩ (Shape.circle 2 8)) a b :=
  ⟨_, _, 0, rfl, rfl⟩

/-- A car of 4 by 2 turned by a right angle at (10, 10) covers (10.5, 11.9), not (11.9, 10.5). -/
example : InsideConvex (placedCorners ⟨⟨10, 10⟩, π / 2⟩ (Shape.rectangle 4 2)) ⟨10.5, 11.9⟩ ∧
    ¬ InsideConvex (placedCorners ⟨⟨10, 10⟩, π / 2⟩ (Shape.rectangle 4 2)) ⟨11.9, 10.5⟩ := by
  have h1 : Shape.place ⟨⟨10, 10⟩, π / 2⟩ ⟨1.9, -0.5⟩ = ⟨10.5, 11.9⟩ := by
    ext <;> simp [Shape.place] <;> norm_num
  have h2 : Shape.place ⟨⟨10, 10⟩, π / 2⟩ ⟨0.5, -1.9⟩ = ⟨11.9, 10.5⟩ := by
    ext <;> simp [Shape.place] <;> norm_num
  rw [← h1, ← h2, C72_rectangle _ _ _ (by norm_num) (by norm_num),
    C72_rectangle _ _ _ (by norm_num) (by norm_num)]
  constructor
  · constructor <;> rw [abs_le] <;> constructor <;> norm_num
  · rintro ⟨-, h⟩
    rw [abs_le] at h
    norm_num at h

end PathPlanning
