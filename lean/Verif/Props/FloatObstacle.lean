import Verif.Spec.FloatObstacle
import Verif.Props.ShapeNear
import Verif.Props.FloatDrive

/-!
# C146: obstacles with the arithmetic of the program
-/

namespace PathPlanning
open Flt Spec Raster

/-! ## The cells of a shape -/

private theorem edgeLoopF_aux (m : OccMap) (v : Pt) (vs : List Pt) :
    ∀ (j k : Nat), k + j = (v :: vs).length →
      Shape.edgeLoopF m (v :: vs) (List.range' k j) =
        some ((((v :: vs).drop k).zip ((vs ++ [v]).drop k)).flatMap fun e => Shape.rasterizeLineF m e.1 e.2) := by
  intro j
  induction j with
  | zero =>
    intro k hk
    have h1 : (v :: vs).drop k = [] := List.drop_eq_nil_of_le (by omega)
    rw [h1]; rfl
  | succ j ih =>
    intro k hk
    rw [List.range'_succ, Shape.edgeLoopF, ih (k + 1) (by omega)]
    have hlt : k < (v :: vs).length := by omega
    have hlt2 : k < (vs ++ [v]).length := by simp at hk ⊢; omega
    have e1 : (v :: vs)[k % (v :: vs).length]? = some ((v :: vs)[k]'hlt) := by
      rw [Nat.mod_eq_of_lt hlt, List.getElem?_eq_getElem hlt]
    have e2 : (v :: vs)[(k + 1) % (v :: vs).length]? = some ((vs ++ [v])[k]'hlt2) := by
      by_cases hk2 : k + 1 < (v :: vs).length
      · rw [Nat.mod_eq_of_lt hk2, List.getElem?_eq_getElem hk2]
        have : k < vs.length := by simpa using hk2
        simp [List.getElem_append_left this]
      · have he : k + 1 = (v :: vs).length := by omega
        rw [he, Nat.mod_self]
        have : k = vs.length := by simpa using he
        subst this
        simp
    rw [e1, e2, List.drop_eq_getElem_cons hlt, List.drop_eq_getElem_cons hlt2,
      List.zip_cons_cons, List.flatMap_cons]
    rfl

theorem gridCellsF_polygon (lm : Libm) (m : OccMap) (pose : PoseR) (vs : List Pt) :
    Shape.gridCellsF lm m pose (.polygon vs) =
    some ((closedEdges (vs.map (Shape.placeF lm pose))).flatMap fun e => Shape.rasterizeLineF m e.1 e.2) := by
  rw [Shape.gridCellsF]
  show Shape.edgeLoopF m (vs.map (Shape.placeF lm pose)) (List.range vs.length) = _
  rw [← List.length_map (as := vs) (Shape.placeF lm pose)]
  cases vs.map (Shape.placeF lm pose) with
  | nil => rfl
  | cons v vs =>
    rw [List.range_eq_range', edgeLoopF_aux m v vs _ 0 (by simp)]
    rfl

mutual
theorem gridCellsF_total (lm : Libm) (m : OccMap) (pose : PoseR) :
    ∀ s : Shape, (Shape.gridCellsF lm m pose s).isSome = true
  | .polygon vertices => by rw [gridCellsF_polygon]; rfl
  | .composite children => by
    rw [Shape.gridCellsF]; exact gridCellsListF_total lm m pose children
private theorem gridCellsListF_total (lm : Libm) (m : OccMap) (pose : PoseR) :
    ∀ s : List Shape, (Shape.gridCellsListF lm m pose s).isSome = true
  | [] => rfl
  | c :: cs => by
    rw [Shape.gridCellsListF]
    obtain ⟨a, ha⟩ := Option.isSome_iff_exists.mp (gridCellsF_total lm m pose c)
    obtain ⟨b, hb⟩ := Option.isSome_iff_exists.mp (gridCellsListF_total lm m pose cs)
    simp [ha, hb]
end

private theorem gridCellsF_composite (lm : Libm) (m : OccMap) (pose : PoseR) (children : List Shape) :
    ∃ cells, Shape.gridCellsF lm m pose (.composite children) = some cells ∧
      ∀ c, c ∈ cells ↔ ∃ s ∈ children, ∃ l, Shape.gridCellsF lm m pose s = some l ∧ c ∈ l := by
  rw [Shape.gridCellsF]
  induction children with
  | nil => exact ⟨[], rfl, by simp⟩
  | cons s ss ih =>
    obtain ⟨cells, h1, h2⟩ := ih
    obtain ⟨a, ha⟩ := Option.isSome_iff_exists.mp (gridCellsF_total lm m pose s)
    refine ⟨a ++ cells, by rw [Shape.gridCellsListF, ha, h1]; rfl, ?_⟩
    intro c
    rw [List.mem_append, h2]
    simp only [List.mem_cons, exists_eq_or_imp, ha, Option.some.injEq, exists_eq_left']

/-! ## The corners -/

/-- A placed corner is right up to a few roundings. -/
theorem placeF_err {lm : Libm} (hlm : lm.Accurate) {pose : PoseR} (hp : IsFlt 53 pose.theta) {W : ℝ} {u : Pt}
    (hx : |u.x| ≤ W) (hy : |u.y| ≤ W) : Within (cornerError W pose) (Shape.placeF lm pose u) (Shape.place pose u) := by
  have hW : 0 ≤ W := (abs_nonneg _).trans hx
  have z : ∀ a : ℝ, |a - a| ≤ 0 * (2 ^ 53)⁻¹ * W := by intro a; simp
  obtain ⟨r1, r2⟩ := rotateF_err hlm hp (v := u) (v' := u) le_rfl (by norm_num) hx hy (z _) (z _)
  have bound : ∀ {a b : ℝ}, |a| ≤ 1 → |b| ≤ 1 → |a * u.x + b * u.y| ≤ 2 * W := by
    intro a b ha hb
    refine (abs_add_le _ _).trans ?_
    rw [abs_mul, abs_mul]
    have := mul_le_mul ha hx (abs_nonneg _) zero_le_one
    have := mul_le_mul hb hy (abs_nonneg _) zero_le_one
    linarith
  have fin : ∀ {P a : ℝ}, P ≤ max |pose.position.x| |pose.position.y| →
      a ≤ (2 * 0 + 9) * (2 ^ 53)⁻¹ * W + 0 + (2 ^ 53)⁻¹ * (2 * W + P + (2 * 0 + 9) * (2 ^ 53)⁻¹ * W + 0) →
      a ≤ cornerError W pose := by
    intro P a hP ha
    unfold cornerError
    norm_num at ha ⊢
    linarith
  constructor
  · refine fin (le_max_left _ _) (fl64_sum_err ?_ le_rfl r1 (by simp))
    show |Real.cos pose.theta * u.x - Real.sin pose.theta * u.y| ≤ _
    rw [sub_eq_add_neg, ← neg_mul]
    exact bound (Real.abs_cos_le_one _) (by rw [abs_neg]; exact Real.abs_sin_le_one _)
  · refine fin (le_max_right _ _) (fl64_sum_err ?_ le_rfl r2 (by simp))
    exact bound (Real.abs_sin_le_one _) (Real.abs_cos_le_one _)

/-- C146: the corners that a shape reports are, in the same order, those of the exact computation, up to a few roundings. -/
theorem C146_vertices (lm : Libm) (hlm : lm.Accurate) (pose : PoseR) (hp : IsFlt 53 pose.theta) (W : ℝ) (shape : Shape)
    (hW : FitsIn W shape) :
    List.Forall₂ (Within (cornerError W pose)) (shape.verticesPositionF lm pose) (shape.verticesPosition pose) := by
  induction shape using Shape.rec (motive_2 := fun children => (∀ s ∈ children, FitsIn W s) →
    List.Forall₂ (Within (cornerError W pose)) (Shape.verticesPositionListF lm pose children)
      (Shape.verticesPositionList pose children)) with
  | polygon vs =>
    rw [Shape.verticesPositionF, Shape.verticesPosition]
    rw [List.forall₂_map_left_iff, List.forall₂_map_right_iff]
    refine List.forall₂_same.2 fun u hu => ?_
    obtain ⟨h1, h2⟩ := hW u (.corner hu)
    exact placeF_err hlm hp h1 h2
  | composite children ih =>
    rw [Shape.verticesPositionF, Shape.verticesPosition]
    exact ih fun s hs u hu => hW u (.part hs hu)
  | nil => rename_i h; rw [Shape.verticesPositionListF, Shape.verticesPositionList]; exact .nil
  | cons s ss ih1 ih2 =>
    rename_i h
    rw [Shape.verticesPositionListF, Shape.verticesPositionList]
    exact List.rel_append (ih1 (h s (by simp))) (ih2 fun s' hs' => h s' (by simp [hs']))

/-! ## Sides and cells -/

/-- The cell of a coordinate that is at most 2^32 cells away. -/
private theorem coordF {res o p : ℝ} (hres : 0 < res) (h : |(p - o) / res| ≤ 2 ^ 32) :
    |(p - o) / res - (truncInt (fl64 (fl64 (p - o) / res)) : ℝ)| ≤ 1 + (2 ^ 19)⁻¹ := by
  obtain ⟨x, hx⟩ : ∃ x, x = (p - o) / res := ⟨_, rfl⟩
  obtain ⟨y, hy⟩ : ∃ y, y = fl64 (p - o) / res := ⟨_, rfl⟩
  obtain ⟨z, hz⟩ : ∃ z, z = fl64 y := ⟨_, rfl⟩
  rw [← hx] at h
  rw [← hx, ← hy, ← hz]
  have hzn := abs_trunc_lt z
  have hzy : |z - y| ≤ (2 ^ 53)⁻¹ * |y| := by rw [hz]; exact fl_rel 53 y
  have hyx : |y - x| ≤ (2 ^ 53)⁻¹ * |x| := by
    have := fl_rel 53 (p - o)
    have e : y - x = (fl 53 (p - o) - (p - o)) / res := by rw [hy, hx]; show fl 53 _ / _ - _ = _; ring
    rw [e, hx, abs_div, abs_div, abs_of_pos hres, ← mul_div_assoc]
    exact div_le_div_of_nonneg_right this hres.le
  obtain ⟨a1, a2⟩ := abs_lt.1 hzn
  obtain ⟨b1, b2⟩ := abs_le.1 hzy
  obtain ⟨c1, c2⟩ := abs_le.1 hyx
  have hyb : |y| ≤ 2 ^ 33 := by
    obtain ⟨d1, d2⟩ := abs_le.1 h
    norm_num at c1 c2 d1 d2 h ⊢
    rcases abs_cases y with ⟨e, -⟩ | ⟨e, -⟩ <;> linarith
  rw [abs_le]
  norm_num at b1 b2 c1 c2 hyb h ⊢
  constructor <;> linarith

/-- A coordinate whose cell is in a map of at most 2^31 rows is at most 2^32 cells away. -/
private theorem coord_bound {res o p : ℝ} (hres : 0 < res) (h0 : 0 ≤ truncInt (fl64 (fl64 (p - o) / res)))
    (h1 : truncInt (fl64 (fl64 (p - o) / res)) < 2 ^ 31) : |(p - o) / res| ≤ 2 ^ 32 := by
  obtain ⟨x, hx⟩ : ∃ x, x = (p - o) / res := ⟨_, rfl⟩
  obtain ⟨y, hy⟩ : ∃ y, y = fl64 (p - o) / res := ⟨_, rfl⟩
  obtain ⟨z, hz⟩ : ∃ z, z = fl64 y := ⟨_, rfl⟩
  rw [← hy, ← hz] at h0 h1
  rw [← hx]
  obtain ⟨n, hn⟩ : ∃ n, n = truncInt z := ⟨_, rfl⟩
  have hzn := abs_trunc_lt z
  rw [← hn] at h0 h1 hzn
  have hn0 : (0 : ℝ) ≤ n := by exact_mod_cast h0
  have hn1 : (n : ℝ) ≤ 2 ^ 31 := by exact_mod_cast h1.le
  have hzy : |z - y| ≤ (2 ^ 53)⁻¹ * |y| := by rw [hz]; exact fl_rel 53 y
  have hyx : |y - x| ≤ (2 ^ 53)⁻¹ * |x| := by
    have := fl_rel 53 (p - o)
    have e : y - x = (fl 53 (p - o) - (p - o)) / res := by rw [hy, hx]; show fl 53 _ / _ - _ = _; ring
    rw [e, hx, abs_div, abs_div, abs_of_pos hres, ← mul_div_assoc]
    exact div_le_div_of_nonneg_right this hres.le
  obtain ⟨a1, a2⟩ := abs_lt.1 hzn
  obtain ⟨b1, b2⟩ := abs_le.1 hzy
  obtain ⟨c1, c2⟩ := abs_le.1 hyx
  have hyb : |y| ≤ 2 ^ 31 + 2 := by
    norm_num at b1 b2 hn1 ⊢
    rcases abs_cases y with ⟨e, -⟩ | ⟨e, -⟩ <;> linarith
  obtain ⟨d1, d2⟩ := abs_le.1 hyb
  norm_num at c1 c2 d1 d2 ⊢
  rcases abs_cases x with ⟨e, -⟩ | ⟨e, -⟩ <;> linarith

private theorem blendF {x0 x1 r0 r1 t c d e : ℝ} (h0 : 0 ≤ t) (h1 : t ≤ 1) (e0 : |x0 - r0| ≤ e) (e1 : |x1 - r1| ≤ e)
    (hd : |r0 + t * (r1 - r0) - c| ≤ d) : |x0 + t * (x1 - x0) - c| ≤ e + d := by
  have h : x0 + t * (x1 - x0) - c = ((1 - t) * (x0 - r0) + t * (x1 - r1)) + (r0 + t * (r1 - r0) - c) := by ring
  rw [h]
  refine (abs_add_le _ _).trans (add_le_add ?_ hd)
  refine (abs_add_le _ _).trans ?_
  rw [abs_mul, abs_mul, abs_of_nonneg h0, abs_of_nonneg (by linarith : 0 ≤ 1 - t)]
  have := mul_le_mul_of_nonneg_left e0 (by linarith : 0 ≤ 1 - t)
  have := mul_le_mul_of_nonneg_left e1 h0
  linarith

private theorem offset_euclidF (m : OccMap) (hres : 0 < m.resolution) (a b : Pt) (ha : NearMap m a) (hb : NearMap m b)
    (c : Cell) (t d1 d2 B : ℝ) (h0 : 0 ≤ t) (h1 : t ≤ 1) (hB : 0 ≤ B)
    (hd : (1 + (2 ^ 19)⁻¹ + d1) ^ 2 + (1 + (2 ^ 19)⁻¹ + d2) ^ 2 ≤ B ^ 2)
    (hr : |((m.worldPositionToGridCellF a false).row : ℝ) + t * ((m.worldPositionToGridCellF b false).row -
      (m.worldPositionToGridCellF a false).row) - c.row| ≤ d1)
    (hc : |((m.worldPositionToGridCellF a false).col : ℝ) + t * ((m.worldPositionToGridCellF b false).col -
      (m.worldPositionToGridCellF a false).col) - c.col| ≤ d2) :
    euclid ⟨a.x + t * (b.x - a.x), a.y + t * (b.y - a.y)⟩ (m.gridCellToWorldPosition c) ≤ B * m.resolution := by
  obtain ⟨ca, hca⟩ : ∃ ca, ca = m.worldPositionToGridCellF a false := ⟨_, rfl⟩
  obtain ⟨cb, hcb⟩ : ∃ cb, cb = m.worldPositionToGridCellF b false := ⟨_, rfl⟩
  rw [← hca, ← hcb] at hr hc
  have ear := coordF hres ha.1
  have eac := coordF hres ha.2
  have ebr := coordF hres hb.1
  have ebc := coordF hres hb.2
  change |_ - ((m.worldPositionToGridCellF a false).row : ℝ)| ≤ _ at ear
  change |_ - ((m.worldPositionToGridCellF a false).col : ℝ)| ≤ _ at eac
  change |_ - ((m.worldPositionToGridCellF b false).row : ℝ)| ≤ _ at ebr
  change |_ - ((m.worldPositionToGridCellF b false).col : ℝ)| ≤ _ at ebc
  rw [← hca] at ear eac
  rw [← hcb] at ebr ebc
  obtain ⟨w, hw⟩ : ∃ w, w = m.worldGridOrigin := ⟨_, rfl⟩
  rw [← hw] at ear eac ebr ebc
  have hx : a.x + t * (b.x - a.x) - (w.x + m.resolution * c.row) = m.resolution *
      ((a.x - w.x) / m.resolution + t * ((b.x - w.x) / m.resolution - (a.x - w.x) / m.resolution) - c.row) := by
    field_simp; ring
  have hy : a.y + t * (b.y - a.y) - (w.y + m.resolution * c.col) = m.resolution *
      ((a.y - w.y) / m.resolution + t * ((b.y - w.y) / m.resolution - (a.y - w.y) / m.resolution) - c.col) := by
    field_simp; ring
  obtain ⟨X, hX⟩ : ∃ X, X = (a.x - w.x) / m.resolution + t * ((b.x - w.x) / m.resolution - (a.x - w.x) / m.resolution)
    - c.row := ⟨_, rfl⟩
  obtain ⟨Y, hY⟩ : ∃ Y, Y = (a.y - w.y) / m.resolution + t * ((b.y - w.y) / m.resolution - (a.y - w.y) / m.resolution)
    - c.col := ⟨_, rfl⟩
  rw [← hX] at hx
  rw [← hY] at hy
  have hsq : X ^ 2 + Y ^ 2 ≤ B ^ 2 := by
    have f1 := blendF h0 h1 ear ebr hr
    have f2 := blendF h0 h1 eac ebc hc
    rw [← hX] at f1
    rw [← hY] at f2
    have := sq_le_sq' (by linarith [(abs_le.mp f1).1]) (abs_le.mp f1).2
    have := sq_le_sq' (by linarith [(abs_le.mp f2).1]) (abs_le.mp f2).2
    linarith
  unfold euclid
  apply Real.sqrt_le_iff.mpr
  refine ⟨by positivity, ?_⟩
  have e1 : (m.gridCellToWorldPosition c).x = w.x + m.resolution * c.row := by
    rw [hw]; simp [OccMap.gridCellToWorldPosition, OccMap.gridCellToGridPosition]; try ring
  have e2 : (m.gridCellToWorldPosition c).y = w.y + m.resolution * c.col := by
    rw [hw]; simp [OccMap.gridCellToWorldPosition, OccMap.gridCellToGridPosition]; try ring
  rw [e1, e2]
  dsimp only
  rw [hx, hy]
  nlinarith [sq_nonneg m.resolution]

private theorem side_nearF (m : OccMap) (hres : 0 < m.resolution) (a b : Pt) (ra : NearMap m a) (rb : NearMap m b)
    (ha : Inside m.size (m.worldPositionToGridCellF a false)) (hb : Inside m.size (m.worldPositionToGridCellF b false))
    (t : ℝ) (h0 : 0 ≤ t) (h1 : t ≤ 1) :
    ∃ c ∈ Shape.rasterizeLineF m a b,
      euclid ⟨a.x + t * (b.x - a.x), a.y + t * (b.y - a.y)⟩ (m.gridCellToWorldPosition c) ≤
        (5 / 2 + (2 ^ 18)⁻¹) * m.resolution := by
  obtain ⟨ca, hca⟩ : ∃ ca, ca = m.worldPositionToGridCellF a false := ⟨_, rfl⟩
  obtain ⟨cb, hcb⟩ : ∃ cb, cb = m.worldPositionToGridCellF b false := ⟨_, rfl⟩
  have key : ∃ c ∈ Shape.rasterizeLineF m a b, (|(ca.row : ℝ) + t * (cb.row - ca.row) - c.row| ≤ 1 / 2 ∧
        |(ca.col : ℝ) + t * (cb.col - ca.col) - c.col| ≤ 1) ∨
      (|(ca.row : ℝ) + t * (cb.row - ca.row) - c.row| ≤ 1 ∧
        |(ca.col : ℝ) + t * (cb.col - ca.col) - c.col| ≤ 1 / 2) := by
    unfold Shape.rasterizeLineF
    rw [← hca, ← hcb]
    rw [← hca] at ha
    rw [← hcb] at hb
    rcases C32_line_inside_map m.size _ _ ha hb with h | h
    · exact digital_near h t h0 h1
    · obtain ⟨c, hc, hd⟩ := digital_near h (1 - t) (by linarith) (by linarith)
      refine ⟨c, hc, ?_⟩
      have flip : ∀ x y : ℝ, x + (1 - t) * (y - x) = y + t * (x - y) := fun x y => by ring
      rw [flip, flip] at hd
      exact hd
  rw [hca, hcb] at key
  obtain ⟨c, hc, ⟨d1, d2⟩ | ⟨d1, d2⟩⟩ := key
  · exact ⟨c, hc, offset_euclidF m hres a b ra rb c t _ _ _ h0 h1 (by norm_num) (by norm_num) d1 d2⟩
  · exact ⟨c, hc, offset_euclidF m hres a b ra rb c t _ _ _ h0 h1 (by norm_num) (by norm_num) d1 d2⟩

private theorem cell_near_sideF (m : OccMap) (hres : 0 < m.resolution) (a b : Pt) (ra : NearMap m a) (rb : NearMap m b)
    (c : Cell) (hc : c ∈ Shape.rasterizeLineF m a b) :
    ∃ t : ℝ, 0 ≤ t ∧ t ≤ 1 ∧
      euclid ⟨a.x + t * (b.x - a.x), a.y + t * (b.y - a.y)⟩ (m.gridCellToWorldPosition c) ≤
        (√13 / 2 + (2 ^ 18)⁻¹) * m.resolution := by
  obtain ⟨ca, hca⟩ : ∃ ca, ca = m.worldPositionToGridCellF a false := ⟨_, rfl⟩
  obtain ⟨cb, hcb⟩ : ∃ cb, cb = m.worldPositionToGridCellF b false := ⟨_, rfl⟩
  have key : ∃ t : ℝ, 0 ≤ t ∧ t ≤ 1 ∧ ((|(ca.row : ℝ) + t * (cb.row - ca.row) - c.row| ≤ 0 ∧
        |(ca.col : ℝ) + t * (cb.col - ca.col) - c.col| ≤ 1 / 2) ∨
      (|(ca.row : ℝ) + t * (cb.row - ca.row) - c.row| ≤ 1 / 2 ∧
        |(ca.col : ℝ) + t * (cb.col - ca.col) - c.col| ≤ 0)) := by
    unfold Shape.rasterizeLineF at hc
    rw [← hca, ← hcb] at hc
    obtain ⟨L, hL, -, hiff⟩ := C32_rasterised_line m.size ca cb
    have hcL := ((hiff c).mp hc).1
    rcases hL with h | h
    · exact digital_cell_near h c hcL
    · obtain ⟨t, t0, t1, hd⟩ := digital_cell_near h c hcL
      refine ⟨1 - t, by linarith, by linarith, ?_⟩
      have flip : ∀ x y : ℝ, y + (1 - t) * (x - y) = x + t * (y - x) := fun x y => by ring
      rw [flip, flip]
      exact hd
  rw [hca, hcb] at key
  have hs : 3.6 ≤ √13 := by rw [Real.le_sqrt' (by norm_num)]; norm_num
  have hsq : 13 / 4 + 3.6 * (2 ^ 18)⁻¹ ≤ (√13 / 2 + (2 ^ 18)⁻¹) ^ 2 := by
    have : √13 ^ 2 = 13 := Real.sq_sqrt (by norm_num)
    have e : (√13 / 2 + (2 ^ 18)⁻¹) ^ 2 = √13 ^ 2 / 4 + √13 * (2 ^ 18)⁻¹ + ((2 ^ 18)⁻¹) ^ 2 := by ring
    rw [e, this]
    have := mul_le_mul_of_nonneg_right hs (show (0 : ℝ) ≤ (2 ^ 18)⁻¹ by positivity)
    have := sq_nonneg ((2 ^ 18 : ℝ)⁻¹)
    linarith
  obtain ⟨t, t0, t1, ⟨d1, d2⟩ | ⟨d1, d2⟩⟩ := key
  · exact ⟨t, t0, t1, offset_euclidF m hres a b ra rb c t _ _ _ t0 t1 (by positivity)
      (le_trans (by norm_num) hsq) d1 d2⟩
  · exact ⟨t, t0, t1, offset_euclidF m hres a b ra rb c t _ _ _ t0 t1 (by positivity)
      (le_trans (by norm_num) hsq) d1 d2⟩

/-! ## Outlines -/

/-- The sides of the rounded and of the exact corners. -/
private theorem edge_pair {f g : Pt → Pt} {vs : List Pt} {a b : Pt} (h : IsEdge (vs.map g) a b) :
    ∃ u w, u ∈ vs ∧ w ∈ vs ∧ a = g u ∧ b = g w ∧ IsEdge (vs.map f) (f u) (f w) := by
  obtain ⟨i, ha, hb⟩ := h
  rw [List.getElem?_map, Option.map_eq_some_iff] at ha hb
  obtain ⟨u, hu, rfl⟩ := ha
  obtain ⟨w, hw, rfl⟩ := hb
  rw [List.length_map] at hw
  refine ⟨u, w, List.mem_of_getElem? hu, List.mem_of_getElem? hw, rfl, rfl, i, ?_, ?_⟩
  · rw [List.getElem?_map, hu]; rfl
  · rw [List.getElem?_map, List.length_map, hw]; rfl

/-- Points at the same ratio of two sides with close ends. -/
private theorem sides_close {a b a' b' : Pt} {E t : ℝ} (ha : Within E a' a) (hb : Within E b' b) (h0 : 0 ≤ t) (h1 : t ≤ 1) :
    euclid ⟨a.x + t * (b.x - a.x), a.y + t * (b.y - a.y)⟩ ⟨a'.x + t * (b'.x - a'.x), a'.y + t * (b'.y - a'.y)⟩ ≤ √2 * E := by
  have hE : 0 ≤ E := (abs_nonneg _).trans ha.1
  have key : ∀ {x y x' y' : ℝ}, |x' - x| ≤ E → |y' - y| ≤ E → (x + t * (y - x) - (x' + t * (y' - x'))) ^ 2 ≤ E ^ 2 := by
    intro x y x' y' hx hy
    have h := blendF h0 h1 hx hy (c := x + t * (y - x)) (d := 0) (by simp)
    rw [add_zero] at h
    have := sq_le_sq' (by linarith [(abs_le.1 h).1]) (abs_le.1 h).2
    linarith [sq_nonneg E, show (x + t * (y - x) - (x' + t * (y' - x'))) ^ 2 = (x' + t * (y' - x') - (x + t * (y - x))) ^ 2 by ring]
  have h1 := key ha.1 hb.1
  have h2 := key ha.2 hb.2
  unfold euclid
  rw [show √2 * E = √(2 * E ^ 2) by rw [Real.sqrt_mul (by norm_num), Real.sqrt_sq hE]]
  exact Real.sqrt_le_sqrt (by dsimp only; linarith)

private theorem nearMap_of_inside {m : OccMap} (hres : 0 < m.resolution) (hrows : m.rows ≤ 2 ^ 31)
    (hcols : m.columns ≤ 2 ^ 31) {p : Pt} (h : Inside m.size (m.worldPositionToGridCellF p false)) : NearMap m p := by
  obtain ⟨h1, h2, h3, h4⟩ := h
  exact ⟨coord_bound hres h1 (lt_of_lt_of_le h2 hrows), coord_bound hres h3 (lt_of_lt_of_le h4 hcols)⟩

/-- C146: every point of the outline of an obstacle whose corners are in the map is at most two and a half cells away
from one of the cells that the program marks for the obstacle, up to rounding. -/
theorem C146_outline_near_cells (lm : Libm) (hlm : lm.Accurate) (m : OccMap) (hres : 0 < m.resolution)
    (hrows : m.rows ≤ 2 ^ 31) (hcols : m.columns ≤ 2 ^ 31) (pose : PoseR) (hpose : IsFlt 53 pose.theta)
    (W : ℝ) (shape : Shape) (hW : FitsIn W shape)
    (hin : ∀ u, IsVertex shape u → Inside m.size (m.worldPositionToGridCellF (Shape.placeF lm pose u) false))
    (cells : List Cell) (hcells : shape.gridCellsF lm m pose = some cells) (p : Pt) (hp : OnOutline pose shape p) :
    ∃ c ∈ cells, euclid p (m.gridCellToWorldPosition c) ≤
      (5 / 2 + (2 ^ 18)⁻¹) * m.resolution + √2 * cornerError W pose := by
  induction hp generalizing cells with
  | @side vs a b t he h0 h1 =>
    obtain ⟨u, w, hu, hw, rfl, rfl, he'⟩ := edge_pair (f := Shape.placeF lm pose) he
    have iu := hin u (.corner hu)
    have iw := hin w (.corner hw)
    obtain ⟨c, hc, hd⟩ := side_nearF m hres _ _ (nearMap_of_inside hres hrows hcols iu)
      (nearMap_of_inside hres hrows hcols iw) iu iw t h0 h1
    obtain ⟨u1, u2⟩ := hW u (.corner hu)
    obtain ⟨w1, w2⟩ := hW w (.corner hw)
    refine ⟨c, ?_, ?_⟩
    · rw [gridCellsF_polygon] at hcells
      injection hcells with hcells
      rw [← hcells]
      exact List.mem_flatMap.mpr ⟨_, isEdge_closedEdges he', hc⟩
    · have h2 := sides_close (placeF_err hlm hpose u1 u2) (placeF_err hlm hpose w1 w2) h0 h1
      exact (Validator.euclid_triangle _ _ _).trans ((add_le_add h2 hd).trans_eq (add_comm _ _))
  | @part children s p hs _ ih =>
    obtain ⟨cells', h1, h2⟩ := gridCellsF_composite lm m pose children
    rw [hcells] at h1
    injection h1 with h1
    subst h1
    obtain ⟨l, hl⟩ : ∃ l, Shape.gridCellsF lm m pose s = some l :=
      Option.isSome_iff_exists.mp (gridCellsF_total lm m pose s)
    obtain ⟨c, hc, hd⟩ := ih (fun u hu => hW u (.part hs hu)) (fun u hu => hin u (.part hs hu)) l hl
    exact ⟨c, (h2 c).mpr ⟨s, hs, l, hl, hc⟩, hd⟩

/-- C146: every cell that the program marks for an obstacle is within `√13 / 2` cells of a point of its outline, up to
rounding, even where the obstacle leaves the map. -/
theorem C146_cells_near_outline (lm : Libm) (hlm : lm.Accurate) (m : OccMap) (hres : 0 < m.resolution)
    (pose : PoseR) (hpose : IsFlt 53 pose.theta) (W : ℝ) (shape : Shape) (hW : FitsIn W shape)
    (hr : ∀ u, IsVertex shape u → NearMap m (Shape.placeF lm pose u))
    (cells : List Cell) (hcells : shape.gridCellsF lm m pose = some cells) (c : Cell) (hc : c ∈ cells) :
    ∃ p, OnOutline pose shape p ∧ euclid p (m.gridCellToWorldPosition c) ≤
      (√13 / 2 + (2 ^ 18)⁻¹) * m.resolution + √2 * cornerError W pose := by
  induction shape using Shape.rec (motive_2 := fun children => ∀ s ∈ children, FitsIn W s →
    (∀ u, IsVertex s u → NearMap m (Shape.placeF lm pose u)) → ∀ (cells : List Cell),
    Shape.gridCellsF lm m pose s = some cells → c ∈ cells →
      ∃ p, OnOutline pose s p ∧ euclid p (m.gridCellToWorldPosition c) ≤
        (√13 / 2 + (2 ^ 18)⁻¹) * m.resolution + √2 * cornerError W pose) generalizing cells with
  | polygon vs =>
    rw [gridCellsF_polygon] at hcells
    injection hcells with hcells
    rw [← hcells] at hc
    obtain ⟨⟨a, b⟩, he, hc⟩ := List.mem_flatMap.mp hc
    obtain ⟨u, w, hu, hw, rfl, rfl, he'⟩ := edge_pair (f := Shape.place pose) (closedEdges_isEdge he)
    obtain ⟨t, t0, t1, hd⟩ := cell_near_sideF m hres _ _ (hr u (.corner hu)) (hr w (.corner hw)) c hc
    obtain ⟨u1, u2⟩ := hW u (.corner hu)
    obtain ⟨w1, w2⟩ := hW w (.corner hw)
    have h2 := sides_close (placeF_err hlm hpose u1 u2) (placeF_err hlm hpose w1 w2) t0 t1
    exact ⟨_, .side he' t0 t1, (Validator.euclid_triangle _ _ _).trans ((add_le_add h2 hd).trans_eq (add_comm _ _))⟩
  | composite children ih =>
    obtain ⟨cells', h1, h2⟩ := gridCellsF_composite lm m pose children
    rw [hcells] at h1
    injection h1 with h1
    subst h1
    obtain ⟨s, hs, l, hl, hcl⟩ := (h2 c).mp hc
    obtain ⟨p, hp, hd⟩ := ih s hs (fun u hu => hW u (.part hs hu)) (fun u hu => hr u (.part hs hu)) l hl hcl
    exact ⟨p, .part hs hp, hd⟩
  | nil => rename_i h _ _ _ _ _; cases h
  | cons s ss ih1 ih2 =>
    rename_i s' hs' hW' hr' cells hcells hc
    rcases List.mem_cons.mp hs' with rfl | h
    · exact ih1 hW' hr' cells hcells hc
    · exact ih2 s' h hW' hr' cells hcells hc

/-! ## Validation -/

theorem seesF_sameSize {v : Validator} {ops : List MapState.Op} (hv : SeesMap v (ops ++ [.update])) : Spec.SameSize v := by
  obtain ⟨st, hr, hd⟩ := hv
  obtain ⟨dops, inv⟩ := MapState.inv_run hr
  have := (C34_linked_maps inv.dist).1
  rw [← hd] at this
  exact DistMap.run_size this

/-- C146: after Update, a state that the program accepts keeps the safe radius (less 7.7 %, less than four cells and a few
roundings) from every point of the outline of every registered obstacle whose corners are in the map. -/
theorem C146_accepted_state_keeps_clear (lm : Libm) (hlm : lm.Accurate) (v : Validator) (ops : List MapState.Op)
    (hv : SeesMap v (ops ++ [.update])) (ht : Tidy ops) (hres : 0 < v.map.resolution)
    (hrows : v.map.rows ≤ 2 ^ 31) (hcols : v.map.columns ≤ 2 ^ 31)
    (s : PoseR) (hs : IsFlt 53 s.theta) (hs' : |s.theta| ≤ 2 ^ 56) (ha : v.isStateValidF s = some true)
    (o : Nat) (ho : registered (obstacleOps ops) o = true) (pose : PoseR) (hpose : IsFlt 53 pose.theta)
    (W : ℝ) (shape : Shape) (hW : FitsIn W shape)
    (hcells : shape.gridCellsF lm v.map pose = some (covers (obstacleOps ops) o))
    (hin : ∀ u, IsVertex shape u → Inside v.map.size (v.map.worldPositionToGridCellF (Shape.placeF lm pose u) false))
    (p : Pt) (hp : OnOutline pose shape p) :
    v.minSafe / ((1 + (2 ^ 23)⁻¹) * √(4 - 2 * √2)) - (√2 + 5 / 2 + (2 ^ 17)⁻¹) * v.map.resolution
      - √2 * cornerError W pose ≤ euclid s.position p := by
  obtain ⟨b, hb, hacc⟩ := Validator.C127_state_valid_iff v (seesF_sameSize hv) s hs hs'
  rw [ha] at hb
  injection hb with hb
  have hacc := hacc.mp hb.symm
  obtain ⟨c, hc, hd⟩ := C146_outline_near_cells lm hlm v.map hres hrows hcols pose hpose W shape hW hin _ hcells p hp
  obtain ⟨st, hr, hst⟩ := hv
  obtain ⟨c0, hc0⟩ : ∃ c0, c0 = v.map.worldPositionToGridCellF s.position true := ⟨_, rfl⟩
  have hn := Validator.near_cornerF hres hrows hcols s.position hacc.inside
  have hclear := hacc.clear
  have hi := hacc.inside
  rw [← hc0] at hn hi
  obtain ⟨d, hdist, hle⟩ := C90_distance_to_registered hr ht c0
    (by simpa [OccMap.isInsideCell, InRect, and_assoc] using hi) c ⟨o, ho, hc⟩
  have h2 : √2 < 2 := by rw [Real.sqrt_lt' (by norm_num)]; norm_num
  have hk : 0 < √(4 - 2 * √2) := Real.sqrt_pos.mpr (by linarith)
  have h1 : v.minSafe / ((1 + (2 ^ 23)⁻¹) * √(4 - 2 * √2)) ≤
      euclid (v.map.gridCellToWorldPosition c0) (v.map.gridCellToWorldPosition c) := by
    rw [div_le_iff₀ (by positivity), Validator.euclid_corners v.map hres]
    have e1 : v.minSafe ≤ (1 + (2 ^ 23)⁻¹) * worldDistance v.map.resolution (d : Nat) := by
      refine hclear.trans ?_
      unfold reportedDistanceF
      rw [← hc0, hst, hdist]
      exact Validator.worldDistanceF_le hres _
    refine e1.trans ?_
    have e2 : worldDistance v.map.resolution (d : Nat) ≤
        √(4 - 2 * √2) * √((sqDist c c0 : Int) : ℝ) * v.map.resolution := by
      unfold worldDistance
      refine mul_le_mul_of_nonneg_right ?_ hres.le
      rw [← Real.sqrt_mul (by linarith)]
      refine Real.sqrt_le_sqrt ?_
      exact hle
    calc _ ≤ (1 + (2 ^ 23)⁻¹) * (√(4 - 2 * √2) * √((sqDist c c0 : Int) : ℝ) * v.map.resolution) :=
          mul_le_mul_of_nonneg_left e2 (by positivity)
      _ = _ := by ring
  have t1 := Validator.euclid_triangle (v.map.gridCellToWorldPosition c0) s.position (v.map.gridCellToWorldPosition c)
  have t2 := Validator.euclid_triangle s.position p (v.map.gridCellToWorldPosition c)
  have t3 : euclid (v.map.gridCellToWorldPosition c0) s.position = euclid s.position (v.map.gridCellToWorldPosition c0) := by
    simp only [Validator.euclid_dist]; exact dist_comm _ _
  have h5 : √2 * ((1 + (2 ^ 19)⁻¹) * v.map.resolution) ≤ √2 * v.map.resolution + (2 ^ 18)⁻¹ * v.map.resolution := by
    rw [show √2 * ((1 + (2 ^ 19)⁻¹) * v.map.resolution) =
      √2 * v.map.resolution + √2 * ((2 ^ 19)⁻¹ * v.map.resolution) by ring]
    have := mul_le_mul_of_nonneg_right h2.le (show 0 ≤ (2 ^ 19)⁻¹ * v.map.resolution by positivity)
    norm_num at this ⊢
    linarith
  have e : (√2 + 5 / 2 + (2 ^ 17)⁻¹) * v.map.resolution = √2 * v.map.resolution + (2 ^ 18)⁻¹ * v.map.resolution +
      (5 / 2 + (2 ^ 18)⁻¹) * v.map.resolution := by norm_num; ring
  linarith

/-- C146: as long as no obstacle has been removed, a state within the bounds that the program rejects after Update is closer
than the safe radius (plus less than four cells and a few roundings) to the outline of a registered obstacle. `pose` and
`shape` give the placement of each registered obstacle. -/
theorem C146_rejected_state_is_near (lm : Libm) (hlm : lm.Accurate) (v : Validator) (ops : List MapState.Op)
    (hv : SeesMap v (ops ++ [.update])) (ht : Tidy ops) (hk : ∀ o, MapState.Op.obstacle (.remove o) ∉ ops)
    (hne : ∃ c, Covered ops c) (hres : 0 < v.map.resolution) (hrows : v.map.rows ≤ 2 ^ 31) (hcols : v.map.columns ≤ 2 ^ 31)
    (pose : Nat → PoseR) (hpose : ∀ o, IsFlt 53 (pose o).theta) (W : ℝ) (shape : Nat → Shape) (hW : ∀ o, FitsIn W (shape o))
    (hr : ∀ o u, IsVertex (shape o) u → NearMap v.map (Shape.placeF lm (pose o) u))
    (hcells : ∀ o, registered (obstacleOps ops) o = true →
      (shape o).gridCellsF lm v.map (pose o) = some (covers (obstacleOps ops) o))
    (s : PoseR) (hs : IsFlt 53 s.theta) (hs' : |s.theta| ≤ 2 ^ 56) (hin : WithinBoundsF v s)
    (ha : v.isStateValidF s = some false) :
    ∃ o p, registered (obstacleOps ops) o = true ∧ OnOutline (pose o) (shape o) p ∧
      euclid s.position p < v.minSafe / (1 - (2 ^ 22)⁻¹) + (√2 + √13 / 2 + (2 ^ 17)⁻¹) * v.map.resolution
        + √2 * cornerError W (pose o) := by
  obtain ⟨b, hb, hacc⟩ := Validator.C127_state_valid_iff v (seesF_sameSize hv) s hs hs'
  rw [ha] at hb
  injection hb with hb
  subst hb
  have hlt : reportedDistanceF v s.position < v.minSafe := by
    by_contra hge
    push Not at hge
    have := hacc.mpr ⟨hin.x_ge, hin.x_le, hin.y_ge, hin.y_le, hin.theta, hin.inside, hge⟩
    cases this
  obtain ⟨st, hrun, hst⟩ := hv
  obtain ⟨c0, hc0⟩ : ∃ c0, c0 = v.map.worldPositionToGridCellF s.position true := ⟨_, rfl⟩
  have hn := Validator.near_cornerF hres hrows hcols s.position hin.inside
  have hi := hin.inside
  rw [← hc0] at hn hi
  obtain ⟨c, ⟨o, ho, hc⟩, d, hdist, hle⟩ := C90_exact_without_removal hrun ht hk hne c0
    (by simpa [OccMap.isInsideCell, InRect, and_assoc] using hi)
  obtain ⟨p, hp, hd⟩ := C146_cells_near_outline lm hlm v.map hres (pose o) (hpose o) W (shape o) (hW o) (hr o) _
    (hcells o ho) c hc
  refine ⟨o, p, ho, hp, ?_⟩
  have h1 : euclid (v.map.gridCellToWorldPosition c0) (v.map.gridCellToWorldPosition c) <
      v.minSafe / (1 - (2 ^ 22)⁻¹) := by
    rw [lt_div_iff₀ (by norm_num), Validator.euclid_corners v.map hres]
    have e1 := Validator.le_worldDistanceF hres (d : Nat)
    unfold reportedDistanceF at hlt
    rw [← hc0, hst, hdist] at hlt
    have e2 : worldDistance v.map.resolution (d : Nat) = √((sqDist c c0 : Int) : ℝ) * v.map.resolution := by
      unfold worldDistance
      rw [← hle]
      rfl
    rw [e2] at e1
    linarith
  have h2 : √2 < 2 := by rw [Real.sqrt_lt' (by norm_num)]; norm_num
  have t1 := Validator.euclid_triangle s.position (v.map.gridCellToWorldPosition c0) (v.map.gridCellToWorldPosition c)
  have t2 := Validator.euclid_triangle s.position (v.map.gridCellToWorldPosition c) p
  have t3 : euclid (v.map.gridCellToWorldPosition c) p = euclid p (v.map.gridCellToWorldPosition c) := by
    simp only [Validator.euclid_dist]; exact dist_comm _ _
  have h5 : √2 * ((1 + (2 ^ 19)⁻¹) * v.map.resolution) ≤ √2 * v.map.resolution + (2 ^ 18)⁻¹ * v.map.resolution := by
    rw [show √2 * ((1 + (2 ^ 19)⁻¹) * v.map.resolution) =
      √2 * v.map.resolution + √2 * ((2 ^ 19)⁻¹ * v.map.resolution) by ring]
    have := mul_le_mul_of_nonneg_right h2.le (show 0 ≤ (2 ^ 19)⁻¹ * v.map.resolution by positivity)
    norm_num at this ⊢
    linarith
  have e : (√2 + √13 / 2 + (2 ^ 17)⁻¹) * v.map.resolution = √2 * v.map.resolution + (2 ^ 18)⁻¹ * v.map.resolution +
      (√13 / 2 + (2 ^ 18)⁻¹) * v.map.resolution := by norm_num; ring
  linarith

/-! ## The hypotheses can be met -/

/-- A library that rounds the exact values. -/
noncomputable def bestLibm : Libm := { sin := fun x => fl64 (Real.sin x), cos := fun x => fl64 (Real.cos x) }

theorem bestLibm_accurate : bestLibm.Accurate := by
  have key : ∀ x : ℝ, |fl64 x - x| ≤ (2 ^ 52)⁻¹ * |x| := fun x =>
    (fl_rel 53 x).trans (mul_le_mul_of_nonneg_right (by norm_num) (abs_nonneg _))
  exact fun x _ => ⟨key _, key _⟩

theorem fl64_half {x : ℝ} (n : ℤ) (hx : x = n / 2) (hn : |n| ≤ 100) : fl64 x = x :=
  fl_repr (p := 53) (n := n) (e := -1) (by norm_num) (by rw [hx, zpow_neg_one]; ring) (hn.trans (by norm_num))

private theorem ex_place {u : Pt} (hx : fl64 u.x = u.x) (hy : fl64 u.y = u.y) : Shape.placeF bestLibm ⟨⟨0, 0⟩, 0⟩ u = u := by
  have h1 : fl64 1 = 1 := fl64_half 2 (by norm_num) (by norm_num)
  have h0 : fl64 0 = 0 := fl_zero 53
  simp [Shape.placeF, PoseR.rotateF, bestLibm, h1, h0, hx, hy]

theorem exTriangle_cellF {u : Pt} (hx : u.x = -4.5 ∨ u.x = -2.5) (hy : u.y = -4.5 ∨ u.y = -2.5) :
    Validator.exMap.worldPositionToGridCellF u false = Validator.exMap.worldPositionToGridCell u false := by
  have key : ∀ {x : ℝ}, x = -4.5 ∨ x = -2.5 → fl64 (fl64 (x - -5) / 1) = (x - -5) / 1 := by
    rintro x (rfl | rfl)
    · rw [fl64_half (x := -4.5 - -5) 1 (by norm_num) (by norm_num), fl64_half 1 (by norm_num) (by norm_num)]
    · rw [fl64_half (x := -2.5 - -5) 5 (by norm_num) (by norm_num), fl64_half 5 (by norm_num) (by norm_num)]
  have e : Validator.exMap.worldPositionToGridCellF u false =
      ⟨truncInt (fl64 (fl64 (u.x - -5) / 1)), truncInt (fl64 (fl64 (u.y - -5) / 1))⟩ := rfl
  rw [e, key hx, key hy]
  rfl

theorem exTriangle_vertices (u : Pt) (h : u ∈ ([⟨-4.5, -4.5⟩, ⟨-2.5, -4.5⟩, ⟨-4.5, -2.5⟩] : List Pt)) :
    (u.x = -4.5 ∨ u.x = -2.5) ∧ (u.y = -4.5 ∨ u.y = -2.5) ∧ Shape.placeF bestLibm ⟨⟨0, 0⟩, 0⟩ u = u ∧
      Shape.place ⟨⟨0, 0⟩, 0⟩ u = u := by
  have e1 : fl64 (-4.5) = -4.5 := fl64_half (-9) (by norm_num) (by norm_num)
  have e2 : fl64 (-2.5) = -2.5 := fl64_half (-5) (by norm_num) (by norm_num)
  have hp : Shape.place ⟨⟨0, 0⟩, 0⟩ u = u := by simp [Shape.place]
  simp only [List.mem_cons, List.not_mem_nil, or_false] at h
  rcases h with rfl | rfl | rfl
  · exact ⟨.inl rfl, .inl rfl, ex_place e1 e1, hp⟩
  · exact ⟨.inr rfl, .inl rfl, ex_place e2 e1, hp⟩
  · exact ⟨.inl rfl, .inr rfl, ex_place e1 e2, hp⟩

/-- The program marks the cells of the exact computation for the triangle. -/
theorem exTriangle_cellsF : Shape.gridCellsF bestLibm Validator.exMap ⟨⟨0, 0⟩, 0⟩ exTriangle =
    Shape.gridCells Validator.exMap ⟨⟨0, 0⟩, 0⟩ exTriangle := by
  unfold exTriangle
  rw [gridCellsF_polygon, gridCells_polygon]
  have e : ([⟨-4.5, -4.5⟩, ⟨-2.5, -4.5⟩, ⟨-4.5, -2.5⟩] : List Pt).map (Shape.placeF bestLibm ⟨⟨0, 0⟩, 0⟩) =
      ([⟨-4.5, -4.5⟩, ⟨-2.5, -4.5⟩, ⟨-4.5, -2.5⟩] : List Pt).map (Shape.place ⟨⟨0, 0⟩, 0⟩) :=
    List.map_congr_left fun u hu => by obtain ⟨-, -, h3, h4⟩ := exTriangle_vertices u hu; rw [h3, h4]
  rw [e]
  congr 1
  refine List.flatMap_congr fun p hp => ?_
  obtain ⟨i, ha, hb⟩ := closedEdges_isEdge (a := p.1) (b := p.2) hp
  obtain ⟨u, hu, h1⟩ := List.mem_map.mp (List.mem_of_getElem? ha)
  obtain ⟨w, hw, h2⟩ := List.mem_map.mp (List.mem_of_getElem? hb)
  obtain ⟨u1, u2, -, u4⟩ := exTriangle_vertices u hu
  obtain ⟨w1, w2, -, w4⟩ := exTriangle_vertices w hw
  rw [u4] at h1
  rw [w4] at h2
  unfold Shape.rasterizeLineF Shape.rasterizeLine
  rw [← h1, ← h2, exTriangle_cellF u1 u2, exTriangle_cellF w1 w2]

/-- Non-vacuity: with the triangle registered, a state is accepted with a safe radius of 4.5 m; the bound of
`C146_accepted_state_keeps_clear` is positive. With a safe radius of 100 m it is rejected. -/
example : ∃ (v v' : Validator) (cells : List Cell), SeesMap v (exOneObstacle cells ++ [.update]) ∧
    SeesMap v' (exOneObstacle cells ++ [.update]) ∧ (∃ c, Covered (exOneObstacle cells) c) ∧
    Tidy (exOneObstacle cells) ∧ v.map = Validator.exMap ∧ v'.map = Validator.exMap ∧
    v.isStateValidF ⟨⟨3, 3⟩, 0⟩ = some true ∧
    v'.isStateValidF ⟨⟨3, 3⟩, 0⟩ = some false ∧ WithinBoundsF v' ⟨⟨3, 3⟩, 0⟩ ∧
    Shape.gridCellsF bestLibm Validator.exMap ⟨⟨0, 0⟩, 0⟩ exTriangle = some (covers (obstacleOps (exOneObstacle cells)) 0) ∧
    FitsIn 5 exTriangle ∧
    (∀ u, IsVertex exTriangle u → Inside Validator.exMap.size
      (Validator.exMap.worldPositionToGridCellF (Shape.placeF bestLibm ⟨⟨0, 0⟩, 0⟩ u) false)) ∧
    (∀ u, IsVertex exTriangle u → NearMap Validator.exMap (Shape.placeF bestLibm ⟨⟨0, 0⟩, 0⟩ u)) ∧
    0 < v.minSafe / ((1 + (2 ^ 23)⁻¹) * √(4 - 2 * √2)) - (√2 + 5 / 2 + (2 ^ 17)⁻¹) * v.map.resolution
      - √2 * cornerError 5 ⟨⟨0, 0⟩, 0⟩ := by
  obtain ⟨cells, hcells, hne, hin, hfar⟩ := exTriangle_cells
  obtain ⟨st, r⟩ := C90_histories_execute (rows := 10) (columns := 10) (exOneObstacle cells ++ [.update]) (by
    intro o cells hm c hc
    simp [exOneObstacle] at hm
    obtain ⟨-, rfl⟩ := hm
    exact hin c hc) (by simp [exOneObstacle])
  have hvert : ∀ u, IsVertex exTriangle u → u ∈ ([⟨-4.5, -4.5⟩, ⟨-2.5, -4.5⟩, ⟨-4.5, -2.5⟩] : List Pt) := by
    intro u hu
    unfold exTriangle at hu
    cases hu with
    | corner h => exact h
  have hcell : Validator.exMap.worldPositionToGridCellF ⟨3, 3⟩ true = ⟨8, 8⟩ := by
    have h8 : fl64 (3 - -5) = 8 := by
      rw [fl64_half (x := 3 - -5) 16 (by norm_num) (by norm_num)]; norm_num
    have h8' : truncInt (fl64 (fl64 (3 - -5) / 1)) = 8 := by
      rw [h8, div_one, fl64_half (x := 8) 16 (by norm_num) (by norm_num)]
      unfold truncInt
      rw [if_pos (by norm_num)]
      exact_mod_cast Int.floor_intCast (R := ℝ) 8
    have e : ∀ c : Cell, c = ⟨truncInt (fl64 (fl64 (3 - -5) / 1)), truncInt (fl64 (fl64 (3 - -5) / 1))⟩ →
        Validator.exMap.worldPositionToGridCellF ⟨3, 3⟩ true = if Validator.exMap.isInsideCell c then c else ⟨-1, -1⟩ := by
      rintro c rfl; rfl
    rw [e _ rfl]
    rw [h8']
    simp [OccMap.isInsideCell, Validator.exMap]
  obtain ⟨o, ho, e, he, hle⟩ := C90_exact_without_removal r (exOne_tidy cells) (by simp [exOneObstacle])
    (by
      obtain ⟨c, hc⟩ := List.exists_mem_of_ne_nil cells hne
      exact ⟨c, (exOne_covered cells c).mpr hc⟩) ⟨8, 8⟩ (by simp [InRect])
  have hcov := (exOne_covered cells o).mp ho
  have hD : 5 ≤ √((ObstDistMap.toInt (st.dist.core.dist ⟨8, 8⟩) : Int) : ℝ) ∧
      √((ObstDistMap.toInt (st.dist.core.dist ⟨8, 8⟩) : Int) : ℝ) ≤ 20 := by
    rw [he]
    have e1 : ((ObstDistMap.toInt ((e : Nat) : WithTop Nat) : Int) : ℝ) = ((sqDist o ⟨8, 8⟩ : Int) : ℝ) := by
      rw [← hle]; rfl
    rw [e1]
    obtain ⟨r1, r2⟩ := hfar o hcov
    obtain ⟨q1, q2, q3, q4⟩ := hin o hcov
    have a1 : (25 : Int) ≤ sqDist o ⟨8, 8⟩ := by unfold sqDist; dsimp only; nlinarith
    have a2 : sqDist o ⟨8, 8⟩ ≤ (400 : Int) := by unfold sqDist; dsimp only; nlinarith
    have b1 : (25 : ℝ) ≤ ((sqDist o ⟨8, 8⟩ : Int) : ℝ) := by exact_mod_cast a1
    have b2 : ((sqDist o ⟨8, 8⟩ : Int) : ℝ) ≤ 400 := by exact_mod_cast a2
    exact ⟨Real.le_sqrt_of_sq_le (by linarith), (Real.sqrt_le_left (by norm_num)).mpr (by linarith)⟩
  have hlow : 9 / 2 ≤ reportedDistanceF (Validator.exValidator st.dist.core) ⟨3, 3⟩ := by
    show _ ≤ worldDistanceF Validator.exMap.resolution (st.dist.core.dist (Validator.exMap.worldPositionToGridCellF ⟨3, 3⟩ true))
    rw [hcell]
    refine le_trans ?_ (Validator.le_worldDistanceF (by norm_num [Validator.exMap]) _)
    show _ ≤ _ * (_ * 1)
    have := hD.1
    norm_num
    linarith
  have hhigh : reportedDistanceF (Validator.exValidator st.dist.core) ⟨3, 3⟩ < 100 := by
    show worldDistanceF Validator.exMap.resolution (st.dist.core.dist (Validator.exMap.worldPositionToGridCellF ⟨3, 3⟩ true)) < _
    rw [hcell]
    have up : ∀ (p : ℕ) (x : ℝ), 1 ≤ p → 0 ≤ x → 0 ≤ fl p x ∧ fl p x ≤ 3 / 2 * x := by
      intro p x hp hx
      have := (abs_le.1 (fl_rel p x)).2
      rw [abs_of_nonneg hx] at this
      have h2 : ((2 : ℝ) ^ p)⁻¹ ≤ 1 / 2 := by
        rw [inv_eq_one_div, div_le_div_iff₀ (by positivity) (by norm_num)]
        have := pow_le_pow_right₀ (by norm_num : (1 : ℝ) ≤ 2) hp
        linarith
      have := mul_le_mul_of_nonneg_right h2 hx
      exact ⟨fl_nonneg p hx, by linarith⟩
    obtain ⟨w, hw⟩ : ∃ w, w = √((ObstDistMap.toInt (st.dist.core.dist ⟨8, 8⟩) : Int) : ℝ) := ⟨_, rfl⟩
    unfold worldDistanceF
    rw [← hw] at hD ⊢
    rw [show Validator.exMap.resolution = 1 from rfl, mul_one]
    obtain ⟨a0, a1⟩ := up 53 w (by norm_num) (by linarith [hD.1])
    obtain ⟨b0, b1⟩ := up 53 (fl 53 w) (by norm_num) a0
    obtain ⟨c0, c1⟩ := up 24 (fl 53 (fl 53 w)) (by norm_num) b0
    have := hD.2
    show fl 24 (fl 53 (fl 53 w)) < 100
    linarith
  obtain ⟨v, hv⟩ : ∃ v : Validator, v = { Validator.exValidator st.dist.core with minSafe := 9 / 2 } := ⟨_, rfl⟩
  obtain ⟨v', hv'⟩ : ∃ v : Validator, v = { Validator.exValidator st.dist.core with minSafe := 100 } := ⟨_, rfl⟩
  have hmap : v.map = Validator.exMap := by rw [hv]; rfl
  have hmap' : v'.map = Validator.exMap := by rw [hv']; rfl
  have sees : SeesMap v (exOneObstacle cells ++ [.update]) := ⟨st, by rw [hmap]; exact r, by rw [hv]; rfl⟩
  have sees' : SeesMap v' (exOneObstacle cells ++ [.update]) := ⟨st, by rw [hmap']; exact r, by rw [hv']; rfl⟩
  have z : IsFlt 53 (0 : ℝ) := fl_zero 53
  have acc : AcceptableF v ⟨⟨3, 3⟩, 0⟩ :=
    Validator.ex_acceptableF v (by rw [hv]; rfl) hmap _ (by norm_num) (by norm_num) rfl (by rw [hv]; exact hlow)
  obtain ⟨b, hb, hb'⟩ := Validator.C127_state_valid_iff v (seesF_sameSize sees) ⟨⟨3, 3⟩, 0⟩ z (by norm_num)
  obtain ⟨c, hc, hc'⟩ := Validator.C127_state_valid_iff v' (seesF_sameSize sees') ⟨⟨3, 3⟩, 0⟩ z (by norm_num)
  refine ⟨v, v', cells, sees, sees', ⟨o, ho⟩, exOne_tidy _, hmap, hmap', by rw [hb, hb'.mpr acc], ?_, ?_, ?_, ?_, ?_, ?_, ?_⟩
  · rw [hc]
    cases hcc : c with
    | false => rfl
    | true =>
      have := (hc'.mp hcc).clear
      rw [hv'] at this
      exact absurd (lt_of_le_of_lt this hhigh) (lt_irrefl _)
  · rw [hv']
    rw [hv] at acc
    exact ⟨acc.x_ge, acc.x_le, acc.y_ge, acc.y_le, acc.theta, acc.inside⟩
  · rw [exOne_covers, exTriangle_cellsF]; exact hcells
  · intro u hu
    obtain ⟨h1, h2, -⟩ := exTriangle_vertices u (hvert u hu)
    rcases h1 with h1 | h1 <;> rcases h2 with h2 | h2 <;> rw [h1, h2] <;> norm_num [abs_le]
  · intro u hu
    have hm := hvert u hu
    obtain ⟨h1, h2, h3, h4⟩ := exTriangle_vertices u hm
    rw [h3, exTriangle_cellF h1 h2]
    exact exTriangle_inside u (by
      have := IsCorner.corner (pose := ⟨⟨0, 0⟩, 0⟩) hm
      rwa [h4] at this)
  · intro u hu
    obtain ⟨h1, h2, h3, -⟩ := exTriangle_vertices u (hvert u hu)
    rw [h3]
    show |(u.x - -5) / 1| ≤ _ ∧ |(u.y - -5) / 1| ≤ _
    rcases h1 with h1 | h1 <;> rcases h2 with h2 | h2 <;> rw [h1, h2] <;> norm_num [abs_le]
  · rw [hmap, show v.minSafe = 9 / 2 by rw [hv], show Validator.exMap.resolution = 1 from rfl]
    have s2 : √2 < 1.4143 := by rw [Real.sqrt_lt' (by norm_num)]; norm_num
    have s2' : 1.414 < √2 := by rw [Real.lt_sqrt (by norm_num)]; norm_num
    have hk : √(4 - 2 * √2) < 1.1 := by rw [Real.sqrt_lt' (by norm_num)]; norm_num; linarith
    have hk0 : 0 < √(4 - 2 * √2) := Real.sqrt_pos.mpr (by linarith)
    have : 4 < 9 / 2 / ((1 + (2 ^ 23)⁻¹) * √(4 - 2 * √2)) := by
      rw [lt_div_iff₀ (by positivity)]; norm_num; linarith
    unfold cornerError
    norm_num at this ⊢
    linarith

end PathPlanning
