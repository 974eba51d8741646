import Verif.Props.Validator
import Verif.Props.OccMap

/-!
# C74: the map of a new validator covers its state space
-/

namespace PathPlanning
open Spec

namespace Validator

private theorem new_eq {space : SpaceSE2} {map : OccMap} {minStep minSafe : ℝ} {v : Validator}
    (h : Validator.new space map minStep minSafe = some v) :
    v.space = space ∧ v.minSafe = minSafe ∧ v.map.resolution = map.resolution ∧
    v.map.localOrigin = map.localOrigin ∧
    0 < v.map.rows ∧ 0 < v.map.columns ∧
    v.map.rows = ⌈(space.ub.position.x - space.lb.position.x) / map.resolution⌉ ∧
    v.map.columns = ⌈(space.ub.position.y - space.lb.position.y) / map.resolution⌉ ∧
    v.map.worldGridOrigin = map.localOrigin + ⟨-(space.ub.position.x - space.lb.position.x) / 2,
      -(space.ub.position.y - space.lb.position.y) / 2⟩ ∧
    v.dist = .new v.map.rows v.map.columns := by
  unfold Validator.new at h
  rw [Option.map_eq_some_iff] at h
  obtain ⟨m, hm, rfl⟩ := h
  unfold OccMap.initializeSize at hm
  dsimp only at hm
  split at hm
  · rename_i hpos
    cases hm
    exact ⟨rfl, rfl, rfl, rfl, hpos.1, hpos.2, rfl, rfl, rfl, rfl⟩
  · cases hm

/-- C74. A state space that is not degenerate is accepted. -/
theorem C74_constructed (space : SpaceSE2) (map : OccMap) (minStep minSafe : ℝ) (hres : 0 < map.resolution)
    (hx : space.lb.position.x < space.ub.position.x) (hy : space.lb.position.y < space.ub.position.y) :
    ∃ v, Validator.new space map minStep minSafe = some v ∧ SameSize v := by
  unfold Validator.new OccMap.initializeSize
  dsimp only
  rw [if_pos ⟨Int.ceil_pos.2 (div_pos (by linarith) hres), Int.ceil_pos.2 (div_pos (by linarith) hres)⟩]
  exact ⟨_, rfl, rfl, rfl⟩

/-- C74. The part that holds: when the bounds are symmetric, every position (seen from the map) within the
bounds and below the upper bounds is inside the map; with a heading within the bounds it is a valid state,
if there are no obstacles and the safe radius is below the distance reported without obstacles.
Missing: positions on the upper bounds, and bounds that are not symmetric. -/
theorem C74_covers_partial (space : SpaceSE2) (map : OccMap) (minStep minSafe : ℝ) (v : Validator)
    (hv : Validator.new space map minStep minSafe = some v) (hres : 0 < map.resolution)
    (hx : space.lb.position.x = -space.ub.position.x) (hy : space.lb.position.y = -space.ub.position.y)
    (s : PoseR)
    (hsx : space.lb.position.x ≤ s.position.x - map.localOrigin.x ∧
      s.position.x - map.localOrigin.x < space.ub.position.x)
    (hsy : space.lb.position.y ≤ s.position.y - map.localOrigin.y ∧
      s.position.y - map.localOrigin.y < space.ub.position.y) :
    v.map.isInsidePos s.position = true ∧
    (space.lb.theta ≤ wrapTheta s.theta → wrapTheta s.theta ≤ space.ub.theta →
      minSafe ≤ √2147483647 * map.resolution → v.isStateValid s = some true) := by
  obtain ⟨h1, h2, h3, h4, h5, h6, h7, h8, h9, h10⟩ := new_eq hv
  have hin : v.map.isInsidePos s.position = true := by
    rw [C29_inside_exact v.map (h3 ▸ hres) h5 h6, h9, h3, h7, h8]
    have e1 := Int.le_ceil ((space.ub.position.x - space.lb.position.x) / map.resolution)
    have e2 := Int.le_ceil ((space.ub.position.y - space.lb.position.y) / map.resolution)
    rw [div_le_iff₀ hres] at e1 e2
    simp only [Pt.add_x, Pt.add_y]
    rw [hx] at hsx e1 ⊢
    rw [hy] at hsy e2 ⊢
    refine ⟨⟨?_, ?_⟩, ?_, ?_⟩ <;> linarith
  refine ⟨hin, fun ht1 ht2 hsafe => ?_⟩
  have hsz : SameSize v := by rw [SameSize, h10]; exact ⟨rfl, rfl⟩
  obtain ⟨b, hb, hacc⟩ := C53_state_valid_iff v hsz s
  rw [hb, hacc.2]
  refine ⟨?_, ?_, ?_, ?_, ?_, ?_, hin, ?_⟩
  · rw [h1, h4]; exact hsx.1
  · rw [h1, h4]; exact hsx.2.le
  · rw [h1, h4]; exact hsy.1
  · rw [h1, h4]; exact hsy.2.le
  · rw [h1]; exact ht1
  · rw [h1]; exact ht2
  · rw [h2]
    unfold reportedDistance worldDistance
    rw [h3, h10]
    simpa [DistMap.new, ObstDistMap.toInt] using hsafe

/-- C74. The whole map lies within symmetric bounds, up to one cell: no position more than a resolution
outside the bounds is inside the map. -/
theorem C74_not_beyond (space : SpaceSE2) (map : OccMap) (minStep minSafe : ℝ) (v : Validator)
    (hv : Validator.new space map minStep minSafe = some v) (hres : 0 < map.resolution)
    (hx : space.lb.position.x = -space.ub.position.x) (hy : space.lb.position.y = -space.ub.position.y)
    (p : Pt) (hin : v.map.isInsidePos p = true) :
    (space.lb.position.x - map.resolution < p.x - map.localOrigin.x ∧
      p.x - map.localOrigin.x < space.ub.position.x + map.resolution) ∧
    (space.lb.position.y - map.resolution < p.y - map.localOrigin.y ∧
      p.y - map.localOrigin.y < space.ub.position.y + map.resolution) := by
  obtain ⟨h1, h2, h3, h4, h5, h6, h7, h8, h9, h10⟩ := new_eq hv
  rw [C29_inside_exact v.map (h3 ▸ hres) h5 h6, h9, h3, h7, h8] at hin
  have e1 := Int.ceil_lt_add_one ((space.ub.position.x - space.lb.position.x) / map.resolution)
  have e2 := Int.ceil_lt_add_one ((space.ub.position.y - space.lb.position.y) / map.resolution)
  have f1 := mul_lt_mul_of_pos_right e1 hres
  have f2 := mul_lt_mul_of_pos_right e2 hres
  rw [add_mul, div_mul_cancel₀ _ hres.ne', one_mul] at f1 f2
  simp only [Pt.add_x, Pt.add_y] at hin
  rw [hx] at hin f1 ⊢
  rw [hy] at hin f2 ⊢
  obtain ⟨⟨a, b⟩, c, d⟩ := hin
  refine ⟨⟨?_, ?_⟩, ?_, ?_⟩ <;> linarith

/-- C74 is violated for bounds that are not symmetric: in the state space from (0, 0) to (10, 10) the state
(7, 7) is within the bounds but outside the map, and is never valid. -/
theorem C74_asymmetric_bounds_not_covered (junk junk' : Pt) (minStep minSafe : ℝ) :
    ∃ v, Validator.new ⟨⟨⟨0, 0⟩, -4⟩, ⟨⟨10, 10⟩, 4⟩⟩ (OccMap.new 1 junk junk') minStep minSafe = some v ∧
      v.space.validateBounds ⟨⟨7, 7⟩, 0⟩ = true ∧ v.map.isInsidePos ⟨7, 7⟩ = false ∧
      v.isStateValid ⟨⟨7, 7⟩, 0⟩ = some false := by
  obtain ⟨v, hv, hsz⟩ := C74_constructed ⟨⟨⟨0, 0⟩, -4⟩, ⟨⟨10, 10⟩, 4⟩⟩ (OccMap.new 1 junk junk') minStep minSafe
    (by simp [OccMap.new]) (by norm_num) (by norm_num)
  obtain ⟨h1, h2, h3, h4, h5, h6, h7, h8, h9, h10⟩ := new_eq hv
  have hin : v.map.isInsidePos ⟨7, 7⟩ = false := by
    rw [← Bool.not_eq_true, C29_inside_exact v.map (by rw [h3]; simp [OccMap.new]) h5 h6, h9, h3, h7]
    have : ⌈((10 : ℝ) - 0) / 1⌉ = 10 := by norm_num
    simp only [OccMap.new, Pt.add_x, Pt.add_y, this]
    norm_num
  refine ⟨v, hv, ?_, hin, ?_⟩
  · rw [h1]; simp [SpaceSE2.validateBounds]; norm_num
  · obtain ⟨b, hb, hacc⟩ := C53_state_valid_iff v hsz ⟨⟨7, 7⟩, 0⟩
    rw [hb]
    cases b with
    | false => rfl
    | true =>
      have := (hacc.1 rfl).inside
      rw [show (⟨⟨7, 7⟩, 0⟩ : PoseR).position = ⟨7, 7⟩ from rfl, hin] at this
      cases this

/-- C74 is violated on the upper bounds: in the state space from (-5, -5) to (5, 5) the state (5, 0) is
within the bounds but outside the map. -/
theorem C74_upper_bound_not_covered (junk junk' : Pt) (minStep minSafe : ℝ) :
    ∃ v, Validator.new ⟨⟨⟨-5, -5⟩, -4⟩, ⟨⟨5, 5⟩, 4⟩⟩ (OccMap.new 1 junk junk') minStep minSafe = some v ∧
      v.space.validateBounds ⟨⟨5, 0⟩, 0⟩ = true ∧ v.map.isInsidePos ⟨5, 0⟩ = false := by
  obtain ⟨v, hv, hsz⟩ := C74_constructed ⟨⟨⟨-5, -5⟩, -4⟩, ⟨⟨5, 5⟩, 4⟩⟩ (OccMap.new 1 junk junk') minStep minSafe
    (by simp [OccMap.new]) (by norm_num) (by norm_num)
  obtain ⟨h1, h2, h3, h4, h5, h6, h7, h8, h9, h10⟩ := new_eq hv
  refine ⟨v, hv, by rw [h1]; simp [SpaceSE2.validateBounds], ?_⟩
  rw [← Bool.not_eq_true, C29_inside_exact v.map (by rw [h3]; simp [OccMap.new]) h5 h6, h9, h3, h7]
  have : ⌈((5 : ℝ) - (-5)) / 1⌉ = 10 := by norm_num
  simp only [OccMap.new, Pt.add_x, Pt.add_y, this]
  norm_num

/-- A concrete case: a square of 10 around the origin, resolution 1, the state (3.5, -4) with heading 1. -/
example (junk junk' : Pt) : ∃ v, Validator.new ⟨⟨⟨-5, -5⟩, -4⟩, ⟨⟨5, 5⟩, 4⟩⟩ (OccMap.new 1 junk junk') 0.1 2 = some v ∧
    v.isStateValid ⟨⟨3.5, -4⟩, 1⟩ = some true := by
  obtain ⟨v, hv, -⟩ := C74_constructed ⟨⟨⟨-5, -5⟩, -4⟩, ⟨⟨5, 5⟩, 4⟩⟩ (OccMap.new 1 junk junk') 0.1 2
    (by simp [OccMap.new]) (by norm_num) (by norm_num)
  refine ⟨v, hv, ?_⟩
  have hw : wrapTheta 1 = 1 := C41_unchanged 1 (by linarith [Real.two_le_pi]) (by linarith [Real.two_le_pi])
  refine (C74_covers_partial _ _ _ _ v hv (by simp [OccMap.new]) (by norm_num) (by norm_num) _ ?_ ?_).2 ?_ ?_ ?_
  · simp only [OccMap.new]; norm_num
  · simp only [OccMap.new]; norm_num
  · rw [hw]; norm_num
  · rw [hw]; norm_num
  · simp only [OccMap.new, mul_one]
    exact Real.le_sqrt_of_sq_le (by norm_num)

end Validator
end PathPlanning
