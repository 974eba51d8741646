import Verif.Props.Validator
import Verif.Props.OccMap
import Verif.Model.Path
import Mathlib.Analysis.Complex.Norm

/-! # C53 (counterexamples), C70: clearance of accepted paths -/

namespace PathPlanning
open Spec

/-- A straight path as a path of the validator (paths/path_se2.h). -/
noncomputable def PathSE2.toAny (p : PathSE2) : AnyPath := ⟨p.init, p.length, p.interpolate⟩

namespace Validator

/-! ## A concrete validator -/

/-- The bounds [-5, 5]², any heading. -/
noncomputable def exSpace : SpaceSE2 := ⟨⟨⟨-5, -5⟩, -4⟩, ⟨⟨5, 5⟩, 4⟩⟩

/-- The 10 × 10 map of resolution 1 that covers these bounds. -/
noncomputable def exMap : OccMap := ⟨1, 10, 10, ⟨0, 0⟩, ⟨-5, -5⟩, ⟨-5, -5⟩⟩

/-- Step 0.1, safe radius 1 (the default parameters, state_validator_occupancy_map.h:31-32). -/
noncomputable def exValidator (d : DistMap) : Validator := ⟨exSpace, exMap, d, 1 / 10, 1⟩

/-- It is what the constructor builds. -/
theorem exValidator_new (j j' : Pt) :
    Validator.new exSpace (OccMap.new 1 j j') (1 / 10) 1 = some (exValidator (.new 10 10)) := by
  have h : ⌈((5 : ℝ) - -5) / 1⌉ = 10 := by norm_num
  simp [Validator.new, OccMap.initializeSize, OccMap.new, exSpace, exValidator, exMap]
  norm_num
  ext <;> simp

theorem ex_acceptable (d : DistMap) (s : PoseR) (hx : -5 ≤ s.position.x ∧ s.position.x < 5)
    (hy : -5 ≤ s.position.y ∧ s.position.y < 5)
    (hd : 1 ≤ reportedDistance (exValidator d) s.position) : Acceptable (exValidator d) s := by
  have hw := C41_range s.theta
  have hp := Real.pi_le_four
  refine ⟨?_, ?_, ?_, ?_, ?_, ?_, ?_, hd⟩
  · simpa [exValidator, exSpace, exMap] using hx.1
  · simpa [exValidator, exSpace, exMap] using hx.2.le
  · simpa [exValidator, exSpace, exMap] using hy.1
  · simpa [exValidator, exSpace, exMap] using hy.2.le
  · show -4 ≤ _; linarith
  · show _ ≤ (4 : ℝ); linarith
  · refine (C29_inside_exact exMap (by norm_num [exMap]) (by simp [exMap]) (by simp [exMap]) _).mpr ?_
    norm_num [exMap]
    refine ⟨⟨?_, ?_⟩, ?_, ?_⟩ <;> linarith [hx.1, hx.2, hy.1, hy.2]

theorem ex_reported (p : Pt) : 1 ≤ reportedDistance (exValidator (.new 10 10)) p := by
  show 1 ≤ √(((2147483647 : Int) : ℝ)) * 1
  rw [mul_one]
  exact Real.one_le_sqrt.mpr (by norm_num)

theorem not_rejected {v : Validator} (h : SameSize v) (hstep : 0 < v.minStep) {q : AnyPath}
    (hq : 0 < q.length) (hall : ∀ r, 0 ≤ r → r < 1 → Acceptable v (q.interpolate r)) :
    v.isPathValid q = some (true, 1) := by
  obtain ⟨⟨b, r⟩, hr⟩ := C53_terminates v h hstep q
  cases b with
  | true => rw [hr, (C53_accepted_partial v h hstep q hq r hr).1]
  | false =>
    obtain ⟨bad, h1, h2, h3, h4, -⟩ := C53_rejected v h hstep q hq r hr
    exact (h4 (hall bad (by linarith) h3)).elim

/-- Non-vacuity of `C53_accepted_partial`: a path of positive length in this map is accepted. -/
example : (exValidator (.new 10 10)).isPathValid (PathSE2.connect ⟨⟨0, 0⟩, 0⟩ ⟨⟨3, 4⟩, 1⟩).toAny
    = some (true, 1) := by
  have hl : (PathSE2.connect ⟨⟨0, 0⟩, 0⟩ ⟨⟨3, 4⟩, 1⟩).toAny.length = 5 := by
    simp only [PathSE2.toAny, PathSE2.connect, Pt.norm, Pt.sub_x, Pt.sub_y]
    rw [show ((3 : ℝ) - 0) ^ 2 + (4 - 0) ^ 2 = 5 ^ 2 by norm_num]
    exact Real.sqrt_sq (by norm_num)
  refine not_rejected ⟨rfl, rfl⟩ (by norm_num [exValidator]) (by rw [hl]; norm_num) ?_
  intro r h0 h1
  refine ex_acceptable _ _ ?_ ?_ (ex_reported _) <;>
  · simp only [PathSE2.toAny, PathSE2.connect, PathSE2.interpolate, Pt.lerp]
    constructor <;> nlinarith

/-- Non-vacuity of `C53_rejected`: a path that leaves the bounds is rejected. -/
example : ∃ r, (exValidator (.new 10 10)).isPathValid (PathSE2.connect ⟨⟨7, 0⟩, 0⟩ ⟨⟨8, 0⟩, 0⟩).toAny
    = some (false, r) := by
  have hl : (PathSE2.connect ⟨⟨7, 0⟩, 0⟩ ⟨⟨8, 0⟩, 0⟩).toAny.length = 1 := by
    simp only [PathSE2.toAny, PathSE2.connect, Pt.norm, Pt.sub_x, Pt.sub_y]
    norm_num
  obtain ⟨⟨b, r⟩, hr⟩ := C53_terminates (exValidator (.new 10 10)) ⟨rfl, rfl⟩ (by norm_num [exValidator])
    (PathSE2.connect ⟨⟨7, 0⟩, 0⟩ ⟨⟨8, 0⟩, 0⟩).toAny
  cases b with
  | false => exact ⟨r, hr⟩
  | true =>
    have := (C53_accepted_partial _ ⟨rfl, rfl⟩ (by norm_num [exValidator]) _ (by rw [hl]; norm_num) r hr).2.1.x_le
    simp [PathSE2.toAny, PathSE2.connect, PathSE2.interpolate, Pt.lerp, exValidator, exSpace, exMap] at this
    norm_num at this

/-- C53, violated: a validator with the default parameters accepts a straight path of length 0.09
although its final state is invalid (outside the bounds): only the initial state is checked. -/
theorem C53_final_state_not_checked :
    ∃ (v : Validator) (q : PathSE2), (∃ j j', Validator.new exSpace (OccMap.new 1 j j') (1 / 10) 1 = some v) ∧
      q = .connect ⟨⟨99 / 20, 0⟩, 0⟩ ⟨⟨126 / 25, 0⟩, 0⟩ ∧
      v.isPathValid q.toAny = some (true, 1) ∧ v.isStateValid q.final = some false ∧
      v.isStateValid (q.interpolate 1) = some false := by
  have hbad : ∀ s : PoseR, s.position.x = 126 / 25 →
      (exValidator (.new 10 10)).isStateValid s = some false := by
    intro s hs
    obtain ⟨b, hb, hb'⟩ := C53_state_valid_iff (exValidator (.new 10 10)) ⟨rfl, rfl⟩ s
    cases b with
    | false => exact hb
    | true =>
      have := (hb'.mp rfl).x_le
      rw [hs] at this
      norm_num [exValidator, exSpace, exMap] at this
  refine ⟨exValidator (.new 10 10), _, ⟨⟨0, 0⟩, ⟨0, 0⟩, exValidator_new _ _⟩, rfl, ?_, hbad _ rfl,
    hbad _ (by simp [PathSE2.connect, PathSE2.interpolate, Pt.lerp])⟩
  have hl : (PathSE2.connect ⟨⟨99 / 20, 0⟩, 0⟩ ⟨⟨126 / 25, 0⟩, 0⟩).toAny.length = 9 / 100 := by
    simp only [PathSE2.toAny, PathSE2.connect, Pt.norm, Pt.sub_x, Pt.sub_y]
    rw [show ((126 : ℝ) / 25 - 99 / 20) ^ 2 + (0 - 0) ^ 2 = (9 / 100) ^ 2 by norm_num]
    exact Real.sqrt_sq (by norm_num)
  obtain ⟨q, hq⟩ : ∃ q, q = (PathSE2.connect ⟨⟨99 / 20, 0⟩, 0⟩ ⟨⟨126 / 25, 0⟩, 0⟩).toAny := ⟨_, rfl⟩
  rw [← hq] at hl ⊢
  have h0 : Acceptable (exValidator (.new 10 10)) (q.interpolate 0) := by
    refine ex_acceptable _ _ ?_ ?_ (ex_reported _) <;> rw [hq] <;>
    · simp only [PathSE2.toAny, PathSE2.connect, PathSE2.interpolate, Pt.lerp]
      norm_num
  have hs : 0 < (exValidator (.new 10 10)).minStep := by norm_num [exValidator]
  have hq0 : 0 < q.length := by rw [hl]; norm_num
  obtain ⟨⟨b, r⟩, hr⟩ := C53_terminates _ ⟨rfl, rfl⟩ hs q
  cases b with
  | true => rw [hr, (C53_accepted_partial _ ⟨rfl, rfl⟩ hs q hq0 r hr).1]
  | false =>
    obtain ⟨bad, h1, h2, h3, h4, h5 | h5, -⟩ := C53_rejected _ ⟨rfl, rfl⟩ hs q hq0 r hr
    · rw [h5.1] at h4; exact (h4 h0).elim
    · exfalso
      have h6 : (1 : ℝ) / 10 ≤ (bad - r) * q.length := by rw [h5.2]; exact le_max_right _ _
      rw [hl] at h6
      nlinarith

/-- C53, violated for a map that was moved: the distance to the bounds is measured in the world
instead of the map, so an accepted path can leave the bounds between two checked states. The map is
at (10, 0) with bounds [-20, 20]²; the path goes 5 to the left and comes back. -/
theorem C53_moved_map_leaves_bounds :
    ∃ (v : Validator) (q : AnyPath) (space : SpaceSE2) (j j' : Pt),
      Validator.new space ((OccMap.new 1 j j').setPosition ⟨10, 0⟩) (1 / 10) 1 = some v ∧
      q.length = 10 ∧ (∀ a b, euclid (q.interpolate a).position (q.interpolate b).position ≤ 10 * |a - b|) ∧
      v.isPathValid q = some (true, 1) ∧ v.isStateValid (q.interpolate 0) = some true ∧
      v.isStateValid (q.interpolate 1) = some true ∧ v.isStateValid (q.interpolate (1 / 2)) = some false := by
  obtain ⟨space, hspace⟩ : ∃ s : SpaceSE2, s = ⟨⟨⟨-20, -20⟩, -4⟩, ⟨⟨20, 20⟩, 4⟩⟩ := ⟨_, rfl⟩
  obtain ⟨map, hmap⟩ : ∃ m : OccMap, m = ⟨1, 40, 40, ⟨10, 0⟩, ⟨-20, -20⟩, ⟨-10, -20⟩⟩ := ⟨_, rfl⟩
  obtain ⟨v, hv⟩ : ∃ v : Validator, v = ⟨space, map, .new 40 40, 1 / 10, 1⟩ := ⟨_, rfl⟩
  obtain ⟨q, hq⟩ : ∃ q : AnyPath, q = ⟨⟨⟨-99 / 10, 0⟩, 0⟩, 10,
    fun r => ⟨⟨-99 / 10 - 5 * (1 - |2 * r - 1|), 0⟩, 0⟩⟩ := ⟨_, rfl⟩
  have hrep : ∀ p, 10 ≤ reportedDistance v p - 1 := by
    intro p
    rw [hv, hmap]
    show 10 ≤ √(((2147483647 : Int) : ℝ)) * 1 - 1
    have : (11 : ℝ) ≤ √(((2147483647 : Int) : ℝ)) := Real.le_sqrt' (by norm_num) |>.mpr (by norm_num)
    linarith
  have hacc : ∀ s : PoseR, s.position.x = -99 / 10 → s.position.y = 0 → Acceptable v s := by
    intro s hx hy
    have hw := C41_range s.theta
    have hp := Real.pi_le_four
    have hr := hrep s.position
    refine ⟨?_, ?_, ?_, ?_, ?_, ?_, ?_, ?_⟩
    · rw [hv, hspace, hmap, hx]; norm_num
    · rw [hv, hspace, hmap, hx]; norm_num
    · rw [hv, hspace, hmap, hy]; norm_num
    · rw [hv, hspace, hmap, hy]; norm_num
    · rw [hv, hspace]; show -4 ≤ _; linarith
    · rw [hv, hspace]; show _ ≤ (4 : ℝ); linarith
    · rw [hv]
      refine (C29_inside_exact map (by norm_num [hmap]) (by simp [hmap]) (by simp [hmap]) _).mpr ?_
      rw [hx, hy, hmap]; norm_num
    · have : v.minSafe = 1 := by rw [hv]
      linarith
  have hsz : SameSize v := by rw [hv, hmap]; exact ⟨rfl, rfl⟩
  have hval : ∀ s : PoseR, Acceptable v s → v.isStateValid s = some true := by
    intro s hs
    obtain ⟨b, hb, hb'⟩ := C53_state_valid_iff v hsz s
    rw [hb, hb'.mpr hs]
  have h0 : Acceptable v (q.interpolate 0) := hacc _ (by rw [hq]; norm_num) (by rw [hq])
  refine ⟨v, q, space, ⟨0, 0⟩, ⟨0, 0⟩, ?_, by rw [hq], ?_, ?_, hval _ h0,
    hval _ (hacc _ (by rw [hq]; norm_num) (by rw [hq])), ?_⟩
  · rw [hv, hspace, hmap]
    simp [Validator.new, OccMap.initializeSize, OccMap.new, OccMap.setPosition]
    norm_num
    ext <;> simp
    norm_num
  · intro a b
    rw [hq]
    simp only [euclid, sub_self]
    rw [show ((-99 / 10 - 5 * (1 - |2 * a - 1|) - (-99 / 10 - 5 * (1 - |2 * b - 1|))) ^ 2 + (0 : ℝ) ^ 2)
      = (5 * (|2 * a - 1| - |2 * b - 1|)) ^ 2 by ring, Real.sqrt_sq_eq_abs, abs_mul]
    have := abs_abs_sub_abs_le_abs_sub (2 * a - 1) (2 * b - 1)
    rw [show 2 * a - 1 - (2 * b - 1) = 2 * (a - b) by ring, abs_mul] at this
    norm_num at this ⊢
    linarith
  · have hf : 10 ≤ freeDistance v (q.interpolate 0) := by
      have h7 := hrep (q.interpolate 0).position
      have h8 : v.minSafe = 1 := by rw [hv]
      unfold freeDistance
      rw [h8]
      refine le_min h7 (le_min (le_min ?_ ?_) (le_min ?_ ?_)) <;> rw [hv, hspace, hq] <;> norm_num
    have hlen : q.length = 10 := by rw [hq]
    unfold isPathValid
    rw [if_neg (by rw [hlen]; norm_num), pathLoop, if_pos (by rw [hlen]; norm_num)]
    dsimp only
    rw [zero_div, hval _ h0]
    simp only [Option.bind_eq_bind, Option.bind_some, if_true, increment_eq hsz h0]
    rw [pathLoop, if_neg]
    have := le_max_left (freeDistance v (q.interpolate 0)) v.minStep
    rw [hlen]
    linarith
  · obtain ⟨b, hb, hb'⟩ := C53_state_valid_iff v hsz (q.interpolate (1 / 2))
    cases b with
    | false => exact hb
    | true =>
      have := (hb'.mp rfl).x_ge
      rw [hv, hspace, hmap, hq] at this
      norm_num at this

/-- Non-vacuity of `C53_zero_step_does_not_end`: with step 0 a path along the border of the map is
never decided. -/
example : ({ exValidator (.new 10 10) with minStep := 0 } : Validator).isPathValid
    ⟨⟨⟨-5, 0⟩, 0⟩, 1, fun r => ⟨⟨-5, r⟩, 0⟩⟩ = none := by
  refine C53_zero_step_does_not_end _ ⟨rfl, rfl⟩ _ one_pos rfl ?_ ?_
  · obtain ⟨h1, h2, h3, h4, h5, h6, h7, h8⟩ := ex_acceptable (.new 10 10) ⟨⟨-5, 0⟩, 0⟩ (by norm_num) (by norm_num)
      (ex_reported _)
    exact ⟨h1, h2, h3, h4, h5, h6, h7, h8⟩
  · have h := ex_reported ⟨-5, 0⟩
    have h' : 1 ≤ reportedDistance ({ exValidator (.new 10 10) with minStep := 0 } : Validator) ⟨-5, 0⟩ := h
    unfold freeDistance
    dsimp only
    rw [min_eq_right]
    · norm_num [exValidator, exSpace]
    · refine le_trans (b := 0) ?_ ?_
      · norm_num [exValidator, exSpace]
      · show 0 ≤ _ - (1 : ℝ)
        linarith

/-! ## C70 -/

theorem euclid_dist (p q : Pt) : euclid p q = Dist.dist (⟨p.x, p.y⟩ : ℂ) ⟨q.x, q.y⟩ := by
  rw [Complex.dist_eq_re_im]; rfl

theorem euclid_triangle (p q r : Pt) : euclid p r ≤ euclid p q + euclid q r := by
  simp only [euclid_dist]; exact dist_triangle _ _ _

private theorem abs_sub_trunc (x : ℝ) : |x - truncInt x| < 1 := by
  unfold truncInt
  split
  · rw [abs_lt]; constructor <;> linarith [Int.floor_le x, Int.lt_floor_add_one x]
  · rw [abs_lt]; constructor <;> linarith [Int.le_ceil x, Int.ceil_lt_add_one x]

/-- A position is within a cell diagonal of the corner of the cell it is mapped to. -/
theorem near_corner {m : OccMap} (hres : 0 < m.resolution) (p : Pt)
    (h : m.isInsidePos p = true) :
    euclid p (m.gridCellToWorldPosition (m.worldPositionToGridCell p true)) ≤ √2 * m.resolution := by
  obtain ⟨r, hr⟩ : ∃ r, r = truncInt ((p.x - m.worldGridOrigin.x) / m.resolution) := ⟨_, rfl⟩
  obtain ⟨k, hk⟩ : ∃ k, k = truncInt ((p.y - m.worldGridOrigin.y) / m.resolution) := ⟨_, rfl⟩
  have h0 : m.worldPositionToGridCell p true = ⟨r, k⟩ := by
    have h : m.isInsideCell (m.worldPositionToGridCell p true) = true := h
    simp only [OccMap.worldPositionToGridCell, OccMap.gridPositionToGridCell, ← hr, ← hk] at h ⊢
    cases hi : m.isInsideCell ⟨r, k⟩
    · rw [hi] at h; simp [OccMap.isInsideCell] at h
    · simp
  have h1 := abs_sub_trunc ((p.x - m.worldGridOrigin.x) / m.resolution)
  have h2 := abs_sub_trunc ((p.y - m.worldGridOrigin.y) / m.resolution)
  rw [← hr] at h1
  rw [← hk] at h2
  have e1 : p.x - (m.gridCellToWorldPosition ⟨r, k⟩).x =
      ((p.x - m.worldGridOrigin.x) / m.resolution - r) * m.resolution := by
    simp only [OccMap.gridCellToWorldPosition, OccMap.gridCellToGridPosition, Pt.add_x]
    field_simp; ring
  have e2 : p.y - (m.gridCellToWorldPosition ⟨r, k⟩).y =
      ((p.y - m.worldGridOrigin.y) / m.resolution - k) * m.resolution := by
    simp only [OccMap.gridCellToWorldPosition, OccMap.gridCellToGridPosition, Pt.add_y]
    field_simp; ring
  rw [h0]
  unfold euclid
  rw [e1, e2]
  have hs : √2 * m.resolution = √(2 * m.resolution ^ 2) := by
    rw [Real.sqrt_mul (by norm_num), Real.sqrt_sq hres.le]
  rw [hs]
  apply Real.sqrt_le_sqrt
  have h3 := (sq_lt_one_iff_abs_lt_one _).mpr h1
  have h4 := (sq_lt_one_iff_abs_lt_one _).mpr h2
  rw [mul_pow, mul_pow, ← add_mul]
  gcongr
  linarith

theorem euclid_corners (m : OccMap) (hres : 0 < m.resolution) (o c : Cell) :
    euclid (m.gridCellToWorldPosition c) (m.gridCellToWorldPosition o) =
      √((sqDist o c : Int) : ℝ) * m.resolution := by
  unfold euclid sqDist
  simp only [OccMap.gridCellToWorldPosition, OccMap.gridCellToGridPosition, Pt.add_x, Pt.add_y]
  rw [show (m.worldGridOrigin.x + (c.row : ℝ) * m.resolution - (m.worldGridOrigin.x + (o.row : ℝ) * m.resolution)) ^ 2
      + (m.worldGridOrigin.y + (c.col : ℝ) * m.resolution - (m.worldGridOrigin.y + (o.col : ℝ) * m.resolution)) ^ 2
      = (((o.row - c.row) ^ 2 + (o.col - c.col) ^ 2 : Int) : ℝ) * m.resolution ^ 2 by push_cast; ring,
    Real.sqrt_mul (by positivity), Real.sqrt_sq hres.le]

theorem inRect_of_inside {m : OccMap} {p : Pt} (h : m.isInsidePos p = true) :
    InRect m.rows m.columns (m.worldPositionToGridCell p true) := by
  have h : m.isInsideCell (m.worldPositionToGridCell p true) = true := h
  simpa [OccMap.isInsideCell, InRect, and_assoc] using h

/-- The path does not move faster than its length. -/
def UnitSpeed (q : AnyPath) : Prop :=
  ∀ a b, 0 ≤ a → a ≤ b → b ≤ 1 →
    euclid (q.interpolate a).position (q.interpolate b).position ≤ (b - a) * q.length

/-- The general estimate: from a reported distance that is at most `k` times the real one. -/
theorem clearance_at {v : Validator} (hres : 0 < v.map.resolution)
    {q : AnyPath} (hq : 0 < q.length) (hu : UnitSpeed q) (o : Cell) (k : ℝ) (hk : 0 < k)
    (hdist : ∀ p, v.map.isInsidePos p = true → reportedDistance v p ≤
      k * (√((sqDist o (v.map.worldPositionToGridCell p true) : Int) : ℝ) * v.map.resolution))
    (t : ℝ) (ht1 : t < 1) {a : ℝ} (h0 : 0 ≤ a) (h1 : a ≤ t * q.length)
    (h2 : Acceptable v (q.interpolate (a / q.length)))
    (h3 : t * q.length - a < max (freeDistance v (q.interpolate (a / q.length))) v.minStep) :
    ∃ a, 0 ≤ a ∧ a ≤ t ∧ Acceptable v (q.interpolate a) ∧
      reportedDistance v (q.interpolate a).position / k
        - max (reportedDistance v (q.interpolate a).position - v.minSafe) v.minStep
        - √2 * v.map.resolution
        ≤ euclid (q.interpolate t).position (v.map.gridCellToWorldPosition o) := by
  have hat : a / q.length ≤ t := by rw [div_le_iff₀ hq]; exact h1
  refine ⟨a / q.length, div_nonneg h0 hq.le, hat, h2, ?_⟩
  have hd := hdist _ h2.inside
  have hn := near_corner hres _ h2.inside
  have hs := hu (a / q.length) t (div_nonneg h0 hq.le) hat ht1.le
  rw [sub_mul, div_mul_cancel₀ _ hq.ne'] at hs
  rw [← euclid_corners v.map hres] at hd
  obtain ⟨p, hp⟩ : ∃ p, p = (q.interpolate (a / q.length)).position := ⟨_, rfl⟩
  rw [← hp] at hd hn hs ⊢
  have h4 : freeDistance v (q.interpolate (a / q.length)) ≤ reportedDistance v p - v.minSafe := by
    rw [hp]; exact min_le_left _ _
  have h5 := max_le_max_right v.minStep h4
  have h6 : reportedDistance v p / k ≤ euclid (v.map.gridCellToWorldPosition
      (v.map.worldPositionToGridCell p true)) (v.map.gridCellToWorldPosition o) := by
    rw [div_le_iff₀ hk, mul_comm]; exact hd
  have t1 := euclid_triangle (v.map.gridCellToWorldPosition (v.map.worldPositionToGridCell p true)) p
    (v.map.gridCellToWorldPosition o)
  have t2 := euclid_triangle p (q.interpolate t).position (v.map.gridCellToWorldPosition o)
  have t3 : euclid (v.map.gridCellToWorldPosition (v.map.worldPositionToGridCell p true)) p =
    euclid p (v.map.gridCellToWorldPosition (v.map.worldPositionToGridCell p true)) := by
    simp only [euclid_dist]; exact dist_comm _ _
  linarith

private theorem clearance {v : Validator} (h : SameSize v) (hres : 0 < v.map.resolution)
    (hstep : 0 < v.minStep) {q : AnyPath} (hq : 0 < q.length) (hu : UnitSpeed q) {r : ℝ}
    (ha : v.isPathValid q = some (true, r)) (o : Cell) (k : ℝ) (hk : 0 < k)
    (hdist : ∀ p, v.map.isInsidePos p = true → reportedDistance v p ≤
      k * (√((sqDist o (v.map.worldPositionToGridCell p true) : Int) : ℝ) * v.map.resolution))
    (t : ℝ) (ht : 0 ≤ t) (ht1 : t < 1) :
    ∃ a, 0 ≤ a ∧ a ≤ t ∧ Acceptable v (q.interpolate a) ∧
      reportedDistance v (q.interpolate a).position / k
        - max (reportedDistance v (q.interpolate a).position - v.minSafe) v.minStep
        - √2 * v.map.resolution
        ≤ euclid (q.interpolate t).position (v.map.gridCellToWorldPosition o) := by
  obtain ⟨-, -, hc⟩ := C53_accepted_partial v h hstep q hq r ha
  obtain ⟨a, h0, h1, h2, h3⟩ := hc (t * q.length) (mul_nonneg ht hq.le) (by nlinarith)
  exact clearance_at hres hq hu o k hk hdist t ht1 h0 h1 h2 h3

/-- The incremental distance map reports at most 8.3 % too much (C38). -/
theorem reported_le {v : Validator} (hres : 0 < v.map.resolution) {ops : List DistMap.Op}
    (hrun : DistMap.Run (.new v.map.rows v.map.columns) (ops ++ [.update]) v.dist)
    (o : Cell) (ho : o ∈ obstacles ops) (p : Pt) (hp : v.map.isInsidePos p = true) :
    reportedDistance v p ≤ √(4 - 2 * √2) *
      (√((sqDist o (v.map.worldPositionToGridCell p true) : Int) : ℝ) * v.map.resolution) := by
  have h2 : √2 < 2 := by
    rw [Real.sqrt_lt' (by norm_num)]; norm_num
  have hc : InRect v.map.rows v.map.columns (v.map.worldPositionToGridCell p true) := by
    exact inRect_of_inside hp
  obtain ⟨d, hd, hle⟩ := C38_at_most_eight_percent_partial hrun _ hc o ho
  unfold reportedDistance worldDistance
  rw [hd, ← mul_assoc, ← Real.sqrt_mul (by linarith)]
  gcongr
  exact hle

/-- C70, for the distances the incremental distance map really reports (up to 8.3 % too large, C38):
each state of an accepted path follows a checked state, whose reported distance `D` bounds the
distance to every obstacle from below. Missing: the constant bound of
`C70_constant_clearance_partial` for distances that are not exact. -/
theorem C70_clearance_partial (v : Validator) (ops : List DistMap.Op)
    (hrun : DistMap.Run (.new v.map.rows v.map.columns) (ops ++ [.update]) v.dist)
    (hres : 0 < v.map.resolution) (hstep : 0 < v.minStep) (q : AnyPath) (hq : 0 < q.length)
    (hu : UnitSpeed q) (r : ℝ) (ha : v.isPathValid q = some (true, r))
    (o : Cell) (ho : o ∈ obstacles ops) (t : ℝ) (ht : 0 ≤ t) (ht1 : t < 1) :
    ∃ a, 0 ≤ a ∧ a ≤ t ∧ Acceptable v (q.interpolate a) ∧
      reportedDistance v (q.interpolate a).position / √(4 - 2 * √2)
        - max (reportedDistance v (q.interpolate a).position - v.minSafe) v.minStep
        - √2 * v.map.resolution
        ≤ euclid (q.interpolate t).position (v.map.gridCellToWorldPosition o) := by
  have h2 : √2 < 2 := by
    rw [Real.sqrt_lt' (by norm_num)]; norm_num
  exact clearance (DistMap.run_size hrun) hres hstep hq hu ha o _ (Real.sqrt_pos.mpr (by linarith))
    (reported_le hres hrun o ho) t ht ht1

/-- The constant bound, where the reported distances do not exceed the real ones. -/
theorem constant_clearance {v : Validator} (h : SameSize v) (hres : 0 < v.map.resolution)
    (hstep : 0 < v.minStep) {q : AnyPath} (hq : 0 < q.length) (hu : UnitSpeed q) {r : ℝ}
    (ha : v.isPathValid q = some (true, r)) (o : Cell)
    (hdist : ∀ p, v.map.isInsidePos p = true → reportedDistance v p ≤
      √((sqDist o (v.map.worldPositionToGridCell p true) : Int) : ℝ) * v.map.resolution)
    (t : ℝ) (ht : 0 ≤ t) (ht1 : t ≤ 1) :
    v.minSafe - v.minStep - √2 * v.map.resolution
      ≤ euclid (q.interpolate t).position (v.map.gridCellToWorldPosition o) := by
  -- before the end
  have key : ∀ t, 0 ≤ t → t < 1 → v.minSafe - v.minStep - √2 * v.map.resolution
      ≤ euclid (q.interpolate t).position (v.map.gridCellToWorldPosition o) := by
    intro t ht ht1
    obtain ⟨a, -, -, hacc, hle⟩ := clearance h hres hstep hq hu ha o 1 one_pos
      (by intro p hp; rw [one_mul]; exact hdist p hp) t ht ht1
    have h1 := hacc.clear
    rw [div_one] at hle
    have h2 : max (reportedDistance v (q.interpolate a).position - v.minSafe) v.minStep ≤
        reportedDistance v (q.interpolate a).position - v.minSafe + v.minStep :=
      max_le (by linarith) (by linarith)
    linarith
  rcases ht1.lt_or_eq with h | rfl
  · exact key t ht h
  -- the end
  by_contra hcon
  rw [not_le] at hcon
  obtain ⟨g, hg⟩ : ∃ g, g = v.minSafe - v.minStep - √2 * v.map.resolution -
    euclid (q.interpolate 1).position (v.map.gridCellToWorldPosition o) := ⟨_, rfl⟩
  have hg0 : 0 < g := by linarith
  obtain ⟨e, he⟩ : ∃ e, e = min (1 / 2) (g / (2 * q.length)) := ⟨_, rfl⟩
  have he0 : 0 < e := by rw [he]; positivity
  have he1 : e ≤ 1 / 2 := by rw [he]; exact min_le_left _ _
  have he2 : e * q.length ≤ g / 2 := by
    have : e ≤ g / (2 * q.length) := by rw [he]; exact min_le_right _ _
    calc e * q.length ≤ g / (2 * q.length) * q.length := by gcongr
      _ = g / 2 := by field_simp
  have h1 := key (1 - e) (by linarith) (by linarith)
  have h2 := hu (1 - e) 1 (by linarith) (by linarith) le_rfl
  have h3 := euclid_triangle (q.interpolate (1 - e)).position (q.interpolate 1).position (v.map.gridCellToWorldPosition o)
  rw [show (1 : ℝ) - (1 - e) = e by ring] at h2
  linarith

/-- C70, where the reported distances do not exceed the real ones, with a single obstacle (more obstacles:
`C70_constant_clearance_handed_partial`): every state of an accepted path is at least the safe radius, less
the interpolation step and the diagonal of a cell, away from the obstacle; also the final state, which is not
checked. Missing: distances that are not exact. -/
theorem C70_constant_clearance_partial (v : Validator) (ops : List DistMap.Op)
    (hrun : DistMap.Run (.new v.map.rows v.map.columns) (ops ++ [.update]) v.dist)
    (hres : 0 < v.map.resolution) (hstep : 0 < v.minStep) (q : AnyPath) (hq : 0 < q.length)
    (hu : UnitSpeed q) (r : ℝ) (ha : v.isPathValid q = some (true, r))
    (o : Cell) (ho : ∀ o', o' ∈ obstacles ops ↔ o' = o) (hn : NoUnset ops)
    (t : ℝ) (ht : 0 ≤ t) (ht1 : t ≤ 1) :
    v.minSafe - v.minStep - √2 * v.map.resolution
      ≤ euclid (q.interpolate t).position (v.map.gridCellToWorldPosition o) := by
  refine constant_clearance (DistMap.run_size hrun) hres hstep hq hu ha o ?_ t ht ht1
  intro p hp
  have hc : InRect v.map.rows v.map.columns (v.map.worldPositionToGridCell p true) := by
    exact inRect_of_inside hp
  obtain ⟨o', ho', d, hd, hle⟩ := C38_never_below_partial hrun hn _ hc ⟨o, (ho o).mpr rfl⟩
  rw [(ho o').mp ho'] at hle
  unfold reportedDistance worldDistance
  rw [hd, ← hle]
  rfl

/-- Non-vacuity of the two theorems: an obstacle in the corner cell of the 10 × 10 map, and a path of
length 2 away from it. -/
example : ∃ (v : Validator) (q : AnyPath) (o : Cell),
    v.map.rows = 10 ∧ v.map.columns = 10 ∧
    DistMap.Run (.new v.map.rows v.map.columns) ([.set o] ++ [.update]) v.dist ∧
    0 < v.map.resolution ∧ 0 < v.minStep ∧ q.length = 2 ∧ UnitSpeed q ∧
    v.isPathValid q = some (true, 1) ∧ (∀ o', o' ∈ obstacles [.set o] ↔ o' = o) ∧ NoUnset [.set o] := by
  obtain ⟨d, hd⟩ := DistMap.exists_run (rows := 10) (columns := 10) ([.set ⟨0, 0⟩] ++ [.update]) (by
    intro o ho
    simp only [List.cons_append, List.nil_append, List.mem_cons, List.not_mem_nil, or_false] at ho
    rcases ho with rfl | rfl <;> simp [OpIn, InRect])
  have hob : ∀ o', o' ∈ obstacles [.set ⟨0, 0⟩] ↔ o' = (⟨0, 0⟩ : Cell) := by
    intro o'
    show (False ∨ o' = ⟨0, 0⟩) ↔ _
    simp
  have hno : NoUnset [.set ⟨0, 0⟩] := by intro s hs; simp at hs
  obtain ⟨q, hq⟩ : ∃ q : AnyPath, q = ⟨⟨⟨2, 2⟩, 0⟩, 2, fun r => ⟨⟨2 + 2 * r, 2⟩, 0⟩⟩ := ⟨_, rfl⟩
  refine ⟨exValidator d, q, ⟨0, 0⟩, rfl, rfl, hd, by norm_num [exValidator, exMap],
    by norm_num [exValidator], by rw [hq], ?_, ?_, hob, hno⟩
  · intro a b h0 h1 h2
    rw [hq]
    simp only [euclid]
    rw [show (2 + 2 * a - (2 + 2 * b)) ^ 2 + ((2 : ℝ) - 2) ^ 2 = ((b - a) * 2) ^ 2 by ring,
      Real.sqrt_sq (by linarith)]
  · refine not_rejected (DistMap.run_size hd) (by norm_num [exValidator]) (by rw [hq]; norm_num) ?_
    intro r h0 h1
    have hx : (q.interpolate r).position = ⟨2 + 2 * r, 2⟩ := by rw [hq]
    have hin : (exMap).isInsidePos ⟨2 + 2 * r, 2⟩ = true := by
      refine (C29_inside_exact exMap (by norm_num [exMap]) (by simp [exMap]) (by simp [exMap]) _).mpr ?_
      norm_num [exMap]
      constructor <;> linarith
    refine ex_acceptable _ _ (by rw [hx]; constructor <;> dsimp only <;> linarith)
      (by rw [hx]; norm_num) ?_
    rw [hx]
    have hc : InRect 10 10 (exMap.worldPositionToGridCell ⟨2 + 2 * r, 2⟩ true) := by
      exact inRect_of_inside (m := exMap) hin
    obtain ⟨o', ho', e, he, hle⟩ := C38_never_below_partial hd hno _ hc ⟨_, (hob _).mpr rfl⟩
    rw [(hob o').mp ho'] at hle
    have h3 := near_corner (m := exMap) (by norm_num [exMap]) _ hin
    have h4 := euclid_corners exMap (by norm_num [exMap]) ⟨0, 0⟩
      (exMap.worldPositionToGridCell ⟨2 + 2 * r, 2⟩ true)
    have h5 := euclid_triangle ⟨2 + 2 * r, 2⟩
      (exMap.gridCellToWorldPosition (exMap.worldPositionToGridCell ⟨2 + 2 * r, 2⟩ true))
      (exMap.gridCellToWorldPosition ⟨0, 0⟩)
    have h6 : 7 ≤ euclid ⟨2 + 2 * r, 2⟩ (exMap.gridCellToWorldPosition ⟨0, 0⟩) := by
      unfold euclid
      apply Real.le_sqrt_of_sq_le
      simp only [OccMap.gridCellToWorldPosition, OccMap.gridCellToGridPosition, Pt.add_x, Pt.add_y, exMap]
      push_cast
      nlinarith
    have h7 : √2 < 2 := by
      rw [Real.sqrt_lt' (by norm_num)]; norm_num
    have h8 : exMap.resolution = 1 := rfl
    show 1 ≤ worldDistance exMap.resolution (d.dist (exMap.worldPositionToGridCell ⟨2 + 2 * r, 2⟩ true))
    unfold worldDistance
    rw [he]
    show 1 ≤ √((e : Int) : ℝ) * _
    rw [hle, ← h4]
    rw [h8] at h3
    linarith

end Validator
end PathPlanning
