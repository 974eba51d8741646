import Verif.Props.ValidatorGrow
import Verif.Props.PlanClearExample

/-! # C167: the settings of the validator -/

namespace PathPlanning
open Spec Flt

namespace Validator

/-- C167: a state that is rejected with a safe radius is rejected with every greater one, whatever the interpolation
step. Missing: paths, for which it is false (`C167_path_accepted_with_greater_radius`). -/
theorem C167_state_stays_rejected_partial (v : Validator) (h : SameSize v) {radius : ℝ} (hr : v.minSafe ≤ radius)
    (step : ℝ) (s : PoseR) (hs : v.isStateValid s = some false) :
    { v with minSafe := radius, minStep := step }.isStateValid s = some false := by
  obtain ⟨b, hb, hb'⟩ := C53_state_valid_iff v h s
  obtain ⟨b2, hb2, hb2'⟩ := C53_state_valid_iff { v with minSafe := radius, minStep := step } h s
  rw [hb2]
  cases b2 with
  | false => rfl
  | true =>
    exfalso
    have ha := hb2'.mp rfl
    rw [hb] at hs
    cases hs
    exact absurd (hb'.mpr ⟨ha.x_ge, ha.x_le, ha.y_ge, ha.y_le, ha.theta_ge, ha.theta_le, ha.inside,
      hr.trans ha.clear⟩) (by simp)

/-- C167 with rounding: a state that the program rejects with a safe radius is rejected with every greater one. Missing:
paths. -/
theorem C167_state_stays_rejected_double_partial (v : Validator) {radius : ℝ} (hr : v.minSafe ≤ radius)
    (step : ℝ) (s : PoseR) (hs : v.isStateValidF s = some false) :
    { v with minSafe := radius, minStep := step }.isStateValidF s = some false := by
  unfold isStateValidF at hs ⊢
  cases ht : wrapThetaF s.theta with
  | none => rw [ht] at hs; cases hs
  | some theta =>
    rw [ht] at hs
    simp only [Option.bind_some] at hs ⊢
    split at hs
    · rename_i hc
      rw [if_pos hc]
    · rename_i hc
      rw [if_neg hc]
      obtain ⟨c, hcell⟩ : ∃ c, c = v.map.worldPositionToGridCellF s.position true := ⟨_, rfl⟩
      rw [← hcell] at hs ⊢
      unfold obstacleDistanceF at hs ⊢
      cases hd : v.dist.read v.dist.dist c with
      | none => rw [hd] at hs; cases hs
      | some d =>
        rw [hd] at hs
        simp only [Option.map_some, Option.some.injEq, decide_eq_false_iff_not, not_le, ge_iff_le] at hs ⊢
        exact hs.trans_le hr

/-- C167: a path all of whose states are valid is accepted with every positive interpolation step and every smaller safe
radius. -/
theorem C167_valid_throughout_accepted (v : Validator) (h : SameSize v) (q : AnyPath) (hq : 0 < q.length)
    (hv : ∀ t, 0 ≤ t → t < 1 → v.isStateValid (q.interpolate t) = some true) {radius step : ℝ}
    (hr : radius ≤ v.minSafe) (hs : 0 < step) :
    { v with minSafe := radius, minStep := step }.isPathValid q = some (true, 1) := by
  refine not_rejected (v := { v with minSafe := radius, minStep := step }) h hs hq fun t h0 h1 => ?_
  obtain ⟨b, hb, hb'⟩ := C53_state_valid_iff v h (q.interpolate t)
  rw [hv t h0 h1] at hb
  cases hb
  have ha := hb'.mp rfl
  exact ⟨ha.x_ge, ha.x_le, ha.y_ge, ha.y_le, ha.theta_ge, ha.theta_le, ha.inside, hr.trans ha.clear⟩

/-- C167 for paths: with several obstacles the propagation hands on from cell to cell, a path within the bounds that is
accepted with some settings is accepted with every positive interpolation step and every safe radius that is
smaller by the interpolation step and two diagonals of a cell. Missing: the radii between, for which it is false
(`C167_path_accepted_with_greater_radius`), and other obstacles. -/
theorem C167_accepted_with_smaller_radius_partial (v : Validator) (ops : List DistMap.Op)
    (hrun : DistMap.Run (.new v.map.rows v.map.columns) (ops ++ [.update]) v.dist)
    (hres : 0 < v.map.resolution) (hstep : 0 < v.minStep) (q : AnyPath) (hq : 0 < q.length)
    (hu : UnitSpeed q) {r : ℝ} (ha : v.isPathValid q = some (true, r))
    (hS : Handed v.map.rows v.map.columns (obstacles ops)) (hn : NoUnset ops)
    (hb : ∀ t, 0 ≤ t → t < 1 → { v with minSafe := 0 }.isStateValid (q.interpolate t) = some true)
    {radius step : ℝ} (hr : radius ≤ v.minSafe - v.minStep - 2 * (√2 * v.map.resolution)) (hs : 0 < step) :
    { v with minSafe := radius, minStep := step }.isPathValid q = some (true, 1) := by
  have hsz : SameSize v := DistMap.run_size hrun
  refine not_rejected (v := { v with minSafe := radius, minStep := step }) hsz hs hq fun t h0 h1 => ?_
  obtain ⟨b, hb1, hb2⟩ := C53_state_valid_iff { v with minSafe := 0 } hsz (q.interpolate t)
  rw [hb t h0 h1] at hb1
  cases hb1
  have hin := hb2.mp rfl
  refine ⟨hin.x_ge, hin.x_le, hin.y_ge, hin.y_le, hin.theta_ge, hin.theta_le, hin.inside, ?_⟩
  have hin' : v.map.isInsidePos (q.interpolate t).position = true := hin.inside
  obtain ⟨o, ho, hd, -⟩ := C38_handed_partial hrun hn hS _ (inRect_of_inside hin')
  have hc := C70_constant_clearance_handed_partial v ops hrun hres hstep q hq hu r ha hS hn o ho t h0 h1.le
  have hcor := near_corner hres _ hin'
  have htri := euclid_triangle (q.interpolate t).position
    (v.map.gridCellToWorldPosition (v.map.worldPositionToGridCell (q.interpolate t).position true))
    (v.map.gridCellToWorldPosition o)
  rw [euclid_corners v.map hres] at htri
  have hrep : reportedDistance v (q.interpolate t).position =
      √((sqDist o (v.map.worldPositionToGridCell (q.interpolate t).position true) : Int) : ℝ) * v.map.resolution := by
    unfold reportedDistance worldDistance
    rw [hd]
    have h0 : 0 ≤ sqDist o (v.map.worldPositionToGridCell (q.interpolate t).position true) := by
      unfold sqDist; positivity
    show √((((sqDist o (v.map.worldPositionToGridCell (q.interpolate t).position true)).toNat : Nat) : Int) : ℝ) * _ = _
    rw [Int.toNat_of_nonneg h0]
  show radius ≤ reportedDistance v (q.interpolate t).position
  rw [hrep]
  linarith

/-! ## A greater radius, or a smaller step, makes the validator accept a path -/

/-- One iteration of the loop of `IsPathValid` along the path of the witness. -/
private theorem settings_step {d : DistMap} (hsz : d.rows = 10 ∧ d.columns = 10) {sf st l last : ℝ}
    (hl : 0 ≤ l ∧ l < 23 / 20) (r k : Int) (hr : 0 ≤ r ∧ r < 10) (hk : 0 ≤ k ∧ k < 10)
    (hx : (r : ℝ) ≤ -66 / 65 + 12 / 13 * l + 5 ∧ -66 / 65 + 12 / 13 * l + 5 < r + 1)
    (hy : (k : ℝ) ≤ 1 / 250 + 11 / 26 - 5 / 13 * l + 5 ∧ 1 / 250 + 11 / 26 - 5 / 13 * l + 5 < k + 1)
    (D : Nat) (hD : d.dist ⟨r, k⟩ = D) (h1 : sf ≤ √(D : ℝ)) (h4 : √(D : ℝ) ≤ 2) (hsf : 0 ≤ sf) :
    { exValidator d with minSafe := sf, minStep := st }.pathLoop growPath.toAny l last =
      { exValidator d with minSafe := sf, minStep := st }.pathLoop growPath.toAny (l + max (√(D : ℝ) - sf) st) l := by
  have hrep := grow_reported (d := d) r k hr hk hx hy hD
  have hp := growPath_at l
  have hpx : (growPath.toAny.interpolate (l / growPath.toAny.length)).position.x = -66 / 65 + 12 / 13 * l := by rw [hp]
  have hpy : (growPath.toAny.interpolate (l / growPath.toAny.length)).position.y = 1 / 250 + 11 / 26 - 5 / 13 * l := by
    rw [hp]
  have hacc := ex_acceptable_safe d sf (growPath.toAny.interpolate (l / growPath.toAny.length))
    (by rw [hpx]; constructor <;> linarith [hl.1, hl.2]) (by rw [hpy]; constructor <;> linarith [hl.1, hl.2])
    (by rw [hrep]; exact h1)
  rw [step_path (v := { exValidator d with minSafe := sf, minStep := st }) hsz (by rw [growPath_length]; exact hl.2)
    ⟨hacc.x_ge, hacc.x_le, hacc.y_ge, hacc.y_le, hacc.theta_ge, hacc.theta_le, hacc.inside, hacc.clear⟩]
  have hf : freeDistance { exValidator d with minSafe := sf, minStep := st }
      (growPath.toAny.interpolate (l / growPath.toAny.length)) = √(D : ℝ) - sf := by
    show min (reportedDistance (exValidator d) _ - sf) _ = _
    rw [hrep, hpx, hpy]
    show min (_ - sf) (min (min (_ - -5) (5 - _)) (min (_ - -5) (5 - _))) = _
    refine min_eq_left (le_min (le_min ?_ ?_) (le_min ?_ ?_)) <;> linarith [hl.1, hl.2]
  rw [hf]

private theorem settings_stop {d : DistMap} (hsz : d.rows = 10 ∧ d.columns = 10) {sf st last : ℝ}
    (hD : d.dist ⟨5, 5⟩ = (0 : Nat)) (hsf : 0 < sf) :
    { exValidator d with minSafe := sf, minStep := st }.pathLoop growPath.toAny (11 / 10) last =
      some (false, last / growPath.toAny.length) := by
  refine stop_path (v := { exValidator d with minSafe := sf, minStep := st }) hsz
    (by rw [growPath_length]; norm_num) fun ha => ?_
  have hc : sf ≤ reportedDistance (exValidator d) _ := ha.clear
  rw [grow_reported 5 5 (by norm_num) (by norm_num) (by norm_num) (by norm_num) hD] at hc
  norm_num at hc
  linarith

/-- An up to date 10 × 10 map with an obstacle in the cell (5, 5). -/
private theorem settings_map : ∃ d, DistMap.Run (.new 10 10) ([.set ⟨5, 5⟩] ++ [.update]) d ∧
    ∀ (c : Cell) (n : Nat), InRect 10 10 c → sqDist ⟨5, 5⟩ c = n → d.dist c = n := by
  obtain ⟨d, R⟩ := DistMap.exists_run (rows := 10) (columns := 10) ([.set ⟨5, 5⟩] ++ [.update]) (by
      intro o ho
      simp only [List.cons_append, List.nil_append, List.mem_cons, List.not_mem_nil, or_false] at ho
      rcases ho with rfl | rfl <;> simp [OpIn, InRect])
  refine ⟨d, R, fun c n hc hn => ?_⟩
  obtain ⟨n', h1, h2⟩ := C38_two_obstacles_partial R (by intro s hs; simp at hs) ⟨5, 5⟩ ⟨5, 5⟩ (by simp [InRect])
      (by simp [InRect]) (by intro c; show (False ∨ _) ↔ _; simp) c hc
  rw [h1]
  have : n' = n := by omega
  rw [this]

private theorem sqrt_four : √((4 : Nat) : ℝ) = 2 := by
  rw [Real.sqrt_eq_iff_mul_self_eq (by positivity) (by norm_num)]; norm_num

/-- C167: a path that is rejected with the safe radius 0.9 is accepted with the greater safe radius 0.95 (with the default
interpolation step, a resolution of 1 and an obstacle in the cell (5, 5)), although it has an invalid state. With the
greater radius the validator takes other steps, and these miss the obstacle. -/
theorem C167_path_accepted_with_greater_radius :
    ∃ d : DistMap, DistMap.Run (.new 10 10) [.set ⟨5, 5⟩, .update] d ∧
      { exValidator d with minSafe := 9 / 10 }.isPathValid growPath.toAny = some (false, 0) ∧
      { exValidator d with minSafe := 19 / 20 }.isPathValid growPath.toAny = some (true, 1) ∧
      ∃ ratio, 0 < ratio ∧ ratio < 1 ∧
        { exValidator d with minSafe := 19 / 20 }.isStateValid (growPath.interpolate ratio) = some false := by
  obtain ⟨d, R, E⟩ := settings_map
  have hz := DistMap.run_size R
  refine ⟨d, R, ?_, ?_, (11 / 10) / growPath.toAny.length, ?_, ?_, ?_⟩
  · unfold isPathValid
    rw [if_neg (by rw [growPath_length]; norm_num)]
    have h := settings_step (d := d) hz (sf := 9 / 10) (st := 1 / 10) (l := 0) (last := 0) ⟨le_rfl, by norm_num⟩ 3 5
      (by norm_num) (by norm_num) (by push_cast; constructor <;> linarith) (by push_cast; constructor <;> linarith) 4
      (E _ _ (by simp [InRect]) (by decide)) (by rw [sqrt_four]; norm_num) (by rw [sqrt_four]) (by norm_num)
    rw [sqrt_four, show (0 : ℝ) + max (2 - 9 / 10) (1 / 10) = 11 / 10 by norm_num,
      settings_stop hz (E _ _ (by simp [InRect]) (by decide)) (by norm_num), zero_div] at h
    exact h
  · unfold isPathValid
    rw [if_neg (by rw [growPath_length]; norm_num)]
    have h := settings_step (d := d) hz (sf := 19 / 20) (st := 1 / 10) (l := 0) (last := 0) ⟨le_rfl, by norm_num⟩ 3 5
      (by norm_num) (by norm_num) (by push_cast; constructor <;> linarith) (by push_cast; constructor <;> linarith) 4
      (E _ _ (by simp [InRect]) (by decide)) (by rw [sqrt_four]; norm_num) (by rw [sqrt_four]) (by norm_num)
    rw [sqrt_four, show (0 : ℝ) + max (2 - 19 / 20) (1 / 10) = 21 / 20 by norm_num] at h
    refine h.trans ?_
    rw [settings_step (d := d) hz ⟨by norm_num, by norm_num⟩ 4 5
      (by norm_num) (by norm_num) (by push_cast; constructor <;> linarith) (by push_cast; constructor <;> linarith) 1
      (E _ _ (by simp [InRect]) (by decide)) (by norm_num) (by norm_num) (by norm_num), pathLoop, if_neg (by
        rw [growPath_length]; norm_num)]
  · rw [growPath_length]; norm_num
  · rw [growPath_length]; norm_num
  · obtain ⟨b, hb, hb'⟩ := C53_state_valid_iff { exValidator d with minSafe := 19 / 20 } hz
      (growPath.toAny.interpolate ((11 / 10) / growPath.toAny.length))
    cases b with
    | false => exact hb
    | true =>
      exfalso
      have hc : (19 / 20 : ℝ) ≤ reportedDistance (exValidator d) _ := (hb'.mp rfl).clear
      rw [grow_reported 5 5 (by norm_num) (by norm_num) (by norm_num) (by norm_num)
        (E _ _ (by simp [InRect]) (by decide) : d.dist ⟨5, 5⟩ = (0 : Nat))] at hc
      norm_num at hc

/-- C167: a path that is rejected with the default interpolation step 0.1 is accepted with the smaller step 0.08 (with the
default safe radius, a resolution of 1 and an obstacle in the cell (5, 5)). -/
theorem C167_path_accepted_with_smaller_step :
    ∃ d : DistMap, DistMap.Run (.new 10 10) [.set ⟨5, 5⟩, .update] d ∧
      (exValidator d).isPathValid growPath.toAny = some (false, 20 / 23) ∧
      { exValidator d with minStep := 2 / 25 }.isPathValid growPath.toAny = some (true, 1) := by
  obtain ⟨d, R, E⟩ := settings_map
  have hz := DistMap.run_size R
  have first : ∀ st : ℝ, 0 ≤ st → st ≤ 1 → { exValidator d with minSafe := 1, minStep := st }.pathLoop growPath.toAny 0 0 =
      { exValidator d with minSafe := 1, minStep := st }.pathLoop growPath.toAny (1 + st) 1 := by
    intro st h0 h1
    rw [settings_step (d := d) hz ⟨le_rfl, by norm_num⟩ 3 5
      (by norm_num) (by norm_num) (by push_cast; constructor <;> linarith) (by push_cast; constructor <;> linarith) 4
      (E _ _ (by simp [InRect]) (by decide)) (by rw [sqrt_four]; norm_num) (by rw [sqrt_four]) (by norm_num), sqrt_four,
      max_eq_left (by linarith), show (0 : ℝ) + (2 - 1) = 1 by norm_num,
      settings_step (d := d) hz ⟨by norm_num, by norm_num⟩ 4 5
      (by norm_num) (by norm_num) (by push_cast; constructor <;> linarith) (by push_cast; constructor <;> linarith) 1
      (E _ _ (by simp [InRect]) (by decide)) (by norm_num) (by norm_num) (by norm_num), Nat.cast_one, Real.sqrt_one, sub_self,
      max_eq_right h0]
  refine ⟨d, R, ?_, ?_⟩
  · unfold isPathValid
    rw [if_neg (by rw [growPath_length]; norm_num)]
    have h := first (1 / 10) (by norm_num) (by norm_num)
    rw [show (1 : ℝ) + 1 / 10 = 11 / 10 by norm_num,
      settings_stop hz (E _ _ (by simp [InRect]) (by decide)) (by norm_num), growPath_length] at h
    refine h.trans ?_
    norm_num
  · unfold isPathValid
    rw [if_neg (by rw [growPath_length]; norm_num)]
    refine (first (2 / 25) (by norm_num) (by norm_num)).trans ?_
    rw [settings_step (d := d) hz ⟨by norm_num, by norm_num⟩ 4 5
      (by norm_num) (by norm_num) (by push_cast; constructor <;> linarith) (by push_cast; constructor <;> linarith) 1
      (E _ _ (by simp [InRect]) (by decide)) (by norm_num) (by norm_num) (by norm_num), pathLoop, if_neg (by
        rw [growPath_length]; norm_num)]

/-- Non-vacuity: the state of the witness, rejected with the safe radius 1. -/
example : ∃ (d : DistMap) (s : PoseR), SameSize (exValidator d) ∧ (exValidator d).isStateValid s = some false ∧
    { exValidator d with minSafe := 2, minStep := 1 / 10 }.isStateValid s = some false := by
  obtain ⟨d, d', o, p, ho, hp, R1, R2, -, -, ratio, -, -, h, -⟩ := C164_path_accepted_with_more_obstacles
  have hz : SameSize (exValidator d) := DistMap.run_size R1
  exact ⟨d, _, hz, h, C167_state_stays_rejected_partial (exValidator d) hz (by norm_num [exValidator]) _ _ h⟩

/-- Non-vacuity of `C167_state_stays_rejected_double_partial`: a state on an obstacle. -/
example : ∃ d : DistMap, (exValidator d).isStateValidF ⟨⟨0, 0⟩, 0⟩ = some false ∧
    { exValidator d with minSafe := 2, minStep := 1 / 5 }.isStateValidF ⟨⟨0, 0⟩, 0⟩ = some false := by
  obtain ⟨d, -, -, -, h⟩ := grow_rejectedF
  exact ⟨d, h, C167_state_stays_rejected_double_partial (exValidator d) (by norm_num [exValidator]) _ _ h⟩

/-- The 10 × 10 map with an obstacle in the cell (0, 0), and a path of length 2 that keeps 4 away from it. -/
private theorem far_path : ∃ (d : DistMap) (q : AnyPath) (ops : List DistMap.Op),
    DistMap.Run (.new 10 10) (ops ++ [.update]) d ∧ q.length = 2 ∧ UnitSpeed q ∧
    (∀ o, o ∈ obstacles ops ↔ o = ⟨0, 0⟩) ∧ Handed 10 10 (obstacles ops) ∧ NoUnset ops ∧
    ∀ r, 0 ≤ r → r < 1 → ∀ sf, sf ≤ 4 → Acceptable { exValidator d with minSafe := sf } (q.interpolate r) := by
  obtain ⟨ops, hops⟩ : ∃ ops : List DistMap.Op, ops = [.set ⟨0, 0⟩] := ⟨_, rfl⟩
  obtain ⟨d, hd⟩ := DistMap.exists_run (rows := 10) (columns := 10) (ops ++ [.update]) (by
    intro o ho
    rw [hops] at ho
    simp only [List.cons_append, List.nil_append, List.mem_cons, List.not_mem_nil, or_false] at ho
    rcases ho with rfl | rfl <;> simp [OpIn, InRect])
  have hob : ∀ o, o ∈ obstacles ops ↔ o = ⟨0, 0⟩ := by
    intro o
    rw [hops]
    show (False ∨ o = ⟨0, 0⟩) ↔ _
    simp
  have hno : NoUnset ops := by intro s hs; rw [hops] at hs; simp at hs
  have hh : Handed 10 10 (obstacles ops) := by
    rw [show obstacles ops = {c | c = ⟨0, 0⟩ ∨ c = ⟨0, 0⟩} from Set.ext fun c => (hob c).trans (by simp)]
    exact two_handed (by simp [InRect]) (by simp [InRect])
  obtain ⟨q, hq⟩ : ∃ q : AnyPath, q = ⟨⟨⟨2, 2⟩, 0⟩, 2, fun r => ⟨⟨2 + 2 * r, 2⟩, 0⟩⟩ := ⟨_, rfl⟩
  refine ⟨d, q, ops, hd, by rw [hq], ?_, hob, hh, hno, ?_⟩
  · intro a b h0 h1 h2
    rw [hq]
    simp only [euclid]
    rw [show (2 + 2 * a - (2 + 2 * b)) ^ 2 + ((2 : ℝ) - 2) ^ 2 = ((b - a) * 2) ^ 2 by ring,
      Real.sqrt_sq (by linarith)]
  · intro r h0 h1 sf hsf
    have hx : (q.interpolate r).position = ⟨2 + 2 * r, 2⟩ := by rw [hq]
    have hin : (exMap).isInsidePos ⟨2 + 2 * r, 2⟩ = true := by
      refine (C29_inside_exact exMap (by norm_num [exMap]) (by simp [exMap]) (by simp [exMap]) _).mpr ?_
      norm_num [exMap]
      constructor <;> linarith
    refine ex_acceptable_safe d sf _ (by rw [hx]; constructor <;> dsimp only <;> linarith)
      (by rw [hx]; norm_num) ?_
    rw [hx]
    have hc : InRect 10 10 (exMap.worldPositionToGridCell ⟨2 + 2 * r, 2⟩ true) := by
      exact inRect_of_inside (m := exMap) hin
    obtain ⟨o', ho', e, he, hle⟩ := C38_never_below_partial hd hno _ hc ⟨_, (hob _).mpr rfl⟩
    have h3 := near_corner (m := exMap) (by norm_num [exMap]) _ hin
    have h4 := euclid_corners exMap (by norm_num [exMap]) o'
      (exMap.worldPositionToGridCell ⟨2 + 2 * r, 2⟩ true)
    have h5 := euclid_triangle ⟨2 + 2 * r, 2⟩
      (exMap.gridCellToWorldPosition (exMap.worldPositionToGridCell ⟨2 + 2 * r, 2⟩ true))
      (exMap.gridCellToWorldPosition o')
    have h6 : 7 ≤ euclid ⟨2 + 2 * r, 2⟩ (exMap.gridCellToWorldPosition o') := by
      have : o'.row = 0 := by rw [(hob o').mp ho']
      unfold euclid
      apply Real.le_sqrt_of_sq_le
      simp only [OccMap.gridCellToWorldPosition, OccMap.gridCellToGridPosition, Pt.add_x, Pt.add_y, exMap, this]
      push_cast
      nlinarith [sq_nonneg (2 - ((o'.col : ℝ) * 1 + -5))]
    have h7 : √2 < 2 := by
      rw [Real.sqrt_lt' (by norm_num)]; norm_num
    have h8 : exMap.resolution = 1 := rfl
    show sf ≤ worldDistance exMap.resolution (d.dist (exMap.worldPositionToGridCell ⟨2 + 2 * r, 2⟩ true))
    unfold worldDistance
    rw [he]
    show sf ≤ √((e : Int) : ℝ) * _
    rw [hle, ← h4]
    rw [h8] at h3
    linarith

private theorem valid_of {v : Validator} (h : SameSize v) {s : PoseR} (ha : Acceptable v s) :
    v.isStateValid s = some true := by
  obtain ⟨b, hb, hb'⟩ := C53_state_valid_iff v h s
  rw [hb, hb'.mpr ha]

/-- Non-vacuity of `C167_valid_throughout_accepted`: a path accepted with the safe radius 2 and the step 0.01. -/
example : ∃ (d : DistMap) (q : AnyPath), SameSize (exValidator d) ∧ q.length = 2 ∧
    (∀ t, 0 ≤ t → t < 1 → { exValidator d with minSafe := 4 }.isStateValid (q.interpolate t) = some true) ∧
    { exValidator d with minSafe := 2, minStep := 1 / 100 }.isPathValid q = some (true, 1) := by
  obtain ⟨d, q, ops, hd, hl, -, -, -, -, hacc⟩ := far_path
  have hz : SameSize (exValidator d) := DistMap.run_size hd
  have hv : ∀ t, 0 ≤ t → t < 1 → { exValidator d with minSafe := 4 }.isStateValid (q.interpolate t) = some true :=
    fun t h0 h1 => valid_of (v := { exValidator d with minSafe := 4 }) hz (hacc t h0 h1 4 le_rfl)
  exact ⟨d, q, hz, hl, hv, C167_valid_throughout_accepted { exValidator d with minSafe := 4 } hz q (by rw [hl]; norm_num) hv
    (by norm_num) (by norm_num)⟩

/-- Non-vacuity of `C167_accepted_with_smaller_radius_partial`: a path accepted with the safe radius 4, and the radius 1. -/
example : ∃ (v : Validator) (q : AnyPath) (ops : List DistMap.Op),
    DistMap.Run (.new v.map.rows v.map.columns) (ops ++ [.update]) v.dist ∧ (∃ o, o ∈ obstacles ops) ∧
    0 < v.map.resolution ∧ 0 < v.minStep ∧ q.length = 2 ∧ UnitSpeed q ∧
    v.isPathValid q = some (true, 1) ∧ Handed v.map.rows v.map.columns (obstacles ops) ∧ NoUnset ops ∧
    (∀ t, 0 ≤ t → t < 1 → { v with minSafe := 0 }.isStateValid (q.interpolate t) = some true) ∧
    1 ≤ v.minSafe - v.minStep - 2 * (√2 * v.map.resolution) := by
  obtain ⟨d, q, ops, hd, hl, hu, hob, hh, hn, hacc⟩ := far_path
  have hz : SameSize (exValidator d) := DistMap.run_size hd
  refine ⟨{ exValidator d with minSafe := 4 }, q, ops, hd, ⟨_, (hob _).mpr rfl⟩, by norm_num [exValidator, exMap],
    by norm_num [exValidator], hl, hu, ?_, hh, hn, fun t h0 h1 => ?_, ?_⟩
  · exact not_rejected (v := { exValidator d with minSafe := 4 }) hz (by norm_num [exValidator]) (by rw [hl]; norm_num)
      fun t h0 h1 => hacc t h0 h1 4 le_rfl
  · exact valid_of (v := { exValidator d with minSafe := 0 }) hz (hacc t h0 h1 0 (by norm_num))
  · have h7 : √2 < 1.42 := by
      rw [Real.sqrt_lt' (by norm_num)]; norm_num
    show (1 : ℝ) ≤ 4 - 1 / 10 - 2 * (√2 * 1)
    linarith

end Validator

end PathPlanning
