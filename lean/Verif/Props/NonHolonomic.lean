import Verif.Model.NonHolonomic
import Verif.Props.ReedsShepp
import Mathlib.Analysis.Real.Pi.Bounds

/-!
# C56, C73: the non-holonomic heuristic
-/

namespace PathPlanning
open Real Spec

theorem roundR_zero : roundR 0 = 0 := by
  unfold roundR
  rw [if_pos le_rfl]; norm_num

/-- Rounding moves by at most one half. -/
theorem roundR_near (x : ℝ) : |(roundR x : ℝ) - x| ≤ 1 / 2 := by
  unfold roundR
  split
  · have h1 := Int.floor_le (x + 1 / 2)
    have h2 := Int.lt_floor_add_one (x + 1 / 2)
    rw [abs_le]; constructor <;> linarith
  · have h1 := Int.le_ceil (x - 1 / 2)
    have h2 := Int.ceil_lt_add_one (x - 1 / 2)
    rw [abs_le]; constructor <;> linarith

theorem roundR_neg_iff (x : ℝ) : roundR x < 0 ↔ x ≤ -(1 / 2) := by
  unfold roundR
  split
  · rename_i h
    have : 0 ≤ ⌊x + 1 / 2⌋ := Int.floor_nonneg.2 (by linarith)
    constructor
    · intro h; omega
    · intro h; linarith
  · rw [← Int.le_sub_one_iff, Int.ceil_le]
    push_cast
    constructor <;> intro h <;> linarith

private theorem numAngular_bound {h : NonHolo} (ha : 0 < h.angularResolution) {θ : ℝ} (hθ : θ ≤ π) :
    roundR (θ / h.angularResolution) ≤ h.numAngular := by
  have hp := pi_pos
  have h1 : 2 * π / h.angularResolution ≤ h.numAngular := Nat.le_ceil _
  have h0 : 1 ≤ h.numAngular := Nat.one_le_iff_ne_zero.2 (by
    have : 0 < h.numAngular := Nat.ceil_pos.2 (by positivity)
    omega)
  have h2 : θ / h.angularResolution ≤ h.numAngular / 2 := by
    have : θ / h.angularResolution ≤ π / h.angularResolution := by gcongr
    have e : 2 * π / h.angularResolution = 2 * (π / h.angularResolution) := by ring
    linarith
  have h3 := (abs_le.1 (roundR_near (θ / h.angularResolution))).2
  have h4 : (1 : ℝ) ≤ h.numAngular := by exact_mod_cast h0
  have : (roundR (θ / h.angularResolution) : ℝ) ≤ (h.numAngular : ℤ) := by push_cast; linarith
  exact_mod_cast this

private theorem sub_theta_range (a b : PoseR) : -π ≤ (a.sub b).theta ∧ (a.sub b).theta ≤ π := C41_range _

private theorem toInt32_eq {n : ℤ} (h : -2147483648 ≤ n ∧ n ≤ 2147483647) : toInt32 n = some n := if_pos h

/-- The three indices computed for a goal and a state. -/
noncomputable def NonHolo.indices (h : NonHolo) (goal state : PoseR) : ℤ × ℤ × ℤ :=
  let delta := goal.sub state
  (roundR ((delta.position.x + h.offsetX) / h.spatialResolution),
   roundR ((delta.position.y + h.offsetY) / h.spatialResolution),
   roundR (delta.theta / h.angularResolution))

/-- C56. When the three rounded numbers fit in an `int`, the look-up is defined exactly when the goal is
outside the tabulated area around the state, or the goal heading is not behind the state heading by half
the angular resolution or more. -/
theorem C56_defined_iff (h : NonHolo) (ha : 0 < h.angularResolution) (goal state : PoseR)
    (hi : -2147483648 ≤ (h.indices goal state).1 ∧ (h.indices goal state).1 ≤ 2147483647)
    (hj : -2147483648 ≤ (h.indices goal state).2.1 ∧ (h.indices goal state).2.1 ≤ 2147483647)
    (hk : -2147483648 ≤ (h.indices goal state).2.2 ∧ (h.indices goal state).2.2 ≤ 2147483647) :
    (h.getHeuristicValue goal state).isSome ↔
      ((h.indices goal state).1 < 0 ∨ (h.indices goal state).1 ≥ h.numSpatialX ∨
       (h.indices goal state).2.1 < 0 ∨ (h.indices goal state).2.1 ≥ h.numSpatialY) ∨
      -(h.angularResolution / 2) < (goal.sub state).theta := by
  have hkb : (h.indices goal state).2.2 ≤ h.numAngular :=
    numAngular_bound ha (sub_theta_range goal state).2
  have hneg : (h.indices goal state).2.2 < 0 ↔ (goal.sub state).theta ≤ -(h.angularResolution / 2) := by
    show roundR _ < 0 ↔ _
    rw [roundR_neg_iff, div_le_iff₀ ha]
    constructor <;> intro h <;> linarith
  unfold NonHolo.getHeuristicValue
  dsimp only [NonHolo.indices] at hi hj hk hkb hneg ⊢
  simp only [toInt32_eq hi, toInt32_eq hj, toInt32_eq hk, Option.bind_eq_bind, Option.bind_some,
    Option.pure_def]
  generalize roundR (((goal.sub state).position.x + h.offsetX) / h.spatialResolution) = i
  generalize roundR (((goal.sub state).position.y + h.offsetY) / h.spatialResolution) = j
  generalize roundR ((goal.sub state).theta / h.angularResolution) = k at *
  by_cases hout : i < 0 ∨ i ≥ h.numSpatialX ∨ j < 0 ∨ j ≥ h.numSpatialY
  · simp [hout]
  · rw [if_neg hout]
    have h0 : 0 < h.numAngular := Nat.ceil_pos.2 (by have := pi_pos; positivity)
    simp only [hout, false_or]
    rw [← not_le, ← hneg]
    unfold NonHolo.read
    by_cases hkn : k < 0
    · rw [if_neg (by split <;> omega)]
      simp [hkn]
    · rw [if_pos (by split <;> omega)]
      simp [hkn]

/-- C56. The part that holds: for a goal whose heading is not behind the one of the state, the look-up
is defined. Missing: the other half of the headings. -/
theorem C56_lookup_partial (h : NonHolo) (ha : 0 < h.angularResolution) (goal state : PoseR)
    (hi : -2147483648 ≤ (h.indices goal state).1 ∧ (h.indices goal state).1 ≤ 2147483647)
    (hj : -2147483648 ≤ (h.indices goal state).2.1 ∧ (h.indices goal state).2.1 ≤ 2147483647)
    (hk : -2147483648 ≤ (h.indices goal state).2.2 ∧ (h.indices goal state).2.2 ≤ 2147483647)
    (hθ : 0 ≤ (goal.sub state).theta) : (h.getHeuristicValue goal state).isSome := by
  rw [C56_defined_iff h ha goal state hi hj hk]
  right; linarith

private theorem sub_self_position (p : Pt) (a b : ℝ) : (PoseR.sub ⟨p, a⟩ ⟨p, b⟩).position = ⟨0, 0⟩ := by
  unfold PoseR.sub PoseR.mk' PoseR.rotate
  simp

private theorem offset_index (n : Nat) {r : ℝ} (hr : 0 < r) :
    roundR ((0 + ⌊(n : ℝ) / 2⌋ * r) / r) = (n / 2 : Nat) := by
  rw [zero_add, mul_div_assoc, div_self hr.ne', mul_one]
  have h1 : ⌊(n : ℝ) / 2⌋ = ((n / 2 : Nat) : ℤ) := by
    rw [Int.floor_eq_iff]
    have h2 : ((2 * (n / 2) : Nat) : ℝ) ≤ n := by exact_mod_cast Nat.mul_div_le n 2
    have h3 : (n : ℝ) < ((2 * (n / 2) + 2 : Nat) : ℝ) := by
      have : n < 2 * (n / 2) + 2 := by omega
      exact_mod_cast this
    rw [Nat.cast_mul] at h2
    rw [Nat.cast_add, Nat.cast_mul] at h3
    rw [Int.cast_natCast]
    norm_num at h2 h3
    constructor <;> linarith
  rw [h1]
  unfold roundR
  rw [if_pos (by positivity)]
  rw [Int.floor_eq_iff]
  constructor <;> push_cast <;> linarith

/-- C56 is violated: whatever the (not empty) table, in the goal position but with a heading more than
half the angular resolution to the left of the goal heading (and less than π), the table is accessed
with a negative index. -/
theorem C56_negative_index (h : NonHolo) (hr : 0 < h.spatialResolution) (ha : 0 < h.angularResolution)
    (hx : 0 < h.numSpatialX) (hxi : h.numSpatialX ≤ 2147483647)
    (hy : 0 < h.numSpatialY) (hyi : h.numSpatialY ≤ 2147483647)
    (p : Pt) (a b : ℝ) (hab : h.angularResolution / 2 ≤ b - a) (hab' : b - a ≤ π)
    (hk : -2147483648 ≤ roundR ((a - b) / h.angularResolution)) :
    h.getHeuristicValue ⟨p, a⟩ ⟨p, b⟩ = none := by
  have hp := pi_pos
  have hθ : (PoseR.sub ⟨p, a⟩ ⟨p, b⟩).theta = a - b := by
    unfold PoseR.sub PoseR.mk'
    show wrapTheta (wrapTheta (a - b)) = _
    rw [C41_idempotent, C41_unchanged _ (by linarith) (by linarith)]
  have hi : (h.indices ⟨p, a⟩ ⟨p, b⟩).1 = (h.numSpatialX / 2 : Nat) := by
    unfold NonHolo.indices
    dsimp only
    rw [sub_self_position]
    exact offset_index _ hr
  have hj : (h.indices ⟨p, a⟩ ⟨p, b⟩).2.1 = (h.numSpatialY / 2 : Nat) := by
    unfold NonHolo.indices
    dsimp only
    rw [sub_self_position]
    exact offset_index _ hr
  have hk' : (h.indices ⟨p, a⟩ ⟨p, b⟩).2.2 < 0 := by
    show roundR _ < 0
    rw [hθ, roundR_neg_iff, div_le_iff₀ ha]
    linarith
  have hk2 : -2147483648 ≤ (h.indices ⟨p, a⟩ ⟨p, b⟩).2.2 := by
    show _ ≤ roundR _
    rw [hθ]; exact hk
  have := C56_defined_iff h ha ⟨p, a⟩ ⟨p, b⟩ (by rw [hi]; omega) (by rw [hj]; omega) ⟨hk2, by omega⟩
  rw [hi, hj, hθ] at this
  rw [← Option.not_isSome_iff_eq_none, this]
  rintro ((h | h | h | h) | h)
  · omega
  · omega
  · omega
  · omega
  · linarith

/-- The default parameters of the hybrid A* in a square of 100: turning by 1 radian is enough. -/
example : (NonHolo.build ⟨⟨0, 0⟩, -π⟩ ⟨⟨100, 100⟩, π⟩ 1 0.0872 2 1 1 0).getHeuristicValue
    ⟨⟨10, 10⟩, 0⟩ ⟨⟨10, 10⟩, 1⟩ = none := by
  have hn : NonHolo.numSpatial 100 1 = 101 := by
    unfold NonHolo.numSpatial
    have : ⌈(100 : ℝ) / 1⌉₊ = 100 := by rw [div_one]; exact Nat.ceil_natCast 100
    rw [this]; rfl
  have hb : NonHolo.build ⟨⟨0, 0⟩, -π⟩ ⟨⟨100, 100⟩, π⟩ 1 0.0872 2 1 1 0 = ⟨1, 0.0872, 2, 1, 1, 0, 101, 101⟩ := by
    unfold NonHolo.build
    simp only [sub_zero, hn]
  rw [hb]
  have hp := pi_gt_three
  refine C56_negative_index _ (by norm_num) (by norm_num) (by norm_num) (by norm_num) (by norm_num)
    (by norm_num) _ _ _ (by norm_num) (by norm_num; linarith) ?_
  have h1 := (abs_le.1 (roundR_near ((0 - 1) / 0.0872))).1
  have h2 : (-2147483648 : ℝ) ≤ (0 - 1) / 0.0872 - 1 / 2 := by norm_num
  have : ((-2147483648 : ℤ) : ℝ) ≤ roundR ((0 - 1) / 0.0872) := by push_cast; linarith
  exact_mod_cast this

/-! ## C73: the value of the heuristic -/

private theorem motionCost_ge {R rev fwd : ℝ} {ms : List RS.Motion} (hR : 0 ≤ R)
    (hms : ∀ m ∈ ms, 0 ≤ m.length.getD 0) :
    min rev fwd * totalLength (ms.map (stretch R)) ≤ (ms.map (motionCost R rev fwd)).sum := by
  induction ms with
  | nil => simp [totalLength]
  | cons m ms ih =>
    have h1 := ih fun a ha => hms a (List.mem_cons_of_mem _ ha)
    have h2 : 0 ≤ m.length.getD 0 * R := mul_nonneg (hms m List.mem_cons_self) hR
    simp only [totalLength, List.map_cons, List.sum_cons, stretch, motionCost] at h1 ⊢
    rw [mul_add]
    refine add_le_add ?_ h1
    have h3 : min rev fwd ≤ (if m.direction = .forward then fwd else rev) := by
      split
      · exact min_le_right _ _
      · exact min_le_left _ _
    have := mul_le_mul_of_nonneg_right h3 h2
    linarith

/-- The cost of a path of the solver is at least the cheaper multiplier times its length. -/
theorem computeCost_ge {s : RS.Segment} (hs : WellFormed s) {R rev fwd sw c : ℝ} (hR : 0 ≤ R) (hsw : 0 ≤ sw)
    (h : s.computeCost R rev fwd sw = some c) :
    min rev fwd * totalLength (stretches R s.motions) ≤ c := by
  have hnn : 0 ≤ totalLength (stretches R s.motions) := by
    unfold totalLength
    refine List.sum_nonneg fun x hx => ?_
    obtain ⟨a, ha, rfl⟩ := List.mem_map.1 hx
    obtain ⟨m, hm, rfl⟩ := List.mem_map.1 ha
    exact mul_nonneg (hs.1 m hm) hR
  have hne : s.motions.takeWhile RS.Motion.isValid ≠ [] := by
    unfold RS.Segment.computeCost at h
    split at h
    · simp at h
    · rename_i m l hm
      split at h
      · rename_i hv; rw [hm, List.takeWhile_cons_of_pos hv]; simp
      · simp at h
  by_cases hq : ¬ (rev = 1 ∧ sw = 0) ∨ fwd = 1
  · rw [C51_cost_partial s hs R rev fwd sw hne hq, Option.some.injEq] at h
    rw [← h]
    unfold weightedCost
    have h1 := motionCost_ge (rev := rev) (fwd := fwd) hR hs.1
    have h2 : 0 ≤ sw * switches ((s.motions.takeWhile RS.Motion.isValid).map (·.direction)) := by positivity
    unfold stretches
    linarith
  · push Not at hq
    obtain ⟨⟨rfl, rfl⟩, _⟩ := hq
    unfold RS.Segment.computeCost at h
    split at h
    · simp at h
    · split at h
      · simp only [and_self, if_true, Option.some.injEq] at h
        rw [← h, segment_length hs]
        calc min 1 fwd * totalLength (stretches R s.motions) ≤ 1 * totalLength (stretches R s.motions) := by
              gcongr; exact min_le_left _ _
          _ = _ := one_mul _
      · simp at h

/-- C73. The part that holds: for a goal outside the tabulated area the value is at most the cost of the
path the Reeds-Shepp solver finds from the state to the goal (whatever the word). Missing: goals inside
the tabulated area (see `C73_overestimates`). -/
theorem C73_outside_partial (h : NonHolo) (hR : 0 < h.minTurningRadius) (hsw : 0 ≤ h.sw)
    (hmin : 0 ≤ min h.rev h.fwd) (goal state : PoseR)
    (hout : (h.indices goal state).1 < 0 ∨ (h.indices goal state).1 ≥ h.numSpatialX ∨
       (h.indices goal state).2.1 < 0 ∨ (h.indices goal state).2.1 ≥ h.numSpatialY)
    (value : Option ℝ) (hv : h.getHeuristicValue goal state = some value) :
    ∃ v c, value = some v ∧
      (RS.optimalPath state goal h.minTurningRadius h.rev h.fwd h.sw).computeCost
        h.minTurningRadius h.rev h.fwd h.sw = some c ∧ v ≤ c := by
  obtain ⟨w, hw, t, u, v, len, c, hm, hp, hc, -⟩ :=
    C50_optimal state goal h.minTurningRadius h.rev h.fwd h.sw
  refine ⟨min h.rev h.fwd * √((goal.sub state).position.x ^ 2 + (goal.sub state).position.y ^ 2), c, ?_, hc, ?_⟩
  · unfold NonHolo.getHeuristicValue at hv
    dsimp only [NonHolo.indices] at hout hv
    generalize roundR (((goal.sub state).position.x + h.offsetX) / h.spatialResolution) = i at *
    generalize roundR (((goal.sub state).position.y + h.offsetY) / h.spatialResolution) = j at *
    generalize roundR ((goal.sub state).theta / h.angularResolution) = k at *
    simp only [Option.bind_eq_bind, Option.pure_def] at hv
    unfold toInt32 at hv
    split at hv
    swap
    · simp at hv
    rw [Option.bind_some] at hv
    split at hv
    swap
    · simp at hv
    rw [Option.bind_some] at hv
    split at hv
    swap
    · simp at hv
    rw [Option.bind_some] at hv
    try rw [if_pos hout] at hv
    exact (Option.some.inj hv).symm
  · obtain ⟨hb, ht, hu, hv', -, -⟩ := word_ends hR hm
    have hwf := getPath_wellFormed hb ht hu hv'
    rw [hp] at hc
    refine le_trans ?_ (computeCost_ge hwf hR.le hsw hc)
    refine mul_le_mul_of_nonneg_left ?_ hmin
    have h1 := C48_at_least_euclidean state goal _ hR w t u v len hm
    rw [(C48_word state goal _ hR w t u v len hm).2.2.2.2.1]
    refine le_trans (le_of_eq ?_) h1
    congr 1
    unfold PoseR.sub PoseR.mk' PoseR.rotate
    simp only [Pt.sub_x, Pt.sub_y, cos_neg, sin_neg]
    linear_combination ((goal.position.x - state.position.x) ^ 2 + (goal.position.y - state.position.y) ^ 2) *
      sin_sq_add_cos_sq state.theta

/-- The cost of the path that the solver finds is at least the cheaper multiplier times the distance. -/
theorem optimal_cost_ge (start goal : PoseR) {R rev fwd sw : ℝ} (hR : 0 < R) (hsw : 0 ≤ sw) (hmin : 0 ≤ min rev fwd) :
    ∃ c, (RS.optimalPath start goal R rev fwd sw).computeCost R rev fwd sw = some c ∧
      min rev fwd * √((goal.position.x - start.position.x) ^ 2 + (goal.position.y - start.position.y) ^ 2) ≤ c := by
  obtain ⟨w, hw, t, u, v, len, c, hm, hp, hc, -⟩ := C50_optimal start goal R rev fwd sw
  refine ⟨c, hc, ?_⟩
  obtain ⟨hb, ht, hu, hv', -, -⟩ := word_ends hR hm
  have hwf := getPath_wellFormed hb ht hu hv'
  rw [hp] at hc
  refine le_trans ?_ (computeCost_ge hwf hR.le hsw hc)
  refine mul_le_mul_of_nonneg_left ?_ hmin
  rw [(C48_word start goal _ hR w t u v len hm).2.2.2.2.1]
  exact C48_at_least_euclidean start goal _ hR w t u v len hm

/-- C73. What the table holds: for a goal inside the tabulated area the value is the cost of the path from
a pose near the goal (as seen from the state: within half a cell in each direction, and half an angular step
in heading) to the state, which is the trip back. -/
theorem C73_table_value (h : NonHolo) (hr : 0 < h.spatialResolution) (ha : 0 < h.angularResolution)
    (goal state : PoseR) (value : Option ℝ)
    (hin : ¬ ((h.indices goal state).1 < 0 ∨ (h.indices goal state).1 ≥ h.numSpatialX ∨
       (h.indices goal state).2.1 < 0 ∨ (h.indices goal state).2.1 ≥ h.numSpatialY))
    (hv : h.getHeuristicValue goal state = some value) :
    ∃ p : PoseR, |p.position.x - (goal.sub state).position.x| ≤ h.spatialResolution / 2 ∧
      |p.position.y - (goal.sub state).position.y| ≤ h.spatialResolution / 2 ∧
      (∃ a, SameAngle p.theta a ∧ |a - (goal.sub state).theta| ≤ h.angularResolution / 2) ∧
      value = (RS.optimalPath p ⟨⟨0, 0⟩, 0⟩ h.minTurningRadius h.rev h.fwd h.sw).computeCost
        h.minTurningRadius h.rev h.fwd h.sw := by
  have hnear : ∀ x off : ℝ, |(roundR ((x + off) / h.spatialResolution) : ℝ) * h.spatialResolution - off - x| ≤
      h.spatialResolution / 2 := by
    intro x off
    have h1 := roundR_near ((x + off) / h.spatialResolution)
    have h2 : (roundR ((x + off) / h.spatialResolution) : ℝ) * h.spatialResolution - off - x =
        ((roundR ((x + off) / h.spatialResolution) : ℝ) - (x + off) / h.spatialResolution) *
          h.spatialResolution := by
      field_simp; ring
    rw [h2, abs_mul, abs_of_pos hr]
    have := mul_le_mul_of_nonneg_right h1 hr.le
    linarith
  have hnk : ∃ x : ℝ, x = (((if roundR ((goal.sub state).theta / h.angularResolution) = (h.numAngular : ℤ) then 0
        else roundR ((goal.sub state).theta / h.angularResolution) : ℤ) : ℝ)) ∧
      |x * h.angularResolution - (goal.sub state).theta| ≤ h.angularResolution / 2 := by
    refine ⟨_, rfl, ?_⟩
    have hp := pi_pos
    have h1 := roundR_near ((goal.sub state).theta / h.angularResolution)
    have hθ := sub_theta_range goal state
    split
    · rename_i heq
      rw [heq] at h1
      have h2 : 2 * π / h.angularResolution ≤ h.numAngular := Nat.le_ceil _
      have h3 := (abs_le.1 h1).2
      have h4 : (goal.sub state).theta / h.angularResolution ≤ π / h.angularResolution :=
        div_le_div_of_nonneg_right hθ.2 ha.le
      push_cast at h3
      have h5 : π / h.angularResolution ≤ 1 / 2 := by
        have : 2 * π / h.angularResolution = 2 * (π / h.angularResolution) := by ring
        linarith
      rw [div_le_iff₀ ha] at h5
      rw [Int.cast_zero, zero_mul, zero_sub, abs_neg, abs_le]
      constructor <;> linarith [hθ.1, hθ.2]
    · generalize (roundR ((goal.sub state).theta / h.angularResolution) : ℝ) = x at h1 ⊢
      have h2 : x * h.angularResolution - (goal.sub state).theta =
          (x - (goal.sub state).theta / h.angularResolution) * h.angularResolution := by
        field_simp
      rw [h2, abs_mul, abs_of_pos ha]
      have := mul_le_mul_of_nonneg_right h1 ha.le
      linarith
  unfold NonHolo.getHeuristicValue at hv
  dsimp only [NonHolo.indices] at hin hv
  have hnx := hnear (goal.sub state).position.x h.offsetX
  have hny := hnear (goal.sub state).position.y h.offsetY
  generalize roundR (((goal.sub state).position.x + h.offsetX) / h.spatialResolution) = i at *
  generalize roundR (((goal.sub state).position.y + h.offsetY) / h.spatialResolution) = j at *
  generalize roundR ((goal.sub state).theta / h.angularResolution) = k at *
  simp only [Option.bind_eq_bind, Option.pure_def] at hv
  unfold toInt32 at hv
  split at hv
  swap
  · simp at hv
  rw [Option.bind_some] at hv
  split at hv
  swap
  · simp at hv
  rw [Option.bind_some] at hv
  split at hv
  swap
  · simp at hv
  rw [Option.bind_some] at hv
  try rw [if_neg hin] at hv
  generalize (if k = (h.numAngular : ℤ) then 0 else k) = k' at hv hnk
  unfold NonHolo.read at hv
  split at hv
  swap
  · simp at hv
  obtain ⟨x, rfl, hnk⟩ := hnk
  exact ⟨h.entryPose i j k', hnx, hny, ⟨_, C41_same_angle _, hnk⟩, (Option.some.inj hv).symm⟩

/-! The area that `Build` tabulates. -/

private theorem numSpatial_odd (size res : ℝ) : ∃ m : Nat, NonHolo.numSpatial size res = 2 * m + 1 := by
  unfold NonHolo.numSpatial
  dsimp only
  generalize ⌈size / res⌉₊ = g
  split
  · exact ⟨g / 2, by omega⟩
  · exact ⟨g / 2, by omega⟩

private theorem numSpatial_ge (size res : ℝ) : size / res ≤ NonHolo.numSpatial size res := by
  unfold NonHolo.numSpatial
  dsimp only
  have := Nat.le_ceil (size / res)
  split
  · push_cast; linarith
  · exact this

private theorem numSpatial_le {size res : ℝ} (h : 0 ≤ size / res) : (NonHolo.numSpatial size res : ℝ) ≤ size / res + 2 := by
  unfold NonHolo.numSpatial
  dsimp only
  have := Nat.ceil_lt_add_one h
  split
  · push_cast; linarith
  · linarith

private theorem half_odd (m : Nat) : ⌊((2 * m + 1 : Nat) : ℝ) / 2⌋ = (m : ℤ) := by
  rw [Int.floor_eq_iff]
  push_cast
  constructor <;> linarith

private theorem index_in {x res : ℝ} (hr : 0 < res) (m : Nat) (h : |x| < ((2 * m + 1 : Nat) : ℝ) / 2 * res) :
    0 ≤ roundR ((x + ((m : ℤ) : ℝ) * res) / res) ∧ roundR ((x + ((m : ℤ) : ℝ) * res) / res) < ((2 * m + 1 : Nat) : ℤ) := by
  have e : (x + ((m : ℤ) : ℝ) * res) / res = x / res + m := by field_simp; push_cast; ring
  rw [e]
  obtain ⟨h1, h2⟩ := abs_lt.1 h
  have h3 : x / res < m + 1 / 2 := by
    rw [div_lt_iff₀ hr]; push_cast at h2; linarith
  have h4 : -(m + 1 / 2 : ℝ) < x / res := by
    rw [lt_div_iff₀ hr]; push_cast at h1; linarith
  constructor
  · by_contra hn
    rw [not_le, roundR_neg_iff] at hn
    linarith
  · unfold roundR
    split
    · rw [Int.floor_lt]; push_cast; linarith
    · rename_i hneg
      rw [not_le] at hneg
      have : ⌈x / res + m - 1 / 2⌉ ≤ 0 := by rw [Int.ceil_le]; push_cast; linarith
      have : (0 : ℤ) < ((2 * m + 1 : Nat) : ℤ) := by positivity
      omega

private theorem index_out {x res : ℝ} (hr : 0 < res) (m : Nat) (h : ((2 * m + 1 : Nat) : ℝ) / 2 * res < |x|) :
    roundR ((x + ((m : ℤ) : ℝ) * res) / res) < 0 ∨ ((2 * m + 1 : Nat) : ℤ) ≤ roundR ((x + ((m : ℤ) : ℝ) * res) / res) := by
  have e : (x + ((m : ℤ) : ℝ) * res) / res = x / res + m := by field_simp; push_cast; ring
  rw [e]
  rcases lt_abs.1 h with h | h
  · right
    have h3 : m + 1 / 2 < x / res := by
      rw [lt_div_iff₀ hr]; push_cast at h; linarith
    have hm : (0 : ℝ) ≤ m := Nat.cast_nonneg m
    unfold roundR
    rw [if_pos (by linarith), Int.le_floor]
    push_cast; linarith
  · left
    have h3 : x / res < -(m + 1 / 2 : ℝ) := by
      rw [div_lt_iff₀ hr]; push_cast at h; linarith
    rw [roundR_neg_iff]; linarith

/-- C73. The table that `Build` makes for a space covers every goal that is ahead or behind the state by less than half the
width of the space and to its side by less than half the height: there the value is that of `C73_table_value`. -/
theorem C73_within_half_the_bounds (lb ub : PoseR) (res ang R rev fwd sw : ℝ) (hr : 0 < res) (ha : 0 < ang)
    (goal state : PoseR) (hx : |(goal.sub state).position.x| < (ub.position.x - lb.position.x) / 2)
    (hy : |(goal.sub state).position.y| < (ub.position.y - lb.position.y) / 2) (value : Option ℝ)
    (hv : (NonHolo.build lb ub res ang R rev fwd sw).getHeuristicValue goal state = some value) :
    ∃ p : PoseR, |p.position.x - (goal.sub state).position.x| ≤ res / 2 ∧
      |p.position.y - (goal.sub state).position.y| ≤ res / 2 ∧
      (∃ a, SameAngle p.theta a ∧ |a - (goal.sub state).theta| ≤ ang / 2) ∧
      value = (RS.optimalPath p ⟨⟨0, 0⟩, 0⟩ R rev fwd sw).computeCost R rev fwd sw := by
  refine C73_table_value (NonHolo.build lb ub res ang R rev fwd sw) hr ha goal state value ?_ hv
  obtain ⟨m, hm⟩ := numSpatial_odd (ub.position.x - lb.position.x) res
  obtain ⟨n, hn⟩ := numSpatial_odd (ub.position.y - lb.position.y) res
  have gx := numSpatial_ge (ub.position.x - lb.position.x) res
  have gy := numSpatial_ge (ub.position.y - lb.position.y) res
  rw [hm, div_le_iff₀ hr] at gx
  rw [hn, div_le_iff₀ hr] at gy
  have h1 := index_in (x := (goal.sub state).position.x) hr m (by linarith)
  have h2 := index_in (x := (goal.sub state).position.y) hr n (by linarith)
  dsimp only [NonHolo.indices, NonHolo.build, NonHolo.offsetX, NonHolo.offsetY]
  rw [hm, hn, half_odd, half_odd]
  rintro (h | h | h | h)
  · exact absurd h1.1 (not_le.2 h)
  · exact absurd h1.2 (not_lt.2 h)
  · exact absurd h2.1 (not_le.2 h)
  · exact absurd h2.2 (not_lt.2 h)

private theorem value_outside (h : NonHolo) (goal state : PoseR)
    (hout : (h.indices goal state).1 < 0 ∨ (h.indices goal state).1 ≥ h.numSpatialX ∨
       (h.indices goal state).2.1 < 0 ∨ (h.indices goal state).2.1 ≥ h.numSpatialY)
    (value : Option ℝ) (hv : h.getHeuristicValue goal state = some value) :
    value = some (min h.rev h.fwd * √((goal.sub state).position.x ^ 2 + (goal.sub state).position.y ^ 2)) := by
  unfold NonHolo.getHeuristicValue at hv
  dsimp only [NonHolo.indices] at hout hv
  generalize roundR (((goal.sub state).position.x + h.offsetX) / h.spatialResolution) = i at *
  generalize roundR (((goal.sub state).position.y + h.offsetY) / h.spatialResolution) = j at *
  generalize roundR ((goal.sub state).theta / h.angularResolution) = k at *
  simp only [Option.bind_eq_bind, Option.pure_def] at hv
  unfold toInt32 at hv
  split at hv
  swap
  · simp at hv
  rw [Option.bind_some] at hv
  split at hv
  swap
  · simp at hv
  rw [Option.bind_some] at hv
  split at hv
  swap
  · simp at hv
  rw [Option.bind_some] at hv
  try rw [if_pos hout] at hv
  exact (Option.some.inj hv).symm

/-- C73. More than a cell beyond this area the value is the cheaper multiplier times the distance. -/
theorem C73_beyond_half_the_bounds (lb ub : PoseR) (res ang R rev fwd sw : ℝ) (hr : 0 < res)
    (hbx : lb.position.x ≤ ub.position.x) (hby : lb.position.y ≤ ub.position.y) (goal state : PoseR)
    (hout : (ub.position.x - lb.position.x) / 2 + res < |(goal.sub state).position.x| ∨
      (ub.position.y - lb.position.y) / 2 + res < |(goal.sub state).position.y|) (value : Option ℝ)
    (hv : (NonHolo.build lb ub res ang R rev fwd sw).getHeuristicValue goal state = some value) :
    value = some (min rev fwd * √((goal.position.x - state.position.x) ^ 2 + (goal.position.y - state.position.y) ^ 2)) := by
  obtain ⟨m, hm⟩ := numSpatial_odd (ub.position.x - lb.position.x) res
  obtain ⟨n, hn⟩ := numSpatial_odd (ub.position.y - lb.position.y) res
  have gx := numSpatial_le (size := ub.position.x - lb.position.x) (res := res) (div_nonneg (by linarith) hr.le)
  have gy := numSpatial_le (size := ub.position.y - lb.position.y) (res := res) (div_nonneg (by linarith) hr.le)
  rw [hm, ← sub_le_iff_le_add, le_div_iff₀ hr] at gx
  rw [hn, ← sub_le_iff_le_add, le_div_iff₀ hr] at gy
  refine (value_outside _ goal state ?_ value hv).trans ?_
  · dsimp only [NonHolo.indices, NonHolo.build, NonHolo.offsetX, NonHolo.offsetY]
    rw [hm, hn, half_odd, half_odd]
    rcases hout with h | h
    · rcases index_out (x := (goal.sub state).position.x) hr m (by linarith) with h | h
      · exact .inl h
      · exact .inr (.inl h)
    · rcases index_out (x := (goal.sub state).position.y) hr n (by linarith) with h | h
      · exact .inr (.inr (.inl h))
      · exact .inr (.inr (.inr h))
  dsimp only [NonHolo.build]
  congr 3
  unfold PoseR.sub PoseR.mk' PoseR.rotate
  simp only [Pt.sub_x, Pt.sub_y, cos_neg, sin_neg]
  linear_combination ((goal.position.x - state.position.x) ^ 2 + (goal.position.y - state.position.y) ^ 2) *
    sin_sq_add_cos_sq state.theta

/-- A space of 100 by 20: a goal 30 ahead and one 15 to the side meet the hypotheses of the two theorems. -/
example : (|((⟨⟨30, 0⟩, 0⟩ : PoseR).sub ⟨⟨0, 0⟩, 0⟩).position.x| < ((100 : ℝ) - 0) / 2 ∧
    |((⟨⟨30, 0⟩, 0⟩ : PoseR).sub ⟨⟨0, 0⟩, 0⟩).position.y| < ((20 : ℝ) - 0) / 2) ∧
    ((20 : ℝ) - 0) / 2 + 1 < |((⟨⟨0, 15⟩, 0⟩ : PoseR).sub ⟨⟨0, 0⟩, 0⟩).position.y| := by
  simp only [PoseR.sub, PoseR.mk', PoseR.rotate, Pt.sub_x, Pt.sub_y, neg_zero, cos_zero, sin_zero]
  norm_num

/-! The witness: the goal is 1 ahead of the state; forward costs 1 per metre, backward 2, a change of
direction 10. -/

private theorem switches_word {w : Nat} (h2 : 2 ≤ w / 4) (hw : w / 4 < 12) (t u v : ℝ) :
    1 ≤ switches (((RS.getPath w t u v).motions.takeWhile RS.Motion.isValid).map (·.direction)) := by
  unfold RS.getPath
  rw [if_pos hw]
  have hb : w / 4 = 2 ∨ w / 4 = 3 ∨ w / 4 = 4 ∨ w / 4 = 5 ∨ w / 4 = 6 ∨ w / 4 = 7 ∨ w / 4 = 8 ∨ w / 4 = 9 ∨
    w / 4 = 10 ∨ w / 4 = 11 := by omega
  have hc : w % 4 = 0 ∨ w % 4 = 1 ∨ w % 4 = 2 ∨ w % 4 = 3 := by omega
  rcases hb with h | h | h | h | h | h | h | h | h | h <;> rcases hc with h' | h' | h' | h' <;>
  simp [h, h', RS.basePath, RS.Segment.addMotion, RS.Segment.empty, List.replicate,
      RS.setFirstInvalid, RS.Motion.isValid, List.takeWhile, RS.Segment.timeflip, RS.Segment.reflect, switches]

private theorem wrapAngle_of_mem {x : ℝ} (h0 : -π ≤ x) (h1 : x < π) : RS.wrapAngle x = x := by
  have hp := pi_pos
  have : truncInt ((x + π) / (2 * π)) = 0 := by
    unfold truncInt
    rw [if_pos (div_nonneg (by linarith) (by linarith)), Int.floor_eq_zero_iff]
    refine ⟨div_nonneg (by linarith) (by linarith), ?_⟩
    rw [div_lt_one (by linarith)]; linarith
  unfold RS.wrapAngle modulo fmodR
  rw [this]
  simp only [Int.cast_zero, zero_mul, sub_zero]
  rw [if_neg (by linarith)]; ring

theorem wrapTheta_zero : wrapTheta 0 = 0 := C41_unchanged 0 (by linarith [pi_pos]) pi_pos.le

private theorem behind_goal (i : Nat) (hi : i = 0 ∨ i = 2) :
    RS.goalArray ⟨⟨1, 0⟩, 0⟩ ⟨⟨0, 0⟩, 0⟩ 1 i = ⟨⟨-1, 0⟩, 0⟩ := by
  rcases hi with rfl | rfl <;>
  simp only [RS.goalArray, PoseR.sub, PoseR.mk', PoseR.rotate, sub_zero, wrapTheta_zero, div_one, Pt.sub_x,
    Pt.sub_y, neg_zero, cos_zero, sin_zero, PoseR.mk.injEq, Pt.mk.injEq] <;>
  norm_num [wrapTheta_zero]

/-- Turning left, straight on and left does not reach a goal just behind without a full turn. -/
private theorem behind_LSL : RS.LfSfLf ⟨⟨-1, 0⟩, 0⟩ = .infinite := by
  have hp := pi_pos
  have ha : atan2 0 (-1) = π := by
    unfold atan2
    exact Complex.arg_ofReal_of_neg (by norm_num)
  unfold RS.LfSfLf
  dsimp only
  rw [if_pos]
  right; left
  rw [sin_zero, cos_zero, show (0 : ℝ) - 1 + 1 = 0 by norm_num, sub_zero, ha, zero_sub,
    wrapAngle_of_mem le_rfl (by linarith)]
  linarith

private theorem behind_LSR : RS.LfSfRf ⟨⟨-1, 0⟩, 0⟩ = .infinite := by
  have hp := pi_pos
  have hpos : 0 < Complex.arg ⟨1, 2⟩ := by
    have h0 : 0 ≤ Complex.arg ⟨1, 2⟩ := Complex.arg_nonneg_iff.2 (by norm_num)
    refine lt_of_le_of_ne h0 (fun hc => ?_)
    have := (Complex.arg_eq_zero_iff.1 hc.symm).2
    norm_num at this
  have hlt : Complex.arg ⟨1, 2⟩ < π / 2 := by
    have : |Complex.arg ⟨1, 2⟩| < π / 2 := Complex.abs_arg_lt_pi_div_two_iff.2 (Or.inl (by norm_num))
    exact lt_of_abs_lt this
  have h1 : atan2 (-2) (-1) = Complex.arg ⟨1, 2⟩ - π := by
    unfold atan2
    rw [← Complex.arg_neg_eq_arg_sub_pi_of_im_pos (by norm_num)]
    congr 1
  simp only [RS.LfSfRf, sin_zero, cos_zero, add_zero, zero_sub]
  norm_num
  rw [h1, show atan2 2 1 = Complex.arg ⟨1, 2⟩ from rfl, wrapAngle_of_mem (by linarith) (by linarith)]
  exact fun hc => absurd (Or.inl (by linarith)) hc

private theorem all_backward {w : Nat} (hw : w / 4 = 0 ∨ w / 4 = 1) (hc : w % 4 = 1 ∨ w % 4 = 3) (t u v : ℝ) :
    ∀ m ∈ (RS.getPath w t u v).motions.takeWhile RS.Motion.isValid, m.direction = .backward := by
  unfold RS.getPath
  rw [if_pos (by omega)]
  rcases hw with h | h <;> rcases hc with h' | h' <;>
  simp [h, h', RS.basePath, RS.Segment.addMotion, RS.Segment.empty, List.replicate,
      RS.setFirstInvalid, RS.Motion.isValid, List.takeWhile, RS.Segment.timeflip, RS.Segment.reflect]

private theorem backward_sum {R rev fwd : ℝ} {ms : List RS.Motion} (h : ∀ m ∈ ms, m.direction = .backward) :
    (ms.map (motionCost R rev fwd)).sum = rev * totalLength (ms.map (stretch R)) := by
  induction ms with
  | nil => simp [totalLength]
  | cons m ms ih =>
    have h1 := ih fun a ha => h a (List.mem_cons_of_mem _ ha)
    simp only [totalLength, List.map_cons, List.sum_cons] at h1 ⊢
    rw [h1, motionCost, h m List.mem_cons_self]
    simp only [stretch, reduceCtorEq, if_false]
    ring

/-- Going 1 back costs at least 2. -/
private theorem back_cost {w : Nat} {t u v len c : ℝ}
    (hm : RS.motionLengths w (RS.goalArray ⟨⟨1, 0⟩, 0⟩ ⟨⟨0, 0⟩, 0⟩ 1) = .finite t u v len)
    (hc : (RS.getPath w t u v).computeCost 1 2 1 10 = some c) : 2 ≤ c := by
  obtain ⟨hb, ht, hu, hv, -, -⟩ := word_ends one_pos hm
  have hwf := getPath_wellFormed hb ht hu hv
  have hlen := C48_word _ _ 1 one_pos w t u v len hm
  have hdist := C48_at_least_euclidean _ _ 1 one_pos w t u v len hm
  norm_num at hdist
  have hne : (RS.getPath w t u v).motions.takeWhile RS.Motion.isValid ≠ [] := by
    unfold RS.Segment.computeCost at hc
    split at hc
    · simp at hc
    · rename_i m l hml
      split at hc
      · rename_i hval; rw [hml, List.takeWhile_cons_of_pos hval]; simp
      · simp at hc
  rw [C51_cost_partial _ hwf 1 2 1 10 hne (Or.inl (by norm_num)), Option.some.injEq] at hc
  have hge := motionCost_ge (R := 1) (rev := 2) (fwd := 1) zero_le_one hwf.1
  have htl : totalLength (((RS.getPath w t u v).motions.takeWhile RS.Motion.isValid).map (stretch 1)) = len := by
    have := hlen.2.2.2.2.1
    rw [mul_one] at this
    exact this
  rw [htl] at hge
  norm_num at hge
  by_cases h2 : 2 ≤ w / 4
  · have hs := switches_word h2 hb t u v
    rw [← hc]
    unfold weightedCost
    have : (1 : ℝ) ≤ switches (((RS.getPath w t u v).motions.takeWhile RS.Motion.isValid).map (·.direction)) := by
      exact_mod_cast hs
    linarith
  · have hw : w / 4 = 0 ∨ w / 4 = 1 := by omega
    by_cases hmod : w % 4 = 1 ∨ w % 4 = 3
    · have h3 := backward_sum (R := 1) (rev := 2) (fwd := 1) (all_backward hw hmod t u v)
      rw [htl] at h3
      rw [← hc]
      unfold weightedCost
      rw [h3]
      have : (0 : ℝ) ≤ switches (((RS.getPath w t u v).motions.takeWhile RS.Motion.isValid).map (·.direction)) :=
        Nat.cast_nonneg _
      linarith
    · exfalso
      rw [motionLengths_eq, behind_goal (w % 4) (by omega)] at hm
      rcases hw with h | h <;> rw [h] at hm
      · rw [show baseFormula 0 ⟨⟨-1, 0⟩, 0⟩ = RS.LfSfLf ⟨⟨-1, 0⟩, 0⟩ from rfl, behind_LSL] at hm
        cases hm
      · rw [show baseFormula 1 ⟨⟨-1, 0⟩, 0⟩ = RS.LfSfRf ⟨⟨-1, 0⟩, 0⟩ from rfl, behind_LSR] at hm
        cases hm

/-- C73 is violated: the goal is 1 m straight ahead, forward costs 1 per metre, backward 2, a change of
direction 10, the table covers a square of 10. The heuristic value is at least 2; the Reeds-Shepp solver
finds a path that costs at most 1. -/
theorem C73_overestimates :
    let h := NonHolo.build ⟨⟨0, 0⟩, -π⟩ ⟨⟨10, 10⟩, π⟩ 1 0.0872 1 2 1 10
    ∃ v c, h.getHeuristicValue ⟨⟨1, 0⟩, 0⟩ ⟨⟨0, 0⟩, 0⟩ = some (some v) ∧
      (RS.optimalPath ⟨⟨0, 0⟩, 0⟩ ⟨⟨1, 0⟩, 0⟩ h.minTurningRadius h.rev h.fwd h.sw).computeCost
        h.minTurningRadius h.rev h.fwd h.sw = some c ∧ c ≤ 1 ∧ 2 ≤ v := by
  have hp := pi_pos
  have hn : NonHolo.numSpatial 10 1 = 11 := by
    unfold NonHolo.numSpatial
    have : ⌈(10 : ℝ) / 1⌉₊ = 10 := by rw [div_one]; exact Nat.ceil_natCast 10
    rw [this]; rfl
  have hb : NonHolo.build ⟨⟨0, 0⟩, -π⟩ ⟨⟨10, 10⟩, π⟩ 1 0.0872 1 2 1 10 = ⟨1, 0.0872, 1, 2, 1, 10, 11, 11⟩ := by
    unfold NonHolo.build
    simp only [sub_zero, hn]
  intro h
  have hh : h = ⟨1, 0.0872, 1, 2, 1, 10, 11, 11⟩ := hb
  rw [hh]
  have hsub : PoseR.sub ⟨⟨1, 0⟩, 0⟩ ⟨⟨0, 0⟩, 0⟩ = ⟨⟨1, 0⟩, 0⟩ := by
    simp only [PoseR.sub, PoseR.mk', PoseR.rotate, sub_zero, wrapTheta_zero, Pt.sub_x,
      Pt.sub_y, neg_zero, cos_zero, sin_zero, PoseR.mk.injEq, Pt.mk.injEq]
    norm_num
  have hfl : ⌊(11 : ℝ) / 2⌋ = 5 := by rw [Int.floor_eq_iff]; norm_num
  have hr6 : roundR 6 = 6 := by unfold roundR; rw [if_pos (by norm_num), Int.floor_eq_iff]; norm_num
  have hr5 : roundR 5 = 5 := by unfold roundR; rw [if_pos (by norm_num), Int.floor_eq_iff]; norm_num
  have hang : 0 < (⟨1, 0.0872, 1, 2, 1, 10, 11, 11⟩ : NonHolo).numAngular :=
    Nat.ceil_pos.2 (by positivity)
  have hval : (⟨1, 0.0872, 1, 2, 1, 10, 11, 11⟩ : NonHolo).getHeuristicValue ⟨⟨1, 0⟩, 0⟩ ⟨⟨0, 0⟩, 0⟩ =
      some ((⟨1, 0.0872, 1, 2, 1, 10, 11, 11⟩ : NonHolo).entry 6 5 0) := by
    unfold NonHolo.getHeuristicValue
    dsimp only
    rw [hsub]
    simp only [NonHolo.offsetX, NonHolo.offsetY]
    rw [show (((11 : Nat) : ℝ)) = 11 by norm_num, hfl]
    norm_num
    rw [hr6, hr5, roundR_zero]
    simp only [toInt32]
    norm_num
    unfold NonHolo.read
    rw [if_pos (by norm_num at hang ⊢; exact hang)]
  have hpose : (⟨1, 0.0872, 1, 2, 1, 10, 11, 11⟩ : NonHolo).entryPose 6 5 0 = ⟨⟨1, 0⟩, 0⟩ := by
    unfold NonHolo.entryPose NonHolo.offsetX NonHolo.offsetY PoseR.mk'
    dsimp only
    rw [show (((11 : Nat) : ℝ)) = 11 by norm_num, hfl]
    norm_num [wrapTheta_zero]
  obtain ⟨w, hw, t, u, v, len, c, hm, hpth, hc, -⟩ := C50_optimal ⟨⟨1, 0⟩, 0⟩ ⟨⟨0, 0⟩, 0⟩ 1 2 1 10
  obtain ⟨w', hw', t', u', v', len', c', hm', hpth', hc', hmin⟩ := C50_optimal ⟨⟨0, 0⟩, 0⟩ ⟨⟨1, 0⟩, 0⟩ 1 2 1 10
  refine ⟨c, c', ?_, hc', ?_, ?_⟩
  · rw [hval]
    unfold NonHolo.entry
    rw [hpose]
    exact congrArg some hc
  · obtain ⟨c2, hc2, hle⟩ := hmin 0 (by norm_num) 0 1 0 1 (LfSfLf_ahead zero_le_one)
    refine hle.trans (le_of_eq ?_)
    have hmo : (RS.getPath 0 0 1 0).motions = [⟨.left, .forward, some 0⟩, ⟨.straight, .forward, some 1⟩,
        ⟨.left, .forward, some 0⟩, {}, {}] := by
      simp [RS.getPath, RS.basePath, RS.Segment.addMotion, RS.Segment.empty, List.replicate,
        RS.setFirstInvalid, RS.Motion.isValid]
    unfold RS.Segment.computeCost at hc2
    rw [hmo] at hc2
    simp [RS.Motion.isValid, RS.costLoop] at hc2
    exact hc2.symm
  · rw [hpth] at hc
    exact back_cost hm hc

end PathPlanning
