import Verif.Model.HybridAStar
import Verif.Props.Pose

/-!
# C79: when two poses are the same node of the hybrid A* search
-/

namespace PathPlanning
open Real HybridAStar

private theorem pi_bounds : 3 < π ∧ π < 63 / 20 := by
  refine ⟨pi_gt_three, ?_⟩
  have := pi_lt_d2
  norm_num at this
  linarith

theorem gt_pi_iff (t : ℤ) : (t : ℝ) > π ↔ 4 ≤ t := by
  obtain ⟨h1, h2⟩ := pi_bounds
  constructor
  · intro h
    have : (3 : ℝ) < t := by linarith
    have : (3 : ℤ) < t := by exact_mod_cast this
    omega
  · intro h
    have : (4 : ℝ) ≤ t := by exact_mod_cast h
    linarith

theorem lt_neg_pi_iff (t : ℤ) : (t : ℝ) < -π ↔ t ≤ -4 := by
  have := gt_pi_iff (-t)
  push_cast at this
  constructor
  · intro h
    have := this.mp (by linarith)
    omega
  · intro h
    have := this.mpr (by omega)
    linarith

/-- One turn of the first loop: from 7 on the fraction is lost downwards, below 7 upwards. -/
theorem truncInt_sub_two_pi (t : ℤ) (h : 4 ≤ t) :
    truncInt ((t : ℝ) - 2 * π) = if 7 ≤ t then t - 7 else t - 6 := by
  obtain ⟨h1, h2⟩ := pi_bounds
  unfold truncInt
  by_cases h7 : 7 ≤ t
  · have h7' : (7 : ℝ) ≤ t := by exact_mod_cast h7
    rw [if_pos (by linarith), if_pos h7, Int.floor_eq_iff]
    push_cast
    constructor <;> linarith
  · have h6 : (t : ℝ) ≤ 6 := by
      have : t ≤ 6 := by omega
      exact_mod_cast this
    rw [if_neg (by push Not; linarith), if_neg h7, Int.ceil_eq_iff]
    push_cast
    constructor <;> linarith

theorem intWrapDown_of_le (t : ℤ) (h : t ≤ 3) : intWrapDown t = t := by
  rw [intWrapDown, if_neg (by rw [gt_pi_iff]; omega)]

theorem intWrapDown_step (t : ℤ) (h : 4 ≤ t) :
    intWrapDown t = if 7 ≤ t then intWrapDown (t - 7) else t - 6 := by
  rw [intWrapDown, if_pos ((gt_pi_iff t).mpr h), truncInt_sub_two_pi t h]
  split
  · rfl
  · exact intWrapDown_of_le _ (by omega)

theorem intWrapUp_of_ge (t : ℤ) (h : -3 ≤ t) : intWrapUp t = t := by
  rw [intWrapUp, if_neg (by rw [lt_neg_pi_iff]; omega)]

theorem truncInt_neg (x : ℝ) : truncInt (-x) = -truncInt x := by
  unfold truncInt
  rcases lt_trichotomy x 0 with h | h | h
  · rw [if_pos (by linarith), if_neg (by linarith), Int.floor_neg]
  · subst h; simp
  · rw [if_neg (by linarith), if_pos h.le, Int.ceil_neg]

theorem intWrapUp_neg (t : ℤ) (h : 0 ≤ t) : intWrapUp (-t) = -intWrapDown t := by
  induction ht : t.toNat using Nat.strongRecOn generalizing t with
  | ind n ih =>
    by_cases h4 : 4 ≤ t
    · rw [intWrapUp, if_pos ((lt_neg_pi_iff _).mpr (by omega)), intWrapDown_step t h4]
      have : ((-t : ℤ) : ℝ) + 2 * π = -((t : ℝ) - 2 * π) := by push_cast; ring
      rw [this, truncInt_neg, truncInt_sub_two_pi t h4]
      split
      · exact ih (t - 7).toNat (by omega) (t - 7) (by omega) rfl
      · exact intWrapUp_of_ge _ (by omega)
    · rw [intWrapDown_of_le _ (by omega), intWrapUp_of_ge _ (by omega)]

theorem intWrapDown_range (t : ℤ) (h : 0 ≤ t) : -3 ≤ intWrapDown t ∧ intWrapDown t ≤ 3 := by
  induction ht : t.toNat using Nat.strongRecOn generalizing t with
  | ind n ih =>
    by_cases h4 : 4 ≤ t
    · rw [intWrapDown_step t h4]
      split
      · exact ih (t - 7).toNat (by omega) (t - 7) (by omega) rfl
      · constructor <;> omega
    · rw [intWrapDown_of_le _ (by omega)]
      constructor <;> omega

theorem intWrapTheta_nonneg (t : ℤ) (h : 0 ≤ t) : intWrapTheta t = intWrapDown t := by
  unfold intWrapTheta
  exact intWrapUp_of_ge _ (intWrapDown_range t h).1

theorem intWrapTheta_neg (t : ℤ) : intWrapTheta (-t) = -intWrapTheta t := by
  rcases le_total 0 t with h | h
  · rw [intWrapTheta_nonneg t h]
    unfold intWrapTheta
    rw [intWrapDown_of_le (-t) (by omega), intWrapUp_neg t h]
  · rw [intWrapTheta_nonneg (-t) (by omega)]
    unfold intWrapTheta
    rw [intWrapDown_of_le t (by omega)]
    have := intWrapUp_neg (-t) (by omega)
    rw [neg_neg] at this
    omega

theorem intWrapTheta_range (t : ℤ) : -3 ≤ intWrapTheta t ∧ intWrapTheta t ≤ 3 := by
  rcases le_total 0 t with h | h
  · rw [intWrapTheta_nonneg t h]; exact intWrapDown_range t h
  · have h1 := intWrapTheta_neg (-t)
    rw [neg_neg] at h1
    have h2 := intWrapDown_range (-t) (by omega)
    rw [← intWrapTheta_nonneg (-t) (by omega)] at h2
    omega

theorem intWrapTheta_small (t : ℤ) (h : -3 ≤ t) (h' : t ≤ 3) : intWrapTheta t = t := by
  unfold intWrapTheta
  rw [intWrapDown_of_le t h', intWrapUp_of_ge t h]

theorem intWrapTheta_add_seven (t : ℤ) (h : 0 ≤ t) : intWrapTheta (t + 7) = intWrapTheta t := by
  rw [intWrapTheta_nonneg _ (by omega), intWrapTheta_nonneg t h, intWrapDown_step _ (by omega),
    if_pos (by omega), add_sub_cancel_right]

/-! ## Headings -/

/-- C79 is violated: whatever the angular resolution, the search distinguishes at most seven headings at
a position. -/
theorem C79_at_most_seven_headings (p : HybridParam) (pose : PoseR) :
    -3 ≤ (discretizePose p pose).theta ∧ (discretizePose p pose).theta ≤ 3 :=
  intWrapTheta_range _

/-- C79 is violated: two poses at the same position whose headings are seven angular resolutions apart are
always the same node. -/
theorem C79_headings_merged (p : HybridParam) (pos : Pt) (θ : ℝ) (hres : 0 < p.angularResolution)
    (h0 : 0 ≤ θ) (h1 : θ + 7 * p.angularResolution ≤ π) :
    discretizePose p ⟨pos, θ + 7 * p.angularResolution⟩ = discretizePose p ⟨pos, θ⟩ := by
  have hpi := pi_pos
  unfold discretizePose PoseI.mk'
  dsimp only
  rw [C41_unchanged _ (by linarith) h1, C41_unchanged θ (by linarith) (by linarith)]
  have : (θ + 7 * p.angularResolution) / p.angularResolution = θ / p.angularResolution + ((7 : ℤ) : ℝ) := by
    push_cast; field_simp
  have hq : 0 ≤ θ / p.angularResolution := div_nonneg h0 hres.le
  rw [this]
  have ht : truncInt (θ / p.angularResolution + ((7 : ℤ) : ℝ)) = truncInt (θ / p.angularResolution) + 7 := by
    unfold truncInt
    rw [if_pos (by push_cast; linarith), if_pos hq, Int.floor_add_intCast]
  have hf : 0 ≤ truncInt (θ / p.angularResolution) := by
    unfold truncInt
    rw [if_pos hq]
    exact Int.floor_nonneg.mpr hq
  rw [ht, intWrapTheta_add_seven _ hf]

/-- With the default parameters (angular resolution 0.0872) the almost opposite headings 0.1 and 3.14 are
the same node: 3.1 rad apart. -/
theorem C79_opposite_headings_merged (pos : Pt) :
    discretizePose {} ⟨pos, 0.1⟩ = discretizePose {} ⟨pos, 3.14⟩ := by
  have hpi := pi_gt_d2
  norm_num at hpi
  have e : ∀ (θ : ℝ) (k : ℤ), 0 ≤ θ → θ ≤ π → (k : ℝ) * 0.0872 ≤ θ → θ < ((k : ℝ) + 1) * 0.0872 →
      truncInt (wrapTheta θ / 0.0872) = k := by
    intro θ k h0 h1 h2 h3
    rw [C41_unchanged θ (by linarith) h1]
    unfold truncInt
    rw [if_pos (by positivity), Int.floor_eq_iff]
    exact ⟨by rw [le_div_iff₀ (by norm_num)]; exact h2, by rw [div_lt_iff₀ (by norm_num)]; exact h3⟩
  unfold discretizePose PoseI.mk'
  dsimp only
  rw [e 0.1 1 (by norm_num) (by norm_num; linarith) (by norm_num) (by norm_num),
    e 3.14 36 (by norm_num) (by norm_num; linarith) (by norm_num) (by norm_num)]
  have s := intWrapTheta_add_seven
  rw [show (36 : ℤ) = 1 + 7 + 7 + 7 + 7 + 7 by norm_num, s _ (by norm_num), s _ (by norm_num),
    s _ (by norm_num), s _ (by norm_num), s _ (by norm_num)]

/-! ## What does hold -/

private theorem abs_sub_trunc (x : ℝ) : |x - truncInt x| < 1 := by
  unfold truncInt
  split
  · rw [abs_lt]; constructor <;> linarith [Int.floor_le x, Int.lt_floor_add_one x]
  · rw [abs_lt]; constructor <;> linarith [Int.le_ceil x, Int.ceil_lt_add_one x]

theorem trunc_close {a b : ℝ} (h : truncInt a = truncInt b) :
    |a - b| < 2 ∧ (0 ≤ a → 0 ≤ b → |a - b| < 1) ∧ (a ≤ 0 → b ≤ 0 → |a - b| < 1) := by
  have ha := abs_lt.mp (abs_sub_trunc a)
  have hb := abs_lt.mp (abs_sub_trunc b)
  rw [h] at ha
  have pos : ∀ a b : ℝ, truncInt a = truncInt b → 0 ≤ a → 0 ≤ b → |a - b| < 1 := by
    intro a b h h1 h2
    unfold truncInt at h
    rw [if_pos h1, if_pos h2] at h
    exact Int.abs_sub_lt_one_of_floor_eq_floor h
  refine ⟨abs_lt.mpr ⟨by linarith, by linarith⟩, pos a b h, fun h1 h2 => ?_⟩
  have := pos (-a) (-b) (by rw [truncInt_neg, truncInt_neg, h]) (by linarith) (by linarith)
  rwa [← abs_neg, show -(a - b) = -a - -b by ring]

private theorem scaled {a b res : ℝ} (hres : 0 < res) (h : truncInt (a / res) = truncInt (b / res)) :
    |a - b| < 2 * res ∧ (0 ≤ a → 0 ≤ b → |a - b| < res) ∧ (a ≤ 0 → b ≤ 0 → |a - b| < res) := by
  have e : |a / res - b / res| = |a - b| / res := by rw [← sub_div, abs_div, abs_of_pos hres]
  obtain ⟨h1, h2, h3⟩ := trunc_close h
  rw [e, div_lt_iff₀ hres] at h1
  refine ⟨h1, fun ha hb => ?_, fun ha hb => ?_⟩
  · have := h2 (div_nonneg ha hres.le) (div_nonneg hb hres.le)
    rwa [e, div_lt_iff₀ hres, one_mul] at this
  · have := h3 (div_nonpos_of_nonpos_of_nonneg ha hres.le) (div_nonpos_of_nonpos_of_nonneg hb hres.le)
    rwa [e, div_lt_iff₀ hres, one_mul] at this

/-- C79 (partial: twice the resolution across the axes instead of once, nothing about headings). The
positions of two poses of the same node differ by less than twice the spatial resolution along each axis,
and by less than the spatial resolution if they lie on the same side of it. -/
theorem C79_position_partial (p : HybridParam) (a b : PoseR) (hres : 0 < p.spatialResolution)
    (h : equal (stateFromPose p a) (stateFromPose p b) = true) :
    (|a.position.x - b.position.x| < 2 * p.spatialResolution ∧
      |a.position.y - b.position.y| < 2 * p.spatialResolution) ∧
    (0 ≤ a.position.x → 0 ≤ b.position.x → |a.position.x - b.position.x| < p.spatialResolution) ∧
    (a.position.x ≤ 0 → b.position.x ≤ 0 → |a.position.x - b.position.x| < p.spatialResolution) ∧
    (0 ≤ a.position.y → 0 ≤ b.position.y → |a.position.y - b.position.y| < p.spatialResolution) ∧
    (a.position.y ≤ 0 → b.position.y ≤ 0 → |a.position.y - b.position.y| < p.spatialResolution) := by
  simp only [equal, stateFromPose, discretizePose, PoseI.mk', PoseI.mk.injEq, decide_eq_true_eq] at h
  obtain ⟨hx, hy, -⟩ := h
  have h1 := scaled hres hx
  have h2 := scaled hres hy
  exact ⟨⟨h1.1, h2.1⟩, h1.2.1, h1.2.2, h2.2.1, h2.2.2⟩

/-- C79 (partial: only for angular resolutions above a quarter of π). The headings (in [-π, π]) of two
poses of the same node differ by less than twice the angular resolution, and by less than the angular
resolution if they have the same sign. -/
theorem C79_heading_partial (p : HybridParam) (a b : PoseR) (hres : π / 4 < p.angularResolution)
    (h : equal (stateFromPose p a) (stateFromPose p b) = true) :
    |wrapTheta a.theta - wrapTheta b.theta| < 2 * p.angularResolution ∧
    (0 ≤ wrapTheta a.theta → 0 ≤ wrapTheta b.theta →
      |wrapTheta a.theta - wrapTheta b.theta| < p.angularResolution) ∧
    (wrapTheta a.theta ≤ 0 → wrapTheta b.theta ≤ 0 →
      |wrapTheta a.theta - wrapTheta b.theta| < p.angularResolution) := by
  have hr0 : 0 < p.angularResolution := by linarith [pi_pos]
  simp only [equal, stateFromPose, discretizePose, PoseI.mk', PoseI.mk.injEq, decide_eq_true_eq] at h
  have small : ∀ θ, -3 ≤ truncInt (wrapTheta θ / p.angularResolution) ∧
      truncInt (wrapTheta θ / p.angularResolution) ≤ 3 := by
    intro θ
    obtain ⟨h1, h2⟩ := C41_range θ
    have h3 : wrapTheta θ / p.angularResolution < 4 := by rw [div_lt_iff₀ hr0]; linarith
    have h4 : -4 < wrapTheta θ / p.angularResolution := by rw [lt_div_iff₀ hr0]; linarith
    unfold truncInt
    split
    · rename_i h0
      have := Int.floor_lt.mpr (show _ < ((4 : ℤ) : ℝ) by push_cast; exact h3)
      have := Int.floor_nonneg.mpr h0
      omega
    · rename_i h0
      push Not at h0
      have := Int.lt_ceil.mpr (show ((-4 : ℤ) : ℝ) < _ by push_cast; exact h4)
      have : ⌈wrapTheta θ / p.angularResolution⌉ ≤ 0 := Int.ceil_le.mpr (by push_cast; exact h0.le)
      omega
  have e := h.2.2
  rw [intWrapTheta_small _ (small _).1 (small _).2, intWrapTheta_small _ (small _).1 (small _).2] at e
  exact scaled hr0 e

/-- C79: poses whose coordinates have the same integer parts in the units of the resolutions are the same
node. -/
theorem C79_same_cell_same_node (p : HybridParam) (a b : PoseR) (i j k : ℤ)
    (hr : 0 < p.spatialResolution) (ha : 0 < p.angularResolution) (hi : 0 ≤ i) (hj : 0 ≤ j) (hk : 0 ≤ k)
    (h : ∀ q ∈ [a, b], (i * p.spatialResolution ≤ q.position.x ∧ q.position.x < (i + 1) * p.spatialResolution) ∧
      (j * p.spatialResolution ≤ q.position.y ∧ q.position.y < (j + 1) * p.spatialResolution) ∧
      (k * p.angularResolution ≤ wrapTheta q.theta ∧ wrapTheta q.theta < (k + 1) * p.angularResolution)) :
    equal (stateFromPose p a) (stateFromPose p b) = true := by
  have t : ∀ (x res : ℝ) (i : ℤ), 0 < res → 0 ≤ i → i * res ≤ x → x < (i + 1) * res →
      truncInt (x / res) = i := by
    intro x res i h0 hi h1 h2
    have h1' : (i : ℝ) ≤ x / res := by rw [le_div_iff₀ h0]; exact h1
    have hi' : (0 : ℝ) ≤ i := by exact_mod_cast hi
    unfold truncInt
    rw [if_pos (by linarith), Int.floor_eq_iff]
    exact ⟨h1', by rw [div_lt_iff₀ h0]; exact h2⟩
  have e : ∀ q ∈ [a, b], discretizePose p q = PoseI.mk' i j k := by
    intro q hq
    obtain ⟨h1, h2, h3⟩ := h q hq
    unfold discretizePose
    rw [t _ _ i hr hi h1.1 h1.2, t _ _ j hr hj h2.1 h2.2, t _ _ k ha hk h3.1 h3.2]
  refine decide_eq_true ?_
  show discretizePose p a = discretizePose p b
  rw [e a (by simp), e b (by simp)]

/-- C79 is violated across the axes: cells there are twice as large. With the default parameters, poses
1.8 apart in both coordinates are the same node. -/
theorem C79_cells_across_axes :
    equal (stateFromPose {} ⟨⟨-0.9, -0.9⟩, 0⟩) (stateFromPose {} ⟨⟨0.9, 0.9⟩, 0⟩) = true := by
  have h1 : truncInt (-0.9 / 1) = 0 := by
    unfold truncInt
    rw [if_neg (by norm_num), Int.ceil_eq_iff]; norm_num
  have h2 : truncInt (0.9 / 1) = 0 := by
    unfold truncInt
    rw [if_pos (by norm_num), Int.floor_eq_iff]; norm_num
  refine decide_eq_true ?_
  show PoseI.mk' (truncInt (-0.9 / 1)) (truncInt (-0.9 / 1)) _ =
    PoseI.mk' (truncInt (0.9 / 1)) (truncInt (0.9 / 1)) _
  rw [h1, h2]

/-- The hypotheses of the partial theorems are met by two different poses. -/
example : equal (stateFromPose { angularResolution := 1 } ⟨⟨0.2, 0.3⟩, 0.1⟩)
    (stateFromPose { angularResolution := 1 } ⟨⟨0.9, 0.1⟩, 0.8⟩) = true ∧ π / 4 < 1 := by
  have hpi := pi_bounds
  have h41 : ∀ t : ℝ, 0 ≤ t → t ≤ 3 → wrapTheta t = t := fun t h0 h1 =>
    C41_unchanged t (by linarith) (by linarith)
  refine ⟨C79_same_cell_same_node _ _ _ 0 0 0 ?_ ?_ le_rfl le_rfl le_rfl ?_, by linarith⟩
  · norm_num
  · norm_num
  · intro q hq
    simp only [List.mem_cons, List.not_mem_nil, or_false] at hq
    rcases hq with rfl | rfl
    · dsimp only
      rw [h41 _ (by norm_num) (by norm_num)]; norm_num
    · dsimp only
      rw [h41 _ (by norm_num) (by norm_num)]; norm_num

end PathPlanning
