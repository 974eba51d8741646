import Verif.Model.HybridAStar
import Verif.Props.Path

/-!
# C58: the motions that hybrid A* expands a node with
-/

namespace PathPlanning
open Real HybridAStar

theorem mem_deltas (p : HybridParam) (d : ℝ) :
    d ∈ deltas p ↔ d = 0 ∨ ∃ i < p.numGeneratedMotion / 2,
      d = ((i + 1 : Nat) : ℝ) / 2 * deltaMax p ∨ d = -(((i + 1 : Nat) : ℝ) / 2 * deltaMax p) := by
  unfold deltas
  simp only [List.mem_cons, List.mem_flatMap, List.mem_range, List.not_mem_nil, or_false]

/-- C58: driving straight is always among the motions, and with every steering angle its opposite. There
are `2 ⌊n / 2⌋ + 1` of them for `numGeneratedMotion = n`. -/
theorem C58_symmetric (p : HybridParam) :
    0 ∈ deltas p ∧ (∀ d ∈ deltas p, -d ∈ deltas p) ∧
      (deltas p).length = 2 * (p.numGeneratedMotion / 2) + 1 := by
  refine ⟨(mem_deltas p 0).mpr (.inl rfl), fun d hd => ?_, ?_⟩
  · rw [mem_deltas] at hd ⊢
    rcases hd with rfl | ⟨i, hi, rfl | rfl⟩
    · exact .inl neg_zero
    · exact .inr ⟨i, hi, .inr rfl⟩
    · exact .inr ⟨i, hi, .inl (neg_neg _)⟩
  · unfold deltas
    simp [List.length_flatMap, mul_comm]

example : (deltas {}).length = 5 := (C58_symmetric {}).2.2

theorem deltaMax_eq (p : HybridParam) (hR : 0 < p.minTurningRadius) :
    deltaMax p = arctan (p.wheelbase / p.minTurningRadius) := by
  have hs : √(p.minTurningRadius ^ 2 - (0 : ℝ) ^ 2) = p.minTurningRadius := by
    rw [show p.minTurningRadius ^ 2 - (0 : ℝ) ^ 2 = p.minTurningRadius ^ 2 by ring, sqrt_sq hR.le]
  unfold deltaMax Bicycle.steeringFromRadius model
  dsimp only
  rw [if_neg (not_lt.mpr hR.le), hs, if_neg hR.ne']

theorem dThetaDdist_model (p : HybridParam) (d : ℝ) :
    (model p).dThetaDdist d = tan d / p.wheelbase ∧ (model p).beta d = 0 := by
  have hb : (model p).beta d = 0 := by unfold Bicycle.beta model; simp
  refine ⟨?_, hb⟩
  unfold Bicycle.dThetaDdist
  rw [hb]
  simp [model]

/-- The change of heading over a distance. -/
theorem heading_change (p : HybridParam) (pose : PoseR) (s d : ℝ) (dir : Direction) (hd : 0 ≤ d) :
    |((model p).constantSteer pose s d dir).theta - pose.theta| =
      if |tan s / p.wheelbase| > 1e-9 then d * |tan s / p.wheelbase| else 0 := by
  obtain ⟨h1, h2⟩ := dThetaDdist_model p s
  unfold Bicycle.constantSteer
  dsimp only
  rw [h1, h2, cos_zero, div_one]
  split
  · show |pose.theta + _ - pose.theta| = _
    rw [add_sub_cancel_left, abs_mul]
    split
    · rw [abs_neg, abs_of_nonneg hd]
    · rw [abs_of_nonneg hd]
  · show |pose.theta - pose.theta| = 0
    simp

/-- C58 (partial: only up to `numGeneratedMotion = 5`, which is the default). Every steering angle is
within the one of the minimum turning radius `R`, and driving a distance `d` with it turns the vehicle by
at most `d / R`, as on a circle of radius `R`. -/
theorem C58_radius_partial (p : HybridParam) (hW : 0 < p.wheelbase) (hR : 0 < p.minTurningRadius)
    (hn : p.numGeneratedMotion ≤ 5) (s : ℝ) (hs : s ∈ deltas p) :
    |s| ≤ deltaMax p ∧
      ∀ (pose : PoseR) (d : ℝ) (dir : Direction), 0 ≤ d →
        |((model p).constantSteer pose s d dir).theta - pose.theta| ≤ d / p.minTurningRadius := by
  have hm := deltaMax_eq p hR
  have hpos : 0 < deltaMax p := by rw [hm]; exact arctan_pos.mpr (div_pos hW hR)
  have hlt : deltaMax p < π / 2 := by rw [hm]; exact arctan_lt_pi_div_two _
  have habs : |s| ≤ deltaMax p := by
    rw [mem_deltas] at hs
    have key : ∀ i : Nat, i < p.numGeneratedMotion / 2 →
        |((i + 1 : Nat) : ℝ) / 2 * deltaMax p| ≤ deltaMax p := by
      intro i hi
      have : (((i + 1 : Nat)) : ℝ) ≤ 2 := by
        have : i + 1 ≤ 2 := by omega
        exact_mod_cast this
      have h0 : (0 : ℝ) ≤ ((i + 1 : Nat) : ℝ) := Nat.cast_nonneg _
      rw [abs_of_nonneg (by positivity)]
      nlinarith
    rcases hs with rfl | ⟨i, hi, rfl | rfl⟩
    · rw [abs_zero]; exact hpos.le
    · exact key i hi
    · rw [abs_neg]; exact key i hi
  refine ⟨habs, fun pose d dir hd => ?_⟩
  have htan : |tan s| ≤ p.wheelbase / p.minTurningRadius := by
    have h1 : tan (deltaMax p) = p.wheelbase / p.minTurningRadius := by rw [hm, tan_arctan]
    rw [← h1]
    obtain ⟨l, u⟩ := abs_le.mp habs
    rw [abs_le]
    constructor
    · rw [← tan_neg]
      exact (strictMonoOn_tan.monotoneOn) ⟨by linarith, by linarith⟩ ⟨by linarith, by linarith⟩ l
    · exact (strictMonoOn_tan.monotoneOn) ⟨by linarith, by linarith⟩ ⟨by linarith, by linarith⟩ u
  rw [heading_change p pose s d dir hd]
  split
  · rw [abs_div, abs_of_pos hW, div_eq_mul_inv d]
    refine mul_le_mul_of_nonneg_left ?_ hd
    rw [div_le_iff₀ hW]
    calc |tan s| ≤ p.wheelbase / p.minTurningRadius := htan
      _ = p.minTurningRadius⁻¹ * p.wheelbase := by rw [div_eq_mul_inv, mul_comm]
  · positivity

/-- The default parameters meet the hypotheses, with a motion that turns. -/
example : deltaMax {} ∈ deltas {} ∧ 0 < deltaMax {} := by
  refine ⟨(mem_deltas _ _).mpr (.inr ⟨1, by decide, .inl ?_⟩), ?_⟩
  · norm_num
  · rw [deltaMax_eq _ (by norm_num)]; exact arctan_pos.mpr (by norm_num)

/-- C58: the sharpest allowed turn is among the motions from `numGeneratedMotion = 4` on. -/
theorem C58_sharpest_turn (p : HybridParam) (hn : 4 ≤ p.numGeneratedMotion) : deltaMax p ∈ deltas p := by
  refine (mem_deltas _ _).mpr (.inr ⟨1, by omega, .inl ?_⟩)
  norm_num

/-- C58 is violated from `numGeneratedMotion = 6` on: there is a steering angle beyond the one of the
minimum turning radius. -/
theorem C58_too_sharp (p : HybridParam) (hW : 0 < p.wheelbase) (hR : 0 < p.minTurningRadius)
    (hn : 6 ≤ p.numGeneratedMotion) :
    ∃ s ∈ deltas p, deltaMax p < |s| ∧
      (p.wheelbase < √3 * p.minTurningRadius → p.minTurningRadius < 10 ^ 9 →
        ∀ (pose : PoseR) (d : ℝ) (dir : Direction), 0 < d →
          d / p.minTurningRadius < |((model p).constantSteer pose s d dir).theta - pose.theta|) := by
  have hm := deltaMax_eq p hR
  have hpos : 0 < deltaMax p := by rw [hm]; exact arctan_pos.mpr (div_pos hW hR)
  refine ⟨3 / 2 * deltaMax p, (mem_deltas _ _).mpr (.inr ⟨2, by omega, .inl (by norm_num)⟩), ?_, ?_⟩
  · rw [abs_of_pos (by positivity)]; linarith
  · intro h3 hbig pose d dir hd
    have hlt : deltaMax p < π / 3 := by
      rw [hm, ← arctan_tan (x := π / 3) (by linarith [pi_pos]) (by linarith [pi_pos]), tan_pi_div_three]
      exact arctan_strictMono ((div_lt_iff₀ hR).mpr h3)
    have ht : p.wheelbase / p.minTurningRadius < tan (3 / 2 * deltaMax p) := by
      have h1 : tan (deltaMax p) = p.wheelbase / p.minTurningRadius := by rw [hm, tan_arctan]
      rw [← h1]
      exact strictMonoOn_tan ⟨by linarith [pi_pos], by linarith [pi_pos]⟩
        ⟨by linarith [pi_pos], by linarith [pi_pos]⟩ (by linarith)
    have ht' : p.minTurningRadius⁻¹ < |tan (3 / 2 * deltaMax p) / p.wheelbase| := by
      refine lt_of_lt_of_le ?_ (le_abs_self _)
      rw [lt_div_iff₀ hW]
      calc p.minTurningRadius⁻¹ * p.wheelbase = p.wheelbase / p.minTurningRadius := by
            rw [div_eq_mul_inv, mul_comm]
        _ < _ := ht
    rw [heading_change p pose _ d dir hd.le, if_pos, div_eq_mul_inv]
    · exact mul_lt_mul_of_pos_left ht' hd
    · refine lt_of_le_of_lt ?_ ht'
      rw [le_inv_comm₀ (by norm_num) hR]
      norm_num at hbig ⊢
      linarith

/-- With six generated motions and the default vehicle, the hypotheses hold. -/
example : let p : HybridParam := { numGeneratedMotion := 6 }
    p.wheelbase < √3 * p.minTurningRadius ∧ p.minTurningRadius < 10 ^ 9 := by
  have : (1.3 : ℝ) < √3 := by rw [lt_sqrt (by norm_num)]; norm_num
  refine ⟨?_, by norm_num⟩
  show (2.6 : ℝ) < √3 * 2
  linarith

end PathPlanning
