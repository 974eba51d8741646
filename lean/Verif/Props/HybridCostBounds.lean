import Verif.Props.HybridCost
import Verif.Props.UnitSpeed
import Verif.Props.NonHolonomic
import Mathlib.Tactic.IntervalCases

/-!
# C181: the cost that hybrid A* reports, the length of the plan and the distance to the goal

The hypotheses are met by the planner of `HybridPlannerExample.lean`.
-/

namespace PathPlanning
open Real Spec HybridAStar HybridAStar.Propagator Validator HybridPlanner

/-- A motion does not lead further than its length. -/
private theorem displacement {prm : HybridParam} {goal : PoseR} {a : Action} (hR : 0 < prm.minTurningRadius)
    (hm : Motion prm goal a) : euclid a.init.position a.final.position ≤ a.length := by
  rcases hm with ⟨δ, -, dir, -, len, h0, -, ha⟩ | ha
  · obtain ⟨p, hp⟩ : ∃ p, p = a.init := ⟨_, rfl⟩
    rw [← hp] at ha
    rw [ha]
    have hb : (model prm).beta δ = 0 := by simp [Bicycle.beta, model]
    have h1 := constantSteer_chord (model prm) p δ (len * 1) dir
    rw [hb, cos_zero, div_one, mul_one, abs_of_nonneg h0] at h1
    show euclid p.position ((model prm).constantSteer p δ (len * 1) dir).position ≤ len
    rw [mul_one]
    exact h1
  · obtain ⟨p, hp⟩ : ∃ p, p = a.init := ⟨_, rfl⟩
    rw [← hp] at ha
    obtain ⟨q, hq⟩ : ∃ q, q = PathRS.connect p goal prm.minTurningRadius prm.reverseCostMultiplier prm.forwardCostMultiplier
      prm.directionSwitchingCost := ⟨_, rfl⟩
    have h1 := C70_unit_speed_connect p goal prm.minTurningRadius prm.reverseCostMultiplier prm.forwardCostMultiplier
      prm.directionSwitchingCost hR 0 1 le_rfl zero_le_one le_rfl
    obtain ⟨-, -, h3, -⟩ := C49_connect p goal prm.minTurningRadius prm.reverseCostMultiplier prm.forwardCostMultiplier
      prm.directionSwitchingCost hR
    rw [← hq] at ha h3
    simp only [← hq] at h1
    have h2 : q.interpolate 1 = q.final := by rw [hq]; rfl
    rw [h3.1, h2, sub_zero, one_mul] at h1
    rw [ha]
    have h4 : q.init = p := by rw [hq]; rfl
    show euclid q.init.position q.final.position ≤ q.length
    rw [h4]
    exact h1

private theorem joined_displacement {prm : HybridParam} {goal : PoseR} (hR : 0 < prm.minTurningRadius) :
    ∀ {l : List Action} {p q : PoseR}, Joined p l q → (∀ a ∈ l, Motion prm goal a) →
      euclid p.position q.position ≤ motionsLength l
  | [], p, q, hj, _ => by
    cases hj
    simp [euclid, motionsLength]
  | a :: l, p, q, hj, hm => by
    obtain ⟨rfl, hj⟩ := hj
    have h1 := displacement hR (hm a (by simp))
    have h2 := joined_displacement hR hj fun b hb => hm b (List.mem_cons_of_mem _ hb)
    have h3 := euclid_tri a.init.position a.final.position q.position
    have h4 : motionsLength (a :: l) = a.length + motionsLength l := by simp [motionsLength]
    linarith

private theorem switches_le {w : Nat} (hw : w < 48) (t u v : ℝ) :
    switches (((RS.getPath w t u v).motions.takeWhile RS.Motion.isValid).map (·.direction)) ≤ 2 := by
  obtain ⟨b, hb⟩ : ∃ b, b = w / 4 := ⟨_, rfl⟩
  obtain ⟨r, hr⟩ : ∃ r, r = w % 4 := ⟨_, rfl⟩
  have hb' : b < 12 := by omega
  have hr' : r < 4 := by omega
  unfold RS.getPath
  rw [← hb, ← hr, if_pos hb']
  interval_cases b <;> interval_cases r <;>
    simp [RS.basePath, RS.Segment.timeflip, RS.Segment.reflect, RS.Segment.addMotion, RS.Segment.empty, List.replicate,
      RS.setFirstInvalid, RS.Motion.isValid, List.takeWhile, switches]

private theorem motions_le {R rev fwd : ℝ} {ms : List RS.Motion} (hR : 0 ≤ R) (hms : ∀ m ∈ ms, 0 ≤ m.length.getD 0) :
    (ms.map (motionCost R rev fwd)).sum ≤ max rev fwd * totalLength (ms.map (stretch R)) := by
  induction ms with
  | nil => simp [totalLength]
  | cons m ms ih =>
    have h1 := ih fun a ha => hms a (List.mem_cons_of_mem _ ha)
    have h2 : 0 ≤ m.length.getD 0 * R := mul_nonneg (hms m List.mem_cons_self) hR
    simp only [totalLength, List.map_cons, List.sum_cons, stretch, motionCost] at h1 ⊢
    have h3 : R * m.length.getD 0 * (if m.direction = .forward then fwd else rev) ≤ max rev fwd * (m.length.getD 0 * R) := by
      rw [mul_comm R, mul_comm]
      refine mul_le_mul_of_nonneg_right ?_ h2
      split
      · exact le_max_right _ _
      · exact le_max_left _ _
    linarith

private theorem word_cost_le {w : Nat} (hw : w < 48) {t u v R rev fwd sw c : ℝ} (ht : 0 ≤ t) (hu : 0 ≤ u) (hv : 0 ≤ v)
    (hR : 0 ≤ R) (hsw : 0 ≤ sw) (hc : (RS.getPath w t u v).computeCost R rev fwd sw = some c) :
    c ≤ max rev fwd * totalLength (stretches R (RS.getPath w t u v).motions) + 2 * sw := by
  have hwf : WellFormed (RS.getPath w t u v) := getPath_wellFormed (by omega) ht hu hv
  have hne : (RS.getPath w t u v).motions.takeWhile RS.Motion.isValid ≠ [] := by
    intro h
    unfold RS.Segment.computeCost at hc
    split at hc
    · cases hc
    · rename_i m l hm
      split at hc
      · rename_i hv; rw [hm, List.takeWhile_cons_of_pos hv] at h; cases h
      · cases hc
  by_cases hq : ¬ (rev = 1 ∧ sw = 0) ∨ fwd = 1
  · rw [C51_cost_partial _ hwf R rev fwd sw hne hq, Option.some.injEq] at hc
    rw [← hc]
    unfold weightedCost
    have h1 := motions_le (rev := rev) (fwd := fwd) hR hwf.1
    have h2 : (switches (((RS.getPath w t u v).motions.takeWhile RS.Motion.isValid).map (·.direction)) : ℝ) ≤ 2 := by
      exact_mod_cast switches_le hw t u v
    have h3 := mul_le_mul_of_nonneg_left h2 hsw
    unfold stretches
    linarith
  · push Not at hq
    obtain ⟨⟨rfl, rfl⟩, _⟩ := hq
    have h0 : 0 ≤ totalLength (stretches R (RS.getPath w t u v).motions) :=
      totalLength_nonneg fun a ha => stretches_length_nonneg hwf hR a ha
    unfold RS.Segment.computeCost at hc
    split at hc
    · cases hc
    · split at hc
      · simp only [and_self, if_true, Option.some.injEq] at hc
        rw [← hc, segment_length hwf]
        have := mul_le_mul_of_nonneg_right (le_max_left 1 fwd) h0
        linarith
      · cases hc

/-- The cost of driving a motion, and its length. -/
private theorem travel {prm : HybridParam} {goal : PoseR} {a : Action} (hR : 0 < prm.minTurningRadius)
    (hsw : 0 ≤ prm.directionSwitchingCost) (hm : Motion prm goal a) (hl : 0 ≤ a.length) {t : ℝ}
    (ht : travelCost prm a = some t) :
    min prm.reverseCostMultiplier prm.forwardCostMultiplier * a.length ≤ t ∧
    t ≤ max prm.reverseCostMultiplier prm.forwardCostMultiplier * a.length + 2 * prm.directionSwitchingCost := by
  rcases hm with ⟨δ, -, dir, -, len, h0, -, ha⟩ | ha
  · obtain ⟨p, hp⟩ : ∃ p, p = a.init := ⟨_, rfl⟩
    rw [← hp] at ha
    rw [ha] at ht hl ⊢
    unfold travelCost at ht
    cases ht
    constructor
    · refine mul_le_mul_of_nonneg_right ?_ hl
      split
      · exact min_le_right _ _
      · exact min_le_left _ _
    · refine le_trans (mul_le_mul_of_nonneg_right ?_ hl) (le_add_of_nonneg_right (by positivity))
      split
      · exact le_max_right _ _
      · exact le_max_left _ _
  · obtain ⟨p, hp⟩ : ∃ p, p = a.init := ⟨_, rfl⟩
    rw [← hp] at ha
    rw [ha] at ht ⊢
    obtain ⟨w, hw, t', u, v, len, c, hm, hpath, -, -⟩ := C50_optimal p goal prm.minTurningRadius prm.reverseCostMultiplier
      prm.forwardCostMultiplier prm.directionSwitchingCost
    obtain ⟨hb, ht', hu, hv, -, -⟩ := word_ends hR hm
    have hwf := getPath_wellFormed hb ht' hu hv
    have hlen : (Action.reedsShepp (PathRS.connect p goal prm.minTurningRadius prm.reverseCostMultiplier
        prm.forwardCostMultiplier prm.directionSwitchingCost)).length =
        totalLength (stretches prm.minTurningRadius (RS.getPath w t' u v).motions) := by
      unfold PathRS.connect
      rw [hpath]
      exact (C45_reeds_shepp p _ hwf _ hR).2.1
    rw [hlen]
    have hc : (RS.getPath w t' u v).computeCost prm.minTurningRadius prm.reverseCostMultiplier prm.forwardCostMultiplier
        prm.directionSwitchingCost = some t := by
      rw [← hpath]
      exact ht
    exact ⟨computeCost_ge hwf hR.le hsw hc, word_cost_le hw ht' hu hv hR.le hsw hc⟩

private theorem field_cost {prm : HybridParam} {goal : PoseR} {map : OccMap} (hres : 0 < map.resolution) {field : Cell → ℝ}
    (hf : ∀ c, 0 ≤ field c ∧ field c ≤ 1) (hR : 0 < prm.minTurningRadius) (hsw : 0 ≤ prm.directionSwitchingCost)
    (hvor : 0 ≤ prm.voronoiCostMultiplier) {a : Action} (hm : Motion prm goal a) (hl : 0 ≤ a.length) {x : ℝ}
    (hx : MotionCost prm map field a x) :
    min prm.reverseCostMultiplier prm.forwardCostMultiplier * a.length ≤ x ∧
    x ≤ max prm.reverseCostMultiplier prm.forwardCostMultiplier * a.length +
      (2 * prm.directionSwitchingCost + prm.voronoiCostMultiplier * (map.resolution * √2)) := by
  obtain ⟨t, v, ht, rfl, h0, h1⟩ := hx
  obtain ⟨k1, k2⟩ := travel hR hsw hm hl ht
  have hv : 0 ≤ v ∧ v ≤ prm.voronoiCostMultiplier * (map.resolution * √2) := by
    rcases hl.eq_or_lt with h | h
    · rw [h0 h.symm]
      exact ⟨le_rfl, by positivity⟩
    · obtain ⟨m, -, -, rfl⟩ := h1 h
      obtain ⟨f0, f1⟩ := hf (map.worldPositionToGridCell (a.interpolate (m * (map.resolution * √2) / a.length)).position false)
      refine ⟨by positivity, mul_le_mul_of_nonneg_left ?_ hvor⟩
      exact mul_le_of_le_one_right (by positivity) f1
  exact ⟨by linarith, by linarith⟩

private theorem sum_bounds {prm : HybridParam} {goal : PoseR} {map : OccMap} (hres : 0 < map.resolution) {field : Cell → ℝ}
    (hf : ∀ c, 0 ≤ field c ∧ field c ≤ 1) (hR : 0 < prm.minTurningRadius) (hsw : 0 ≤ prm.directionSwitchingCost)
    (hvor : 0 ≤ prm.voronoiCostMultiplier) {l : List Action} {costs : List ℝ}
    (h : List.Forall₂ (MotionCost prm map field) l costs) (hm : ∀ a ∈ l, Motion prm goal a ∧ 0 ≤ a.length) :
    min prm.reverseCostMultiplier prm.forwardCostMultiplier * motionsLength l ≤ costs.sum ∧
    costs.sum ≤ max prm.reverseCostMultiplier prm.forwardCostMultiplier * motionsLength l +
      l.length * (2 * prm.directionSwitchingCost + prm.voronoiCostMultiplier * (map.resolution * √2)) := by
  induction h with
  | nil => simp [motionsLength]
  | cons hx _ ih =>
    rename_i a x l costs _
    obtain ⟨i1, i2⟩ := ih fun b hb => hm b (List.mem_cons_of_mem _ hb)
    obtain ⟨k1, k2⟩ := field_cost hres hf hR hsw hvor (hm a (by simp)).1 (hm a (by simp)).2 hx
    have e : motionsLength (a :: l) = a.length + motionsLength l := by simp [motionsLength]
    rw [e, List.sum_cons, List.length_cons]
    push_cast
    constructor <;> linarith

/-- C181. After a successful search of a planner with multipliers and switching cost that are not negative: the reported
motions together are at least as long as the straight line from the start to the goal, up to the tolerance of 1 mm for
the goal. The reported cost is at least the lower multiplier times this length. It is at most the higher multiplier times
the length, plus two changes of direction and one cell diagonal in the densest part of the Voronoi field for each
motion. -/
theorem C181_reported_cost (w0 : PlanWorld) (prm : HybridParam) (hsetup : Setup w0 prm)
    (hsw : 0 ≤ prm.directionSwitchingCost) (hvor : 0 ≤ prm.voronoiCostMultiplier) (p₀ : PoseR) (h₀ : NonHolo)
    (h : List HybridPlanner.Op) (w : PlanWorld) (p : HybridPlanner) (r : HybridPlanner.Run (w0, .new prm p₀ h₀) h (w, p))
    (random : Nat → ℝ) (w' : PlanWorld) (p' : HybridPlanner)
    (hs : HybridPlanner.SearchPath w p random .success w' p') :
    ∃ (actions : List Action) (cost : ℝ), p'.getGraphSearchPath = some (actions.map some) ∧
      p'.getGraphSearchOptimalCost = some (cost : WithTop ℝ) ∧
      euclid (startInForce p₀ h).position (goalInForce p₀ h).position - 1e-3 ≤ motionsLength actions ∧
      min prm.reverseCostMultiplier prm.forwardCostMultiplier * motionsLength actions ≤ cost ∧
      cost ≤ max prm.reverseCostMultiplier prm.forwardCostMultiplier * motionsLength actions +
        actions.length * (2 * prm.directionSwitchingCost + prm.voronoiCostMultiplier * (w0.frame.resolution * √2)) := by
  obtain ⟨actions, costs, occ, g, q, h1, h2, h3, h4, -, -, -, h5, h6, h7⟩ :=
    C98_reports_the_search w0 prm hsetup p₀ h₀ h w p r random w' p' hs
  obtain ⟨k1, k2⟩ := sum_bounds hsetup.resolution h5 hsetup.minTurningRadius hsw hvor h6 h4
  refine ⟨actions, costs.sum, h1, h7, ?_, k1, k2⟩
  have k3 := joined_displacement hsetup.minTurningRadius h2 fun a ha => (h4 a ha).1
  have k4 := euclid_tri (startInForce p₀ h).position q.position (goalInForce p₀ h).position
  have k5 : euclid q.position (goalInForce p₀ h).position < 1e-3 := by
    have := h3.1
    unfold euclid
    unfold Pt.norm at this
    simpa using this
  linarith

/-- C181. So with multipliers that are not negative, no plan costs less than the straight line, driven in the cheaper
direction, up to the tolerance of 1 mm. -/
theorem C181_no_cheaper_than_line (w0 : PlanWorld) (prm : HybridParam) (hsetup : Setup w0 prm)
    (hmin : 0 ≤ min prm.reverseCostMultiplier prm.forwardCostMultiplier)
    (hsw : 0 ≤ prm.directionSwitchingCost) (hvor : 0 ≤ prm.voronoiCostMultiplier) (p₀ : PoseR) (h₀ : NonHolo)
    (h : List HybridPlanner.Op) (w : PlanWorld) (p : HybridPlanner) (r : HybridPlanner.Run (w0, .new prm p₀ h₀) h (w, p))
    (random : Nat → ℝ) (w' : PlanWorld) (p' : HybridPlanner)
    (hs : HybridPlanner.SearchPath w p random .success w' p') :
    ∃ cost : ℝ, p'.getGraphSearchOptimalCost = some (cost : WithTop ℝ) ∧
      min prm.reverseCostMultiplier prm.forwardCostMultiplier *
        (euclid (startInForce p₀ h).position (goalInForce p₀ h).position - 1e-3) ≤ cost := by
  obtain ⟨actions, cost, -, h1, h2, h3, -⟩ := C181_reported_cost w0 prm hsetup hsw hvor p₀ h₀ h w p r random w' p' hs
  exact ⟨cost, h1, (mul_le_mul_of_nonneg_left h2 hmin).trans h3⟩

end PathPlanning
