import Verif.Props.NonHolonomic
import Verif.Lemmas.ReedsSheppComplete

/-!
# C180: how long a Reeds-Shepp connection is

Bounds of the lengths and costs of the connections, from below and from above, in terms of the positions, the headings
and the turning radius.
-/

namespace PathPlanning
open Real Spec

namespace Spec

/-- The distance between the positions of two poses. -/
noncomputable def apart (a b : PoseR) : ℝ :=
  √((b.position.x - a.position.x) ^ 2 + (b.position.y - a.position.y) ^ 2)

/-- The angle between the headings of two poses: the difference of the headings, at most half a turn. -/
def HeadingDifference (a b : PoseR) (d : ℝ) : Prop := |d| ≤ π ∧ SameAngle d (b.theta - a.theta)

end Spec

private theorem theta_le {R : ℝ} {l : List Stretch} (h : Feasible R l) (p : PoseR) :
    |(driveAll p l).theta - p.theta| ≤ 1 / R * totalLength l := by
  induction l generalizing p with
  | nil => simp [driveAll, totalLength]
  | cons a l ih =>
    rw [totalLength_cons, driveAll]
    have h1 := ih (fun b hb => h b (List.mem_cons_of_mem _ hb)) (arc a.curvature (a.sense * a.length) p)
    have h2 : (arc a.curvature (a.sense * a.length) p).theta = p.theta + a.curvature * (a.sense * a.length) := by
      unfold arc
      split
      · rename_i h0; simp [h0]
      · rfl
    obtain ⟨k1, k2, k3⟩ := h a (by simp)
    have h3 : |a.curvature * (a.sense * a.length)| ≤ 1 / R * a.length := by
      rw [abs_mul, abs_mul, abs_of_nonneg k1]
      have : |a.sense| = 1 := by rcases k2 with h | h <;> rw [h] <;> simp
      rw [this, one_mul]
      exact mul_le_mul_of_nonneg_right k3 k1
    rw [h2] at h1
    rw [mul_add]
    have := abs_add_le ((driveAll (arc a.curvature (a.sense * a.length) p) l).theta -
      (p.theta + a.curvature * (a.sense * a.length))) (a.curvature * (a.sense * a.length))
    calc _ = |(driveAll (arc a.curvature (a.sense * a.length) p) l).theta -
      (p.theta + a.curvature * (a.sense * a.length)) + a.curvature * (a.sense * a.length)| := by congr 1; ring
      _ ≤ _ := by linarith

private theorem least_difference {a d : ℝ} (h : |d| ≤ π) (hs : SameAngle d a) : |d| ≤ |a| := by
  obtain ⟨k, hk⟩ := hs
  have hp := pi_pos
  rcases lt_trichotomy k 0 with h0 | h0 | h0
  · have : (k : ℝ) ≤ -1 := by exact_mod_cast Int.le_sub_one_of_lt h0
    have h1 : (k : ℝ) * (2 * π) ≤ -1 * (2 * π) := mul_le_mul_of_nonneg_right this (by positivity)
    have h2 := abs_le.1 h
    have := le_abs_self a
    linarith
  · rw [hk, h0]; simp
  · have : (1 : ℝ) ≤ k := by exact_mod_cast h0
    have h1 : 1 * (2 * π) ≤ (k : ℝ) * (2 * π) := mul_le_mul_of_nonneg_right this (by positivity)
    have h2 := abs_le.1 h
    have := neg_le_abs a
    linarith

/-- No word is shorter than the arc that the change of the heading takes. -/
private theorem word_heading {start goal : PoseR} {R : ℝ} (hR : 0 < R) {w : Nat} {t u v len : ℝ}
    (h : RS.motionLengths w (RS.goalArray start goal R) = .finite t u v len) {d : ℝ}
    (hd : HeadingDifference start goal d) : R * |d| ≤ len * R := by
  obtain ⟨-, h1, h2, -, h4, -⟩ := C48_word start goal R hR w t u v len h
  have h5 := theta_le h2 start
  rw [h4] at h5
  have h6 : |d| ≤ |(driveAll start (stretches R (RS.getPath w t u v).motions)).theta - start.theta| := by
    refine least_difference hd.1 ?_
    obtain ⟨k, hk⟩ := hd.2
    obtain ⟨j, hj⟩ := h1.2
    refine ⟨k - j, ?_⟩
    rw [hk, hj]
    push_cast
    ring
  calc R * |d| ≤ R * (1 / R * (len * R)) := mul_le_mul_of_nonneg_left (h6.trans h5) hR.le
    _ = len * R := by field_simp

private theorem modulo_lt' (a : ℝ) : modulo a (2 * π) < 2 * π := (modulo_spec a (by positivity)).2.1

private theorem goal_norm (start goal : PoseR) {R : ℝ} (hR : 0 < R) :
    √((RS.goalArray start goal R 0).position.x ^ 2 + (RS.goalArray start goal R 0).position.y ^ 2) = apart start goal / R := by
  unfold apart
  have : (RS.goalArray start goal R 0).position.x ^ 2 + (RS.goalArray start goal R 0).position.y ^ 2 =
      ((goal.position.x - start.position.x) ^ 2 + (goal.position.y - start.position.y) ^ 2) / R ^ 2 := by
    simp only [RS.goalArray, PoseR.sub, PoseR.mk', PoseR.rotate, Pt.sub_x, Pt.sub_y, cos_neg, sin_neg]
    field_simp
    linear_combination ((goal.position.x - start.position.x) ^ 2 + (goal.position.y - start.position.y) ^ 2) *
      sin_sq_add_cos_sq start.theta
  rw [this, sqrt_div (by positivity), sqrt_sq hR.le]

/-- One of two words exists and is not long. -/
private theorem short_word (start goal : PoseR) {R : ℝ} (hR : 0 < R) :
    ∃ w, (w = 12 ∨ w = 32) ∧ ∃ t u v len, RS.motionLengths w (RS.goalArray start goal R) = .finite t u v len ∧
      len ≤ apart start goal / R + 5 * π := by
  obtain ⟨g, hg⟩ : ∃ g, g = RS.goalArray start goal R 0 := ⟨_, rfl⟩
  have hn := goal_norm start goal hR
  rw [← hg] at hn
  have hp := pi_pos
  by_cases h4 : √((g.position.x - sin g.theta) * (g.position.x - sin g.theta) +
      (g.position.y - 1 + cos g.theta) * (g.position.y - 1 + cos g.theta)) > 4
  · refine ⟨32, Or.inr rfl, ?_⟩
    show ∃ t u v len, RS.LfRbpi2SbRb (RS.goalArray start goal R 0) = _ ∧ _
    rw [← hg]
    have h2 : ¬ √((g.position.x + sin g.theta) * (g.position.x + sin g.theta) +
        (g.position.y - 1 - cos g.theta) * (g.position.y - 1 - cos g.theta)) < 2 := by
      intro hlt
      have htri := norm_triangle ⟨0, 0⟩ ⟨g.position.x + sin g.theta, g.position.y - 1 - cos g.theta⟩
        ⟨g.position.x - sin g.theta, g.position.y - 1 + cos g.theta⟩
      simp only [sub_zero] at htri
      have e : (g.position.x - sin g.theta - (g.position.x + sin g.theta)) ^ 2 +
          (g.position.y - 1 + cos g.theta - (g.position.y - 1 - cos g.theta)) ^ 2 = 2 ^ 2 := by
        linear_combination 4 * sin_sq_add_cos_sq g.theta
      rw [e, sqrt_sq (by norm_num)] at htri
      simp only [← sq] at h4 hlt
      linarith
    have h3 : √((g.position.x + sin g.theta) * (g.position.x + sin g.theta) +
        (g.position.y - 1 - cos g.theta) * (g.position.y - 1 - cos g.theta)) ≤ apart start goal / R + 2 := by
      have htri := norm_triangle ⟨0, 0⟩ g.position ⟨g.position.x + sin g.theta, g.position.y - 1 - cos g.theta⟩
      simp only [sub_zero] at htri
      rw [hn] at htri
      have e : √((g.position.x + sin g.theta - g.position.x) ^ 2 + (g.position.y - 1 - cos g.theta - g.position.y) ^ 2) ≤ 2 := by
        rw [sqrt_le_left (by norm_num)]
        have := cos_le_one g.theta
        nlinarith [sin_sq_add_cos_sq g.theta]
      simp only [← sq]
      linarith
    simp only [RS.LfRbpi2SbRb]
    rw [if_neg h2]
    refine ⟨_, _, _, _, rfl, ?_⟩
    have m1 := modulo_lt' (π / 2 + atan2 (g.position.y - 1 - cos g.theta) (g.position.x + sin g.theta))
    have m2 := modulo_lt' (g.theta - modulo (π / 2 + atan2 (g.position.y - 1 - cos g.theta) (g.position.x + sin g.theta)) (2 * π) - π / 2)
    linarith
  · refine ⟨12, Or.inl rfl, ?_⟩
    show ∃ t u v len, RS.LfRbLb (RS.goalArray start goal R 0) = _ ∧ _
    rw [← hg]
    simp only [RS.LfRbLb]
    rw [if_neg h4]
    refine ⟨_, _, _, _, rfl, ?_⟩
    obtain ⟨alpha, ha⟩ : ∃ alpha, alpha = arccos (√((g.position.x - sin g.theta) * (g.position.x - sin g.theta) +
      (g.position.y - 1 + cos g.theta) * (g.position.y - 1 + cos g.theta)) / 4) := ⟨_, rfl⟩
    have ha0 : 0 ≤ alpha := ha ▸ arccos_nonneg _
    have ha1 : alpha ≤ π / 2 := ha ▸ arccos_le_pi_div_two.2 (by positivity)
    rw [← ha]
    have m1 := modulo_lt' (π / 2 + alpha + atan2 (g.position.y - 1 + cos g.theta) (g.position.x - sin g.theta))
    have m2 : modulo (π - 2 * alpha) (2 * π) ≤ π :=
      (modulo_le ⟨0, by simp⟩ (by linarith : 0 ≤ π - 2 * alpha)).trans (by linarith)
    have m3 := modulo_lt' (modulo (π / 2 + alpha + atan2 (g.position.y - 1 + cos g.theta) (g.position.x - sin g.theta)) (2 * π) +
      modulo (π - 2 * alpha) (2 * π) - g.theta)
    have : 0 ≤ apart start goal / R := div_nonneg (sqrt_nonneg _) hR.le
    linarith

/-- C180. The shortest connection is at least as long as the straight line between the positions and as the arc that
the change of the heading takes, and at most five half circles longer than the straight line. -/
theorem C180_shortest (start goal : PoseR) (R : ℝ) (hR : 0 < R) :
    apart start goal ≤ (RS.shortestPath start goal R).getLength R ∧
    (∀ d, HeadingDifference start goal d → R * |d| ≤ (RS.shortestPath start goal R).getLength R) ∧
    (RS.shortestPath start goal R).getLength R ≤ apart start goal + 5 * π * R := by
  obtain ⟨w, hw, t, u, v, len, hm, hp, hd, hl, hmin⟩ := C50_shortest_partial start goal R hR
  refine ⟨C50_shortest_at_least_euclidean start goal R hR, ?_, ?_⟩
  · intro d hd
    rw [hl]
    exact word_heading hR hm hd
  · rw [hl]
    obtain ⟨w', hw', t', u', v', len', hm', hle⟩ := short_word start goal hR
    have := hmin w' (by omega) _ _ _ _ hm'
    calc len * R ≤ (apart start goal / R + 5 * π) * R := mul_le_mul_of_nonneg_right (this.trans hle) hR.le
      _ = _ := by field_simp

private theorem cost_le {w : Nat} (hw : w = 12 ∨ w = 32) {t u v R rev fwd sw c : ℝ} (ht : 0 ≤ t) (hu : 0 ≤ u) (hv : 0 ≤ v)
    (hR : 0 ≤ R) (hsw : 0 ≤ sw) (hc : (RS.getPath w t u v).computeCost R rev fwd sw = some c) :
    c ≤ max rev fwd * ((RS.getPath w t u v).length * R) + sw := by
  obtain ⟨t', ht'⟩ : ∃ x, x = t * R := ⟨_, rfl⟩
  obtain ⟨u', hu'⟩ : ∃ x, x = u * R := ⟨_, rfl⟩
  obtain ⟨v', hv'⟩ : ∃ x, x = v * R := ⟨_, rfl⟩
  obtain ⟨q', hq'⟩ : ∃ x, x = π / 2 * R := ⟨_, rfl⟩
  have h1 : rev ≤ max rev fwd := le_max_left _ _
  have h2 : fwd ≤ max rev fwd := le_max_right _ _
  have ft : fwd * t' ≤ max rev fwd * t' := mul_le_mul_of_nonneg_right h2 (ht' ▸ by positivity)
  have ru : rev * u' ≤ max rev fwd * u' := mul_le_mul_of_nonneg_right h1 (hu' ▸ by positivity)
  have rv : rev * v' ≤ max rev fwd * v' := mul_le_mul_of_nonneg_right h1 (hv' ▸ by positivity)
  have rq : rev * q' ≤ max rev fwd * q' := mul_le_mul_of_nonneg_right h1 (hq' ▸ by positivity)
  have hwf : WellFormed (RS.getPath w t u v) :=
    getPath_wellFormed (by rcases hw with rfl | rfl <;> norm_num) ht hu hv
  have hne : (RS.getPath w t u v).motions.takeWhile RS.Motion.isValid ≠ [] := by
    rcases hw with rfl | rfl <;>
    simp [RS.getPath, RS.basePath, RS.Segment.addMotion, RS.Segment.empty, List.replicate,
      RS.setFirstInvalid, RS.Motion.isValid, List.takeWhile]
  by_cases hq : ¬ (rev = 1 ∧ sw = 0) ∨ fwd = 1
  · rw [C51_cost_partial _ hwf R rev fwd sw hne hq] at hc
    rw [← Option.some.inj hc]
    rcases hw with rfl | rfl
    · simp [weightedCost, motionCost, switches, RS.getPath, RS.basePath, RS.Segment.addMotion, RS.Segment.empty,
        List.replicate, RS.setFirstInvalid, RS.Motion.isValid, List.takeWhile]
      rw [abs_of_nonneg ht, abs_of_nonneg hu, abs_of_nonneg hv]
      subst ht' hu' hv'
      linarith
    · simp [weightedCost, motionCost, switches, RS.getPath, RS.basePath, RS.Segment.addMotion, RS.Segment.empty,
        List.replicate, RS.setFirstInvalid, RS.Motion.isValid, List.takeWhile]
      rw [abs_of_nonneg ht, abs_of_nonneg hu, abs_of_nonneg hv, abs_of_pos (by positivity : 0 < π / 2)]
      subst ht' hu' hv' hq'
      linarith
  · push Not at hq
    obtain ⟨⟨rfl, rfl⟩, _⟩ := hq
    have h0 : 0 ≤ (RS.getPath w t u v).length * R := by
      refine mul_nonneg ?_ hR
      rw [hwf.2]
      exact totalLength_nonneg fun a ha => stretches_length_nonneg hwf zero_le_one a ha
    unfold RS.Segment.computeCost at hc
    split at hc
    · simp at hc
    · split at hc
      · simp only [and_self, if_true, Option.some.injEq] at hc
        rw [← hc]
        have := mul_le_mul_of_nonneg_right h1 h0
        linarith
      · simp at hc

/-- C180. With multipliers that are not negative, the cost of the connection that hybrid A* uses is at least the lower
multiplier times the straight line, and times the arc that the change of the heading takes; it is at most the higher
multiplier times the straight line and five half circles, plus one change of direction. -/
theorem C180_connection_cost (start goal : PoseR) (R rev fwd sw : ℝ) (hR : 0 < R) (hsw : 0 ≤ sw)
    (hmin : 0 ≤ min rev fwd) :
    ∃ c, (PathRS.connect start goal R rev fwd sw).computeCost sw rev fwd = some c ∧
      min rev fwd * apart start goal ≤ c ∧
      (∀ d, HeadingDifference start goal d → min rev fwd * (R * |d|) ≤ c) ∧
      c ≤ max rev fwd * (apart start goal + 5 * π * R) + sw := by
  obtain ⟨w, hw, t, u, v, len, c, hm, hp, hc, hopt⟩ := C50_optimal start goal R rev fwd sw
  obtain ⟨hb, ht, hu, hv, -, -⟩ := word_ends hR hm
  have hwf := getPath_wellFormed hb ht hu hv
  have hl := (C48_word start goal R hR w t u v len hm).2.2.2.2.1
  refine ⟨c, hc, ?_, ?_, ?_⟩
  · rw [hp] at hc
    refine le_trans (mul_le_mul_of_nonneg_left ?_ hmin) (computeCost_ge hwf hR.le hsw hc)
    rw [hl]
    exact C48_at_least_euclidean start goal R hR w t u v len hm
  · intro d hd
    rw [hp] at hc
    refine le_trans (mul_le_mul_of_nonneg_left ?_ hmin) (computeCost_ge hwf hR.le hsw hc)
    rw [hl]
    exact word_heading hR hm hd
  · obtain ⟨w', hw', t', u', v', len', hm', hle⟩ := short_word start goal hR
    obtain ⟨c', hc', hcc⟩ := hopt w' (by omega) _ _ _ _ hm'
    obtain ⟨-, ht', hu', hv', -, -⟩ := word_ends hR hm'
    have h1 := cost_le hw' ht' hu' hv' hR.le hsw hc'
    have h2 : (RS.getPath w' t' u' v').length * R = len' * R := (C48_word start goal R hR w' t' u' v' len' hm').2.2.2.1
    rw [h2] at h1
    have h3 : len' * R ≤ apart start goal + 5 * π * R := by
      calc len' * R ≤ (apart start goal / R + 5 * π) * R := mul_le_mul_of_nonneg_right hle hR.le
        _ = _ := by field_simp
    have h4 := mul_le_mul_of_nonneg_left h3 (hmin.trans (min_le_max))
    linarith

/-- C180. The value of the non-holonomic heuristic, where the program defines one, is at most the higher multiplier
times the straight line, a cell of the table and five half circles, plus one change of direction. -/
theorem C180_heuristic (h : NonHolo) (hr : 0 < h.spatialResolution) (ha : 0 < h.angularResolution)
    (hR : 0 < h.minTurningRadius) (hsw : 0 ≤ h.sw) (hmin : 0 ≤ min h.rev h.fwd) (goal state : PoseR) (value : Option ℝ)
    (hv : h.getHeuristicValue goal state = some value) :
    ∃ x, value = some x ∧
      x ≤ max h.rev h.fwd * (apart state goal + h.spatialResolution + 5 * π * h.minTurningRadius) + h.sw := by
  have hmax : 0 ≤ max h.rev h.fwd := hmin.trans min_le_max
  by_cases hout : (h.indices goal state).1 < 0 ∨ (h.indices goal state).1 ≥ h.numSpatialX ∨
      (h.indices goal state).2.1 < 0 ∨ (h.indices goal state).2.1 ≥ h.numSpatialY
  · obtain ⟨x, c, hx, hc, hxc⟩ := C73_outside_partial h hR hsw hmin goal state hout value hv
    obtain ⟨c', hc', -, -, hle⟩ := C180_connection_cost state goal h.minTurningRadius h.rev h.fwd h.sw hR hsw hmin
    have : some c = some c' := hc.symm.trans hc'
    cases this
    refine ⟨x, hx, hxc.trans (hle.trans ?_)⟩
    have : apart state goal + 5 * π * h.minTurningRadius ≤
      apart state goal + h.spatialResolution + 5 * π * h.minTurningRadius := by linarith
    have := mul_le_mul_of_nonneg_left this hmax
    linarith
  · obtain ⟨p, h1, h2, -, hval⟩ := C73_table_value h hr ha goal state value hout hv
    obtain ⟨c, hc, -, -, hle⟩ := C180_connection_cost p ⟨⟨0, 0⟩, 0⟩ h.minTurningRadius h.rev h.fwd h.sw hR hsw hmin
    refine ⟨c, hval.trans hc, hle.trans ?_⟩
    have hd : apart p ⟨⟨0, 0⟩, 0⟩ ≤ apart state goal + h.spatialResolution := by
      have htri := norm_triangle p.position (goal.sub state).position ⟨0, 0⟩
      have e1 : √((0 - (goal.sub state).position.x) ^ 2 + (0 - (goal.sub state).position.y) ^ 2) = apart state goal := by
        unfold apart
        congr 1
        unfold PoseR.sub PoseR.mk' PoseR.rotate
        simp only [Pt.sub_x, Pt.sub_y, cos_neg, sin_neg]
        linear_combination ((goal.position.x - state.position.x) ^ 2 + (goal.position.y - state.position.y) ^ 2) *
          sin_sq_add_cos_sq state.theta
      have e2 : √(((goal.sub state).position.x - p.position.x) ^ 2 + ((goal.sub state).position.y - p.position.y) ^ 2) ≤
          h.spatialResolution := by
        rw [sqrt_le_left hr.le]
        have a1 := abs_le.1 h1
        have a2 := abs_le.1 h2
        nlinarith
      unfold apart at *
      linarith
    have : apart p ⟨⟨0, 0⟩, 0⟩ + 5 * π * h.minTurningRadius ≤
      apart state goal + h.spatialResolution + 5 * π * h.minTurningRadius := by linarith
    have := mul_le_mul_of_nonneg_left this hmax
    linarith

/-- A case: turning round on the spot, with the turning radius 2. The connection is at least half a circle long and at
most five half circles. -/
example : 2 * π ≤ (RS.shortestPath ⟨⟨1, 1⟩, 0⟩ ⟨⟨1, 1⟩, π⟩ 2).getLength 2 ∧
    (RS.shortestPath ⟨⟨1, 1⟩, 0⟩ ⟨⟨1, 1⟩, π⟩ 2).getLength 2 ≤ 10 * π := by
  obtain ⟨-, h2, h3⟩ := C180_shortest ⟨⟨1, 1⟩, 0⟩ ⟨⟨1, 1⟩, π⟩ 2 (by norm_num)
  have h4 := h2 π ⟨(abs_of_pos pi_pos).le, ⟨0, by simp⟩⟩
  rw [abs_of_pos pi_pos] at h4
  refine ⟨h4, h3.trans ?_⟩
  simp [apart]
  linarith

/-- A case for the heuristic: the table of `C73_overestimates`. -/
example : ∃ (h : NonHolo) (v : ℝ), 0 < h.spatialResolution ∧ 0 < h.angularResolution ∧ 0 < h.minTurningRadius ∧
    0 ≤ h.sw ∧ 0 ≤ min h.rev h.fwd ∧ h.getHeuristicValue ⟨⟨1, 0⟩, 0⟩ ⟨⟨0, 0⟩, 0⟩ = some (some v) ∧ 2 ≤ v := by
  obtain ⟨v, -, hv, -, -, h2⟩ := C73_overestimates
  exact ⟨_, v, by simp [NonHolo.build], by norm_num [NonHolo.build], by simp [NonHolo.build], by simp [NonHolo.build],
    by simp [NonHolo.build], hv, h2⟩

end PathPlanning
