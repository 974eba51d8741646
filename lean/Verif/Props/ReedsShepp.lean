import Verif.Lemmas.ReedsSheppPath
import Mathlib.Analysis.SpecialFunctions.Trigonometric.Deriv
import Mathlib.Analysis.Calculus.Deriv.Mul
import Mathlib.Analysis.Calculus.Deriv.Add

/-!
# C48, C49, C50, C51 (Reeds-Shepp solver), C45, C46 (Reeds-Shepp paths)
-/

namespace PathPlanning
open Real Spec

/-! ## C48: every word reaches the goal -/

/-- C48. The specification of driving is right: `arc k s p` starts in `p`, moves along its heading at
unit speed and turns at the rate `k`. -/
theorem C48_arc (k s : ℝ) (p : PoseR) :
    arc k 0 p = p ∧
    HasDerivAt (fun s => (arc k s p).position.x) (cos (arc k s p).theta) s ∧
    HasDerivAt (fun s => (arc k s p).position.y) (sin (arc k s p).theta) s ∧
    HasDerivAt (fun s => (arc k s p).theta) k s := by
  refine ⟨arc_zero k p, ?_⟩
  by_cases hk : k = 0
  · simp only [arc, hk, if_true]
    refine ⟨?_, ?_, hasDerivAt_const _ _⟩
    · exact (((hasDerivAt_id s).mul_const (cos p.theta)).const_add p.position.x).congr_deriv (by simp)
    · exact (((hasDerivAt_id s).mul_const (sin p.theta)).const_add p.position.y).congr_deriv (by simp)
  · simp only [arc, hk, if_false]
    have h1 : HasDerivAt (fun s => p.theta + k * s) k s :=
      (((hasDerivAt_id s).const_mul k).const_add p.theta).congr_deriv (by simp)
    refine ⟨?_, ?_, h1⟩
    · exact (((h1.sin.sub_const (sin p.theta)).div_const k).const_add p.position.x).congr_deriv
        (by field_simp)
    · exact (((h1.cos.sub_const (cos p.theta)).div_const k).const_sub p.position.y).congr_deriv
        (by field_simp)

/-- C48. For every start, goal and turning radius and each of the words: when the formula of the word
reports a finite length, driving the returned motions from the start ends at the goal; the motions
have non-negative lengths, respect the turning radius, add up to the reported length, and the path
object built from them ends at the goal. -/
theorem C48_word (start goal : PoseR) (R : ℝ) (hR : 0 < R) (w : Nat) (t u v len : ℝ)
    (h : RS.motionLengths w (RS.goalArray start goal R) = .finite t u v len) :
    w < 48 ∧
    SamePose (driveAll start (stretches R (RS.getPath w t u v).motions)) goal ∧
    Feasible R (stretches R (RS.getPath w t u v).motions) ∧
    (RS.getPath w t u v).getLength R = len * R ∧
    totalLength (stretches R (RS.getPath w t u v).motions) = len * R ∧ 0 ≤ len := by
  obtain ⟨hw, ht, hu, hv, hl, hp⟩ := word_ends hR h
  have hwf := getPath_wellFormed hw ht hu hv
  have hlen : (RS.getPath w t u v).length = len := by
    rw [hwf.2, getPath_stretches hw, hl]
  have htot : totalLength (stretches R (RS.getPath w t u v).motions) = len * R := by
    rw [← segment_length hwf, hlen]
  refine ⟨by omega, hp, ?_, by rw [RS.Segment.getLength, hlen], htot, ?_⟩
  · intro a ha
    exact ⟨stretches_length_nonneg hwf hR.le a ha, stretches_sense R _ a ha, stretches_curvature hR _ a ha⟩
  · rw [hl]
    exact totalLength_nonneg fun a ha => (wordStretches_nonneg w ht hu hv a ha).1

/-- C48. No word is shorter than the straight line between the positions. -/
theorem C48_at_least_euclidean (start goal : PoseR) (R : ℝ) (hR : 0 < R) (w : Nat) (t u v len : ℝ)
    (h : RS.motionLengths w (RS.goalArray start goal R) = .finite t u v len) :
    √((goal.position.x - start.position.x) ^ 2 + (goal.position.y - start.position.y) ^ 2) ≤ len * R := by
  obtain ⟨_, h1, h2, _, h4, _⟩ := C48_word start goal R hR w t u v len h
  have := driveAll_dist (fun a ha => ⟨(h2 a ha).1, (h2 a ha).2.1⟩) start
    (l := stretches R (RS.getPath w t u v).motions)
  rw [h1.1, h4] at this
  exact this

private theorem wrap_zero : wrapTheta 0 = 0 := C41_unchanged 0 (by linarith [pi_pos]) pi_pos.le

private theorem modulo_pi : modulo π (2 * π) = π := by
  have hp := pi_pos
  have : truncInt (π / (2 * π)) = 0 := by
    unfold truncInt
    rw [if_pos (by positivity), Int.floor_eq_zero_iff]
    constructor
    · positivity
    · rw [div_lt_one (by positivity)]; linarith
  unfold modulo fmodR
  rw [this]
  simp only [Int.cast_zero, zero_mul, sub_zero]
  rw [if_neg (by linarith)]

/-- The goal array of a goal straight ahead at the distance `d`. -/
private theorem ahead (d : ℝ) :
    RS.goalArray ⟨⟨0, 0⟩, 0⟩ ⟨⟨d, 0⟩, 0⟩ 1 0 = ⟨⟨d, 0⟩, 0⟩ := by
  simp only [RS.goalArray, PoseR.sub, PoseR.mk', PoseR.rotate, sub_zero, wrap_zero, div_one, Pt.sub_x,
    Pt.sub_y, neg_zero, cos_zero, sin_zero, PoseR.mk.injEq, Pt.mk.injEq]
  norm_num

/-- The word `LfSfLf` for a goal straight ahead. -/
theorem LfSfLf_ahead {d : ℝ} (hd : 0 ≤ d) :
    RS.motionLengths 0 (RS.goalArray ⟨⟨0, 0⟩, 0⟩ ⟨⟨d, 0⟩, 0⟩ 1) = .finite 0 d 0 d := by
  have ha : atan2 0 d = 0 := by
    unfold atan2
    exact Complex.arg_ofReal_of_nonneg hd
  show RS.LfSfLf (RS.goalArray ⟨⟨0, 0⟩, 0⟩ ⟨⟨d, 0⟩, 0⟩ 1 0) = _
  rw [ahead]
  simp only [RS.LfSfLf, sin_zero, cos_zero, sub_zero, zero_sub, neg_add_cancel, mul_zero, add_zero, ha,
    RS.wrapAngle, zero_add, modulo_pi, sub_self, RS.angleInvalid, sqrt_mul_self hd]
  rw [if_neg (by simp [pi_pos.le])]

example : RS.motionLengths 0 (RS.goalArray ⟨⟨0, 0⟩, 0⟩ ⟨⟨3, 0⟩, 0⟩ 1) = .finite 0 3 0 3 :=
  LfSfLf_ahead (by norm_num)

/-! ## C49: there is always a word -/

/-- C49. For every pair of poses and every turning radius a word has a finite length. -/
theorem C49_exists (start goal : PoseR) (R : ℝ) :
    ∃ w < 48, ∃ t u v len, RS.motionLengths w (RS.goalArray start goal R) = .finite t u v len := by
  obtain ⟨g, hg⟩ : ∃ g, g = RS.goalArray start goal R 0 := ⟨_, rfl⟩
  by_cases h4 : √((g.position.x - sin g.theta) * (g.position.x - sin g.theta) +
      (g.position.y - 1 + cos g.theta) * (g.position.y - 1 + cos g.theta)) > 4
  · refine ⟨32, by norm_num, ?_⟩
    show ∃ t u v len, RS.LfRbpi2SbRb (RS.goalArray start goal R 0) = _
    rw [← hg]
    have h2 : ¬ √((g.position.x + sin g.theta) * (g.position.x + sin g.theta) +
        (g.position.y - 1 - cos g.theta) * (g.position.y - 1 - cos g.theta)) < 2 := by
      intro hlt
      have htri := norm_triangle ⟨0, 0⟩ ⟨g.position.x + sin g.theta, g.position.y - 1 - cos g.theta⟩
        ⟨g.position.x - sin g.theta, g.position.y - 1 + cos g.theta⟩
      simp only [sub_zero] at htri
      have e : (g.position.x - sin g.theta - (g.position.x + sin g.theta)) ^ 2 +
          (g.position.y - 1 + cos g.theta - (g.position.y - 1 - cos g.theta)) ^ 2 = 2 ^ 2 := by
        linear_combination 4 * sin_sq_add_cos_sq g.theta
      rw [e, sqrt_sq (by norm_num)] at htri
      simp only [← sq] at h4 hlt
      linarith
    simp only [RS.LfRbpi2SbRb]
    rw [if_neg h2]
    exact ⟨_, _, _, _, rfl⟩
  · refine ⟨12, by norm_num, ?_⟩
    show ∃ t u v len, RS.LfRbLb (RS.goalArray start goal R 0) = _
    rw [← hg]
    simp only [RS.LfRbLb]
    rw [if_neg h4]
    exact ⟨_, _, _, _, rfl⟩

/-! ## C50: the best word -/

private theorem shortest_fold (goals : Nat → PoseR) (l : List Nat) (b : RS.Best) :
    (∀ x, b = some x → ∃ y, l.foldl (RS.shortestStep goals) b = some y ∧ y.1 ≤ x.1) ∧
    (∀ w ∈ l, ∀ t u v len, RS.motionLengths w goals = .finite t u v len →
      ∃ y, l.foldl (RS.shortestStep goals) b = some y ∧ y.1 ≤ len) ∧
    (∀ y, l.foldl (RS.shortestStep goals) b = some y → b = some y ∨
      ∃ w ∈ l, RS.motionLengths w goals = .finite y.2.2.1 y.2.2.2.1 y.2.2.2.2 y.1 ∧ y.2.1 = w) := by
  induction l generalizing b with
  | nil =>
    refine ⟨fun x hx => ⟨x, hx, le_rfl⟩, fun w hw => by simp at hw, fun y hy => Or.inl hy⟩
  | cons w l ih =>
    rw [List.foldl_cons]
    obtain ⟨i1, i2, i3⟩ := ih (RS.shortestStep goals b w)
    -- one step
    have s1 : ∀ x, b = some x → ∃ y, RS.shortestStep goals b w = some y ∧ y.1 ≤ x.1 := by
      rintro x rfl
      unfold RS.shortestStep
      split
      · dsimp only
        split
        · rename_i h; exact ⟨_, rfl, h.le⟩
        · exact ⟨x, rfl, le_rfl⟩
      · exact ⟨x, rfl, le_rfl⟩
    have s2 : ∀ t u v len, RS.motionLengths w goals = .finite t u v len →
        ∃ y, RS.shortestStep goals b w = some y ∧ y.1 ≤ len := by
      intro t u v len h
      unfold RS.shortestStep
      rw [h]
      dsimp only
      split
      · exact ⟨_, rfl, le_rfl⟩
      · split
        · exact ⟨_, rfl, le_rfl⟩
        · rename_i h; exact ⟨_, rfl, not_lt.mp h⟩
    have s3 : ∀ y, RS.shortestStep goals b w = some y → b = some y ∨
        (RS.motionLengths w goals = .finite y.2.2.1 y.2.2.2.1 y.2.2.2.2 y.1 ∧ y.2.1 = w) := by
      intro y hy
      unfold RS.shortestStep at hy
      split at hy
      · rename_i t u v len h
        split at hy
        · cases hy; exact Or.inr ⟨h, rfl⟩
        · split at hy
          · cases hy; exact Or.inr ⟨h, rfl⟩
          · exact Or.inl hy
      · exact Or.inl hy
    refine ⟨?_, ?_, ?_⟩
    · intro x hx
      obtain ⟨y, hy, hyx⟩ := s1 x hx
      obtain ⟨z, hz, hzy⟩ := i1 y hy
      exact ⟨z, hz, hzy.trans hyx⟩
    · intro w' hw' t u v len h
      rcases List.mem_cons.mp hw' with rfl | hw'
      · obtain ⟨y, hy, hyx⟩ := s2 t u v len h
        obtain ⟨z, hz, hzy⟩ := i1 y hy
        exact ⟨z, hz, hzy.trans hyx⟩
      · exact i2 w' hw' t u v len h
    · intro y hy
      rcases i3 y hy with h | ⟨w', hw', h⟩
      · rcases s3 y h with h | h
        · exact Or.inl h
        · exact Or.inr ⟨w, by simp, h⟩
      · exact Or.inr ⟨w', List.mem_cons_of_mem _ hw', h⟩

/-- C50. The shortest path is that of a word with minimal length among all the words, and the returned
distance is this length **divided by the turning radius**. -/
theorem C50_shortest_partial (start goal : PoseR) (R : ℝ) (hR : 0 < R) :
    ∃ w < 48, ∃ t u v len, RS.motionLengths w (RS.goalArray start goal R) = .finite t u v len ∧
      RS.shortestPath start goal R = RS.getPath w t u v ∧
      RS.shortestDistance start goal R = some len ∧
      (RS.shortestPath start goal R).getLength R = len * R ∧
      ∀ w' < 48, ∀ t' u' v' len',
        RS.motionLengths w' (RS.goalArray start goal R) = .finite t' u' v' len' → len ≤ len' := by
  obtain ⟨_, h2, h3⟩ := shortest_fold (RS.goalArray start goal R) (List.range 48) none
  obtain ⟨w₀, hw₀, t₀, u₀, v₀, len₀, h₀⟩ := C49_exists start goal R
  obtain ⟨y, hy, -⟩ := h2 w₀ (List.mem_range.mpr hw₀) t₀ u₀ v₀ len₀ h₀
  rcases h3 y hy with h | ⟨w, hw, hm, hyw⟩
  · cases h
  have hs : RS.shortest start goal R = some y := hy
  have hp : RS.shortestPath start goal R = RS.getPath w y.2.2.1 y.2.2.2.1 y.2.2.2.2 := by
    unfold RS.shortestPath
    rw [hs]
    show RS.getPath y.2.1 _ _ _ = _
    rw [hyw]
  refine ⟨w, List.mem_range.mp hw, _, _, _, _, hm, hp, ?_, ?_, ?_⟩
  · unfold RS.shortestDistance; rw [hs]; rfl
  · rw [hp]; exact (C48_word start goal R hR w _ _ _ _ hm).2.2.2.1
  · intro w' hw' t' u' v' len' h'
    obtain ⟨z, hz, hzl⟩ := h2 w' (List.mem_range.mpr hw') t' u' v' len' h'
    rw [hy] at hz
    cases hz
    exact hzl

/-- C50 is violated: the distance returned is not multiplied by the turning radius, so that it is not
the length of the shortest path as soon as the radius is not 1 and the positions differ. -/
theorem C50_distance_not_scaled (start goal : PoseR) (R : ℝ) (hR : 0 < R) (hR1 : R ≠ 1)
    (hne : start.position ≠ goal.position) :
    RS.shortestDistance start goal R ≠ some ((RS.shortestPath start goal R).getLength R) := by
  obtain ⟨w, hw, t, u, v, len, hm, hp, hd, hl, _⟩ := C50_shortest_partial start goal R hR
  rw [hd, hl]
  intro h
  have h1 : len = len * R := by simpa using h
  have h2 := C48_at_least_euclidean start goal R hR w t u v len hm
  have h3 : len = 0 := by
    have : len * (R - 1) = 0 := by linarith
    rcases mul_eq_zero.mp this with h | h
    · exact h
    · exact absurd (by linarith) hR1
  rw [h3, zero_mul] at h2
  have h4 : (goal.position.x - start.position.x) ^ 2 + (goal.position.y - start.position.y) ^ 2 = 0 :=
    le_antisymm (sqrt_eq_zero'.mp (le_antisymm h2 (sqrt_nonneg _))) (by positivity)
  apply hne
  ext <;> nlinarith [sq_nonneg (goal.position.x - start.position.x),
    sq_nonneg (goal.position.y - start.position.y)]

example : (⟨⟨0, 0⟩, 0⟩ : PoseR).position ≠ (⟨⟨1, 0⟩, 0⟩ : PoseR).position := by
  intro h; simpa using congrArg Pt.x h

/-- C50. For every positive radius
the shortest path is at least as long as the straight line. -/
theorem C50_shortest_at_least_euclidean (start goal : PoseR) (R : ℝ) (hR : 0 < R) :
    √((goal.position.x - start.position.x) ^ 2 + (goal.position.y - start.position.y) ^ 2) ≤
    (RS.shortestPath start goal R).getLength R := by
  obtain ⟨w, hw, t, u, v, len, hm, hp, hd, hl, _⟩ := C50_shortest_partial start goal R hR
  rw [hl]
  exact C48_at_least_euclidean start goal R hR w t u v len hm

private theorem baseStretches_ne {b : Nat} (hb : b < 12) (t u v : ℝ) : baseStretches b t u v ≠ [] := by
  have : b = 0 ∨ b = 1 ∨ b = 2 ∨ b = 3 ∨ b = 4 ∨ b = 5 ∨ b = 6 ∨ b = 7 ∨ b = 8 ∨ b = 9 ∨ b = 10 ∨ b = 11 := by
    omega
  rcases this with h | h | h | h | h | h | h | h | h | h | h | h <;> subst h <;> simp [baseStretches]

private theorem wordStretches_ne {w : Nat} (hw : w / 4 < 12) (t u v : ℝ) : wordStretches w t u v ≠ [] := by
  have := baseStretches_ne hw t u v
  unfold wordStretches
  dsimp only
  split <;> simpa using this

theorem getPath_cost_some {w : Nat} (hw : w / 4 < 12) (t u v R rev fwd sw : ℝ) :
    ∃ c, (RS.getPath w t u v).computeCost R rev fwd sw = some c := by
  have : ∃ m l, (RS.getPath w t u v).motions = m :: l ∧ m.isValid = true := by
    have h := getPath_stretches hw t u v
    cases hms : (RS.getPath w t u v).motions with
    | nil =>
      rw [hms] at h
      exfalso
      have hn := wordStretches_ne hw t u v
      exact hn h.symm
    | cons m l =>
      refine ⟨m, l, rfl, ?_⟩
      by_contra hv
      rw [hms, stretches_cons_invalid 1 hv] at h
      have hn := wordStretches_ne hw t u v
      exact hn h.symm
  obtain ⟨m, l, hms, hv⟩ := this
  unfold RS.Segment.computeCost
  rw [hms]
  dsimp only
  rw [if_pos hv]
  split <;> exact ⟨_, rfl⟩

private theorem optimal_fold (goals : Nat → PoseR) (R rev fwd sw : ℝ) (l : List Nat) (b : RS.BestCost) :
    (∀ x, b = some x → ∃ y, l.foldl (RS.optimalStep goals R rev fwd sw) b = some y ∧ y.1 ≤ x.1) ∧
    (∀ w ∈ l, ∀ t u v len c, RS.motionLengths w goals = .finite t u v len →
      (RS.getPath w t u v).computeCost R rev fwd sw = some c →
      ∃ y, l.foldl (RS.optimalStep goals R rev fwd sw) b = some y ∧ y.1 ≤ c) ∧
    (∀ y, l.foldl (RS.optimalStep goals R rev fwd sw) b = some y → b = some y ∨
      ∃ w ∈ l, ∃ t u v len, RS.motionLengths w goals = .finite t u v len ∧ y.2.1 = w ∧
        y.2.2 = RS.getPath w t u v ∧ (RS.getPath w t u v).computeCost R rev fwd sw = some y.1) := by
  induction l generalizing b with
  | nil =>
    refine ⟨fun x hx => ⟨x, hx, le_rfl⟩, fun w hw => by simp at hw, fun y hy => Or.inl hy⟩
  | cons w l ih =>
    rw [List.foldl_cons]
    obtain ⟨i1, i2, i3⟩ := ih (RS.optimalStep goals R rev fwd sw b w)
    have s1 : ∀ x, b = some x → ∃ y, RS.optimalStep goals R rev fwd sw b w = some y ∧ y.1 ≤ x.1 := by
      rintro x rfl
      unfold RS.optimalStep
      split
      · dsimp only
        split
        · exact ⟨x, rfl, le_rfl⟩
        · split
          · rename_i h; exact ⟨_, rfl, h.le⟩
          · exact ⟨x, rfl, le_rfl⟩
      · exact ⟨x, rfl, le_rfl⟩
    have s2 : ∀ t u v len c, RS.motionLengths w goals = .finite t u v len →
        (RS.getPath w t u v).computeCost R rev fwd sw = some c →
        ∃ y, RS.optimalStep goals R rev fwd sw b w = some y ∧ y.1 ≤ c := by
      intro t u v len c h hc
      unfold RS.optimalStep
      rw [h]
      dsimp only
      rw [hc]
      dsimp only
      split
      · exact ⟨_, rfl, le_rfl⟩
      · split
        · exact ⟨_, rfl, le_rfl⟩
        · rename_i h; exact ⟨_, rfl, not_lt.mp h⟩
    have s3 : ∀ y, RS.optimalStep goals R rev fwd sw b w = some y → b = some y ∨
        (∃ t u v len, RS.motionLengths w goals = .finite t u v len ∧ y.2.1 = w ∧
        y.2.2 = RS.getPath w t u v ∧ (RS.getPath w t u v).computeCost R rev fwd sw = some y.1) := by
      intro y hy
      unfold RS.optimalStep at hy
      split at hy
      · rename_i t u v len h
        dsimp only at hy
        split at hy
        · exact Or.inl hy
        · rename_i c hc
          split at hy
          · cases hy; exact Or.inr ⟨t, u, v, len, h, rfl, rfl, hc⟩
          · split at hy
            · cases hy; exact Or.inr ⟨t, u, v, len, h, rfl, rfl, hc⟩
            · exact Or.inl hy
      · exact Or.inl hy
    refine ⟨?_, ?_, ?_⟩
    · intro x hx
      obtain ⟨y, hy, hyx⟩ := s1 x hx
      obtain ⟨z, hz, hzy⟩ := i1 y hy
      exact ⟨z, hz, hzy.trans hyx⟩
    · intro w' hw' t u v len c h hc
      rcases List.mem_cons.mp hw' with rfl | hw'
      · obtain ⟨y, hy, hyx⟩ := s2 t u v len c h hc
        obtain ⟨z, hz, hzy⟩ := i1 y hy
        exact ⟨z, hz, hzy.trans hyx⟩
      · exact i2 w' hw' t u v len c h hc
    · intro y hy
      rcases i3 y hy with h | ⟨w', hw', h⟩
      · rcases s3 y h with h | h
        · exact Or.inl h
        · exact Or.inr ⟨w, by simp, h⟩
      · exact Or.inr ⟨w', List.mem_cons_of_mem _ hw', h⟩

/-- C50. The optimal path is the path of a word and has the least cost among the paths of all the
words, for all multipliers. -/
theorem C50_optimal (start goal : PoseR) (R rev fwd sw : ℝ) :
    ∃ w < 48, ∃ t u v len c, RS.motionLengths w (RS.goalArray start goal R) = .finite t u v len ∧
      RS.optimalPath start goal R rev fwd sw = RS.getPath w t u v ∧
      (RS.optimalPath start goal R rev fwd sw).computeCost R rev fwd sw = some c ∧
      ∀ w' < 48, ∀ t' u' v' len',
        RS.motionLengths w' (RS.goalArray start goal R) = .finite t' u' v' len' →
        ∃ c', (RS.getPath w' t' u' v').computeCost R rev fwd sw = some c' ∧ c ≤ c' := by
  obtain ⟨_, h2, h3⟩ := optimal_fold (RS.goalArray start goal R) R rev fwd sw (List.range 48) none
  obtain ⟨w₀, hw₀, t₀, u₀, v₀, len₀, h₀⟩ := C49_exists start goal R
  obtain ⟨c₀, hc₀⟩ := getPath_cost_some (w := w₀) (by omega) t₀ u₀ v₀ R rev fwd sw
  obtain ⟨y, hy, -⟩ := h2 w₀ (List.mem_range.mpr hw₀) t₀ u₀ v₀ len₀ c₀ h₀ hc₀
  rcases h3 y hy with h | ⟨w, hw, t, u, v, len, hm, hyw, hyp, hyc⟩
  · cases h
  have hs : RS.optimal start goal R rev fwd sw = some y := hy
  have hp : RS.optimalPath start goal R rev fwd sw = RS.getPath w t u v := by
    unfold RS.optimalPath
    rw [hs]
    exact hyp
  refine ⟨w, List.mem_range.mp hw, t, u, v, len, y.1, hm, hp, by rw [hp, hyc], ?_⟩
  intro w' hw' t' u' v' len' h'
  obtain ⟨c', hc'⟩ := getPath_cost_some (w := w') (by omega) t' u' v' R rev fwd sw
  obtain ⟨z, hz, hzl⟩ := h2 w' (List.mem_range.mpr hw') t' u' v' len' c' h' hc'
  rw [hy] at hz
  cases hz
  exact ⟨c', hc', hzl⟩

/-! ## C45: interpolation -/

/-- C45 for Reeds-Shepp paths. For a well-formed segment, `Interpolate(ratio)` is the pose reached
after driving the distance `ratio * length` along the motions, in particular the initial state for 0
and the end of the last motion for 1; the final state is `Interpolate(1)`. -/
theorem C45_reeds_shepp (init : PoseR) (s : RS.Segment) (hs : WellFormed s) (R : ℝ) (hR : 0 < R) :
    (PathRS.new init s R).init = init ∧
    (PathRS.new init s R).length = totalLength (stretches R s.motions) ∧
    SamePose ((PathRS.new init s R).interpolate 0) init ∧
    (PathRS.new init s R).interpolate 1 = (PathRS.new init s R).final ∧
    SamePose (PathRS.new init s R).final (driveAll init (stretches R s.motions)) ∧
    ∀ ratio, 0 ≤ ratio → SamePose ((PathRS.new init s R).interpolate ratio)
      (driveDist init (ratio * (PathRS.new init s R).length) (stretches R s.motions)) := by
  have hlen : (PathRS.new init s R).length = totalLength (stretches R s.motions) := segment_length hs R
  have hnn := stretches_length_nonneg hs hR.le
  have hall : ∀ ratio, 0 ≤ ratio → SamePose ((PathRS.new init s R).interpolate ratio)
      (driveDist init (ratio * (PathRS.new init s R).length) (stretches R s.motions)) := by
    intro ratio hr
    unfold PathRS.interpolate
    split
    · rename_i h0
      rw [h0, mul_zero, driveDist_zero hnn]
      exact .refl _
    · have h0 : 0 ≤ (PathRS.new init s R).length := hlen ▸ totalLength_nonneg hnn
      have := interpLoop_same hR (ratio * (PathRS.new init s R).length) s.motions hnn (.refl init) 0
        (by positivity)
      rwa [sub_zero] at this
  refine ⟨rfl, hlen, ?_, rfl, ?_, hall⟩
  · have := hall 0 le_rfl
    rwa [zero_mul, driveDist_zero hnn] at this
  · have h1 := hall 1 zero_le_one
    rw [one_mul, hlen, driveDist_total hnn init le_rfl rfl] at h1
    exact h1

/-- C49. Connecting two poses always gives a path from the first to the second, whatever the
multipliers. -/
theorem C49_connect (start goal : PoseR) (R rev fwd sw : ℝ) (hR : 0 < R) :
    (PathRS.connect start goal R rev fwd sw).init = start ∧
    SamePose (PathRS.connect start goal R rev fwd sw).final goal ∧
    SamePose ((PathRS.connect start goal R rev fwd sw).interpolate 0) start ∧
    SamePose ((PathRS.connect start goal R rev fwd sw).interpolate 1) goal := by
  obtain ⟨w, hw, t, u, v, len, c, hm, hp, -, -⟩ := C50_optimal start goal R rev fwd sw
  obtain ⟨hb, ht, hu, hv, _, _⟩ := word_ends hR hm
  have hwf := getPath_wellFormed hb ht hu hv
  have hpose := (C48_word start goal R hR w t u v len hm).2.1
  unfold PathRS.connect
  rw [hp]
  obtain ⟨h1, _, h3, h4, h5, _⟩ := C45_reeds_shepp start _ hwf R hR
  exact ⟨h1, h5.trans hpose, h3, h4 ▸ h5.trans hpose⟩

/-- C49. The shortest path, too, leads from the start to the goal. -/
theorem C49_shortest (start goal : PoseR) (R : ℝ) (hR : 0 < R) :
    SamePose (PathRS.new start (RS.shortestPath start goal R) R).final goal := by
  obtain ⟨w, hw, t, u, v, len, hm, hp, _⟩ := C50_shortest_partial start goal R hR
  obtain ⟨hb, ht, hu, hv, _, _⟩ := word_ends hR hm
  rw [hp]
  exact (C45_reeds_shepp start _ (getPath_wellFormed hb ht hu hv) R hR).2.2.2.2.1.trans
    (C48_word start goal R hR w t u v len hm).2.1

/-! ## C51: cost -/

private theorem costLoop_eq (R rev fwd sw : ℝ) (ms : List RS.Motion) (prev : Direction) (cost : ℝ) :
    RS.costLoop R rev fwd sw ms prev cost =
      cost + ((ms.takeWhile RS.Motion.isValid).map (motionCost R rev fwd)).sum +
        sw * switches (prev :: (ms.takeWhile RS.Motion.isValid).map (·.direction)) := by
  induction ms generalizing prev cost with
  | nil => simp [RS.costLoop, switches]
  | cons m ms ih =>
    unfold RS.costLoop
    by_cases hv : m.isValid = true
    · rw [if_pos hv]
      dsimp only
      rw [ih, List.takeWhile_cons, if_pos hv]
      simp only [List.map_cons, List.sum_cons, switches]
      obtain ⟨l, hl, hd⟩ := (isValid_iff m).mp hv
      have hc : (if m.direction = .forward then m.length.getD 0 * R * fwd
          else if m.direction = .backward then m.length.getD 0 * R * rev else m.length.getD 0 * R) =
          motionCost R rev fwd m := by
        unfold motionCost
        rcases hd with hd | hd <;> simp [hd, mul_comm R]
      rw [hc]
      by_cases hp : m.direction = prev
      · simp only [hp, ne_eq, not_true_eq_false, if_false]
        push_cast
        ring
      · have : prev ≠ m.direction := Ne.symm hp
        simp only [ne_eq, hp, not_false_eq_true, if_true, this]
        push_cast
        ring
    · rw [if_neg hv, List.takeWhile_cons, if_neg hv]
      simp [switches]

/-- C51. The cost is the weighted length plus the switching cost for each change of direction, except
when the reverse multiplier is 1, the switching cost is 0 and the forward multiplier is not 1. -/
theorem C51_cost_partial (s : RS.Segment) (hs : WellFormed s) (R rev fwd sw : ℝ)
    (hne : s.motions.takeWhile RS.Motion.isValid ≠ [])
    (h : ¬ (rev = 1 ∧ sw = 0) ∨ fwd = 1) :
    s.computeCost R rev fwd sw = some (weightedCost R rev fwd sw (s.motions.takeWhile RS.Motion.isValid)) := by
  unfold RS.Segment.computeCost
  cases hms : s.motions with
  | nil => rw [hms] at hne; simp at hne
  | cons m l =>
    dsimp only
    have hv : m.isValid = true := by
      by_contra hv
      rw [hms, List.takeWhile_cons, if_neg hv] at hne
      exact hne rfl
    rw [if_pos hv]
    split
    · rename_i h1
      have hf : fwd = 1 := h.resolve_left (not_not.mpr h1)
      have h2 := hs.2
      rw [hms] at h2
      unfold weightedCost
      rw [h1.2, zero_mul, add_zero, h1.1, hf, h2]
      unfold totalLength stretches
      rw [List.map_map]
      congr 1
      generalize (m :: l).takeWhile RS.Motion.isValid = ms
      induction ms with
      | nil => simp
      | cons a ms ih =>
        rw [List.map_cons, List.map_cons, List.sum_cons, List.sum_cons, add_mul, ih]
        simp [motionCost, stretch]
        ring
    · rw [costLoop_eq, zero_add, List.takeWhile_cons, if_pos hv]
      unfold weightedCost
      simp [switches]

/-- C51. A segment with no motion costs infinity. -/
theorem C51_no_motion (R rev fwd sw : ℝ) : RS.Segment.empty.computeCost R rev fwd sw = none := by
  simp [RS.Segment.computeCost, RS.Segment.empty, List.replicate, RS.Motion.isValid]

/-- C51 is violated: with the reverse multiplier 1 and no switching cost the forward multiplier is
ignored. Driving 3 forward with the forward multiplier 2 costs 3 and not 6. -/
theorem C51_forward_multiplier_ignored :
    (RS.getPath 0 0 3 0).computeCost 1 1 2 0 = some 3 ∧
    weightedCost 1 1 2 0 ((RS.getPath 0 0 3 0).motions.takeWhile RS.Motion.isValid) = 6 := by
  have hm : (RS.getPath 0 0 3 0).motions.takeWhile RS.Motion.isValid =
      [⟨.left, .forward, some 0⟩, ⟨.straight, .forward, some 3⟩, ⟨.left, .forward, some 0⟩] := by
    simp [RS.getPath, RS.basePath, RS.Segment.addMotion, RS.Segment.empty, List.replicate,
      RS.setFirstInvalid, RS.Motion.isValid, List.takeWhile]
  constructor
  · simp [RS.Segment.computeCost, RS.getPath, RS.basePath, RS.Segment.addMotion, RS.Segment.empty,
      List.replicate, RS.setFirstInvalid, RS.Motion.isValid]
  · rw [hm]
    simp [weightedCost, motionCost, switches]
    norm_num

example : (RS.getPath 12 1 2 3).computeCost 1 2 1 5 = some (1 + 2 * 2 + 3 * 2 + 5) := by
  rw [C51_cost_partial _ (getPath_wellFormed (by norm_num) (by norm_num) (by norm_num) (by norm_num))]
  · simp [weightedCost, motionCost, switches, RS.getPath, RS.basePath, RS.Segment.addMotion,
      RS.Segment.empty, List.replicate, RS.setFirstInvalid, RS.Motion.isValid, List.takeWhile]
    norm_num
  · simp [RS.getPath, RS.basePath, RS.Segment.addMotion, RS.Segment.empty, List.replicate,
      RS.setFirstInvalid, RS.Motion.isValid, List.takeWhile]
  · left; norm_num

/-! ## C46: truncation -/

/-- C46 for Reeds-Shepp paths: the length and the final state of the truncated path are right. (Its
motions are not: see below.) -/
theorem C46_reeds_shepp_partial (q : PathRS) (r : ℝ) :
    (q.truncate r).init = q.init ∧ (q.truncate r).length = r * q.length ∧
    (q.truncate r).final = q.interpolate r := by
  unfold PathRS.truncate PathRS.interpolate
  split
  · exact ⟨rfl, mul_comm _ _, rfl⟩
  · exact ⟨rfl, mul_comm _ _, truncLoop_final _ _ _ _ _⟩

/-- C46 is violated for Reeds-Shepp paths: the motion that is cut is erased. The path that drives 2
straight ahead, truncated to its half, has the final state `(1, 0)` but interpolates to its initial
state everywhere. -/
theorem C46_reeds_shepp_motion_erased :
    let q := PathRS.new ⟨⟨0, 0⟩, 0⟩ (RS.getPath 0 0 2 0) 1
    (∀ s, 0 ≤ s → ((q.truncate (1 / 2)).interpolate s).position = ⟨0, 0⟩) ∧
    (q.truncate (1 / 2)).final.position = ⟨1, 0⟩ ∧ (q.truncate (1 / 2)).length = 1 ∧
    (q.interpolate (1 / 2)).position = ⟨1, 0⟩ := by
  intro q
  have hm : (RS.getPath 0 0 2 0).motions = [⟨.left, .forward, some 0⟩, ⟨.straight, .forward, some 2⟩,
      ⟨.left, .forward, some 0⟩, {}, {}] := by
    simp [RS.getPath, RS.basePath, RS.Segment.addMotion, RS.Segment.empty, List.replicate,
      RS.setFirstInvalid, RS.Motion.isValid]
  have hl : q.length = 2 := by
    show (RS.getPath 0 0 2 0).length * 1 = 2
    simp [RS.getPath, RS.basePath, RS.Segment.addMotion, RS.Segment.empty]
  have hwf : WellFormed (RS.getPath 0 0 2 0) :=
    getPath_wellFormed (by norm_num) (by norm_num) (by norm_num) (by norm_num)
  have hi : (q.interpolate (1 / 2)).position = ⟨1, 0⟩ := by
    have := (C45_reeds_shepp ⟨⟨0, 0⟩, 0⟩ _ hwf 1 one_pos).2.2.2.2.2 (1 / 2) (by norm_num)
    rw [this.1]
    show (driveDist _ (1 / 2 * q.length) _).position = _
    rw [hl, hm]
    have h10 : ¬ (1 : ℝ) ≤ 0 := by norm_num
    simp [stretches, RS.Motion.isValid, stretch, driveDist, arc, List.takeWhile, h10]
  obtain ⟨_, t2, t3⟩ := C46_reeds_shepp_partial q (1 / 2)
  refine ⟨?_, by rw [t3]; exact hi, by rw [t2, hl]; norm_num, hi⟩
  intro s hs
  have hseg : (q.truncate (1 / 2)).segment.motions = [⟨.left, .forward, some 0⟩, {},
      ⟨.left, .forward, some 0⟩, {}, {}] := by
    unfold PathRS.truncate
    rw [hl, if_neg (by norm_num)]
    show (PathRS.truncLoop 1 (1 / 2 * 2) (RS.getPath 0 0 2 0).motions _ 0).1 = _
    rw [hm]
    simp [PathRS.truncLoop, RS.Motion.isValid, PathRS.cutMotion]
  have hlen : (q.truncate (1 / 2)).length = 1 := by rw [t2, hl]; norm_num
  unfold PathRS.interpolate
  rw [hlen, if_neg one_ne_zero, hseg]
  have hinit : (q.truncate (1 / 2)).init = ⟨⟨0, 0⟩, 0⟩ := (C46_reeds_shepp_partial q (1 / 2)).1
  rw [hinit]
  simp [PathRS.interpLoop, RS.Motion.isValid]

end PathPlanning
