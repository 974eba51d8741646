import Verif.Model.Pose
import Verif.Lemmas.Pose
import Mathlib.Tactic.Ring
import Mathlib.Tactic.NormNum
import Mathlib.Tactic.LinearCombination

/-!
# C41, C42: angles and poses
-/

namespace PathPlanning
open Real Spec

private theorem wrapDown_spec (t : ℝ) : wrapDown t ≤ π ∧ SameAngle (wrapDown t) t ∧
    (t ≤ π → wrapDown t = t) ∧ (π < t → -π < wrapDown t) := by
  induction t using wrapDown.induct with
  | case1 t h ih =>
    rw [wrapDown, if_pos h]
    obtain ⟨h1, h2, h3, h4⟩ := ih
    refine ⟨h1, h2.trans ⟨-1, by push_cast; ring⟩, fun h' => absurd h (not_lt.mpr h'), fun _ => ?_⟩
    by_cases h5 : t - 2 * π ≤ π
    · rw [h3 h5]; linarith
    · exact h4 (not_le.mp h5)
  | case2 t h =>
    rw [wrapDown, if_neg h]
    exact ⟨not_lt.mp h, .refl _, fun _ => rfl, fun h' => absurd h' h⟩

private theorem wrapUp_spec (t : ℝ) : -π ≤ wrapUp t ∧ SameAngle (wrapUp t) t ∧
    (-π ≤ t → wrapUp t = t) ∧ (t < -π → wrapUp t < π) := by
  induction t using wrapUp.induct with
  | case1 t h ih =>
    rw [wrapUp, if_pos h]
    obtain ⟨h1, h2, h3, h4⟩ := ih
    refine ⟨h1, h2.trans ⟨1, by push_cast; ring⟩, fun h' => absurd h (not_lt.mpr h'), fun _ => ?_⟩
    by_cases h5 : -π ≤ t + 2 * π
    · rw [h3 h5]; linarith
    · exact h4 (not_le.mp h5)
  | case2 t h =>
    rw [wrapUp, if_neg h]
    exact ⟨not_lt.mp h, .refl _, fun _ => rfl, fun h' => absurd h' h⟩

/-- C41. The wrapped angle is in [-π, π]. (Termination of the loops is part of the model.) -/
theorem C41_range (t : ℝ) : -π ≤ wrapTheta t ∧ wrapTheta t ≤ π := by
  unfold wrapTheta
  have hp := Real.pi_pos
  obtain ⟨h1, _, h3, h4⟩ := wrapUp_spec (wrapDown t)
  refine ⟨h1, ?_⟩
  by_cases h : -π ≤ wrapDown t
  · rw [h3 h]; exact (wrapDown_spec t).1
  · exact (h4 (not_le.mp h)).le

/-- C41. It is the same heading. -/
theorem C41_same_angle (t : ℝ) : SameAngle (wrapTheta t) t :=
  (wrapUp_spec _).2.1.trans (wrapDown_spec t).2.1

/-- C41. Angles already in the range are unchanged. -/
theorem C41_unchanged (t : ℝ) (h : -π ≤ t) (h' : t ≤ π) : wrapTheta t = t := by
  unfold wrapTheta
  rw [(wrapDown_spec t).2.2.1 h', (wrapUp_spec t).2.2.1 h]

/-- C41. Idempotence. -/
theorem C41_idempotent (t : ℝ) : wrapTheta (wrapTheta t) = wrapTheta t :=
  C41_unchanged _ (C41_range t).1 (C41_range t).2

/-- C41. Equal poses have equal hashes, for every hash of points and of angles. -/
theorem C41_hash {H : Type} (seed : H) (cp : H → Pt → H) (ca : H → ℝ → H) (a b : PoseR)
    (h : a.equalTo b) : a.hash seed cp ca = b.hash seed cp ca := by
  unfold PoseR.hash; rw [h.1, h.2]

/-- C41. `equal_to` holds exactly for the same position and the same heading, except that the
heading π is kept apart from -π. -/
theorem C41_equal_iff (a b : PoseR) (ha : wrapTheta a.theta ≠ π) (hb : wrapTheta b.theta ≠ π) :
    a.equalTo b ↔ SamePose a b := by
  constructor
  · rintro ⟨h1, h2⟩
    exact ⟨h1, (C41_same_angle _).symm.trans (h2 ▸ C41_same_angle _)⟩
  · rintro ⟨h1, h2⟩
    refine ⟨h1, ?_⟩
    obtain ⟨k, hk⟩ := (C41_same_angle a.theta).trans (h2.trans (C41_same_angle b.theta).symm)
    have hp := Real.pi_pos
    obtain ⟨a1, a2⟩ := C41_range a.theta
    obtain ⟨b1, b2⟩ := C41_range b.theta
    have a3 := lt_of_le_of_ne a2 ha
    have b3 := lt_of_le_of_ne b2 hb
    have hk0 : k = 0 := by
      have h3 : (-1 : ℝ) < k := by
        by_contra hc
        have : (k : ℝ) * (2 * π) ≤ (-1) * (2 * π) :=
          mul_le_mul_of_nonneg_right (not_lt.mp hc) (by linarith)
        linarith
      have h4 : (k : ℝ) < 1 := by
        by_contra hc
        have : 1 * (2 * π) ≤ (k : ℝ) * (2 * π) :=
          mul_le_mul_of_nonneg_right (not_lt.mp hc) (by linarith)
        linarith
      have h3' : -1 < k := by exact_mod_cast h3
      have h4' : k < 1 := by exact_mod_cast h4
      omega
    rw [hk, hk0]; simp

/-- C41. The headings π and -π are the same but `equal_to` separates them. -/
theorem C41_pi_and_minus_pi_differ : ∃ a b : PoseR, SamePose a b ∧ ¬ a.equalTo b := by
  have hp := Real.pi_pos
  refine ⟨⟨⟨0, 0⟩, π⟩, ⟨⟨0, 0⟩, -π⟩, ⟨rfl, 1, by push_cast; ring⟩, ?_⟩
  rintro ⟨_, h⟩
  rw [C41_unchanged _ (by linarith) le_rfl, C41_unchanged _ le_rfl (by linarith)] at h
  linarith

example : wrapTheta (3 * π) = π ∧ wrapTheta (-5 * π / 2) = -π / 2 := by
  have hp := Real.pi_pos
  constructor
  · unfold wrapTheta
    rw [wrapDown, if_pos (by linarith), wrapDown, if_neg (by linarith), wrapUp, if_neg (by linarith)]
    ring
  · unfold wrapTheta
    rw [wrapDown, if_neg (by linarith), wrapUp, if_pos (by linarith), wrapUp, if_neg (by linarith)]
    ring

/-! ## Composition -/

@[simp] private theorem add_position (a b : PoseR) :
    (a.add b).position = PoseR.rotate a.theta b.position + a.position := rfl
private theorem add_theta (a b : PoseR) : SameAngle (a.add b).theta (a.theta + b.theta) :=
  (C41_same_angle _).trans (C41_same_angle _)
@[simp] private theorem sub_position (a b : PoseR) :
    (a.sub b).position = PoseR.rotate (-b.theta) (a.position - b.position) := rfl
private theorem sub_theta (a b : PoseR) : SameAngle (a.sub b).theta (a.theta - b.theta) :=
  (C41_same_angle _).trans (C41_same_angle _)

private theorem rotate_congr {a b : ℝ} (h : SameAngle a b) (v : Pt) :
    PoseR.rotate a v = PoseR.rotate b v := by
  unfold PoseR.rotate; rw [h.cos, h.sin]

/-- C42. `rhs + (lhs - rhs)` is `lhs`. -/
theorem C42_add_sub (lhs rhs : PoseR) : SamePose (rhs.add (lhs.sub rhs)) lhs := by
  refine ⟨?_, ?_⟩
  · have h := Real.sin_sq_add_cos_sq rhs.theta
    ext
    · simp only [add_position, sub_position, PoseR.rotate, Pt.add_x, Pt.sub_x, Pt.sub_y, cos_neg, sin_neg]
      linear_combination (lhs.position.x - rhs.position.x) * h
    · simp only [add_position, sub_position, PoseR.rotate, Pt.add_y, Pt.sub_x, Pt.sub_y, cos_neg, sin_neg]
      linear_combination (lhs.position.y - rhs.position.y) * h
  · refine (add_theta _ _).trans (((SameAngle.refl _).add (sub_theta _ _)).trans ?_)
    rw [show rhs.theta + (lhs.theta - rhs.theta) = lhs.theta by ring]
    exact .refl _

/-- C42. `(a + b) - a` is `b`. -/
theorem C42_sub_add (a b : PoseR) : SamePose ((a.add b).sub a) b := by
  refine ⟨?_, ?_⟩
  · have h := Real.sin_sq_add_cos_sq a.theta
    ext
    · simp only [add_position, sub_position, PoseR.rotate, Pt.add_x, Pt.add_y, Pt.sub_x, Pt.sub_y, cos_neg, sin_neg]
      linear_combination b.position.x * h
    · simp only [add_position, sub_position, PoseR.rotate, Pt.add_x, Pt.add_y, Pt.sub_x, Pt.sub_y, cos_neg, sin_neg]
      linear_combination b.position.y * h
  · refine (sub_theta _ _).trans (((add_theta _ _).sub (.refl _)).trans ?_)
    rw [show a.theta + b.theta - a.theta = b.theta by ring]
    exact .refl _

/-- C42. Composition is associative. -/
theorem C42_assoc (a b c : PoseR) : SamePose ((a.add b).add c) (a.add (b.add c)) := by
  refine ⟨?_, ?_⟩
  · rw [add_position, rotate_congr (add_theta a b)]
    ext <;>
    · simp only [add_position, PoseR.rotate, Pt.add_x, Pt.add_y, cos_add, sin_add]
      ring
  · refine (add_theta _ _).trans (((add_theta _ _).add (.refl _)).trans ?_)
    refine SameAngle.symm ((add_theta _ _).trans (((SameAngle.refl _).add (add_theta _ _)).trans ?_))
    rw [add_assoc]; exact .refl _

/-- C42. The pose at the origin with heading 0 is neutral. -/
theorem C42_neutral (a : PoseR) :
    SamePose (a.add ⟨⟨0, 0⟩, 0⟩) a ∧ SamePose (PoseR.add ⟨⟨0, 0⟩, 0⟩ a) a := by
  refine ⟨⟨?_, ?_⟩, ⟨?_, ?_⟩⟩
  · ext <;> simp [PoseR.rotate]
  · refine (add_theta _ _).trans ?_; simpa using SameAngle.refl _
  · ext <;> simp [PoseR.rotate]
  · refine (add_theta _ _).trans ?_; simpa using SameAngle.refl _

/-- C42. The results only depend on the headings modulo 2π. -/
theorem C42_congr {a a' b b' : PoseR} (h : SamePose a a') (h' : SamePose b b') :
    SamePose (a.add b) (a'.add b') ∧ SamePose (a.sub b) (a'.sub b') := by
  refine ⟨⟨?_, ?_⟩, ⟨?_, ?_⟩⟩
  · rw [add_position, add_position, rotate_congr h.2, h.1, h'.1]
  · exact (add_theta _ _).trans ((h.2.add h'.2).trans (add_theta _ _).symm)
  · rw [sub_position, sub_position, rotate_congr h'.2.neg, h.1, h'.1]
  · exact (sub_theta _ _).trans ((h.2.sub h'.2).trans (sub_theta _ _).symm)

/-- C42. Headings of results are in [-π, π]. -/
theorem C42_range (a b : PoseR) : (-π ≤ (a.add b).theta ∧ (a.add b).theta ≤ π) ∧
    (-π ≤ (a.sub b).theta ∧ (a.sub b).theta ≤ π) := ⟨C41_range _, C41_range _⟩

/-- C42. Composition is not commutative: turning left then driving is not driving then turning. -/
example : ¬ SamePose (PoseR.add ⟨⟨0, 0⟩, π / 2⟩ ⟨⟨1, 0⟩, 0⟩) (PoseR.add ⟨⟨1, 0⟩, 0⟩ ⟨⟨0, 0⟩, π / 2⟩) := by
  rintro ⟨h, _⟩
  have := congrArg Pt.x h
  simp [PoseR.rotate] at this

end PathPlanning
