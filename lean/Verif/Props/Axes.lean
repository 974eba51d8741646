import Verif.Lemmas.ReedsSheppPath
import Verif.Props.NonHolonomic
import Verif.Props.ReedsSheppFamilies
import Verif.Model.HybridAStar

/-!
# C177: what the vehicle does, does not depend on the direction of the axes

The plane is turned by an angle and moved; headings may be given up to full turns.
-/

namespace PathPlanning
open Real

namespace Spec

/-- The pose after the plane has been turned by `alpha` about the origin and moved by `t`. -/
noncomputable def turned (alpha : ℝ) (t : Pt) (s : PoseR) : PoseR :=
  ⟨⟨cos alpha * s.position.x - sin alpha * s.position.y + t.x, sin alpha * s.position.x + cos alpha * s.position.y + t.y⟩,
    s.theta + alpha⟩

/-- The same, where the heading may be given with or without full turns. -/
def TurnedTo (alpha : ℝ) (t : Pt) (s s' : PoseR) : Prop := SamePose s' (turned alpha t s)

/-- The headings of the two poses are opposite. -/
def Opposite (a b : PoseR) : Prop := SameAngle (a.theta - b.theta) π

end Spec
open Spec

/-- Equal headings are wrapped to equal numbers, but for half a turn. -/
private theorem wrap_eq {x y : ℝ} (h : SameAngle x y) (hn : ¬ SameAngle x π) : wrapTheta x = wrapTheta y := by
  have hp := pi_pos
  obtain ⟨k, hk⟩ : SameAngle (wrapTheta x) (wrapTheta y) := ((C41_same_angle x).trans h).trans (C41_same_angle y).symm
  have hx := C41_range x
  have hy := C41_range y
  have hk0 : k = 0 := by
    by_contra hne
    rcases lt_or_gt_of_ne hne with h0 | h0
    · have h1 : (k : ℝ) ≤ -1 := by exact_mod_cast Int.le_sub_one_of_lt h0
      have h2 : wrapTheta x = -π := by nlinarith
      exact hn ((C41_same_angle x).symm.trans ⟨-1, by rw [h2]; push_cast; ring⟩)
    · have h1 : (1 : ℝ) ≤ k := by exact_mod_cast h0
      have h2 : wrapTheta x = π := by nlinarith
      exact hn ((C41_same_angle x).symm.trans ⟨0, by rw [h2]; push_cast; ring⟩)
  rw [hk, hk0]; push_cast; ring

private theorem rotate_diff {alpha : ℝ} {t : Pt} {a b a' b' : PoseR} (ha : TurnedTo alpha t a a') (hb : TurnedTo alpha t b b') :
    PoseR.rotate (-b'.theta) (a'.position - b'.position) = PoseR.rotate (-b.theta) (a.position - b.position) := by
  have hc := sin_sq_add_cos_sq alpha
  unfold PoseR.rotate
  rw [cos_neg, sin_neg, cos_neg, sin_neg, hb.2.cos, hb.2.sin, ha.1, hb.1]
  simp only [turned, cos_add, sin_add, Pt.sub_x, Pt.sub_y]
  ext
  · linear_combination (cos b.theta * (a.position.x - b.position.x) + sin b.theta * (a.position.y - b.position.y)) * hc
  · linear_combination (cos b.theta * (a.position.y - b.position.y) - sin b.theta * (a.position.x - b.position.x)) * hc

/-- C177: one pose seen from another, unless they have opposite headings. -/
theorem C177_difference_partial {alpha : ℝ} {t : Pt} {a b a' b' : PoseR} (ha : TurnedTo alpha t a a')
    (hb : TurnedTo alpha t b b') (hn : ¬ Opposite a b) : a'.sub b' = a.sub b := by
  have hs : SameAngle (a.theta - b.theta) (a'.theta - b'.theta) := by
    have := (ha.2.sub hb.2).symm
    simpa [turned] using this
  unfold PoseR.sub PoseR.mk'
  dsimp only
  rw [rotate_diff ha hb, wrap_eq hs hn]

/-- C177: the same if headings are not wrapped, whatever they are. -/
theorem C177_difference_unwrapped (alpha : ℝ) (t : Pt) (a b : PoseR) :
    (turned alpha t a).sub (turned alpha t b) = a.sub b := by
  unfold PoseR.sub PoseR.mk'
  dsimp only
  rw [rotate_diff (.refl _) (.refl _)]
  simp [turned]

/-- C177: the value of the non-holonomic heuristic. -/
theorem C177_nonholonomic_heuristic_partial {alpha : ℝ} {t : Pt} {goal state goal' state' : PoseR}
    (hg : TurnedTo alpha t goal goal') (hs : TurnedTo alpha t state state') (hn : ¬ Opposite goal state) (h : NonHolo) :
    h.getHeuristicValue goal' state' = h.getHeuristicValue goal state := by
  unfold NonHolo.getHeuristicValue
  rw [C177_difference_partial hg hs hn]

/-- C177: the Reeds-Shepp solver finds the same word with the same lengths. -/
theorem C177_reeds_shepp_partial {alpha : ℝ} {t : Pt} {start goal start' goal' : PoseR} (hs : TurnedTo alpha t start start')
    (hg : TurnedTo alpha t goal goal') (hn : ¬ Opposite goal start) (R rev fwd sw : ℝ) :
    RS.shortest start' goal' R = RS.shortest start goal R ∧
    RS.optimal start' goal' R rev fwd sw = RS.optimal start goal R rev fwd sw := by
  have e : RS.goalArray start' goal' R = RS.goalArray start goal R := by
    unfold RS.goalArray
    rw [C177_difference_partial hg hs hn]
  unfold RS.shortest RS.optimal
  rw [e]
  exact ⟨rfl, rfl⟩

/-- C177: the motion of the vehicle with a constant steering angle. -/
theorem C177_motion {alpha : ℝ} {t : Pt} {s s' : PoseR} (h : TurnedTo alpha t s s') (m : Bicycle) (steering dist : ℝ)
    (direction : Direction) :
    TurnedTo alpha t (m.constantSteer s steering dist direction) (m.constantSteer s' steering dist direction) := by
  unfold Bicycle.constantSteer
  dsimp only
  generalize hd : (if direction = Direction.backward then -dist else dist) / cos (m.beta steering) = d
  generalize hr : m.dThetaDdist steering = r
  generalize hb : m.beta steering = b
  have hx := congrArg Pt.x h.1
  have hy := congrArg Pt.y h.1
  simp only [turned] at hx hy
  have ht : SameAngle s'.theta (s.theta + alpha) := h.2
  have ht1 : SameAngle (b + (s'.theta + d * r)) ((b + (s.theta + d * r)) + alpha) := by
    have := ht.add (SameAngle.refl (b + d * r))
    rw [show s'.theta + (b + d * r) = b + (s'.theta + d * r) by ring,
      show s.theta + alpha + (b + d * r) = b + (s.theta + d * r) + alpha by ring] at this
    exact this
  have ht2 : SameAngle (b + s'.theta) ((b + s.theta) + alpha) := by
    have := (SameAngle.refl b).add ht
    rwa [← add_assoc] at this
  split
  · refine ⟨?_, ?_⟩
    · rw [ht1.sin, ht1.cos, ht2.sin, ht2.cos]
      simp only [turned, hx, hy]
      generalize b + (s.theta + d * r) = u
      generalize b + s.theta = v
      ext
      · simp only [sin_add]; ring
      · simp only [cos_add]; ring
    · have := ht.add (SameAngle.refl (d * r))
      simp only [turned]
      rwa [show s.theta + alpha + d * r = s.theta + d * r + alpha by ring] at this
  · refine ⟨?_, ht⟩
    simp only [turned, hx, hy]
    rw [ht.sin, ht.cos]
    ext
    · simp only [cos_add]; ring
    · simp only [sin_add]; ring

private theorem turned_eq_place (alpha : ℝ) (t : Pt) (s : PoseR) : turned alpha t s = place ⟨t, alpha⟩ s := by
  unfold turned place PoseR.rotate
  simp only [PoseR.mk.injEq]
  exact ⟨rfl, add_comm _ _⟩

private theorem arc_turned {alpha : ℝ} {t : Pt} {s s' : PoseR} (h : TurnedTo alpha t s s') (k l : ℝ) :
    TurnedTo alpha t (arc k l s) (arc k l s') := by
  unfold TurnedTo at *
  rw [turned_eq_place] at *
  rw [← arc_place]
  exact arc_congr h k l

private theorem turned_congr {alpha : ℝ} {t : Pt} {s r s' r' : PoseR} (h : TurnedTo alpha t s s') (h1 : SamePose s r)
    (h2 : SamePose s' r') : TurnedTo alpha t r r' := by
  refine h2.symm.trans (h.trans ⟨?_, h1.2.add (.refl _)⟩)
  simp only [turned, h1.1]

private theorem move_turned {R : ℝ} (hR : R ≠ 0) {alpha : ℝ} {t : Pt} {s s' : PoseR} (h : TurnedTo alpha t s s')
    (m : RS.Motion) (l : ℝ) : TurnedTo alpha t (PathRS.move R s m l) (PathRS.move R s' m l) :=
  turned_congr (arc_turned h _ _) (move_same hR (.refl _) l).symm (move_same hR (.refl _) l).symm

/-- C177: the poses of a Reeds-Shepp path. -/
theorem C177_reeds_shepp_path {R : ℝ} (hR : R ≠ 0) {alpha : ℝ} {t : Pt} {s s' : PoseR} (h : TurnedTo alpha t s s')
    (segment : RS.Segment) (ratio : ℝ) :
    TurnedTo alpha t ((PathRS.new s segment R).interpolate ratio) ((PathRS.new s' segment R).interpolate ratio) ∧
    TurnedTo alpha t (PathRS.new s segment R).final (PathRS.new s' segment R).final := by
  have loop : ∀ (target : ℝ) (l : List RS.Motion) (p p' : PoseR) (len : ℝ), TurnedTo alpha t p p' →
      TurnedTo alpha t (PathRS.interpLoop R target l p len) (PathRS.interpLoop R target l p' len) := by
    intro target l
    induction l with
    | nil => intro p p' len h; exact h
    | cons m l ih =>
      intro p p' len h
      unfold PathRS.interpLoop
      dsimp only
      split
      · split
        · exact ih _ _ _ h
        · split
          · exact move_turned hR h _ _
          · exact ih _ _ _ (move_turned hR h _ _)
      · exact h
  have key : ∀ (f f' : PoseR) (r : ℝ), TurnedTo alpha t ((⟨s, f, segment.getLength R, segment, R⟩ : PathRS).interpolate r)
      ((⟨s', f', segment.getLength R, segment, R⟩ : PathRS).interpolate r) := by
    intro f f' r
    unfold PathRS.interpolate
    dsimp only
    split
    · exact h
    · exact loop _ _ _ _ _ h
  exact ⟨key _ _ _, key _ _ _⟩

/-- C177: the Reeds-Shepp path from one pose to another, with its length and its directions. -/
theorem C177_connect_partial {R : ℝ} (hR : R ≠ 0) {alpha : ℝ} {t : Pt} {start goal start' goal' : PoseR}
    (hs : TurnedTo alpha t start start') (hg : TurnedTo alpha t goal goal') (hn : ¬ Opposite goal start)
    (rev fwd sw ratio : ℝ) :
    TurnedTo alpha t ((PathRS.connect start goal R rev fwd sw).interpolate ratio)
      ((PathRS.connect start' goal' R rev fwd sw).interpolate ratio) ∧
    (PathRS.connect start' goal' R rev fwd sw).length = (PathRS.connect start goal R rev fwd sw).length ∧
    (PathRS.connect start' goal' R rev fwd sw).getDirection ratio =
      (PathRS.connect start goal R rev fwd sw).getDirection ratio ∧
    (PathRS.connect start' goal' R rev fwd sw).cusps = (PathRS.connect start goal R rev fwd sw).cusps := by
  have e : RS.optimalPath start' goal' R rev fwd sw = RS.optimalPath start goal R rev fwd sw := by
    unfold RS.optimalPath
    rw [(C177_reeds_shepp_partial hs hg hn R rev fwd sw).2]
  unfold PathRS.connect
  rw [e]
  exact ⟨(C177_reeds_shepp_path hR hs _ ratio).1, rfl, rfl, rfl⟩

/-- C177: the straight line between two poses, as a connection of state space SE(2), when headings are not wrapped. -/
theorem C177_line (alpha : ℝ) (t : Pt) (a b : PoseR) (ratio : ℝ) :
    (PathSE2.connect (turned alpha t a) (turned alpha t b)).interpolate ratio =
      turned alpha t ((PathSE2.connect a b).interpolate ratio) ∧
    (PathSE2.connect (turned alpha t a) (turned alpha t b)).length = (PathSE2.connect a b).length := by
  refine ⟨?_, ?_⟩
  · unfold PathSE2.connect PathSE2.interpolate turned Pt.lerp
    simp only [PoseR.mk.injEq, Pt.mk.injEq]
    exact ⟨⟨by ring, by ring⟩, by ring⟩
  · unfold PathSE2.connect turned Pt.norm
    simp only [Pt.sub_x, Pt.sub_y]
    congr 1
    linear_combination ((b.position.x - a.position.x) ^ 2 + (b.position.y - a.position.y) ^ 2) * sin_sq_add_cos_sq alpha

/-- C177: whether hybrid A* takes two poses to be the same, when headings are not wrapped. -/
theorem C177_goal_test_partial (alpha : ℝ) (t : Pt) (a b : PoseR) :
    HybridAStar.identicalPoses (turned alpha t a) (turned alpha t b) = HybridAStar.identicalPoses a b := by
  have h1 := (C177_line alpha t b a 0).2
  simp only [PathSE2.connect] at h1
  unfold HybridAStar.identicalPoses
  rw [h1, show (turned alpha t a).theta - (turned alpha t b).theta = a.theta - b.theta by simp [turned]]

private theorem add_turned (p s : PoseR) : TurnedTo p.theta p.position s (p.add s) := by
  refine ⟨rfl, ((C41_same_angle _).trans (C41_same_angle _)).trans ⟨0, ?_⟩⟩
  simp [turned, add_comm]

private theorem wrap_of_range {x y : ℝ} (h : SameAngle x y) (h1 : -π < y) (h2 : y < π) : wrapTheta x = y := by
  have hp := pi_pos
  rw [← C41_unchanged y h1.le h2.le]
  refine wrap_eq h fun hn => ?_
  obtain ⟨k, hk⟩ := h.symm.trans hn
  have h3 : (k : ℝ) < 0 := by nlinarith
  have h4 : -1 < (k : ℝ) := by nlinarith
  have h5 : k < 0 := by exact_mod_cast h3
  have h6 : -1 < k := by exact_mod_cast h4
  omega

/-- C177, negative: two poses that hybrid A* takes to be the same are no longer the same after a half turn of the
plane (`operator+` with a pose), because headings are compared as numbers. -/
theorem C177_goal_test_depends_on_axes :
    ∃ p a b : PoseR, TurnedTo p.theta p.position a (p.add a) ∧ TurnedTo p.theta p.position b (p.add b) ∧
      HybridAStar.identicalPoses a b = true ∧ HybridAStar.identicalPoses (p.add a) (p.add b) = false := by
  have hp := pi_gt_three
  have hp4 := pi_lt_four
  refine ⟨⟨⟨0, 0⟩, π⟩, ⟨⟨0, 0⟩, 0⟩, ⟨⟨0, 0⟩, 1e-6⟩, add_turned _ _, add_turned _ _, ?_, ?_⟩
  · unfold HybridAStar.identicalPoses
    refine decide_eq_true ⟨?_, ?_⟩
    · simp [Pt.norm]; norm_num
    · rw [zero_sub, abs_neg, abs_of_pos (by norm_num)]
      norm_num
      linarith
  · unfold HybridAStar.identicalPoses
    refine decide_eq_false fun h => ?_
    have h1 := h.2
    have e1 : (PoseR.add ⟨⟨0, 0⟩, π⟩ ⟨⟨0, 0⟩, 0⟩).theta = π := by
      simp only [PoseR.add, PoseR.mk', add_zero]
      rw [C41_idempotent, C41_unchanged _ (by linarith) le_rfl]
    have e2 : (PoseR.add ⟨⟨0, 0⟩, π⟩ ⟨⟨0, 0⟩, 1e-6⟩).theta = -π + 1e-6 := by
      simp only [PoseR.add, PoseR.mk']
      rw [C41_idempotent]
      exact wrap_of_range ⟨1, by push_cast; ring⟩ (by norm_num) (by norm_num; linarith)
    rw [e1, e2, abs_of_pos (by norm_num; linarith)] at h1
    norm_num at h1
    linarith

/-- C177, negative: with opposite headings the non-holonomic heuristic reads its table in one frame, and outside of it
in another. -/
theorem C177_heuristic_depends_on_axes :
    ∃ (h : NonHolo) (p goal state : PoseR), TurnedTo p.theta p.position goal (p.add goal) ∧
      TurnedTo p.theta p.position state (p.add state) ∧ Opposite goal state ∧
      h.getHeuristicValue goal state ≠ none ∧ h.getHeuristicValue (p.add goal) (p.add state) = none := by
  have hp := pi_pos
  refine ⟨⟨1, π / 2, 1, 1, 1, 0, 1, 1⟩, ⟨⟨0, 0⟩, π / 2⟩, ⟨⟨0, 0⟩, π⟩, ⟨⟨0, 0⟩, 0⟩, add_turned _ _, add_turned _ _,
    ⟨0, by simp⟩, ?_, ?_⟩
  · have e : PoseR.sub ⟨⟨0, 0⟩, π⟩ ⟨⟨0, 0⟩, 0⟩ = ⟨⟨0, 0⟩, π⟩ := by
      simp only [PoseR.sub, PoseR.mk', sub_zero]
      rw [C41_idempotent, C41_unchanged _ (by linarith) le_rfl]
      simp [PoseR.rotate]
    unfold NonHolo.getHeuristicValue
    rw [e]
    have hk : roundR 2 = 2 := by unfold roundR; norm_num
    have hf : ⌊(2 : ℝ)⁻¹⌋ = 0 := by norm_num
    have h0 : roundR 0 = 0 := by unfold roundR; norm_num
    have hn : NonHolo.numAngular ⟨1, π / 2, 1, 1, 1, 0, 1, 1⟩ = 4 := by
      unfold NonHolo.numAngular
      dsimp only
      rw [show 2 * π / (π / 2) = (4 : ℕ) by field_simp; norm_num, Nat.ceil_natCast]
    simp [NonHolo.offsetX, NonHolo.offsetY, hk, hf, h0, hn, toInt32, NonHolo.read]
  · have e : PoseR.sub (PoseR.add ⟨⟨0, 0⟩, π / 2⟩ ⟨⟨0, 0⟩, π⟩) (PoseR.add ⟨⟨0, 0⟩, π / 2⟩ ⟨⟨0, 0⟩, 0⟩) =
        ⟨⟨0, 0⟩, -π⟩ := by
      have e1 : (PoseR.add ⟨⟨0, 0⟩, π / 2⟩ ⟨⟨0, 0⟩, π⟩).theta = -(π / 2) := by
        simp only [PoseR.add, PoseR.mk']
        rw [C41_idempotent]
        exact wrap_of_range ⟨1, by push_cast; ring⟩ (by linarith) (by linarith)
      have e2 : (PoseR.add ⟨⟨0, 0⟩, π / 2⟩ ⟨⟨0, 0⟩, 0⟩).theta = π / 2 := by
        simp only [PoseR.add, PoseR.mk']
        rw [C41_idempotent]
        exact wrap_of_range ⟨0, by push_cast; ring⟩ (by linarith) (by linarith)
      have e3 : (PoseR.add ⟨⟨0, 0⟩, π / 2⟩ ⟨⟨0, 0⟩, π⟩).position = ⟨0, 0⟩ := by
        simp only [PoseR.add, PoseR.mk', PoseR.rotate]; ext <;> simp
      have e4 : (PoseR.add ⟨⟨0, 0⟩, π / 2⟩ ⟨⟨0, 0⟩, 0⟩).position = ⟨0, 0⟩ := by
        simp only [PoseR.add, PoseR.mk', PoseR.rotate]; ext <;> simp
      unfold PoseR.sub PoseR.mk'
      rw [e1, e2, e3, e4]
      dsimp only
      rw [C41_idempotent, show -(π / 2) - π / 2 = -π by ring, C41_unchanged _ le_rfl (by linarith)]
      simp [PoseR.rotate]
    unfold NonHolo.getHeuristicValue
    rw [e]
    have hk : roundR (-π / (π / 2)) = -2 := by
      rw [neg_div, div_div_cancel₀ hp.ne']; unfold roundR; norm_num
    have hf : ⌊(2 : ℝ)⁻¹⌋ = 0 := by norm_num
    have h0 : roundR 0 = 0 := by unfold roundR; norm_num
    have hn : NonHolo.numAngular ⟨1, π / 2, 1, 1, 1, 0, 1, 1⟩ = 4 := by
      unfold NonHolo.numAngular
      dsimp only
      rw [show 2 * π / (π / 2) = (4 : ℕ) by field_simp; norm_num, Nat.ceil_natCast]
    simp [NonHolo.offsetX, NonHolo.offsetY, hk, hf, h0, hn, toInt32, NonHolo.read]

/-- C177, negative: the cells of hybrid A* depend on the axes: of two poses in one cell, one is in another cell after
an eighth of a turn. -/
theorem C177_cells_depend_on_axes :
    ∃ (q : HybridParam) (a b : PoseR), HybridAStar.discretizePose q a = HybridAStar.discretizePose q b ∧
      HybridAStar.discretizePose q (turned (π / 4) ⟨0, 0⟩ a) ≠ HybridAStar.discretizePose q (turned (π / 4) ⟨0, 0⟩ b) := by
  have ht : ∀ x : ℝ, 0 ≤ x → x < 1 → truncInt x = 0 := by
    intro x h1 h2
    unfold truncInt
    rw [if_pos h1, Int.floor_eq_zero_iff]
    exact ⟨h1, h2⟩
  refine ⟨{}, ⟨⟨0.9, 0.9⟩, 0⟩, ⟨⟨0, 0⟩, 0⟩, ?_, ?_⟩
  · unfold HybridAStar.discretizePose
    dsimp only
    rw [div_one, div_one, ht 0.9 (by norm_num) (by norm_num), ht 0 le_rfl (by norm_num)]
  · intro h
    have hy := congrArg HybridAStar.PoseI.y h
    have hs : (1.2 : ℝ) ≤ √2 := Real.le_sqrt_of_sq_le (by norm_num)
    unfold HybridAStar.discretizePose HybridAStar.PoseI.mk' turned at hy
    simp only [div_one, cos_pi_div_four, sin_pi_div_four, mul_zero, add_zero] at hy
    rw [ht 0 le_rfl (by norm_num)] at hy
    have h1 : (1 : ℝ) ≤ √2 / 2 * 0.9 + √2 / 2 * 0.9 := by linarith
    unfold truncInt at hy
    rw [if_pos (by linarith), Int.floor_eq_zero_iff] at hy
    exact absurd hy.2 (not_lt.mpr h1)

/-- Non-vacuity: `operator+` turns and moves a pose, and the headings of these two are not opposite. -/
example : TurnedTo (π / 3) ⟨5, -2⟩ ⟨⟨1, 2⟩, 1⟩ ((⟨⟨5, -2⟩, π / 3⟩ : PoseR).add ⟨⟨1, 2⟩, 1⟩) ∧
    TurnedTo (π / 3) ⟨5, -2⟩ ⟨⟨4, 0⟩, 0⟩ ((⟨⟨5, -2⟩, π / 3⟩ : PoseR).add ⟨⟨4, 0⟩, 0⟩) ∧
    ¬ Opposite ⟨⟨1, 2⟩, 1⟩ ⟨⟨4, 0⟩, 0⟩ := by
  refine ⟨add_turned _ _, add_turned _ _, ?_⟩
  rintro ⟨k, hk⟩
  have h3 := pi_gt_three
  simp only [sub_zero] at hk
  have h1 : (k : ℝ) < 0 := by nlinarith
  have h2 : (k : ℝ) ≤ -1 := by exact_mod_cast Int.le_sub_one_of_lt (by exact_mod_cast h1 : k < 0)
  nlinarith

end PathPlanning
