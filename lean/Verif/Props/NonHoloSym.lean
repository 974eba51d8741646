import Verif.Props.NonHolonomic
import Verif.Props.ReedsSheppFamilies

/-!
# C73: the table without penalties for reversing
-/

namespace PathPlanning
open Real Spec

/-- Without penalties for reversing the cheapest path is as long as the shortest one. -/
theorem optimal_eq_shortest (a b : PoseR) (R fwd : ℝ) (hR : 0 < R) :
    (RS.optimalPath a b R 1 fwd 0).computeCost R 1 fwd 0 = some ((RS.shortestPath a b R).getLength R) := by
  obtain ⟨w, hw, t, u, v, len, c, hm, hp, hc, hmin⟩ := C50_optimal a b R 1 fwd 0
  obtain ⟨w', hw', t', u', v', len', hm', hp', hd', hl', hmin'⟩ := C50_shortest_partial a b R hR
  have key : ∀ {w : Nat} {t u v len c : ℝ}, w < 48 →
      RS.motionLengths w (RS.goalArray a b R) = .finite t u v len →
      (RS.getPath w t u v).computeCost R 1 fwd 0 = some c → c = len * R := by
    intro w t u v len c hw hm hc
    have hg := (C48_word a b R hR w t u v len hm).2.2.2.1
    unfold RS.Segment.computeCost at hc
    split at hc
    · simp at hc
    · split at hc
      · rw [if_pos ⟨rfl, rfl⟩, Option.some.injEq] at hc
        rw [← hc, ← hg]; rfl
      · simp at hc
  rw [hc, hl', Option.some.injEq]
  have h1 := key hw hm (hp ▸ hc)
  obtain ⟨c', hc', hle⟩ := hmin w' hw' t' u' v' len' hm'
  rw [key hw' hm' hc'] at hle
  refine le_antisymm hle ?_
  rw [h1]
  exact mul_le_mul_of_nonneg_right (hmin' w hw t u v len hm) hR.le

/-- Without penalties for reversing, the cost of the way back from a pose seen from the state is the
length of the way there. -/
private theorem back_eq_there (state p : PoseR) (R fwd : ℝ) (hR : 0 < R) :
    (RS.optimalPath p ⟨⟨0, 0⟩, 0⟩ R 1 fwd 0).computeCost R 1 fwd 0 =
      some ((RS.shortestPath state (state.add p) R).getLength R) := by
  rw [optimal_eq_shortest _ _ _ _ hR]
  congr 1
  obtain ⟨-, -, -, -, -, len, -, -, hd, hl, -⟩ := C50_shortest_partial p ⟨⟨0, 0⟩, 0⟩ _ hR
  obtain ⟨-, -, -, -, -, len', -, -, hd', hl', -⟩ := C50_shortest_partial state (state.add p) _ hR
  rw [hl, hl']
  congr 1
  have h1 : RS.shortestDistance p ⟨⟨0, 0⟩, 0⟩ R = RS.shortestDistance state (state.add p) R := by
    rw [(C123_symmetric _ _ _ hR).1, ← C123_frame state _ _ _ hR]
    exact C123_same_pose _ _ _ _ _ hR (C42_neutral state).1 (.refl _)
  rw [hd, hd'] at h1
  exact Option.some.inj h1

/-- C73. Without penalties for reversing, and for a goal inside the tabulated area, the value is the
length of the shortest path from the state to a pose near the goal: seen from the state, within half a
cell in each direction and half an angular step in heading. So it exceeds the length of the shortest path
to the goal by no more than the distances of these two poses differ. -/
theorem C73_no_penalties_partial (h : NonHolo) (hR : 0 < h.minTurningRadius) (hrev : h.rev = 1) (hsw : h.sw = 0)
    (hr : 0 < h.spatialResolution) (ha : 0 < h.angularResolution) (goal state : PoseR) (value : Option ℝ)
    (hin : ¬ ((h.indices goal state).1 < 0 ∨ (h.indices goal state).1 ≥ h.numSpatialX ∨
       (h.indices goal state).2.1 < 0 ∨ (h.indices goal state).2.1 ≥ h.numSpatialY))
    (hv : h.getHeuristicValue goal state = some value) :
    ∃ p : PoseR, |p.position.x - (goal.sub state).position.x| ≤ h.spatialResolution / 2 ∧
      |p.position.y - (goal.sub state).position.y| ≤ h.spatialResolution / 2 ∧
      (∃ a, SameAngle p.theta a ∧ |a - (goal.sub state).theta| ≤ h.angularResolution / 2) ∧
      value = some ((RS.shortestPath state (state.add p) h.minTurningRadius).getLength h.minTurningRadius) := by
  obtain ⟨p, h1, h2, h3, h4⟩ := C73_table_value h hr ha goal state value hin hv
  refine ⟨p, h1, h2, h3, ?_⟩
  rw [h4, hrev, hsw]
  exact back_eq_there state p _ _ hR

/-- The same for a goal in the pose of an entry: the entry is the length of the shortest path from the
state to the goal. -/
theorem C73_entry_partial (h : NonHolo) (hR : 0 < h.minTurningRadius) (hrev : h.rev = 1) (hsw : h.sw = 0)
    (goal state : PoseR) (i j k : ℤ) (he : SamePose (h.entryPose i j k) (goal.sub state)) :
    h.entry i j k = some ((RS.shortestPath state goal h.minTurningRadius).getLength h.minTurningRadius) := by
  unfold NonHolo.entry
  rw [hrev, hsw, back_eq_there state _ _ _ hR]
  congr 1
  obtain ⟨-, -, -, -, -, len, -, -, hd, hl, -⟩ :=
    C50_shortest_partial state (state.add (h.entryPose i j k)) _ hR
  obtain ⟨-, -, -, -, -, len', -, -, hd', hl', -⟩ := C50_shortest_partial state goal _ hR
  rw [hl, hl']
  congr 1
  have h1 := C123_same_pose _ _ _ _ _ hR (.refl state)
    ((C42_congr (.refl state) he).1.trans (C42_add_sub goal state))
  rw [hd, hd'] at h1
  exact Option.some.inj h1

/-- The entry 3, 1, 0 of a table with five times three cells of the size 1 is a goal 1 ahead. -/
example (h : NonHolo) (hx : h.numSpatialX = 5) (hy : h.numSpatialY = 3) (hr : h.spatialResolution = 1) :
    SamePose (h.entryPose 3 1 0) (PoseR.sub ⟨⟨3, 4⟩, π / 2⟩ ⟨⟨3, 3⟩, π / 2⟩) := by
  have e1 : ⌊((5 : ℕ) : ℝ) / 2⌋ = 2 := by rw [Int.floor_eq_iff]; norm_num
  have e2 : ⌊((3 : ℕ) : ℝ) / 2⌋ = 1 := by rw [Int.floor_eq_iff]; norm_num
  refine ⟨?_, ?_⟩
  · unfold NonHolo.entryPose NonHolo.offsetX NonHolo.offsetY PoseR.mk' PoseR.sub PoseR.mk' PoseR.rotate
    rw [hx, hy, hr, e1, e2]
    ext <;> simp <;> norm_num
  · unfold NonHolo.entryPose
    refine (mk'_same _ _).trans (SameAngle.symm ?_)
    refine ((C41_same_angle _).trans (C41_same_angle _)).trans ?_
    simpa using SameAngle.refl 0

private theorem wrap0 : wrapTheta 0 = 0 := C41_unchanged 0 (by linarith [pi_pos]) pi_pos.le

/-- A table without penalties in which the value is defined for a goal 1 ahead: there it is 1. -/
example : (⟨1, 0.0872, 1, 1, 1, 0, 11, 11⟩ : NonHolo).getHeuristicValue ⟨⟨1, 0⟩, 0⟩ ⟨⟨0, 0⟩, 0⟩ =
    some (some ((RS.shortestPath ⟨⟨0, 0⟩, 0⟩ ⟨⟨1, 0⟩, 0⟩ 1).getLength 1)) := by
  have hp := pi_pos
  have hsub : PoseR.sub ⟨⟨1, 0⟩, 0⟩ ⟨⟨0, 0⟩, 0⟩ = ⟨⟨1, 0⟩, 0⟩ := by
    simp only [PoseR.sub, PoseR.mk', PoseR.rotate, sub_zero, wrap0, Pt.sub_x,
      Pt.sub_y, neg_zero, cos_zero, sin_zero, PoseR.mk.injEq, Pt.mk.injEq]
    norm_num
  have hfl : ⌊(11 : ℝ) / 2⌋ = 5 := by rw [Int.floor_eq_iff]; norm_num
  have hr6 : roundR 6 = 6 := by unfold roundR; rw [if_pos (by norm_num), Int.floor_eq_iff]; norm_num
  have hr5 : roundR 5 = 5 := by unfold roundR; rw [if_pos (by norm_num), Int.floor_eq_iff]; norm_num
  have hang : 0 < (⟨1, 0.0872, 1, 1, 1, 0, 11, 11⟩ : NonHolo).numAngular := Nat.ceil_pos.2 (by positivity)
  have hval : (⟨1, 0.0872, 1, 1, 1, 0, 11, 11⟩ : NonHolo).getHeuristicValue ⟨⟨1, 0⟩, 0⟩ ⟨⟨0, 0⟩, 0⟩ =
      some ((⟨1, 0.0872, 1, 1, 1, 0, 11, 11⟩ : NonHolo).entry 6 5 0) := by
    unfold NonHolo.getHeuristicValue
    dsimp only
    rw [hsub]
    simp only [NonHolo.offsetX, NonHolo.offsetY]
    rw [show (((11 : Nat) : ℝ)) = 11 by norm_num, hfl]
    norm_num
    rw [hr6, hr5, roundR_zero]
    simp only [toInt32]
    norm_num
    unfold NonHolo.read
    rw [if_pos (by norm_num at hang ⊢; exact hang)]
  have hpose : (⟨1, 0.0872, 1, 1, 1, 0, 11, 11⟩ : NonHolo).entryPose 6 5 0 = ⟨⟨1, 0⟩, 0⟩ := by
    unfold NonHolo.entryPose NonHolo.offsetX NonHolo.offsetY PoseR.mk'
    dsimp only
    rw [show (((11 : Nat) : ℝ)) = 11 by norm_num, hfl]
    norm_num [wrap0]
  rw [hval]
  refine congrArg some (C73_entry_partial _ one_pos rfl rfl _ _ 6 5 0 ?_)
  rw [hpose, hsub]
  exact .refl _

end PathPlanning
