import Verif.Lemmas.ReedsSheppComplete
import Verif.Lemmas.ReedsSheppGap
import Verif.Spec.ReedsSheppFamilies

/-!
# The limits of the ranges, and all the words together
-/

namespace PathPlanning
open Real Spec

/-- Two turns by π on the same side. -/
theorem LSL_pi {g : PoseR} {t u : ℝ} (h : Ends g (baseStretches 0 t u π)) (ht : 0 ≤ t) (hu : 0 ≤ u) :
    FindsWithin (RS.LfSfLfpi2Rb g) (t + u + π) := by
  have hp := pi_pos
  obtain ⟨hx, hy, hc, hs, ha⟩ := h.coords
  simp [baseStretches, driveAll, arc] at hx hy hc hs ha
  obtain ⟨r, β, hr, b1, b2, b3, b4, b5, b7, -⟩ := legs hu (show (0 : ℝ) < 2 by norm_num)
  obtain ⟨p1, p2⟩ := polar (x := g.position.x + sin g.theta) (y := g.position.y - 1 - cos g.theta)
    (a := t + β) hr
    (by rw [cos_add]; linear_combination -hx - hs - cos t * b1 + sin t * b2)
    (by rw [sin_add]; linear_combination -hy + hc - sin t * b1 - cos t * b2)
  obtain ⟨t', e1⟩ : ∃ t', t' = modulo (atan2 (g.position.y - 1 - cos g.theta)
      (g.position.x + sin g.theta)) (2 * π) := ⟨_, rfl⟩
  have e1' : t' ≤ t + β := e1 ▸ modulo_le p2 (by linarith)
  have e1s : SameAngle t' (t + β) := e1 ▸ (modulo_same _).trans p2
  have e3 : modulo (-t' - π / 2 + g.theta) (2 * π) ≤ π / 2 - β :=
    modulo_le (((e1s.neg.sub (.refl (π / 2))).add ha.symm).trans (by ring_nf; exact .refl _)) (by linarith)
  refine ⟨t', r - 2, modulo (-t' - π / 2 + g.theta) (2 * π),
    t' + (r - 2) + π / 2 + modulo (-t' - π / 2 + g.theta) (2 * π), ?_, by linarith⟩
  simp only [RS.LfSfLfpi2Rb, p1, ← e1]
  rw [if_neg (by nlinarith)]

/-- `L S R` with a last turn by π. -/
theorem LSR_pi {g : PoseR} {t u : ℝ} (h : Ends g (baseStretches 1 t u π)) (ht : 0 ≤ t) (hu : 0 ≤ u) :
    FindsWithin (RS.LfRbpi2SbRb g) (t + u + π) := by
  have hp := pi_pos
  obtain ⟨hx, hy, hc, hs, ha⟩ := h.coords
  simp [baseStretches, driveAll, arc] at hx hy hc hs ha
  obtain ⟨r, β, hr, b1, b2, b3, b4, b5, b7, -⟩ := legs hu (show (0 : ℝ) < 2 by norm_num)
  obtain ⟨p1, p2⟩ := polar (x := g.position.x + sin g.theta) (y := g.position.y - 1 - cos g.theta)
    (a := t - β) hr
    (by rw [cos_sub]; linear_combination -hx - hs - cos t * b1 - sin t * b2)
    (by rw [sin_sub]; linear_combination -hy + hc - sin t * b1 + cos t * b2)
  obtain ⟨t', e1⟩ : ∃ t', t' = modulo (π / 2 + atan2 (g.position.y - 1 - cos g.theta)
      (g.position.x + sin g.theta)) (2 * π) := ⟨_, rfl⟩
  have hts : SameAngle (π / 2 + atan2 (g.position.y - 1 - cos g.theta)
      (g.position.x + sin g.theta)) (t + (π / 2 - β)) :=
    ((SameAngle.refl _).add p2).trans (by ring_nf; exact .refl _)
  have e1' : t' ≤ t + (π / 2 - β) := e1 ▸ modulo_le hts (by linarith)
  have e1s : SameAngle t' (t + (π / 2 - β)) := e1 ▸ (modulo_same _).trans hts
  have e3 : modulo (g.theta - t' - π / 2) (2 * π) ≤ β :=
    modulo_le (((ha.symm.sub e1s).sub (.refl (π / 2))).trans ⟨-1, by push_cast; ring⟩) b3.le
  refine ⟨t', r - 2, modulo (g.theta - t' - π / 2) (2 * π),
    t' + π / 2 + (r - 2) + modulo (g.theta - t' - π / 2) (2 * π), ?_, by linarith⟩
  simp only [RS.LfRbpi2SbRb, p1, ← e1]
  rw [if_neg (by nlinarith)]

/-- `L S R` with a first turn by π, driven backward. -/
theorem pi_LSR {g : PoseR} {u v : ℝ} (h : Ends g ((baseStretches 1 π u v).map flipStretch)) (hu : 0 ≤ u)
    (hv : 0 ≤ v) : FindsWithin (RS.LfSfLfpi2Rb g) (π + u + v) := by
  have hp := pi_pos
  obtain ⟨hx, hy, hc, hs, ha⟩ := h.coords
  simp [baseStretches, flipStretch, driveAll, arc] at hx hy hc hs ha
  obtain ⟨r, β, hr, b1, b2, b3, b4, b5, b7, -⟩ := legs hu (show (0 : ℝ) < 2 by norm_num)
  obtain ⟨p1, p2⟩ := polar (x := g.position.x + sin g.theta) (y := g.position.y - 1 - cos g.theta)
    (a := β) hr
    (by linear_combination -hx - hs - b1)
    (by linear_combination -hy + hc - b2)
  obtain ⟨t', e1⟩ : ∃ t', t' = modulo (atan2 (g.position.y - 1 - cos g.theta)
      (g.position.x + sin g.theta)) (2 * π) := ⟨_, rfl⟩
  have e1' : t' ≤ β := e1 ▸ modulo_le p2 b3.le
  have e1s : SameAngle t' β := e1 ▸ (modulo_same _).trans p2
  have e3 : modulo (-t' - π / 2 + g.theta) (2 * π) ≤ v + (π / 2 - β) :=
    modulo_le (((e1s.neg.sub (.refl (π / 2))).add ha.symm).trans ⟨-1, by push_cast; ring⟩) (by linarith)
  refine ⟨t', r - 2, modulo (-t' - π / 2 + g.theta) (2 * π),
    t' + (r - 2) + π / 2 + modulo (-t' - π / 2 + g.theta) (2 * π), ?_, by linarith⟩
  simp only [RS.LfSfLfpi2Rb, p1, ← e1]
  rw [if_neg (by nlinarith)]

/-- A single left turn. -/
theorem turn_complete {g : PoseR} {s : ℝ} (h : Ends g [⟨1, 1, s⟩]) (hs0 : 0 ≤ s) :
    FindsWithin (RS.LfSfLf g) s ∨ FindsWithin (RS.LfRbLf g) s := by
  have hp := pi_pos
  obtain ⟨hx, hy, hc, hs, ha⟩ := h.coords
  simp [driveAll, arc] at hx hy hc hs ha
  have ex : g.position.x - sin g.theta = 0 := by linear_combination -hx + hs
  have ey : g.position.y - 1 + cos g.theta = 0 := by linear_combination -hy - hc
  have ea : atan2 0 0 = 0 := Complex.arg_zero
  obtain ⟨s', hs'⟩ : ∃ s', s' = modulo s (2 * π) := ⟨_, rfl⟩
  have h1 : s' ≤ s := hs' ▸ modulo_le (.refl _) hs0
  have h0 : 0 ≤ s' := hs' ▸ modulo_nonneg _
  have h2 : s' < 2 * π := hs' ▸ (modulo_spec s (by positivity)).2.1
  have hsa : SameAngle g.theta s' := ha.symm.trans (hs' ▸ (modulo_same s).symm)
  by_cases hlt : s' < π
  · left
    have e : RS.wrapAngle (g.theta - 0) = s' := wrapAngle_eq (by rwa [sub_zero]) (by linarith) hlt
    refine ⟨0, 0, s', 0 + 0 + s', ?_, by linarith⟩
    simp only [RS.LfSfLf, ex, ey, mul_zero, add_zero, sqrt_zero, ea, e]
    rw [if_neg]
    simp only [RS.angleInvalid, not_or, not_lt, e, ea, ex, ey]
    exact ⟨⟨le_rfl, hp.le⟩, h0, hlt.le⟩
  · right
    rw [not_lt] at hlt
    have e1 : modulo (π / 2 + π / 2 + 0) (2 * π) = π := modulo_eq (by ring_nf; exact .refl _) hp.le (by linarith)
    have e2 : modulo (π - 2 * (π / 2)) (2 * π) = 0 := modulo_eq (by ring_nf; exact .refl _) le_rfl (by linarith)
    have e3 : modulo (g.theta - π - 0) (2 * π) = s' - π :=
      modulo_eq (by rw [sub_zero]; exact hsa.sub (.refl π)) (by linarith) (by linarith)
    refine ⟨π, 0, s' - π, π + 0 + (s' - π), ?_, by linarith⟩
    simp only [RS.LfRbLf, ex, ey, mul_zero, add_zero, sqrt_zero, zero_div, arccos_zero, ea]
    rw [add_zero] at e1
    rw [if_neg (by norm_num), e1, e2, e3, if_neg, add_zero]
    simp only [RS.angleInvalid, not_or, not_lt, e1, e2, e3, ex, ey, ea, mul_zero, add_zero, sqrt_zero, zero_div,
      arccos_zero]
    exact ⟨⟨hp.le, le_rfl⟩, ⟨le_rfl, hp.le⟩, by linarith, by linarith⟩

/-! ## The goals of the four variants -/

theorem Ends.congr {g g' : PoseR} {l : List Stretch} (h : Ends g l) (h' : SamePose g g') : Ends g' l :=
  ⟨h.1.trans h'.1, h.2.trans h'.2⟩

theorem Ends.flip {g : PoseR} {l : List Stretch} (h : Ends g l) : Ends (flipPose g) (l.map flipStretch) := by
  have e : (⟨⟨0, 0⟩, 0⟩ : PoseR) = flipPose ⟨⟨0, 0⟩, 0⟩ := by simp [flipPose]
  unfold Ends
  rw [e, driveAll_flip]
  refine ⟨?_, h.2.neg⟩
  simp only [flipPose, h.1]

theorem Ends.mirror {g : PoseR} {l : List Stretch} (h : Ends g l) : Ends (mirrorPose g) (l.map mirrorStretch) := by
  have e : (⟨⟨0, 0⟩, 0⟩ : PoseR) = mirrorPose ⟨⟨0, 0⟩, 0⟩ := by simp [mirrorPose]
  unfold Ends
  rw [e, driveAll_mirror]
  refine ⟨?_, h.2.neg⟩
  simp only [mirrorPose, h.1]

theorem flipStretch_flip (l : List Stretch) : (l.map flipStretch).map flipStretch = l := by
  rw [List.map_map]
  refine (List.map_congr_left fun a _ => ?_).trans (List.map_id l)
  simp [flipStretch]

theorem mirrorStretch_mirror (l : List Stretch) : (l.map mirrorStretch).map mirrorStretch = l := by
  rw [List.map_map]
  refine (List.map_congr_left fun a _ => ?_).trans (List.map_id l)
  simp [mirrorStretch]

/-- The number of the variant with forward and backward exchanged. -/
def flipIdx : Nat → Nat
  | 0 => 1
  | 1 => 0
  | 2 => 3
  | _ => 2

theorem goalArray_flip (start goal : PoseR) (R : ℝ) {j : Nat} (hj : j < 4) :
    SamePose (flipPose (RS.goalArray start goal R j)) (RS.goalArray start goal R (flipIdx j)) := by
  have hc : j = 0 ∨ j = 1 ∨ j = 2 ∨ j = 3 := by omega
  rcases hc with rfl | rfl | rfl | rfl <;>
    refine ⟨by simp [flipPose, RS.goalArray, flipIdx, PoseR.mk'], ?_⟩
  · exact (mk'_same _ _).neg.trans (mk'_same _ _).symm
  · exact ((mk'_same _ _).neg.trans (by rw [neg_neg]; exact .refl _)).trans (mk'_same _ _).symm
  · exact ((mk'_same _ _).neg.trans (by rw [neg_neg]; exact .refl _)).trans (mk'_same _ _).symm
  · exact (mk'_same _ _).neg.trans (mk'_same _ _).symm

theorem ends_flip {start goal : PoseR} {R : ℝ} {j : Nat} (hj : j < 4) {l : List Stretch}
    (h : Ends (RS.goalArray start goal R j) l) :
    Ends (RS.goalArray start goal R (flipIdx j)) (l.map flipStretch) :=
  h.flip.congr (goalArray_flip start goal R hj)

theorem flipIdx_lt (j : Nat) : flipIdx j < 4 := by
  unfold flipIdx; split <;> omega

/-- A word of length at most `len`. -/
def WordWithin (goals : Nat → PoseR) (len : ℝ) : Prop := ∃ w < 48, FindsWithin (RS.motionLengths w goals) len

theorem wordWithin_of {goals : Nat → PoseR} {len len' : ℝ} {b j : Nat} (hb : b < 12) (hj : j < 4)
    (h : FindsWithin (baseFormula b (goals j)) len) (hl : len ≤ len') : WordWithin goals len' := by
  obtain ⟨t, u, v, l, he, h'⟩ := h
  refine ⟨4 * b + j, by omega, t, u, v, l, ?_, h'.trans hl⟩
  rw [motionLengths_eq, show (4 * b + j) / 4 = b by omega, show (4 * b + j) % 4 = j by omega, he]

theorem arc_turn (s s' : ℝ) (p : PoseR) : arc 1 s' (arc 1 s p) = arc 1 (s + s') p := by
  unfold arc
  simp only [one_ne_zero, if_false, one_mul, div_one, PoseR.mk.injEq, Pt.mk.injEq, add_assoc]
  exact ⟨⟨by ring, by ring⟩, trivial⟩

private theorem ends_turn {g : PoseR} {s : ℝ} {l : List Stretch} (h : Ends g l)
    (hl : driveAll ⟨⟨0, 0⟩, 0⟩ l = arc 1 s ⟨⟨0, 0⟩, 0⟩) : Ends g [⟨1, 1, s⟩] := by
  unfold Ends at h ⊢
  rw [hl] at h
  simpa [driveAll] using h

/-- A left turn by a positive or negative angle. -/
private theorem turn_word {start goal : PoseR} {R : ℝ} {j : Nat} (hj : j < 4) {s len : ℝ} {l : List Stretch}
    (h : Ends (RS.goalArray start goal R j) l)
    (hl : driveAll ⟨⟨0, 0⟩, 0⟩ l = arc 1 s ⟨⟨0, 0⟩, 0⟩) (hs : |s| ≤ len) :
    WordWithin (RS.goalArray start goal R) len := by
  have ht := ends_turn h hl
  rcases le_or_gt 0 s with h0 | h0
  · rw [abs_of_nonneg h0] at hs
    rcases turn_complete ht h0 with hw | hw
    · exact wordWithin_of (b := 0) (by norm_num) hj hw hs
    · exact wordWithin_of (b := 2) (by norm_num) hj hw hs
  · rw [abs_of_neg h0] at hs
    have ht' := ends_flip hj ht
    have : Ends (RS.goalArray start goal R (flipIdx j)) [⟨1, 1, -s⟩] := by
      refine ends_turn ht' ?_
      simp [driveAll, flipStretch]
    rcases turn_complete this (by linarith) with hw | hw
    · exact wordWithin_of (b := 0) (by norm_num) (flipIdx_lt j) hw hs
    · exact wordWithin_of (b := 2) (by norm_num) (flipIdx_lt j) hw hs

private theorem arc_nil (k : ℝ) (p : PoseR) : arc k 0 p = p := by
  unfold arc
  split <;> simp

/-- Every path of the base shapes to the goal of a variant is at least as long as some word. -/
theorem shape_word {start goal : PoseR} {R : ℝ} {j : Nat} (hj : j < 4) {l : List Stretch} (hl : BaseShape l)
    (h : Ends (RS.goalArray start goal R j) l) : WordWithin (RS.goalArray start goal R) (totalLength l) := by
  have hp := pi_pos
  cases hl with
  | csc_same t u v ht hu hv =>
    have hlen : totalLength [turnLeft 1 t, straight 1 u, turnLeft 1 v] = t + u + v := by
      simp [totalLength, turnLeft, straight]; ring
    rcases hv.2.lt_or_eq with hv' | rfl
    · rcases hu.lt_or_eq with hu' | rfl
      · exact wordWithin_of (b := 0) (by norm_num) hj
          (LfSfLf_complete (t := t) (u := u) (v := v) h ht.1 ht.2 hu' hv.1 hv') hlen.ge
      · refine turn_word hj h (s := t + v) ?_ ?_
        · simp [driveAll, turnLeft, straight, arc_nil, arc_turn]
        · rw [abs_of_nonneg (by linarith [ht.1, hv.1]), hlen]; linarith
    · exact wordWithin_of (b := 10) (by norm_num) hj (LSL_pi (t := t) (u := u) h ht.1 hu) hlen.ge
  | csc_other t u v ht hu hv =>
    have hlen : totalLength [turnLeft 1 t, straight 1 u, turnRight 1 v] = t + u + v := by
      simp [totalLength, turnLeft, turnRight, straight]; ring
    rcases hv.2.lt_or_eq with hv' | rfl
    · rcases ht.2.lt_or_eq with ht' | rfl
      · exact wordWithin_of (b := 1) (by norm_num) hj
          (LfSfRf_complete (t := t) (u := u) (v := v) h ht.1 ht' hu hv.1 hv') hlen.ge
      · exact wordWithin_of (b := 10) (by norm_num) (flipIdx_lt j)
          (pi_LSR (u := u) (v := v) (ends_flip hj h) hu hv.1) hlen.ge
    · exact wordWithin_of (b := 8) (by norm_num) hj (LSR_pi (t := t) (u := u) h ht.1 hu) hlen.ge
  | c_c_c t u v ht hu hv =>
    have hlen : totalLength [turnLeft 1 t, turnRight (-1) u, turnLeft 1 v] = t + u + v := by
      simp [totalLength, turnLeft, turnRight]; ring
    rcases hu.1.lt_or_eq with hu' | rfl
    · exact wordWithin_of (b := 2) (by norm_num) hj
        (LfRbLf_complete (t := t) (u := u) (v := v) h ht.1 ht.2 hu' hu.2 hv.1 hv.2) hlen.ge
    · refine turn_word hj h (s := t + v) ?_ ?_
      · simp [driveAll, turnLeft, turnRight, arc_nil, arc_turn]
      · rw [abs_of_nonneg (by linarith [ht.1, hv.1]), hlen]; linarith
  | c_cc t u v ht hu hv =>
    have hlen : totalLength [turnLeft 1 t, turnRight (-1) u, turnLeft (-1) v] = t + u + v := by
      simp [totalLength, turnLeft, turnRight]; ring
    rcases hu.1.lt_or_eq with hu' | rfl
    · exact wordWithin_of (b := 3) (by norm_num) hj
        (LfRbLb_complete (t := t) (u := u) (v := v) h ht hu' hu.2 hv) hlen.ge
    · refine turn_word hj h (s := t + -v) ?_ ?_
      · simp [driveAll, turnLeft, turnRight, arc_nil, arc_turn]
      · rw [hlen]; exact abs_le.mpr ⟨by linarith, by linarith⟩
  | cc_c t u v ht hu hv =>
    have hlen : totalLength [turnLeft 1 t, turnRight 1 u, turnLeft (-1) v] = t + u + v := by
      simp [totalLength, turnLeft, turnRight]; ring
    rcases hu.1.lt_or_eq with hu' | rfl
    · exact wordWithin_of (b := 4) (by norm_num) hj
        (LfRfLb_complete (t := t) (u := u) (v := v) h ht hu' hu.2 hv) hlen.ge
    · refine turn_word hj h (s := t + -v) ?_ ?_
      · simp [driveAll, turnLeft, turnRight, arc_nil, arc_turn]
      · rw [hlen]; exact abs_le.mpr ⟨by linarith, by linarith⟩
  | ccu_cuc t u v ht hu hv =>
    have hlen : totalLength [turnLeft 1 t, turnRight 1 u, turnLeft (-1) u, turnRight (-1) v] = t + u + u + v := by
      simp [totalLength, turnLeft, turnRight]; ring
    by_cases hm : π / 3 ≤ u ∧ u ≤ π / 2
    · obtain ⟨t', p, q, h1, h2, h3, h4, h5, h6⟩ := LfRufLubRb_gap (t := t) (u := u) (v := v) h ht hm.1 hm.2 hv
      rw [hlen]
      rcases h2.lt_or_eq with h2' | rfl
      · exact wordWithin_of (b := 4) (by norm_num) hj (LfRfLb_complete h6 h1 h2' h3 h4) h5
      · refine turn_word hj h6 (s := t' + -q) ?_ ?_
        · simp [driveAll, baseStretches, arc_nil, arc_turn]
        · exact abs_le.mpr ⟨by linarith, by linarith⟩
    · refine wordWithin_of (b := 5) (by norm_num) hj
        (LfRufLubRb_complete (t := t) (u := u) (v := v) h ht hu.1 ?_ hv) hlen.ge
      rw [not_and_or, not_le, not_le] at hm
      exact hm.imp id (fun hm => ⟨hm, hu.2⟩)
  | c_cucu_c t u v ht hu hv =>
    have hlen : totalLength [turnLeft 1 t, turnRight (-1) u, turnLeft (-1) u, turnRight 1 v] = t + u + u + v := by
      simp [totalLength, turnLeft, turnRight]; ring
    exact wordWithin_of (b := 6) (by norm_num) hj
      (LfRubLubRf_complete (t := t) (u := u) (v := v) h ht hu.1 hu.2 hv) hlen.ge
  | c_csc_same t u v ht hu hv =>
    refine wordWithin_of (b := 7) (by norm_num) hj
      (LfRbpi2SbLb_complete (t := t) (u := u) (v := v) h ht hu hv) (le_of_eq ?_)
    simp [totalLength, turnLeft, turnRight, straight]; ring
  | c_csc_other t u v ht hu hv =>
    refine wordWithin_of (b := 8) (by norm_num) hj
      (LfRbpi2SbRb_complete (t := t) (u := u) (v := v) h ht hu hv) (le_of_eq ?_)
    simp [totalLength, turnLeft, turnRight, straight]; ring
  | csc_c_same t u v ht hu hv =>
    refine wordWithin_of (b := 9) (by norm_num) hj
      (LfSfRfpi2Lb_complete (t := t) (u := u) (v := v) h ht hu hv) (le_of_eq ?_)
    simp [totalLength, turnLeft, turnRight, straight]; ring
  | csc_c_other t u v ht hu hv =>
    refine wordWithin_of (b := 10) (by norm_num) hj
      (LfSfLfpi2Rb_complete (t := t) (u := u) (v := v) h ht hu hv) (le_of_eq ?_)
    simp [totalLength, turnLeft, turnRight, straight]; ring
  | c_csc_c t u v ht hu hv =>
    refine wordWithin_of (b := 11) (by norm_num) hj
      (LfRbpi2SbLbpi2Rf_complete (t := t) (u := u) (v := v) h ht hu hv) (le_of_eq ?_)
    simp [totalLength, turnLeft, turnRight, straight]; ring

/-! ## The words are of the shapes -/

theorem formula_shape {b : Nat} {g : PoseR} {t u v len : ℝ} (h : baseFormula b g = .finite t u v len) :
    BaseShape (baseStretches b t u v) := by
  have hp := pi_pos
  obtain ⟨hb, -, ht, hu, hv, -⟩ := baseFormula_ends h
  have : b = 0 ∨ b = 1 ∨ b = 2 ∨ b = 3 ∨ b = 4 ∨ b = 5 ∨ b = 6 ∨ b = 7 ∨ b = 8 ∨ b = 9 ∨ b = 10 ∨ b = 11 := by
    omega
  rcases this with hb | hb | hb | hb | hb | hb | hb | hb | hb | hb | hb | hb <;> subst hb
  · simp only [baseFormula, RS.LfSfLf] at h
    split at h
    · cases h
    rename_i hn
    simp only [RS.angleInvalid, not_or, not_lt] at hn
    injection h with h1 h2 h3 h4
    rw [h1] at hn h3
    rw [h3] at hn
    exact .csc_same t u v hn.1 hu hn.2
  · simp only [baseFormula, RS.LfSfRf] at h
    split at h
    · cases h
    split at h
    · cases h
    rename_i hn
    simp only [RS.angleInvalid, not_or, not_lt] at hn
    injection h with h1 h2 h3 h4
    rw [h1] at hn h3
    rw [h3] at hn
    exact .csc_other t u v hn.1 hu hn.2
  · simp only [baseFormula, RS.LfRbLf] at h
    split at h
    · cases h
    split at h
    · cases h
    rename_i hn
    simp only [RS.angleInvalid, not_or, not_lt] at hn
    injection h with h1 h2 h3 h4
    rw [h1] at hn h3
    rw [h2] at hn h3
    rw [h3] at hn
    exact .c_c_c t u v hn.1 hn.2.1 hn.2.2
  · simp only [baseFormula, RS.LfRbLb] at h
    split at h
    · cases h
    injection h with h1 h2 h3 h4
    refine .c_cc t u v ht ⟨hu, ?_⟩ hv
    rw [← h2]
    have ha : arccos (√((g.position.x - sin g.theta) * (g.position.x - sin g.theta) +
      (g.position.y - 1 + cos g.theta) * (g.position.y - 1 + cos g.theta)) / 4) ≤ π / 2 :=
      arccos_le_pi_div_two.mpr (div_nonneg (sqrt_nonneg _) (by norm_num))
    have h0 := arccos_nonneg (√((g.position.x - sin g.theta) * (g.position.x - sin g.theta) +
      (g.position.y - 1 + cos g.theta) * (g.position.y - 1 + cos g.theta)) / 4)
    exact (modulo_le (.refl _) (by linarith)).trans (by linarith)
  · simp only [baseFormula, RS.LfRfLb] at h
    split at h
    · cases h
    split at h
    · cases h
    injection h with h1 h2 h3 h4
    exact .cc_c t u v ht ⟨hu, h2 ▸ arccos_le_pi _⟩ hv
  · simp only [baseFormula, RS.LfRufLubRb] at h
    obtain ⟨r, hr⟩ : ∃ r, r = √((g.position.x + sin g.theta) * (g.position.x + sin g.theta) +
      (g.position.y - 1 - cos g.theta) * (g.position.y - 1 - cos g.theta)) := ⟨_, rfl⟩
    have hr0 : 0 ≤ r := hr ▸ sqrt_nonneg _
    rw [← hr] at h
    split at h
    · cases h
    rename_i hr4
    rw [not_lt] at hr4
    split at h
    · rename_i hr2
      injection h with h1 h2 h3 h4
      refine .ccu_cuc t u v ht ?_ hv
      have a1 : arccos (r / 4 - 1 / 2) < π / 2 := arccos_lt_pi_div_two.mpr (by linarith)
      have a2 : π / 3 ≤ arccos (r / 4 - 1 / 2) := by
        rw [← arccos_cos (show 0 ≤ π / 3 by linarith) (by linarith), cos_pi_div_three]
        exact arccos_le_arccos (by linarith)
      have a3 := modulo_eq (.refl (π - arccos (r / 4 - 1 / 2))) (by linarith) (by linarith)
      rw [← h2, a3]
      exact ⟨by linarith, by linarith⟩
    · injection h with h1 h2 h3 h4
      refine .ccu_cuc t u v ht ⟨hu, ?_⟩ hv
      rw [← h2]
      refine (modulo_le (.refl _) (arccos_nonneg _)).trans (le_trans ?_ (show π / 3 ≤ 2 * π / 3 by linarith))
      rw [← arccos_cos (show 0 ≤ π / 3 by linarith) (by linarith), cos_pi_div_three]
      exact arccos_le_arccos (by linarith)
  · simp only [baseFormula, RS.LfRubLubRf] at h
    split at h
    · cases h
    split at h
    · cases h
    rename_i hn
    rw [not_or, not_lt, not_lt] at hn
    injection h with h1 h2 h3 h4
    exact .c_cucu_c t u v ht ⟨hu, h2 ▸ arccos_le_pi_div_two.mpr hn.1⟩ hv
  · exact .c_csc_same t u v ht hu hv
  · exact .c_csc_other t u v ht hu hv
  · exact .csc_c_same t u v ht hu hv
  · exact .csc_c_other t u v ht hu hv
  · exact .c_csc_c t u v ht hu hv

/-- The stretches of a word as a variant of those of its base word. -/
theorem wordStretches_variant (w : Nat) (t u v R : ℝ) : ∃ k d : ℝ, (k = 1 ∨ k = -1) ∧ (d = 1 ∨ d = -1) ∧
    (wordStretches w t u v).map (scaleStretch R) = (baseStretches (w / 4) t u v).map (variant R k d) := by
  have hc : w % 4 = 0 ∨ w % 4 = 1 ∨ w % 4 = 2 ∨ w % 4 = 3 := by omega
  unfold wordStretches
  dsimp only
  rcases hc with hc | hc | hc | hc <;> rw [hc]
  · refine ⟨1, 1, Or.inl rfl, Or.inl rfl, ?_⟩
    refine List.map_congr_left fun a _ => ?_
    simp [variant, scaleStretch]
  · refine ⟨1, -1, Or.inl rfl, Or.inr rfl, ?_⟩
    show ((baseStretches (w / 4) t u v).map flipStretch).map (scaleStretch R) = _
    rw [List.map_map]
    refine List.map_congr_left fun a _ => ?_
    simp [variant, scaleStretch, flipStretch]
  · refine ⟨-1, 1, Or.inr rfl, Or.inl rfl, ?_⟩
    show ((baseStretches (w / 4) t u v).map mirrorStretch).map (scaleStretch R) = _
    rw [List.map_map]
    refine List.map_congr_left fun a _ => ?_
    simp [variant, scaleStretch, mirrorStretch]
  · refine ⟨-1, -1, Or.inr rfl, Or.inr rfl, ?_⟩
    show (((baseStretches (w / 4) t u v).map flipStretch).map mirrorStretch).map (scaleStretch R) = _
    rw [List.map_map, List.map_map]
    refine List.map_congr_left fun a _ => ?_
    simp [variant, scaleStretch, mirrorStretch, flipStretch]

/-- A variant is a mirrored and flipped list, scaled. -/
theorem map_variant {R k d : ℝ} (hk : k = 1 ∨ k = -1) (hd : d = 1 ∨ d = -1) (b : List Stretch) :
    ∃ l', b.map (variant R k d) = l'.map (scaleStretch R) ∧
      (l' = b ∧ k = 1 ∧ d = 1 ∨ l' = b.map flipStretch ∧ k = 1 ∧ d = -1 ∨
       l' = b.map mirrorStretch ∧ k = -1 ∧ d = 1 ∨
       l' = (b.map flipStretch).map mirrorStretch ∧ k = -1 ∧ d = -1) := by
  rcases hk with rfl | rfl <;> rcases hd with rfl | rfl
  · refine ⟨b, List.map_congr_left fun a _ => ?_, Or.inl ⟨rfl, rfl, rfl⟩⟩
    simp [variant, scaleStretch]
  · refine ⟨b.map flipStretch, ?_, Or.inr (Or.inl ⟨rfl, rfl, rfl⟩)⟩
    rw [List.map_map]
    refine List.map_congr_left fun a _ => ?_
    simp [variant, scaleStretch, flipStretch]
  · refine ⟨b.map mirrorStretch, ?_, Or.inr (Or.inr (Or.inl ⟨rfl, rfl, rfl⟩))⟩
    rw [List.map_map]
    refine List.map_congr_left fun a _ => ?_
    simp [variant, scaleStretch, mirrorStretch]
  · refine ⟨(b.map flipStretch).map mirrorStretch, ?_, Or.inr (Or.inr (Or.inr ⟨rfl, rfl, rfl⟩))⟩
    rw [List.map_map, List.map_map]
    refine List.map_congr_left fun a _ => ?_
    simp [variant, scaleStretch, mirrorStretch, flipStretch]

/-- Driving to the goal is driving from the origin to the normalised goal. -/
theorem ends_goal {start goal : PoseR} {R : ℝ} (hR : 0 < R) {l : List Stretch}
    (h : SamePose (driveAll start (l.map (scaleStretch R))) goal) :
    Ends (RS.goalArray start goal R 0) l := by
  have e : (⟨⟨0, 0⟩, 0⟩ : PoseR) = scalePose R ⟨⟨0, 0⟩, 0⟩ := by simp [scalePose]
  rw [driveAll_frame, e, driveAll_scale hR.ne'] at h
  obtain ⟨q, hq⟩ : ∃ q, q = driveAll ⟨⟨0, 0⟩, 0⟩ l := ⟨_, rfl⟩
  unfold Ends
  rw [← hq] at h ⊢
  obtain ⟨h1, h2⟩ := h
  have hc := sin_sq_add_cos_sq start.theta
  have hx := congrArg Pt.x h1
  have hy := congrArg Pt.y h1
  simp only [place, scalePose, PoseR.rotate, Pt.add_x, Pt.add_y] at hx hy h2
  constructor
  · simp only [RS.goalArray, PoseR.mk', PoseR.sub, PoseR.rotate, Pt.sub_x, Pt.sub_y, cos_neg, sin_neg]
    ext
    · show _ = _ / R
      rw [eq_div_iff hR.ne', ← hx, ← hy]
      linear_combination (-R * q.position.x) * hc
    · show _ = _ / R
      rw [eq_div_iff hR.ne', ← hx, ← hy]
      linear_combination (-R * q.position.y) * hc
  · have : SameAngle (goal.sub start).theta (goal.theta - start.theta) :=
      (C41_same_angle _).trans (C41_same_angle _)
    refine SameAngle.trans ?_ ((mk'_same _ _).trans this).symm
    have := h2.sub (.refl start.theta)
    rwa [add_sub_cancel_left] at this

theorem totalLength_scale (R : ℝ) (l : List Stretch) : totalLength (l.map (scaleStretch R)) = totalLength l * R := by
  unfold totalLength
  rw [List.map_map]
  induction l with
  | nil => simp
  | cons a l ih => simp [scaleStretch, add_mul] at ih ⊢; rw [ih]

theorem totalLength_flip (l : List Stretch) : totalLength (l.map flipStretch) = totalLength l := by
  unfold totalLength
  rw [List.map_map]; rfl

theorem totalLength_mirror (l : List Stretch) : totalLength (l.map mirrorStretch) = totalLength l := by
  unfold totalLength
  rw [List.map_map]; rfl

theorem goalArray_mirror (start goal : PoseR) (R : ℝ) :
    SamePose (mirrorPose (RS.goalArray start goal R 0)) (RS.goalArray start goal R 2) :=
  ⟨by simp [mirrorPose, RS.goalArray, PoseR.mk'], (mk'_same _ _).neg.trans (mk'_same _ _).symm⟩

/-- Every path of the families to the goal is at least as long as some word. -/
theorem family_word {start goal : PoseR} {R : ℝ} (hR : 0 < R) {l : List Stretch} (hl : InFamily R l)
    (h : SamePose (driveAll start l) goal) :
    ∃ len, WordWithin (RS.goalArray start goal R) len ∧ len * R = totalLength l := by
  obtain ⟨k, d, hk, hd, b, hb, rfl⟩ := hl
  obtain ⟨l', hl', hcase⟩ := map_variant (R := R) hk hd b
  rw [hl'] at h ⊢
  have he := ends_goal hR h
  rw [totalLength_scale]
  rcases hcase with ⟨rfl, -⟩ | ⟨rfl, -⟩ | ⟨rfl, -⟩ | ⟨rfl, -⟩
  · exact ⟨_, shape_word (by norm_num) hb he, rfl⟩
  · have := ends_flip (by norm_num) he
    rw [flipStretch_flip] at this
    exact ⟨_, shape_word (flipIdx_lt 0) hb this, by rw [totalLength_flip]⟩
  · have := he.mirror.congr (goalArray_mirror start goal R)
    rw [mirrorStretch_mirror] at this
    exact ⟨_, shape_word (by norm_num) hb this, by rw [totalLength_mirror]⟩
  · have h2 := he.mirror.congr (goalArray_mirror start goal R)
    rw [mirrorStretch_mirror] at h2
    have h3 := ends_flip (by norm_num) h2
    rw [flipStretch_flip] at h3
    exact ⟨_, shape_word (flipIdx_lt 2) hb h3, by rw [totalLength_mirror, totalLength_flip]⟩

/-- The stretches of a word are of the families. -/
theorem word_family {start goal : PoseR} {R : ℝ} {w : Nat} {t u v len : ℝ}
    (h : RS.motionLengths w (RS.goalArray start goal R) = .finite t u v len) :
    InFamily R (stretches R (RS.getPath w t u v).motions) := by
  rw [motionLengths_eq] at h
  obtain ⟨hb, -⟩ := baseFormula_ends h
  rw [stretches_scale, getPath_stretches hb]
  obtain ⟨k, d, hk, hd, he⟩ := wordStretches_variant w t u v R
  exact ⟨k, d, hk, hd, _, formula_shape h, he⟩

end PathPlanning
