import Verif.Lemmas.ReedsSheppWords
import Verif.Props.Pose
import Mathlib.Data.List.TakeWhile

/-!
# Driving: frames, scaling, symmetries and interpolation
-/

namespace PathPlanning
open Real Spec

/-- `q` seen from the frame `p`, without wrapping the heading. -/
noncomputable def place (p q : PoseR) : PoseR :=
  ⟨PoseR.rotate p.theta q.position + p.position, p.theta + q.theta⟩

theorem arc_place (k s : ℝ) (p q : PoseR) : arc k s (place p q) = place p (arc k s q) := by
  unfold arc place PoseR.rotate
  split
  · simp only [PoseR.mk.injEq, and_true]
    ext
    · simp only [Pt.add_x, cos_add]; ring
    · simp only [Pt.add_y, sin_add]; ring
  · rename_i hk
    simp only [PoseR.mk.injEq]
    refine ⟨?_, by ring⟩
    rw [show p.theta + q.theta + k * s = p.theta + (q.theta + k * s) by ring]
    ext
    · simp only [Pt.add_x, sin_add p.theta]; field_simp; ring
    · simp only [Pt.add_y, cos_add p.theta]; field_simp; ring

theorem driveAll_place (l : List Stretch) (p q : PoseR) :
    driveAll (place p q) l = place p (driveAll q l) := by
  induction l generalizing q with
  | nil => rfl
  | cons a l ih => rw [driveAll, driveAll, arc_place, ih]

theorem place_origin (p : PoseR) : place p ⟨⟨0, 0⟩, 0⟩ = p := by
  unfold place PoseR.rotate
  simp only [mul_zero, sub_zero, add_zero]
  congr 1
  ext <;> simp

theorem driveAll_frame (l : List Stretch) (p : PoseR) :
    driveAll p l = place p (driveAll ⟨⟨0, 0⟩, 0⟩ l) := by
  rw [← driveAll_place, place_origin]

/-- Scaling by `R`. -/
noncomputable def scalePose (R : ℝ) (q : PoseR) : PoseR := ⟨⟨R * q.position.x, R * q.position.y⟩, q.theta⟩
noncomputable def scaleStretch (R : ℝ) (a : Stretch) : Stretch := ⟨a.curvature / R, a.sense, a.length * R⟩

theorem arc_scale {R : ℝ} (hR : R ≠ 0) (k s : ℝ) (q : PoseR) :
    arc (k / R) (s * R) (scalePose R q) = scalePose R (arc k s q) := by
  unfold arc scalePose
  by_cases hk : k = 0
  · simp only [hk, zero_div, if_true, PoseR.mk.injEq, Pt.mk.injEq, and_true]
    exact ⟨by ring, by ring⟩
  · have : k / R ≠ 0 := div_ne_zero hk hR
    simp only [hk, this, if_false, PoseR.mk.injEq, Pt.mk.injEq]
    rw [show k / R * (s * R) = k * s by field_simp]
    exact ⟨⟨by field_simp, by field_simp⟩, rfl⟩

theorem driveAll_scale {R : ℝ} (hR : R ≠ 0) (l : List Stretch) (q : PoseR) :
    driveAll (scalePose R q) (l.map (scaleStretch R)) = scalePose R (driveAll q l) := by
  induction l generalizing q with
  | nil => rfl
  | cons a l ih =>
    rw [List.map_cons, driveAll, driveAll, ← ih, ← arc_scale hR]
    simp only [scaleStretch, mul_assoc]

/-- Driving backward instead of forward. -/
noncomputable def flipPose (q : PoseR) : PoseR := ⟨⟨-q.position.x, q.position.y⟩, -q.theta⟩
noncomputable def flipStretch (a : Stretch) : Stretch := { a with sense := -a.sense }

theorem arc_flip (k s : ℝ) (q : PoseR) : arc k (-s) (flipPose q) = flipPose (arc k s q) := by
  unfold arc flipPose
  split
  · simp only [cos_neg, sin_neg, PoseR.mk.injEq, Pt.mk.injEq, and_true]
    exact ⟨by ring, by ring⟩
  · rw [show -q.theta + k * -s = -(q.theta + k * s) by ring]
    simp only [cos_neg, sin_neg, PoseR.mk.injEq, Pt.mk.injEq, and_true]
    ring

theorem driveAll_flip (l : List Stretch) (q : PoseR) :
    driveAll (flipPose q) (l.map flipStretch) = flipPose (driveAll q l) := by
  induction l generalizing q with
  | nil => rfl
  | cons a l ih =>
    rw [List.map_cons, driveAll, driveAll, ← ih, ← arc_flip]
    simp only [flipStretch, neg_mul]

/-- Exchanging left and right. -/
noncomputable def mirrorPose (q : PoseR) : PoseR := ⟨⟨q.position.x, -q.position.y⟩, -q.theta⟩
noncomputable def mirrorStretch (a : Stretch) : Stretch := { a with curvature := -a.curvature }

theorem arc_mirror (k s : ℝ) (q : PoseR) : arc (-k) s (mirrorPose q) = mirrorPose (arc k s q) := by
  unfold arc mirrorPose
  by_cases hk : k = 0
  · simp only [hk, neg_zero, if_true, cos_neg, sin_neg, PoseR.mk.injEq, Pt.mk.injEq, and_true, true_and]
    ring
  · simp only [hk, neg_eq_zero, if_false]
    rw [show -q.theta + -k * s = -(q.theta + k * s) by ring]
    simp only [cos_neg, sin_neg, PoseR.mk.injEq, Pt.mk.injEq, and_true]
    exact ⟨by field_simp; ring, by field_simp; ring⟩

theorem driveAll_mirror (l : List Stretch) (q : PoseR) :
    driveAll (mirrorPose q) (l.map mirrorStretch) = mirrorPose (driveAll q l) := by
  induction l generalizing q with
  | nil => rfl
  | cons a l ih => rw [List.map_cons, driveAll, driveAll, ← ih, ← arc_mirror]; rfl

/-! ## Motions as stretches -/

theorem isValid_iff (m : RS.Motion) :
    m.isValid = true ↔ ∃ l, m.length = some l ∧ (m.direction = .forward ∨ m.direction = .backward) := by
  unfold RS.Motion.isValid
  rcases m with ⟨s, d, _ | l⟩ <;> cases d <;> simp

theorem stretches_scale {R : ℝ} (ms : List RS.Motion) :
    stretches R ms = (stretches 1 ms).map (scaleStretch R) := by
  unfold stretches
  rw [List.map_map]
  refine List.map_congr_left fun m _ => ?_
  simp only [Function.comp, stretch, scaleStretch, mul_one, Stretch.mk.injEq, and_true]
  cases m.steer <;> simp

private theorem takeWhile_mem_valid {ms : List RS.Motion} {m : RS.Motion}
    (h : m ∈ ms.takeWhile RS.Motion.isValid) : m.isValid = true := by
  have := List.mem_takeWhile_imp h
  exact this

theorem stretches_timeflip (R : ℝ) (s : RS.Segment) :
    stretches R s.timeflip.motions = (stretches R s.motions).map flipStretch := by
  unfold stretches RS.Segment.timeflip
  dsimp only
  rw [List.takeWhile_map, List.map_map, List.map_map]
  have hv : (RS.Motion.isValid ∘ fun m : RS.Motion =>
      if m.direction = .backward then { m with direction := .forward }
      else if m.direction = .forward then { m with direction := .backward } else m) = RS.Motion.isValid := by
    funext m
    rcases m with ⟨st, d, l⟩
    cases d <;> simp [RS.Motion.isValid]
  rw [hv]
  refine List.map_congr_left fun m hm => ?_
  obtain ⟨l, hl, hd⟩ := (isValid_iff m).mp (takeWhile_mem_valid hm)
  rcases m with ⟨st, d, l'⟩
  rcases hd with hd | hd <;> (dsimp only at hd; subst hd; simp [stretch, flipStretch])

theorem stretches_reflect (R : ℝ) (s : RS.Segment) :
    stretches R s.reflect.motions = (stretches R s.motions).map mirrorStretch := by
  unfold stretches RS.Segment.reflect
  dsimp only
  rw [List.takeWhile_map, List.map_map, List.map_map]
  have hv : (RS.Motion.isValid ∘ fun m : RS.Motion =>
      if m.steer = .left then { m with steer := .right }
      else if m.steer = .right then { m with steer := .left } else m) = RS.Motion.isValid := by
    funext m
    rcases m with ⟨st, d, l⟩
    cases st <;> simp [RS.Motion.isValid]
  rw [hv]
  refine List.map_congr_left fun m hm => ?_
  rcases m with ⟨st, d, l'⟩
  cases st <;> simp [stretch, mirrorStretch, neg_div]


/-- The stretches of the twelve base words. -/
noncomputable def baseStretches (b : Nat) (t u v : ℝ) : List Stretch :=
  match b with
  | 0 => [⟨1, 1, t⟩, ⟨0, 1, u⟩, ⟨1, 1, v⟩]
  | 1 => [⟨1, 1, t⟩, ⟨0, 1, u⟩, ⟨-1, 1, v⟩]
  | 2 => [⟨1, 1, t⟩, ⟨-1, -1, u⟩, ⟨1, 1, v⟩]
  | 3 => [⟨1, 1, t⟩, ⟨-1, -1, u⟩, ⟨1, -1, v⟩]
  | 4 => [⟨1, 1, t⟩, ⟨-1, 1, u⟩, ⟨1, -1, v⟩]
  | 5 => [⟨1, 1, t⟩, ⟨-1, 1, u⟩, ⟨1, -1, u⟩, ⟨-1, -1, v⟩]
  | 6 => [⟨1, 1, t⟩, ⟨-1, -1, u⟩, ⟨1, -1, u⟩, ⟨-1, 1, v⟩]
  | 7 => [⟨1, 1, t⟩, ⟨-1, -1, π / 2⟩, ⟨0, -1, u⟩, ⟨1, -1, v⟩]
  | 8 => [⟨1, 1, t⟩, ⟨-1, -1, π / 2⟩, ⟨0, -1, u⟩, ⟨-1, -1, v⟩]
  | 9 => [⟨1, 1, t⟩, ⟨0, 1, u⟩, ⟨-1, 1, π / 2⟩, ⟨1, -1, v⟩]
  | 10 => [⟨1, 1, t⟩, ⟨0, 1, u⟩, ⟨1, 1, π / 2⟩, ⟨-1, -1, v⟩]
  | 11 => [⟨1, 1, t⟩, ⟨-1, -1, π / 2⟩, ⟨0, -1, u⟩, ⟨1, -1, π / 2⟩, ⟨-1, 1, v⟩]
  | _ => []

theorem basePath_stretches {b : Nat} (hb : b < 12) (t u v : ℝ) :
    stretches 1 (RS.basePath b t u v).motions = baseStretches b t u v := by
  have : b = 0 ∨ b = 1 ∨ b = 2 ∨ b = 3 ∨ b = 4 ∨ b = 5 ∨ b = 6 ∨ b = 7 ∨ b = 8 ∨ b = 9 ∨ b = 10 ∨ b = 11 := by
    omega
  rcases this with h | h | h | h | h | h | h | h | h | h | h | h <;> subst h <;>
  simp [RS.basePath, RS.Segment.addMotion, RS.Segment.empty, List.replicate, RS.setFirstInvalid,
    RS.Motion.isValid, stretches, stretch, baseStretches, List.takeWhile]

theorem basePath_length {b : Nat} (hb : b < 12) {t u v : ℝ} (ht : 0 ≤ t) (hu : 0 ≤ u) (hv : 0 ≤ v) :
    (RS.basePath b t u v).length = totalLength (baseStretches b t u v) := by
  have hp : |π / 2| = π / 2 := abs_of_nonneg (by positivity)
  have : b = 0 ∨ b = 1 ∨ b = 2 ∨ b = 3 ∨ b = 4 ∨ b = 5 ∨ b = 6 ∨ b = 7 ∨ b = 8 ∨ b = 9 ∨ b = 10 ∨ b = 11 := by
    omega
  rcases this with h | h | h | h | h | h | h | h | h | h | h | h <;> subst h <;>
  simp only [RS.basePath, RS.Segment.addMotion, RS.Segment.empty, baseStretches, totalLength, hp,
    abs_of_nonneg ht, abs_of_nonneg hu, abs_of_nonneg hv, List.map_cons, List.map_nil, List.sum_cons,
    List.sum_nil] <;> ring

/-- The base formula of a word. -/
noncomputable def baseFormula (b : Nat) (g : PoseR) : RS.Lengths :=
  match b with
  | 0 => RS.LfSfLf g
  | 1 => RS.LfSfRf g
  | 2 => RS.LfRbLf g
  | 3 => RS.LfRbLb g
  | 4 => RS.LfRfLb g
  | 5 => RS.LfRufLubRb g
  | 6 => RS.LfRubLubRf g
  | 7 => RS.LfRbpi2SbLb g
  | 8 => RS.LfRbpi2SbRb g
  | 9 => RS.LfSfRfpi2Lb g
  | 10 => RS.LfSfLfpi2Rb g
  | 11 => RS.LfRbpi2SbLbpi2Rf g
  | _ => .infinite

theorem motionLengths_eq (w : Nat) (goals : Nat → PoseR) :
    RS.motionLengths w goals = baseFormula (w / 4) (goals (w % 4)) := by
  rfl

theorem baseFormula_ends {b : Nat} {g : PoseR} {t u v len : ℝ}
    (h : baseFormula b g = .finite t u v len) :
    b < 12 ∧ Ends g (baseStretches b t u v) ∧ 0 ≤ t ∧ 0 ≤ u ∧ 0 ≤ v ∧
    len = totalLength (baseStretches b t u v) := by
  have hb : b < 12 := by
    by_contra hc
    have : baseFormula b g = .infinite := by
      unfold baseFormula; split <;> first | omega | rfl
    rw [this] at h; cases h
  refine ⟨hb, ?_⟩
  have : b = 0 ∨ b = 1 ∨ b = 2 ∨ b = 3 ∨ b = 4 ∨ b = 5 ∨ b = 6 ∨ b = 7 ∨ b = 8 ∨ b = 9 ∨ b = 10 ∨ b = 11 := by
    omega
  rcases this with hb | hb | hb | hb | hb | hb | hb | hb | hb | hb | hb | hb <;> subst hb
  · obtain ⟨h1, h2, h3, h4, h5⟩ := LfSfLf_ends h
    exact ⟨h1, h2, h3, h4, by rw [h5]; simp [baseStretches, totalLength]; ring⟩
  · obtain ⟨h1, h2, h3, h4, h5⟩ := LfSfRf_ends h
    exact ⟨h1, h2, h3, h4, by rw [h5]; simp [baseStretches, totalLength]; ring⟩
  · obtain ⟨h1, h2, h3, h4, h5⟩ := LfRbLf_ends h
    exact ⟨h1, h2, h3, h4, by rw [h5]; simp [baseStretches, totalLength]; ring⟩
  · obtain ⟨h1, h2, h3, h4, h5⟩ := LfRbLb_ends h
    exact ⟨h1, h2, h3, h4, by rw [h5]; simp [baseStretches, totalLength]; ring⟩
  · obtain ⟨h1, h2, h3, h4, h5⟩ := LfRfLb_ends h
    exact ⟨h1, h2, h3, h4, by rw [h5]; simp [baseStretches, totalLength]; ring⟩
  · obtain ⟨h1, h2, h3, h4, h5⟩ := LfRufLubRb_ends h
    exact ⟨h1, h2, h3, h4, by rw [h5]; simp [baseStretches, totalLength]; ring⟩
  · obtain ⟨h1, h2, h3, h4, h5⟩ := LfRubLubRf_ends h
    exact ⟨h1, h2, h3, h4, by rw [h5]; simp [baseStretches, totalLength]; ring⟩
  · obtain ⟨h1, h2, h3, h4, h5⟩ := LfRbpi2SbLb_ends h
    exact ⟨h1, h2, h3, h4, by rw [h5]; simp [baseStretches, totalLength]; ring⟩
  · obtain ⟨h1, h2, h3, h4, h5⟩ := LfRbpi2SbRb_ends h
    exact ⟨h1, h2, h3, h4, by rw [h5]; simp [baseStretches, totalLength]; ring⟩
  · obtain ⟨h1, h2, h3, h4, h5⟩ := LfSfRfpi2Lb_ends h
    exact ⟨h1, h2, h3, h4, by rw [h5]; simp [baseStretches, totalLength]; ring⟩
  · obtain ⟨h1, h2, h3, h4, h5⟩ := LfSfLfpi2Rb_ends h
    exact ⟨h1, h2, h3, h4, by rw [h5]; simp [baseStretches, totalLength]; ring⟩
  · obtain ⟨h1, h2, h3, h4, h5⟩ := LfRbpi2SbLbpi2Rf_ends h
    exact ⟨h1, h2, h3, h4, by rw [h5]; simp [baseStretches, totalLength]; ring⟩


theorem mk'_same (p : Pt) (a : ℝ) : SameAngle (PoseR.mk' p a).theta a := C41_same_angle a

private theorem flip_origin : flipPose ⟨⟨0, 0⟩, 0⟩ = ⟨⟨0, 0⟩, 0⟩ := by simp [flipPose]
private theorem mirror_origin : mirrorPose ⟨⟨0, 0⟩, 0⟩ = ⟨⟨0, 0⟩, 0⟩ := by simp [mirrorPose]
private theorem scale_origin (R : ℝ) : scalePose R ⟨⟨0, 0⟩, 0⟩ = ⟨⟨0, 0⟩, 0⟩ := by simp [scalePose]

/-- The stretches of a word, from those of its base word. -/
noncomputable def wordStretches (w : Nat) (t u v : ℝ) : List Stretch :=
  let l := baseStretches (w / 4) t u v
  match w % 4 with
  | 1 => l.map flipStretch
  | 2 => l.map mirrorStretch
  | 3 => (l.map flipStretch).map mirrorStretch
  | _ => l

theorem getPath_stretches {w : Nat} (hw : w / 4 < 12) (t u v : ℝ) :
    stretches 1 (RS.getPath w t u v).motions = wordStretches w t u v := by
  unfold RS.getPath wordStretches
  rw [if_pos hw]
  dsimp only
  have hc : w % 4 = 0 ∨ w % 4 = 1 ∨ w % 4 = 2 ∨ w % 4 = 3 := by omega
  rcases hc with hc | hc | hc | hc <;> rw [hc]
  · exact basePath_stretches hw t u v
  · exact (stretches_timeflip _ _).trans (by rw [basePath_stretches hw]; rfl)
  · exact (stretches_reflect _ _).trans (by rw [basePath_stretches hw]; rfl)
  · exact (stretches_reflect _ _).trans (by rw [stretches_timeflip, basePath_stretches hw]; rfl)

theorem wordStretches_length (w : Nat) (t u v : ℝ) :
    totalLength (wordStretches w t u v) = totalLength (baseStretches (w / 4) t u v) := by
  unfold wordStretches totalLength
  dsimp only
  split <;> simp [Function.comp_def, flipStretch, mirrorStretch]

theorem baseStretches_nonneg (b : Nat) {t u v : ℝ} (ht : 0 ≤ t) (hu : 0 ≤ u) (hv : 0 ≤ v) :
    ∀ a ∈ baseStretches b t u v, 0 ≤ a.length ∧ (a.sense = 1 ∨ a.sense = -1) ∧ |a.curvature| ≤ 1 := by
  have hp : 0 ≤ π / 2 := by positivity
  intro a ha
  unfold baseStretches at ha
  split at ha <;> simp only [List.mem_cons, List.not_mem_nil, or_false] at ha <;>
  (rcases ha with rfl | rfl | rfl | rfl | rfl | rfl) <;> simp [ht, hu, hv, hp]

theorem wordStretches_nonneg (w : Nat) {t u v : ℝ} (ht : 0 ≤ t) (hu : 0 ≤ u) (hv : 0 ≤ v) :
    ∀ a ∈ wordStretches w t u v, 0 ≤ a.length ∧ (a.sense = 1 ∨ a.sense = -1) ∧ |a.curvature| ≤ 1 := by
  have h := baseStretches_nonneg (w / 4) ht hu hv
  have hf : ∀ l : List Stretch, (∀ a ∈ l, 0 ≤ a.length ∧ (a.sense = 1 ∨ a.sense = -1) ∧ |a.curvature| ≤ 1) →
      ∀ a ∈ l.map flipStretch, 0 ≤ a.length ∧ (a.sense = 1 ∨ a.sense = -1) ∧ |a.curvature| ≤ 1 := by
    intro l hl a ha
    obtain ⟨b, hb, rfl⟩ := List.mem_map.mp ha
    obtain ⟨h1, h2, h3⟩ := hl b hb
    exact ⟨h1, h2.symm.imp (fun h => by simp [flipStretch, h]) (fun h => by simp [flipStretch, h]), h3⟩
  have hm : ∀ l : List Stretch, (∀ a ∈ l, 0 ≤ a.length ∧ (a.sense = 1 ∨ a.sense = -1) ∧ |a.curvature| ≤ 1) →
      ∀ a ∈ l.map mirrorStretch, 0 ≤ a.length ∧ (a.sense = 1 ∨ a.sense = -1) ∧ |a.curvature| ≤ 1 := by
    intro l hl a ha
    obtain ⟨b, hb, rfl⟩ := List.mem_map.mp ha
    obtain ⟨h1, h2, h3⟩ := hl b hb
    exact ⟨h1, h2, by simpa [mirrorStretch] using h3⟩
  unfold wordStretches
  dsimp only
  split
  · exact hf _ h
  · exact hm _ h
  · exact hm _ (hf _ h)
  · exact h

/-- What a finite outcome of a word means. -/
theorem word_ends {start goal : PoseR} {R : ℝ} (hR : 0 < R) {w : Nat} {t u v len : ℝ}
    (h : RS.motionLengths w (RS.goalArray start goal R) = .finite t u v len) :
    w / 4 < 12 ∧ 0 ≤ t ∧ 0 ≤ u ∧ 0 ≤ v ∧ len = totalLength (wordStretches w t u v) ∧
    SamePose (driveAll start (stretches R (RS.getPath w t u v).motions)) goal := by
  rw [motionLengths_eq] at h
  obtain ⟨hb, he, ht, hu, hv, hl⟩ := baseFormula_ends h
  refine ⟨hb, ht, hu, hv, by rw [wordStretches_length]; exact hl, ?_⟩
  obtain ⟨d, hd⟩ : ∃ d, d = goal.sub start := ⟨_, rfl⟩
  have key : (driveAll ⟨⟨0, 0⟩, 0⟩ (wordStretches w t u v)).position = ⟨d.position.x / R, d.position.y / R⟩ ∧
      SameAngle (driveAll ⟨⟨0, 0⟩, 0⟩ (wordStretches w t u v)).theta d.theta := by
    obtain ⟨hp, ha⟩ := he
    unfold wordStretches
    have hw : w % 4 < 4 := Nat.mod_lt _ (by norm_num)
    have hc : w % 4 = 0 ∨ w % 4 = 1 ∨ w % 4 = 2 ∨ w % 4 = 3 := by omega
    rcases hc with hc | hc | hc | hc <;> rw [hc] at hp ha ⊢ <;>
      simp only [RS.goalArray, ← hd] at hp ha ⊢
    · exact ⟨hp, ha.trans (mk'_same _ _)⟩
    · rw [← flip_origin, driveAll_flip]
      refine ⟨?_, ?_⟩
      · simp only [flipPose, hp, PoseR.mk', neg_neg]
      · have := (ha.trans (mk'_same _ _)).neg
        rwa [neg_neg] at this
    · rw [← mirror_origin, driveAll_mirror]
      refine ⟨?_, ?_⟩
      · simp only [mirrorPose, hp, PoseR.mk', neg_neg]
      · have := (ha.trans (mk'_same _ _)).neg
        rwa [neg_neg] at this
    · rw [← mirror_origin, driveAll_mirror, ← flip_origin, driveAll_flip]
      refine ⟨?_, ?_⟩
      · simp only [mirrorPose, flipPose, hp, PoseR.mk', neg_neg]
      · have := ha.trans (mk'_same _ _)
        simpa only [mirrorPose, flipPose, neg_neg] using this
  rw [stretches_scale, getPath_stretches hb, driveAll_frame, ← scale_origin R, driveAll_scale hR.ne']
  refine SamePose.trans ?_ (C42_add_sub goal start)
  rw [← hd]
  refine ⟨?_, ?_⟩
  · show PoseR.rotate _ (scalePose R _).position + _ = PoseR.rotate start.theta d.position + start.position
    congr 1
    congr 1
    simp only [scalePose, key.1]
    ext <;> field_simp
  · refine ((SameAngle.refl _).add key.2).trans ?_
    exact ((C41_same_angle _).trans (C41_same_angle _)).symm

theorem getPath_wellFormed {w : Nat} (hw : w / 4 < 12) {t u v : ℝ} (ht : 0 ≤ t) (hu : 0 ≤ u) (hv : 0 ≤ v) :
    WellFormed (RS.getPath w t u v) := by
  constructor
  · intro m hm
    have h1 : stretch 1 m ∈ stretches 1 (RS.getPath w t u v).motions := List.mem_map_of_mem hm
    rw [getPath_stretches hw] at h1
    have := (wordStretches_nonneg w ht hu hv _ h1).1
    simpa [stretch] using this
  · rw [getPath_stretches hw, wordStretches_length, ← basePath_length hw ht hu hv]
    unfold RS.getPath
    rw [if_pos hw]
    dsimp only
    split <;> rfl

end PathPlanning
