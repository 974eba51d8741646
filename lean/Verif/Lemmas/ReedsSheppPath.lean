import Verif.Lemmas.ReedsShepp
import Mathlib.Analysis.SpecialFunctions.Trigonometric.Bounds

/-!
# Interpolation along Reeds-Shepp paths
-/

namespace PathPlanning
open Real Spec

theorem arc_congr {p q : PoseR} (h : SamePose p q) (k s : ℝ) : SamePose (arc k s p) (arc k s q) := by
  obtain ⟨h1, h2⟩ := h
  have h3 := h2.add (SameAngle.refl (k * s))
  unfold arc
  split
  · exact ⟨by simp only [h1, h2.cos, h2.sin], h2⟩
  · exact ⟨by simp only [h1, h2.cos, h2.sin, h3.cos, h3.sin], h3⟩

theorem arc_zero (k : ℝ) (p : PoseR) : arc k 0 p = p := by
  unfold arc; split <;> simp

theorem driveDist_congr (l : List Stretch) {p q : PoseR} (h : SamePose p q) (d : ℝ) :
    SamePose (driveDist p d l) (driveDist q d l) := by
  induction l generalizing p q d with
  | nil => exact h
  | cons a l ih =>
    unfold driveDist
    split
    · exact arc_congr h _ _
    · exact ih (arc_congr h _ _) _

theorem driveDist_zero {l : List Stretch} (h : ∀ a ∈ l, 0 ≤ a.length) (p : PoseR) : driveDist p 0 l = p := by
  cases l with
  | nil => rfl
  | cons a l =>
    rw [driveDist, if_pos (h a (by simp)), mul_zero, arc_zero]

theorem totalLength_nonneg {l : List Stretch} (h : ∀ a ∈ l, 0 ≤ a.length) : 0 ≤ totalLength l := by
  refine List.sum_nonneg fun x hx => ?_
  obtain ⟨a, ha, rfl⟩ := List.mem_map.mp hx
  exact h a ha

theorem totalLength_cons (a : Stretch) (l : List Stretch) :
    totalLength (a :: l) = a.length + totalLength l := by simp [totalLength]

theorem driveAll_of_zero {l : List Stretch} (h : ∀ a ∈ l, 0 ≤ a.length) (h0 : totalLength l = 0) (p : PoseR) :
    driveAll p l = p := by
  induction l generalizing p with
  | nil => rfl
  | cons a l ih =>
    rw [totalLength_cons] at h0
    have h1 := h a (by simp)
    have h2 := totalLength_nonneg fun b hb => h b (List.mem_cons_of_mem _ hb)
    rw [driveAll, show a.length = 0 by linarith, mul_zero, arc_zero]
    exact ih (fun b hb => h b (List.mem_cons_of_mem _ hb)) (by linarith) p

theorem driveDist_total {l : List Stretch} (h : ∀ a ∈ l, 0 ≤ a.length) (p : PoseR) {d : ℝ}
    (hd : totalLength l ≤ d) (hd' : d = totalLength l) : driveDist p d l = driveAll p l := by
  induction l generalizing p d with
  | nil => rfl
  | cons a l ih =>
    have hl : ∀ b ∈ l, 0 ≤ b.length := fun b hb => h b (List.mem_cons_of_mem _ hb)
    rw [totalLength_cons] at hd hd'
    have h2 := totalLength_nonneg hl
    rw [driveDist, driveAll]
    split
    · rename_i hle
      have h0 : totalLength l = 0 := by linarith
      rw [driveAll_of_zero hl h0, hd', h0, add_zero]
    · exact ih hl _ (by linarith) (by linarith)

theorem move_same {R : ℝ} (hR : R ≠ 0) {p p' : PoseR} (h : SamePose p p') {m : RS.Motion} (l : ℝ) :
    SamePose (PathRS.move R p m l) (arc (stretch R m).curvature ((stretch R m).sense * (l * R)) p') := by
  refine SamePose.trans ?_ (arc_congr h _ _)
  have hl : (if m.direction = .backward then -l else l) = (stretch R m).sense * l := by
    unfold stretch; dsimp only; split <;> ring
  have hturn : ∀ (c : ℝ) (k : ℝ), (c = 1 ∨ c = -1) → k = c / R → ∀ a : ℝ,
      SamePose (p.add (PoseR.mk' ⟨2 * sin (a / 2) * R * cos (a / 2), c * (2 * sin (a / 2) * R * sin (a / 2))⟩ (c * a)))
        (arc k (a * R) p) := by
    intro c k hc hk a
    have hk0 : k ≠ 0 := by rw [hk]; rcases hc with rfl | rfl <;> simp [hR]
    have hka : k * (a * R) = c * a := by rw [hk]; field_simp
    have hk' : 1 / k = c * R := by rw [hk]; rcases hc with rfl | rfl <;> field_simp
    have e1 : sin a = 2 * sin (a / 2) * cos (a / 2) := by rw [← sin_two_mul]; congr 1; ring
    have e2 : cos a = 1 - 2 * sin (a / 2) ^ 2 := by
      rw [show a = 2 * (a / 2) by ring, cos_two_mul, show 2 * (a / 2) / 2 = a / 2 by ring]
      linear_combination 2 * sin_sq_add_cos_sq (a / 2)
    have hs : sin (c * a) = c * sin a := by rcases hc with rfl | rfl <;> simp
    have hcs : cos (c * a) = cos a := by rcases hc with rfl | rfl <;> simp
    have hcc : c * c = 1 := by rcases hc with rfl | rfl <;> norm_num
    unfold arc
    rw [if_neg hk0, hka]
    refine ⟨?_, ?_⟩
    · show PoseR.rotate p.theta _ + p.position = _
      simp only [PoseR.rotate, PoseR.mk']
      ext
      · simp only [Pt.add_x]
        rw [div_eq_mul_one_div _ k, hk', sin_add, hs, hcs, e1, e2]
        linear_combination (-(cos p.theta * (2 * sin (a / 2) * cos (a / 2)) * R)) * hcc
      · simp only [Pt.add_y]
        rw [div_eq_mul_one_div _ k, hk', cos_add, hs, hcs, e1, e2]
        linear_combination (-(sin p.theta * (2 * sin (a / 2) * cos (a / 2)) * R)) * hcc
    · refine ((C41_same_angle _).trans (C41_same_angle _)).trans ?_
      exact (SameAngle.refl _).add (C41_same_angle _)
  unfold PathRS.move
  split
  · rename_i hst
    unfold PathRS.straight
    dsimp only
    rw [hl]
    unfold arc
    have hk : (stretch R m).curvature = 0 := by simp [stretch, hst]
    rw [if_pos hk]
    refine ⟨?_, C41_same_angle _⟩
    simp only [PoseR.mk', mul_assoc]
  · unfold PathRS.turn
    dsimp only
    rw [hl]
    have hm : (stretch R m).sense * (l * R) = ((stretch R m).sense * l) * R := by ring
    rw [hm]
    cases hs : m.steer with
    | straight => contradiction
    | left =>
      have := hturn 1 (stretch R m).curvature (Or.inl rfl) (by simp [stretch, hs]) ((stretch R m).sense * l)
      simpa using this
    | right =>
      have := hturn (-1) (stretch R m).curvature (Or.inr rfl) (by simp [stretch, hs]) ((stretch R m).sense * l)
      simpa using this

theorem stretches_cons_valid (R : ℝ) {m : RS.Motion} (h : m.isValid = true) (ms : List RS.Motion) :
    stretches R (m :: ms) = stretch R m :: stretches R ms := by
  simp [stretches, List.takeWhile, h]

theorem stretches_cons_invalid (R : ℝ) {m : RS.Motion} (h : ¬ m.isValid = true) (ms : List RS.Motion) :
    stretches R (m :: ms) = [] := by
  simp [stretches, List.takeWhile, h]

theorem interpLoop_same {R : ℝ} (hR : 0 < R) (target : ℝ) (ms : List RS.Motion)
    (hms : ∀ a ∈ stretches R ms, 0 ≤ a.length) {p p' : PoseR} (hp : SamePose p p') (len : ℝ)
    (hlen : len ≤ target) :
    SamePose (PathRS.interpLoop R target ms p len) (driveDist p' (target - len) (stretches R ms)) := by
  induction ms generalizing p p' len with
  | nil => exact hp
  | cons m ms ih =>
    unfold PathRS.interpLoop
    by_cases hv : m.isValid = true
    · rw [if_pos hv]
      rw [stretches_cons_valid R hv] at hms ⊢
      have hl0 : 0 ≤ m.length.getD 0 * R := hms (stretch R m) (by simp)
      have hrest : ∀ a ∈ stretches R ms, 0 ≤ a.length := fun a ha => hms a (List.mem_cons_of_mem _ ha)
      have hsl : (stretch R m).length = m.length.getD 0 * R := rfl
      dsimp only
      by_cases hz : m.length.getD 0 * R = 0
      · rw [if_pos hz]
        refine (ih hrest hp len hlen).trans ?_
        rw [driveDist, hsl, hz]
        split
        · rename_i h
          have : target - len = 0 := by linarith
          rw [this, mul_zero, arc_zero, driveDist_zero hrest]
          exact .refl _
        · rw [mul_zero, arc_zero, sub_zero]; exact .refl _
      · rw [if_neg hz]
        have hpos : 0 < m.length.getD 0 * R := lt_of_le_of_ne hl0 (Ne.symm hz)
        have hne : m.length.getD 0 ≠ 0 := fun h => hz (by rw [h, zero_mul])
        rw [driveDist, hsl]
        by_cases hd : target - len ≤ m.length.getD 0 * R
        · rw [if_pos hd, if_pos (by linarith), min_eq_left ((div_le_one hpos).mpr hd)]
          have := move_same hR.ne' hp (m := m) (m.length.getD 0 * ((target - len) / (m.length.getD 0 * R)))
          rwa [show m.length.getD 0 * ((target - len) / (m.length.getD 0 * R)) * R = target - len by
            field_simp] at this
        · rw [if_neg hd, if_neg (by linarith), min_eq_right (by rw [le_div_iff₀ hpos]; linarith), mul_one]
          have := move_same hR.ne' hp (m := m) (m.length.getD 0)
          have := ih hrest this (len + m.length.getD 0 * R) (by linarith)
          rwa [show target - (len + m.length.getD 0 * R) = target - len - m.length.getD 0 * R by ring] at this
    · rw [if_neg hv, stretches_cons_invalid R hv]
      exact hp

theorem stretches_length_nonneg {s : RS.Segment} (hs : WellFormed s) {R : ℝ} (hR : 0 ≤ R) :
    ∀ a ∈ stretches R s.motions, 0 ≤ a.length := by
  intro a ha
  obtain ⟨m, hm, rfl⟩ := List.mem_map.mp ha
  exact mul_nonneg (hs.1 m hm) hR

theorem totalLength_scale (R : ℝ) (l : List Stretch) :
    totalLength (l.map (scaleStretch R)) = totalLength l * R := by
  induction l with
  | nil => simp [totalLength]
  | cons a l ih => rw [List.map_cons, totalLength_cons, totalLength_cons, ih, add_mul]; rfl

theorem segment_length {s : RS.Segment} (hs : WellFormed s) (R : ℝ) :
    s.length * R = totalLength (stretches R s.motions) := by
  rw [stretches_scale, totalLength_scale, ← hs.2]


/-! ## Truncation -/

theorem truncLoop_final (R target : ℝ) (ms : List RS.Motion) (p : PoseR) (len : ℝ) :
    (PathRS.truncLoop R target ms p len).2 = PathRS.interpLoop R target ms p len := by
  induction ms generalizing p len with
  | nil => rfl
  | cons m ms ih =>
    unfold PathRS.truncLoop PathRS.interpLoop
    dsimp only
    split
    · split
      · exact ih _ _
      · split
        · rfl
        · exact ih _ _
    · rfl

/-! ## Distances -/

private theorem abs_sin_le (x : ℝ) : |sin x| ≤ |x| := abs_sin_le_abs

/-- A chord is at most as long as its arc. -/
theorem arc_chord (k s : ℝ) (p : PoseR) :
    √(((arc k s p).position.x - p.position.x) ^ 2 + ((arc k s p).position.y - p.position.y) ^ 2) ≤ |s| := by
  rw [← sqrt_sq_eq_abs]
  refine sqrt_le_sqrt ?_
  unfold arc
  split
  · have := sin_sq_add_cos_sq p.theta
    dsimp only
    nlinarith [this]
  · rename_i hk
    dsimp only
    have h1 : sin (p.theta + k * s) - sin p.theta = 2 * sin (k * s / 2) * cos (p.theta + k * s / 2) := by
      rw [sin_sub_sin]; congr 3 <;> ring
    have h2 : cos (p.theta + k * s) - cos p.theta = -2 * sin (p.theta + k * s / 2) * sin (k * s / 2) := by
      rw [cos_sub_cos]; congr 3 <;> ring
    have h3 : sin (k * s / 2) ^ 2 ≤ (k * s / 2) ^ 2 := sq_le_sq.mpr (abs_sin_le _)
    have hk2 : 0 < k ^ 2 := by positivity
    have e := sin_sq_add_cos_sq (p.theta + k * s / 2)
    have h4 : (p.position.x + (sin (p.theta + k * s) - sin p.theta) / k - p.position.x) ^ 2 +
        (p.position.y - (cos (p.theta + k * s) - cos p.theta) / k - p.position.y) ^ 2 =
        4 * sin (k * s / 2) ^ 2 / k ^ 2 := by
      rw [h1, h2]
      obtain ⟨w, hw⟩ : ∃ w, w = p.theta + k * s / 2 := ⟨_, rfl⟩
      rw [← hw] at e ⊢
      field_simp
      linear_combination 4 * sin (k * s / 2) ^ 2 * e
    rw [h4, div_le_iff₀ hk2]
    nlinarith [h3]

theorem norm_triangle (a b c : Pt) :
    √((c.x - a.x) ^ 2 + (c.y - a.y) ^ 2) ≤
    √((b.x - a.x) ^ 2 + (b.y - a.y) ^ 2) + √((c.x - b.x) ^ 2 + (c.y - b.y) ^ 2) := by
  have key : ∀ x y : ℝ, √(x ^ 2 + y ^ 2) = ‖(⟨x, y⟩ : ℂ)‖ := by
    intro x y
    rw [Complex.norm_def, Complex.normSq_mk]; congr 1; ring
  rw [key, key, key]
  have : (⟨c.x - a.x, c.y - a.y⟩ : ℂ) = ⟨b.x - a.x, b.y - a.y⟩ + ⟨c.x - b.x, c.y - b.y⟩ := by
    apply Complex.ext <;> simp
  rw [this]
  exact norm_add_le _ _

theorem driveAll_dist {l : List Stretch} (h : ∀ a ∈ l, 0 ≤ a.length ∧ (a.sense = 1 ∨ a.sense = -1)) (p : PoseR) :
    √(((driveAll p l).position.x - p.position.x) ^ 2 + ((driveAll p l).position.y - p.position.y) ^ 2) ≤
    totalLength l := by
  induction l generalizing p with
  | nil => simp [driveAll, totalLength]
  | cons a l ih =>
    rw [totalLength_cons, driveAll]
    refine (norm_triangle p.position (arc a.curvature (a.sense * a.length) p).position _).trans ?_
    refine add_le_add ((arc_chord _ _ _).trans ?_) (ih (fun b hb => h b (List.mem_cons_of_mem _ hb)) _)
    obtain ⟨h1, h2⟩ := h a (by simp)
    rcases h2 with h2 | h2 <;> simp [h2, abs_of_nonneg h1]

theorem stretches_sense (R : ℝ) (ms : List RS.Motion) :
    ∀ a ∈ stretches R ms, a.sense = 1 ∨ a.sense = -1 := by
  intro a ha
  obtain ⟨m, _, rfl⟩ := List.mem_map.mp ha
  unfold stretch
  dsimp only
  split <;> simp

theorem stretches_curvature {R : ℝ} (hR : 0 < R) (ms : List RS.Motion) :
    ∀ a ∈ stretches R ms, |a.curvature| ≤ 1 / R := by
  intro a ha
  obtain ⟨m, _, rfl⟩ := List.mem_map.mp ha
  have hp : 0 < 1 / R := by positivity
  unfold stretch
  cases m.steer <;> simp [abs_of_pos hR, hR.le, abs_div]

end PathPlanning
