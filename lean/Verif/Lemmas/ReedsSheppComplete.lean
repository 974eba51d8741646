import Verif.Lemmas.ReedsShepp

/-!
# The base formulas find every path of their shape

The converse of `*_ends`: when driving the stretches of a base word from the origin ends in `g`, the
formula of the word (or of another word, for the limits of the ranges) returns a length that is not
longer.
-/

namespace PathPlanning
open Real Spec

theorem modulo_eq {a t : ℝ} (h : SameAngle a t) (h0 : 0 ≤ t) (h1 : t < 2 * π) : modulo a (2 * π) = t := by
  obtain ⟨k, hk⟩ := (modulo_same a).trans h
  have hp := pi_pos
  have m0 := modulo_nonneg a
  have m1 : modulo a (2 * π) < 2 * π := (modulo_spec a (by positivity)).2.1
  have k1 : (-1 : ℤ) < k := by
    by_contra hc
    have : (k : ℝ) ≤ -1 := by exact_mod_cast not_lt.mp hc
    nlinarith
  have k2 : k < 1 := by
    by_contra hc
    have : (1 : ℝ) ≤ k := by exact_mod_cast not_lt.mp hc
    nlinarith
  have : k = 0 := by omega
  rw [hk, this]; simp

theorem modulo_le {a t : ℝ} (h : SameAngle a t) (h0 : 0 ≤ t) : modulo a (2 * π) ≤ t := by
  by_cases h1 : t < 2 * π
  · exact (modulo_eq h h0 h1).le
  · have m1 : modulo a (2 * π) < 2 * π := (modulo_spec a (by positivity)).2.1
    linarith

theorem wrapAngle_eq {a t : ℝ} (h : SameAngle a t) (h0 : -π ≤ t) (h1 : t < π) : RS.wrapAngle a = t := by
  unfold RS.wrapAngle
  rw [modulo_eq (h.add (.refl π)) (by linarith) (by linarith)]; ring

theorem sameAngle_of_cos_sin {a b : ℝ} (hc : cos a = cos b) (hs : sin a = sin b) : SameAngle a b := by
  have := Real.Angle.cos_sin_inj hc hs
  rw [Real.Angle.angle_eq_iff_two_pi_dvd_sub] at this
  obtain ⟨k, hk⟩ := this
  exact ⟨k, by linarith⟩

theorem polar {x y r a : ℝ} (hr : 0 < r) (hx : x = r * cos a) (hy : y = r * sin a) :
    √(x * x + y * y) = r ∧ SameAngle (atan2 y x) a := by
  have h1 : √(x * x + y * y) = r := by
    rw [show x * x + y * y = r ^ 2 by rw [hx, hy]; linear_combination r ^ 2 * sin_sq_add_cos_sq a,
      sqrt_sq hr.le]
  refine ⟨h1, sameAngle_of_cos_sin ?_ ?_⟩
  · have := atan2_cos y x
    rw [h1] at this
    exact mul_left_cancel₀ hr.ne' (this.trans hx)
  · have := atan2_sin y x
    rw [h1] at this
    exact mul_left_cancel₀ hr.ne' (this.trans hy)

theorem atan2_eq {y x t : ℝ} (h : SameAngle (atan2 y x) t) (h0 : -π < t) (h1 : t ≤ π) : atan2 y x = t := by
  obtain ⟨k, hk⟩ := h
  have hp := pi_pos
  have m0 : -π < atan2 y x := Complex.neg_pi_lt_arg _
  have m1 : atan2 y x ≤ π := Complex.arg_le_pi _
  have k1 : (-1 : ℤ) < k := by
    by_contra hc
    have : (k : ℝ) ≤ -1 := by exact_mod_cast not_lt.mp hc
    nlinarith
  have k2 : k < 1 := by
    by_contra hc
    have : (1 : ℝ) ≤ k := by exact_mod_cast not_lt.mp hc
    nlinarith
  have : k = 0 := by omega
  rw [hk, this]; simp

/-- The legs of a right triangle in terms of its angle. -/
theorem legs {a b : ℝ} (ha : 0 ≤ a) (hb : 0 < b) : ∃ r β, 0 < r ∧ r * cos β = a ∧ r * sin β = b ∧ 0 < β ∧
    β ≤ π / 2 ∧ r ^ 2 = a ^ 2 + b ^ 2 ∧ r ≤ a + b ∧ atan2 b a = β := by
  have h1 := atan2_cos b a
  have h2 := atan2_sin b a
  have hr : 0 < √(a * a + b * b) := sqrt_pos.mpr (by positivity)
  have hsq : √(a * a + b * b) ^ 2 = a ^ 2 + b ^ 2 := by rw [sq_sqrt (by positivity)]; ring
  refine ⟨√(a * a + b * b), atan2 b a, hr, h1, h2, ?_, ?_, hsq, ?_, rfl⟩
  · have h0 : 0 ≤ atan2 b a := Complex.arg_nonneg_iff.mpr hb.le
    refine lt_of_le_of_ne h0 fun h => ?_
    rw [← h] at h2; simp at h2; linarith
  · exact Complex.arg_le_pi_div_two_iff.mpr (Or.inl ha)
  · refine abs_le_of_sq_le_sq' ?_ (by positivity) |>.2
    rw [hsq]; nlinarith

/-- A finite length of at most `len`. -/
def FindsWithin (L : RS.Lengths) (len : ℝ) : Prop := ∃ t u v l, L = .finite t u v l ∧ l ≤ len

/-- What `Ends` says about the coordinates. -/
theorem Ends.coords {g : PoseR} {l : List Stretch} (h : Ends g l) :
    (driveAll ⟨⟨0, 0⟩, 0⟩ l).position.x = g.position.x ∧ (driveAll ⟨⟨0, 0⟩, 0⟩ l).position.y = g.position.y ∧
    cos (driveAll ⟨⟨0, 0⟩, 0⟩ l).theta = cos g.theta ∧ sin (driveAll ⟨⟨0, 0⟩, 0⟩ l).theta = sin g.theta ∧
    SameAngle (driveAll ⟨⟨0, 0⟩, 0⟩ l).theta g.theta :=
  ⟨by rw [h.1], by rw [h.1], h.2.cos, h.2.sin, h.2⟩

theorem LfSfLf_complete {g : PoseR} {t u v : ℝ} (h : Ends g (baseStretches 0 t u v))
    (ht : 0 ≤ t) (ht' : t ≤ π) (hu : 0 < u) (hv : 0 ≤ v) (hv' : v < π) :
    FindsWithin (RS.LfSfLf g) (t + u + v) := by
  obtain ⟨hx, hy, hc, hs, ha⟩ := h.coords
  simp [baseStretches, driveAll, arc] at hx hy hc hs ha
  obtain ⟨p1, p2⟩ := polar (x := g.position.x - sin g.theta) (y := g.position.y - 1 + cos g.theta) (a := t)
    hu (by linear_combination -hx + hs) (by linear_combination -hy - hc)
  have e2 := atan2_eq p2 (by linarith [pi_pos]) ht'
  have e3 : RS.wrapAngle (g.theta - t) = v :=
    wrapAngle_eq ((ha.symm.sub (.refl t)).trans (by rw [add_sub_cancel_left]; exact .refl _))
      (by linarith [pi_pos]) hv'
  refine ⟨t, u, v, t + u + v, ?_, le_rfl⟩
  simp only [RS.LfSfLf, p1, e2, e3]
  rw [if_neg]
  simp only [RS.angleInvalid, not_or, not_lt, e2, e3]
  exact ⟨⟨ht, ht'⟩, hv, hv'.le⟩

theorem LfSfRf_complete {g : PoseR} {t u v : ℝ} (h : Ends g (baseStretches 1 t u v))
    (ht : 0 ≤ t) (ht' : t < π) (hu : 0 ≤ u) (hv : 0 ≤ v) (hv' : v < π) :
    FindsWithin (RS.LfSfRf g) (t + u + v) := by
  obtain ⟨hx, hy, hc, hs, ha⟩ := h.coords
  simp [baseStretches, driveAll, arc] at hx hy hc hs ha
  obtain ⟨r, β, hr, b1, b2, b3, b4, b5, -, b6⟩ := legs hu (show (0 : ℝ) < 2 by norm_num)
  obtain ⟨p1, p2⟩ := polar (x := g.position.x + sin g.theta) (y := g.position.y - 1 - cos g.theta) (a := t - β)
    hr (by rw [cos_sub]; linear_combination -hx - hs - cos t * b1 - sin t * b2)
    (by rw [sin_sub]; linear_combination -hy + hc - sin t * b1 + cos t * b2)
  have hsq : (g.position.x + sin g.theta) * (g.position.x + sin g.theta) +
      (g.position.y - 1 - cos g.theta) * (g.position.y - 1 - cos g.theta) = r ^ 2 := by
    rw [← p1, sq_sqrt]
    exact add_nonneg (mul_self_nonneg _) (mul_self_nonneg _)
  have e1 : √(r ^ 2 - 4) = u := by
    rw [show r ^ 2 - 4 = u ^ 2 by rw [b5]; ring, sqrt_sq hu]
  have e2 : RS.wrapAngle (atan2 (g.position.y - 1 - cos g.theta) (g.position.x + sin g.theta) + β) = t :=
    wrapAngle_eq ((p2.add (.refl β)).trans (by rw [sub_add_cancel]; exact .refl _)) (by linarith [pi_pos]) ht'
  have e3 : RS.wrapAngle (t - g.theta) = v :=
    wrapAngle_eq (((SameAngle.refl t).sub ha.symm).trans (by ring_nf; exact .refl _))
      (by linarith [pi_pos]) hv'
  refine ⟨t, u, v, t + u + v, ?_, le_rfl⟩
  simp only [RS.LfSfRf, hsq]
  rw [if_neg (by rw [b5]; nlinarith), e1, b6, e2, e3, if_neg]
  simp only [RS.angleInvalid, not_or, not_lt, hsq, e1, b6, e2, e3]
  exact ⟨⟨ht, ht'.le⟩, hv, hv'.le⟩

/-- The centre of the last circle of `L R L` with a backward middle arc. -/
private theorem ccc_back (t u : ℝ) : 2 * sin t - 2 * sin (t + u) = 4 * sin (u / 2) * cos (t + u / 2 - π) ∧
    -2 * cos t + 2 * cos (t + u) = 4 * sin (u / 2) * sin (t + u / 2 - π) := by
  rw [cos_sub_pi, sin_sub_pi]
  have h1 : t = (t + u / 2) - u / 2 := by ring
  have h2 : t + u = (t + u / 2) + u / 2 := by ring
  obtain ⟨w, hw⟩ : ∃ w, w = t + u / 2 := ⟨_, rfl⟩
  rw [← hw] at h1 h2 ⊢
  rw [h2, h1, sin_add, sin_sub, cos_add, cos_sub]
  exact ⟨by ring, by ring⟩

private theorem arccos_sin_half {u : ℝ} (hu : 0 ≤ u) (hu' : u ≤ π) : arccos (4 * sin (u / 2) / 4) = π / 2 - u / 2 := by
  rw [show 4 * sin (u / 2) / 4 = sin (u / 2) by ring, ← cos_pi_div_two_sub,
    arccos_cos (by linarith) (by linarith [pi_pos])]

theorem LfRbLf_complete {g : PoseR} {t u v : ℝ} (h : Ends g (baseStretches 2 t u v))
    (ht : 0 ≤ t) (ht' : t ≤ π) (hu : 0 < u) (hu' : u ≤ π) (hv : 0 ≤ v) (hv' : v ≤ π) :
    FindsWithin (RS.LfRbLf g) (t + u + v) := by
  have hp := pi_pos
  obtain ⟨hx, hy, hc, hs, ha⟩ := h.coords
  simp [baseStretches, driveAll, arc] at hx hy hc hs ha
  have hr : 0 < 4 * sin (u / 2) := by
    have := sin_pos_of_pos_of_lt_pi (show 0 < u / 2 by linarith) (by linarith)
    linarith
  obtain ⟨c1, c2⟩ := ccc_back t u
  obtain ⟨p1, p2⟩ := polar (x := g.position.x - sin g.theta) (y := g.position.y - 1 + cos g.theta)
    hr (by linear_combination -hx + hs + c1) (by linear_combination -hy - hc + c2)
  have e0 := arccos_sin_half hu.le hu'
  have e1 : modulo (π / 2 + (π / 2 - u / 2) + atan2 (g.position.y - 1 + cos g.theta)
      (g.position.x - sin g.theta)) (2 * π) = t :=
    modulo_eq (((SameAngle.refl _).add p2).trans (by ring_nf; exact .refl _)) ht (by linarith)
  have e2 : modulo (π - 2 * (π / 2 - u / 2)) (2 * π) = u :=
    modulo_eq (by ring_nf; exact .refl _) hu.le (by linarith)
  have e3 : modulo (g.theta - t - u) (2 * π) = v :=
    modulo_eq ((((ha.symm).sub (.refl t)).sub (.refl u)).trans (by ring_nf; exact .refl _)) hv (by linarith)
  refine ⟨t, u, v, t + u + v, ?_, le_rfl⟩
  simp only [RS.LfRbLf, p1, e0, e1, e2, e3]
  rw [if_neg (by linarith [sin_le_one (u / 2)]), if_neg]
  simp only [RS.angleInvalid, not_or, not_lt, p1, e0, e1, e2, e3]
  exact ⟨⟨ht, ht'⟩, ⟨hu.le, hu'⟩, hv, hv'⟩

theorem LfRbLb_complete {g : PoseR} {t u v : ℝ} (h : Ends g (baseStretches 3 t u v))
    (ht : 0 ≤ t) (hu : 0 < u) (hu' : u ≤ π) (hv : 0 ≤ v) : FindsWithin (RS.LfRbLb g) (t + u + v) := by
  have hp := pi_pos
  obtain ⟨hx, hy, hc, hs, ha⟩ := h.coords
  simp [baseStretches, driveAll, arc] at hx hy hc hs ha
  have hr : 0 < 4 * sin (u / 2) := by
    have := sin_pos_of_pos_of_lt_pi (show 0 < u / 2 by linarith) (by linarith)
    linarith
  obtain ⟨c1, c2⟩ := ccc_back t u
  obtain ⟨p1, p2⟩ := polar (x := g.position.x - sin g.theta) (y := g.position.y - 1 + cos g.theta)
    hr (by linear_combination -hx + hs + c1) (by linear_combination -hy - hc + c2)
  have e0 := arccos_sin_half hu.le hu'
  obtain ⟨t', e1⟩ : ∃ t', t' = modulo (π / 2 + (π / 2 - u / 2) + atan2 (g.position.y - 1 + cos g.theta)
      (g.position.x - sin g.theta)) (2 * π) := ⟨_, rfl⟩
  have hts : SameAngle (π / 2 + (π / 2 - u / 2) + atan2 (g.position.y - 1 + cos g.theta)
      (g.position.x - sin g.theta)) t := ((SameAngle.refl _).add p2).trans (by ring_nf; exact .refl _)
  have e1' : t' ≤ t := e1 ▸ modulo_le hts ht
  have e1s : SameAngle t' t := e1 ▸ (modulo_same _).trans hts
  have e2 : modulo (π - 2 * (π / 2 - u / 2)) (2 * π) = u :=
    modulo_eq (by ring_nf; exact .refl _) hu.le (by linarith)
  have e3 : modulo (t' + u - g.theta) (2 * π) ≤ v :=
    modulo_le (((e1s.add (.refl u)).sub ha.symm).trans (by ring_nf; exact .refl _)) hv
  refine ⟨t', u, modulo (t' + u - g.theta) (2 * π), t' + u + modulo (t' + u - g.theta) (2 * π), ?_, by linarith⟩
  simp only [RS.LfRbLb, p1, e0, ← e1, e2]
  rw [if_neg (by linarith [sin_le_one (u / 2)])]

/-- The centre of the last circle of `L R L` with a forward middle arc. -/
private theorem ccc_fwd (t u : ℝ) : 2 * sin t - 2 * sin (t + -u) = 4 * sin (u / 2) * cos (t - u / 2) ∧
    -2 * cos t + 2 * cos (t + -u) = 4 * sin (u / 2) * sin (t - u / 2) := by
  have h1 : t = (t - u / 2) + u / 2 := by ring
  have h2 : t + -u = (t - u / 2) - u / 2 := by ring
  obtain ⟨w, hw⟩ : ∃ w, w = t - u / 2 := ⟨_, rfl⟩
  rw [← hw] at h1 h2 ⊢
  rw [h2, h1, sin_add, sin_sub, cos_add, cos_sub]
  exact ⟨by ring, by ring⟩

theorem LfRfLb_complete {g : PoseR} {t u v : ℝ} (h : Ends g (baseStretches 4 t u v))
    (ht : 0 ≤ t) (hu : 0 < u) (hu' : u ≤ π) (hv : 0 ≤ v) : FindsWithin (RS.LfRfLb g) (t + u + v) := by
  have hp := pi_pos
  obtain ⟨hx, hy, hc, hs, ha⟩ := h.coords
  simp [baseStretches, driveAll, arc] at hx hy hc hs ha
  have hsp := sin_pos_of_pos_of_lt_pi (show 0 < u / 2 by linarith) (by linarith)
  have hr : 0 < 4 * sin (u / 2) := by linarith
  obtain ⟨c1, c2⟩ := ccc_fwd t u
  obtain ⟨p1, p2⟩ := polar (x := g.position.x - sin g.theta) (y := g.position.y - 1 + cos g.theta)
    hr (by linear_combination -hx + hs + c1) (by linear_combination -hy - hc + c2)
  have hu2 : u = 2 * (u / 2) := by ring
  have e0 : arccos ((8 - 4 * sin (u / 2) * (4 * sin (u / 2))) / 8) = u := by
    rw [show (8 - 4 * sin (u / 2) * (4 * sin (u / 2))) / 8 = cos u by
      rw [hu2, cos_two_mul]; ring_nf; linear_combination (-2) * sin_sq_add_cos_sq (u * (1 / 2)),
      arccos_cos hu.le hu']
  have e0' : arcsin (2 * sin u / (4 * sin (u / 2))) = π / 2 - u / 2 := by
    rw [show 2 * sin u / (4 * sin (u / 2)) = sin (π / 2 - u / 2) by
      rw [sin_pi_div_two_sub, div_eq_iff hr.ne']
      have := sin_two_mul (u / 2)
      rw [← hu2] at this
      rw [this]; ring,
      arcsin_sin (by linarith) (by linarith)]
  obtain ⟨t', e1⟩ : ∃ t', t' = modulo (π / 2 - (π / 2 - u / 2) + atan2 (g.position.y - 1 + cos g.theta)
      (g.position.x - sin g.theta)) (2 * π) := ⟨_, rfl⟩
  have hts : SameAngle (π / 2 - (π / 2 - u / 2) + atan2 (g.position.y - 1 + cos g.theta)
      (g.position.x - sin g.theta)) t := ((SameAngle.refl _).add p2).trans (by ring_nf; exact .refl _)
  have e1' : t' ≤ t := e1 ▸ modulo_le hts ht
  have e1s : SameAngle t' t := e1 ▸ (modulo_same _).trans hts
  have e3 : modulo (t' - u - g.theta) (2 * π) ≤ v :=
    modulo_le (((e1s.sub (.refl u)).sub ha.symm).trans (by ring_nf; exact .refl _)) hv
  refine ⟨t', u, modulo (t' - u - g.theta) (2 * π), t' + u + modulo (t' - u - g.theta) (2 * π), ?_, by linarith⟩
  simp only [RS.LfRfLb, p1, e0, e0', ← e1]
  rw [if_neg (by linarith [sin_le_one (u / 2)]), if_neg hr.ne']

private theorem ccucuc' (t u : ℝ) :
    2 * sin t - 2 * sin (t + -u) + 2 * sin (t + -u + -u) = (4 * cos u - 2) * cos (t - u - π / 2) ∧
    -2 * cos t + 2 * cos (t + -u) - 2 * cos (t + -u + -u) = (4 * cos u - 2) * sin (t - u - π / 2) := by
  rw [cos_sub_pi_div_two, sin_sub_pi_div_two]
  have h1 : t = (t - u) + u := by ring
  have h2 : t + -u + -u = (t - u) - u := by ring
  rw [h2, ← sub_eq_add_neg]
  obtain ⟨w, hw⟩ : ∃ w, w = t - u := ⟨_, rfl⟩
  rw [← hw] at h1 ⊢
  rw [h1, sin_add, sin_sub, cos_add, cos_sub]
  exact ⟨by ring, by ring⟩

theorem LfRufLubRb_complete {g : PoseR} {t u v : ℝ} (h : Ends g (baseStretches 5 t u v))
    (ht : 0 ≤ t) (hu : 0 ≤ u) (hu' : u < π / 3 ∨ (π / 2 < u ∧ u ≤ 2 * π / 3)) (hv : 0 ≤ v) :
    FindsWithin (RS.LfRufLubRb g) (t + u + u + v) := by
  have hp := pi_pos
  obtain ⟨hx, hy, hc, hs, ha⟩ := h.coords
  simp [baseStretches, driveAll, arc] at hx hy hc hs ha
  obtain ⟨c1, c2⟩ := ccucuc' t u
  rcases hu' with hu' | ⟨hu1, hu2⟩
  · have hcu : 1 / 2 < cos u := by
      rw [← cos_pi_div_three]
      exact cos_lt_cos_of_nonneg_of_le_pi hu (by linarith) hu'
    have hr : 0 < 4 * cos u - 2 := by linarith
    obtain ⟨p1, p2⟩ := polar (x := g.position.x + sin g.theta) (y := g.position.y - 1 - cos g.theta)
      (a := t - u - π / 2) hr (by linear_combination -hx - hs + c1) (by linear_combination -hy + hc + c2)
    have e0 : arccos ((4 * cos u - 2) / 4 + 1 / 2) = u := by
      rw [show (4 * cos u - 2) / 4 + 1 / 2 = cos u by ring, arccos_cos hu (by linarith)]
    have e2 : modulo u (2 * π) = u := modulo_eq (.refl _) hu (by linarith)
    obtain ⟨t', e1⟩ : ∃ t', t' = modulo (π / 2 + atan2 (g.position.y - 1 - cos g.theta)
        (g.position.x + sin g.theta) + u) (2 * π) := ⟨_, rfl⟩
    have hts : SameAngle (π / 2 + atan2 (g.position.y - 1 - cos g.theta)
        (g.position.x + sin g.theta) + u) t :=
      (((SameAngle.refl _).add p2).add (.refl u)).trans (by ring_nf; exact .refl _)
    have e1' : t' ≤ t := e1 ▸ modulo_le hts ht
    have e1s : SameAngle t' t := e1 ▸ (modulo_same _).trans hts
    have e3 : modulo (g.theta - t' + 2 * u) (2 * π) ≤ v :=
      modulo_le (((ha.symm.sub e1s).add (.refl (2 * u))).trans (by ring_nf; exact .refl _)) hv
    refine ⟨t', u, modulo (g.theta - t' + 2 * u) (2 * π), t' + u + u + modulo (g.theta - t' + 2 * u) (2 * π),
      ?_, by linarith⟩
    simp only [RS.LfRufLubRb, p1, e0, ← e1, e2]
    rw [if_neg (by linarith [cos_le_one u]), if_neg (by linarith [cos_le_one u])]
  · have hcu : cos u < 0 := cos_neg_of_pi_div_two_lt_of_lt hu1 (by linarith)
    have hcu' : -(1 / 2) ≤ cos u := by
      rw [show -(1 / 2 : ℝ) = cos (2 * π / 3) by
        rw [show 2 * π / 3 = π - π / 3 by ring, cos_pi_sub, cos_pi_div_three]]
      exact cos_le_cos_of_nonneg_of_le_pi hu (by linarith) hu2
    have hr : 0 < 2 - 4 * cos u := by linarith
    have k1 : cos (t - u + π / 2) = - cos (t - u - π / 2) := by
      rw [cos_add_pi_div_two, cos_sub_pi_div_two]
    have k2 : sin (t - u + π / 2) = - sin (t - u - π / 2) := by
      rw [sin_add_pi_div_two, sin_sub_pi_div_two]; ring
    obtain ⟨p1, p2⟩ := polar (x := g.position.x + sin g.theta) (y := g.position.y - 1 - cos g.theta)
      (a := t - u + π / 2)
      hr (by rw [k1]; linear_combination -hx - hs + c1) (by rw [k2]; linear_combination -hy + hc + c2)
    have e0 : arccos ((2 - 4 * cos u) / 4 - 1 / 2) = π - u := by
      rw [show (2 - 4 * cos u) / 4 - 1 / 2 = cos (π - u) by rw [cos_pi_sub]; ring,
        arccos_cos (by linarith) (by linarith)]
    have e2 : modulo (π - (π - u)) (2 * π) = u := modulo_eq (by ring_nf; exact .refl _) hu (by linarith)
    obtain ⟨t', e1⟩ : ∃ t', t' = modulo (π / 2 + atan2 (g.position.y - 1 - cos g.theta)
        (g.position.x + sin g.theta) - (π - u)) (2 * π) := ⟨_, rfl⟩
    have hts : SameAngle (π / 2 + atan2 (g.position.y - 1 - cos g.theta)
        (g.position.x + sin g.theta) - (π - u)) t :=
      (((SameAngle.refl _).add p2).sub (.refl (π - u))).trans (by ring_nf; exact .refl _)
    have e1' : t' ≤ t := e1 ▸ modulo_le hts ht
    have e1s : SameAngle t' t := e1 ▸ (modulo_same _).trans hts
    have e3 : modulo (g.theta - t' + 2 * u) (2 * π) ≤ v :=
      modulo_le (((ha.symm.sub e1s).add (.refl (2 * u))).trans (by ring_nf; exact .refl _)) hv
    refine ⟨t', u, modulo (g.theta - t' + 2 * u) (2 * π), t' + u + u + modulo (g.theta - t' + 2 * u) (2 * π),
      ?_, by linarith⟩
    simp only [RS.LfRufLubRb, p1, e0, ← e1, e2]
    rw [if_neg (by linarith), if_pos (by linarith)]

theorem LfRubLubRf_complete {g : PoseR} {t u v : ℝ} (h : Ends g (baseStretches 6 t u v))
    (ht : 0 ≤ t) (hu : 0 ≤ u) (hu' : u ≤ π / 2) (hv : 0 ≤ v) :
    FindsWithin (RS.LfRubLubRf g) (t + u + u + v) := by
  have hp := pi_pos
  obtain ⟨hx, hy, hc, hs, ha⟩ := h.coords
  simp [baseStretches, driveAll, arc] at hx hy hc hs ha
  have hsu : 0 ≤ sin u := sin_nonneg_of_nonneg_of_le_pi hu (by linarith)
  have hcu : 0 ≤ cos u := cos_nonneg_of_neg_pi_div_two_le_of_le (by linarith) hu'
  have hcu1 := cos_le_one u
  have hsc := sin_sq_add_cos_sq u
  obtain ⟨r, hr2, hr⟩ : ∃ r : ℝ, r ^ 2 = 20 - 16 * cos u ∧ 0 < r :=
    ⟨√(20 - 16 * cos u), sq_sqrt (by linarith), sqrt_pos.mpr (by linarith)⟩
  have hr6 : r ≤ 6 := by nlinarith
  obtain ⟨α, hα⟩ : ∃ α, α = arcsin (2 * sin u / r) := ⟨_, rfl⟩
  have hle : 2 * sin u / r ≤ 1 := by
    rw [div_le_one hr]
    refine abs_le_of_sq_le_sq' ?_ hr.le |>.2
    rw [hr2]; nlinarith
  have b2 : r * sin α = 2 * sin u := by
    have : 0 ≤ 2 * sin u / r := by positivity
    rw [hα, sin_arcsin (by linarith) hle]; field_simp
  have b1 : r * cos α = 4 - 2 * cos u := by
    have h1 : 0 ≤ cos α := by rw [hα]; exact cos_arcsin_nonneg _
    have h2 : (r * cos α) ^ 2 = (4 - 2 * cos u) ^ 2 := by
      have e := sin_sq_add_cos_sq α
      have e2 : (r * sin α) ^ 2 = (2 * sin u) ^ 2 := by rw [b2]
      linear_combination r ^ 2 * e - e2 + hr2 - 4 * hsc
    exact (pow_left_inj₀ (by positivity) (by linarith) (by norm_num)).mp h2
  rw [sin_add t u] at hx
  rw [cos_add t u] at hy
  obtain ⟨p1, p2⟩ := polar (x := g.position.x + sin g.theta) (y := g.position.y - 1 - cos g.theta)
    (a := t - α - π / 2) hr
    (by rw [cos_sub_pi_div_two, sin_sub]; linear_combination -hx - hs - sin t * b1 + cos t * b2)
    (by rw [sin_sub_pi_div_two, cos_sub]; linear_combination -hy + hc + cos t * b1 + sin t * b2)
  have e00 : 5 / 4 - r * r / 16 = cos u := by linear_combination (-1 / 16) * hr2
  have e0 : arccos (cos u) = u := arccos_cos hu (by linarith)
  obtain ⟨t', e1⟩ : ∃ t', t' = modulo (π / 2 + atan2 (g.position.y - 1 - cos g.theta)
      (g.position.x + sin g.theta) + α) (2 * π) := ⟨_, rfl⟩
  have hts : SameAngle (π / 2 + atan2 (g.position.y - 1 - cos g.theta)
      (g.position.x + sin g.theta) + α) t :=
    (((SameAngle.refl _).add p2).add (.refl α)).trans (by ring_nf; exact .refl _)
  have e1' : t' ≤ t := e1 ▸ modulo_le hts ht
  have e1s : SameAngle t' t := e1 ▸ (modulo_same _).trans hts
  have e3 : modulo (t' - g.theta) (2 * π) ≤ v :=
    modulo_le ((e1s.sub ha.symm).trans (by ring_nf; exact .refl _)) hv
  refine ⟨t', u, modulo (t' - g.theta) (2 * π), t' + u + u + modulo (t' - g.theta) (2 * π), ?_, by linarith⟩
  simp only [RS.LfRubLubRf, p1, e00, e0, ← hα, ← e1]
  rw [if_neg (by linarith), if_neg (by rw [not_or, not_lt, not_lt]; exact ⟨hcu, hcu1⟩)]

/-- A quarter turn. -/
private theorem quarter (t : ℝ) : sin (t + π / 2) = cos t ∧ cos (t + π / 2) = -sin t ∧
    sin (t + -(π / 2)) = -cos t ∧ cos (t + -(π / 2)) = sin t := by
  rw [← sub_eq_add_neg, sin_add_pi_div_two, cos_add_pi_div_two, sin_sub_pi_div_two, cos_sub_pi_div_two]
  exact ⟨rfl, rfl, rfl, rfl⟩

theorem LfRbpi2SbLb_complete {g : PoseR} {t u v : ℝ} (h : Ends g (baseStretches 7 t u v))
    (ht : 0 ≤ t) (hu : 0 ≤ u) (hv : 0 ≤ v) : FindsWithin (RS.LfRbpi2SbLb g) (t + π / 2 + u + v) := by
  have hp := pi_pos
  obtain ⟨hx, hy, hc, hs, ha⟩ := h.coords
  simp [baseStretches, driveAll, arc] at hx hy hc hs ha
  obtain ⟨q1, q2, q3, q4⟩ := quarter t
  obtain ⟨r, β, hr, b1, b2, b3, b4, b5, -, b6⟩ := legs (show 0 ≤ u + 2 by linarith) (show (0 : ℝ) < 2 by norm_num)
  simp only [q1, q2, q3, q4] at hx hy
  obtain ⟨p1, p2⟩ := polar (x := g.position.x - sin g.theta) (y := g.position.y - 1 + cos g.theta)
    (a := t - β - π / 2) hr
    (by rw [cos_sub_pi_div_two, sin_sub]; linear_combination -hx + hs - sin t * b1 + cos t * b2)
    (by rw [sin_sub_pi_div_two, cos_sub]; linear_combination -hy - hc + cos t * b1 + sin t * b2)
  have hsq : (g.position.x - sin g.theta) * (g.position.x - sin g.theta) +
      (g.position.y - 1 + cos g.theta) * (g.position.y - 1 + cos g.theta) = r ^ 2 := by
    rw [← p1, sq_sqrt]
    exact add_nonneg (mul_self_nonneg _) (mul_self_nonneg _)
  have e0 : √(r ^ 2 - 4) - 2 = u := by
    rw [show r ^ 2 - 4 = (u + 2) ^ 2 by rw [b5]; ring, sqrt_sq (by linarith)]; ring
  obtain ⟨t', e1⟩ : ∃ t', t' = modulo (π / 2 + atan2 (g.position.y - 1 + cos g.theta)
      (g.position.x - sin g.theta) + β) (2 * π) := ⟨_, rfl⟩
  have hts : SameAngle (π / 2 + atan2 (g.position.y - 1 + cos g.theta)
      (g.position.x - sin g.theta) + β) t :=
    (((SameAngle.refl _).add p2).add (.refl β)).trans (by ring_nf; exact .refl _)
  have e1' : t' ≤ t := e1 ▸ modulo_le hts ht
  have e1s : SameAngle t' t := e1 ▸ (modulo_same _).trans hts
  have e3 : modulo (t' + π / 2 - g.theta) (2 * π) ≤ v :=
    modulo_le (((e1s.add (.refl (π / 2))).sub ha.symm).trans (by ring_nf; exact .refl _)) hv
  refine ⟨t', u, modulo (t' + π / 2 - g.theta) (2 * π),
    t' + π / 2 + u + modulo (t' + π / 2 - g.theta) (2 * π), ?_, by linarith⟩
  simp only [RS.LfRbpi2SbLb, hsq, e0, b6, ← e1]
  rw [if_neg (by rw [b5]; nlinarith), if_neg (by linarith)]

theorem LfRbpi2SbRb_complete {g : PoseR} {t u v : ℝ} (h : Ends g (baseStretches 8 t u v))
    (ht : 0 ≤ t) (hu : 0 ≤ u) (hv : 0 ≤ v) : FindsWithin (RS.LfRbpi2SbRb g) (t + π / 2 + u + v) := by
  have hp := pi_pos
  obtain ⟨hx, hy, hc, hs, ha⟩ := h.coords
  simp [baseStretches, driveAll, arc] at hx hy hc hs ha
  obtain ⟨q1, q2, q3, q4⟩ := quarter t
  simp only [q1, q2, q3, q4] at hx hy
  obtain ⟨p1, p2⟩ := polar (x := g.position.x + sin g.theta) (y := g.position.y - 1 - cos g.theta)
    (a := t - π / 2) (show 0 < u + 2 by linarith)
    (by rw [cos_sub_pi_div_two]; linear_combination -hx - hs)
    (by rw [sin_sub_pi_div_two]; linear_combination -hy + hc)
  obtain ⟨t', e1⟩ : ∃ t', t' = modulo (π / 2 + atan2 (g.position.y - 1 - cos g.theta)
      (g.position.x + sin g.theta)) (2 * π) := ⟨_, rfl⟩
  have hts : SameAngle (π / 2 + atan2 (g.position.y - 1 - cos g.theta)
      (g.position.x + sin g.theta)) t :=
    ((SameAngle.refl _).add p2).trans (by ring_nf; exact .refl _)
  have e1' : t' ≤ t := e1 ▸ modulo_le hts ht
  have e1s : SameAngle t' t := e1 ▸ (modulo_same _).trans hts
  have e3 : modulo (g.theta - t' - π / 2) (2 * π) ≤ v :=
    modulo_le (((ha.symm.sub e1s).sub (.refl (π / 2))).trans (by ring_nf; exact .refl _)) hv
  refine ⟨t', u + 2 - 2, modulo (g.theta - t' - π / 2) (2 * π),
    t' + π / 2 + (u + 2 - 2) + modulo (g.theta - t' - π / 2) (2 * π), ?_, by linarith⟩
  simp only [RS.LfRbpi2SbRb, p1, ← e1]
  rw [if_neg (by linarith)]

theorem LfSfRfpi2Lb_complete {g : PoseR} {t u v : ℝ} (h : Ends g (baseStretches 9 t u v))
    (ht : 0 ≤ t) (hu : 0 ≤ u) (hv : 0 ≤ v) : FindsWithin (RS.LfSfRfpi2Lb g) (t + u + π / 2 + v) := by
  have hp := pi_pos
  obtain ⟨hx, hy, hc, hs, ha⟩ := h.coords
  simp [baseStretches, driveAll, arc] at hx hy hc hs ha
  obtain ⟨q1, q2, q3, q4⟩ := quarter t
  have hr0 : 0 < √(2 * 2 + (u + 2) * (u + 2)) := sqrt_pos.mpr (by positivity)
  have b1 := atan2_cos (u + 2) 2
  have b2 := atan2_sin (u + 2) 2
  have b5 : √(2 * 2 + (u + 2) * (u + 2)) ^ 2 = (u + 2) ^ 2 + 4 := by rw [sq_sqrt (by positivity)]; ring
  obtain ⟨r, hr'⟩ : ∃ r, r = √(2 * 2 + (u + 2) * (u + 2)) := ⟨_, rfl⟩
  obtain ⟨β, b6⟩ : ∃ β, β = atan2 (u + 2) 2 := ⟨_, rfl⟩
  rw [← hr', ← b6] at b1 b2
  rw [← hr'] at hr0 b5
  simp only [q1, q2, q3, q4] at hx hy
  obtain ⟨p1, p2⟩ := polar (x := g.position.x - sin g.theta) (y := g.position.y - 1 + cos g.theta)
    (a := t + β - π / 2) hr0
    (by rw [cos_sub_pi_div_two, sin_add]; linear_combination -hx + hs - sin t * b1 - cos t * b2)
    (by rw [sin_sub_pi_div_two, cos_add]; linear_combination -hy - hc + cos t * b1 - sin t * b2)
  have hsq : (g.position.x - sin g.theta) * (g.position.x - sin g.theta) +
      (g.position.y - 1 + cos g.theta) * (g.position.y - 1 + cos g.theta) = r ^ 2 := by
    rw [← p1, sq_sqrt]
    exact add_nonneg (mul_self_nonneg _) (mul_self_nonneg _)
  have e0 : √(r ^ 2 - 4) - 2 = u := by
    rw [show r ^ 2 - 4 = (u + 2) ^ 2 by rw [b5]; ring, sqrt_sq (by linarith)]; ring
  obtain ⟨t', e1⟩ : ∃ t', t' = modulo (π / 2 + atan2 (g.position.y - 1 + cos g.theta)
      (g.position.x - sin g.theta) - β) (2 * π) := ⟨_, rfl⟩
  have hts : SameAngle (π / 2 + atan2 (g.position.y - 1 + cos g.theta)
      (g.position.x - sin g.theta) - β) t :=
    (((SameAngle.refl _).add p2).sub (.refl β)).trans (by ring_nf; exact .refl _)
  have e1' : t' ≤ t := e1 ▸ modulo_le hts ht
  have e1s : SameAngle t' t := e1 ▸ (modulo_same _).trans hts
  have e3 : modulo (t' - π / 2 - g.theta) (2 * π) ≤ v :=
    modulo_le (((e1s.sub (.refl (π / 2))).sub ha.symm).trans (by ring_nf; exact .refl _)) hv
  refine ⟨t', u, modulo (t' - π / 2 - g.theta) (2 * π),
    t' + u + π / 2 + modulo (t' - π / 2 - g.theta) (2 * π), ?_, by linarith⟩
  simp only [RS.LfSfRfpi2Lb, hsq, e0, ← b6, ← e1]
  rw [if_neg (by rw [b5]; nlinarith), if_neg (by linarith)]

theorem LfSfLfpi2Rb_complete {g : PoseR} {t u v : ℝ} (h : Ends g (baseStretches 10 t u v))
    (ht : 0 ≤ t) (hu : 0 ≤ u) (hv : 0 ≤ v) : FindsWithin (RS.LfSfLfpi2Rb g) (t + u + π / 2 + v) := by
  have hp := pi_pos
  obtain ⟨hx, hy, hc, hs, ha⟩ := h.coords
  simp [baseStretches, driveAll, arc] at hx hy hc hs ha
  obtain ⟨q1, q2, q3, q4⟩ := quarter t
  simp only [q1, q2, q3, q4] at hx hy
  obtain ⟨p1, p2⟩ := polar (x := g.position.x + sin g.theta) (y := g.position.y - 1 - cos g.theta)
    (a := t) (show 0 < u + 2 by linarith)
    (by linear_combination -hx - hs) (by linear_combination -hy + hc)
  obtain ⟨t', e1⟩ : ∃ t', t' = modulo (atan2 (g.position.y - 1 - cos g.theta)
      (g.position.x + sin g.theta)) (2 * π) := ⟨_, rfl⟩
  have e1' : t' ≤ t := e1 ▸ modulo_le p2 ht
  have e1s : SameAngle t' t := e1 ▸ (modulo_same _).trans p2
  have e3 : modulo (-t' - π / 2 + g.theta) (2 * π) ≤ v :=
    modulo_le (((e1s.neg.sub (.refl (π / 2))).add ha.symm).trans (by ring_nf; exact .refl _)) hv
  refine ⟨t', u + 2 - 2, modulo (-t' - π / 2 + g.theta) (2 * π),
    t' + (u + 2 - 2) + π / 2 + modulo (-t' - π / 2 + g.theta) (2 * π), ?_, by linarith⟩
  simp only [RS.LfSfLfpi2Rb, p1, ← e1]
  rw [if_neg (by linarith)]

theorem LfRbpi2SbLbpi2Rf_complete {g : PoseR} {t u v : ℝ} (h : Ends g (baseStretches 11 t u v))
    (ht : 0 ≤ t) (hu : 0 ≤ u) (hv : 0 ≤ v) : FindsWithin (RS.LfRbpi2SbLbpi2Rf g) (t + u + v + π) := by
  have hp := pi_pos
  obtain ⟨hx, hy, hc, hs, ha⟩ := h.coords
  simp [baseStretches, driveAll, arc] at hx hy hc hs ha
  obtain ⟨q1, q2, q3, q4⟩ := quarter t
  obtain ⟨r, β, hr, b1, b2, b3, b4, b5, -, b6⟩ := legs (show 0 ≤ u + 4 by linarith) (show (0 : ℝ) < 2 by norm_num)
  simp only [q1, q2, q3, q4] at hx hy
  obtain ⟨p1, p2⟩ := polar (x := g.position.x + sin g.theta) (y := g.position.y - 1 - cos g.theta)
    (a := t - β - π / 2) hr
    (by rw [cos_sub_pi_div_two, sin_sub]; linear_combination -hx - hs - sin t * b1 + cos t * b2)
    (by rw [sin_sub_pi_div_two, cos_sub]; linear_combination -hy + hc + cos t * b1 + sin t * b2)
  have hsq : (g.position.x + sin g.theta) * (g.position.x + sin g.theta) +
      (g.position.y - 1 - cos g.theta) * (g.position.y - 1 - cos g.theta) = r ^ 2 := by
    rw [← p1, sq_sqrt]
    exact add_nonneg (mul_self_nonneg _) (mul_self_nonneg _)
  have e0 : √(r ^ 2 - 4) - 4 = u := by
    rw [show r ^ 2 - 4 = (u + 4) ^ 2 by rw [b5]; ring, sqrt_sq (by linarith)]; ring
  obtain ⟨t', e1⟩ : ∃ t', t' = modulo (π / 2 + atan2 (g.position.y - 1 - cos g.theta)
      (g.position.x + sin g.theta) + β) (2 * π) := ⟨_, rfl⟩
  have hts : SameAngle (π / 2 + atan2 (g.position.y - 1 - cos g.theta)
      (g.position.x + sin g.theta) + β) t :=
    (((SameAngle.refl _).add p2).add (.refl β)).trans (by ring_nf; exact .refl _)
  have e1' : t' ≤ t := e1 ▸ modulo_le hts ht
  have e1s : SameAngle t' t := e1 ▸ (modulo_same _).trans hts
  have e3 : modulo (t' - g.theta) (2 * π) ≤ v :=
    modulo_le ((e1s.sub ha.symm).trans (by ring_nf; exact .refl _)) hv
  refine ⟨t', u, modulo (t' - g.theta) (2 * π), t' + u + modulo (t' - g.theta) (2 * π) + π, ?_, by linarith⟩
  simp only [RS.LfRbpi2SbLbpi2Rf, hsq, e0, b6, ← e1]
  rw [if_neg (by rw [b5]; nlinarith), if_neg (by linarith)]

end PathPlanning
